import Verif.Lemmas.EnvLine
import Verif.Lemmas.Final

/-!
# Which entries count as set after a parse
-/

set_option autoImplicit false

namespace Argus

theorem envGives_ne_nil {env : Env} {ep : Option Str} {o : Opt} {given : Bool} {k : Nat}
    (ht : o.type = .option ∨ o.type = .positional) (hs : o.isSet = false) (hg : given = false) :
    envGives env ep o given k ≠ [] ↔ 0 < k ∧ ∃ n v, envVarName ep o = some n ∧ env n = some v := by
  subst hg
  unfold envGives
  have hty : ¬ (o.type = .group ∨ o.type = .subcommand) := by
    rcases ht with h | h <;> rw [h] <;> simp
  cases hv : (envVarName ep o).bind env with
  | none =>
    simp only [ne_eq, not_true_eq_false, false_iff, not_and, not_exists]
    intro _ n v hn he
    rw [hn] at hv
    simp only [Option.bind_some] at hv
    rw [he] at hv
    cases hv
  | some v =>
    simp only
    rw [if_neg hty]
    have hex : ∃ n v, envVarName ep o = some n ∧ env n = some v := by
      obtain ⟨n, h1, h2⟩ := Option.bind_eq_some_iff.1 hv
      exact ⟨n, v, h1, h2⟩
    split
    · cases k with
      | zero => simp
      | succ k => exact ⟨fun _ => ⟨Nat.succ_pos k, hex⟩, fun _ => by simp [List.replicate_succ]⟩
    · split
      · rename_i h
        rw [hs] at h
        have hk : k = 0 := by simpa using h
        subst hk; simp
      · rename_i h
        have hk : 0 < k := Nat.pos_of_ne_zero fun e => h (.inr (.inr e))
        simp only [ne_eq, reduceCtorEq, not_false_eq_true, true_iff]
        exact ⟨hk, hex⟩

theorem allTexts_ne_nil {env : Env} {a : Argus} {args : List Str} {p : Ptr} {o : Opt}
    (ht : o.type = .option ∨ o.type = .positional) (hs : o.isSet = false) :
    allTexts env a args p o ≠ [] ↔ textsOf p (a.asks args) ≠ [] ∨
      (p.tbl ∈ a.tablesUsed args ∧ ∃ n v, envVarName a.envPrefix o = some n ∧ env n = some v) := by
  unfold allTexts
  cases hx : textsOf p (a.asks args) with
  | cons x xs => simp
  | nil =>
    have h := envGives_ne_nil (env := env) (ep := a.envPrefix) (k := (a.tablesUsed args).count p.tbl) ht hs rfl
    rw [List.count_pos_iff] at h
    refine h.trans ⟨.inr, fun h => h.resolve_left fun e => e rfl⟩

/-- Entering is all that happens to a subcommand. -/
theorem through_subcommand {W : World} {env : Env} {ep : Option Str} {p : Ptr} : ∀ (acts : List Act) (k : Nat)
    {o o' : Opt}, o.type = .subcommand → (∀ x, Act.give p x ∉ acts) →
    Through (acts.filterMap (Act.change W p) ++ List.replicate k (LooksUp W env ep)) o o' →
    (o'.isSet = true ↔ o.isSet = true ∨ Act.enter p ∈ acts)
  | [], 0, o, o', _, _, h => by
    have e : o' = o := h
    rw [e]; simp
  | [], k + 1, o, o', ht, hg, h => by
    obtain ⟨o1, h1, h2⟩ := h
    cases h1 with
    | idle _ => exact through_subcommand [] k ht hg h2
    | read _ _ _ h3 => rw [ht] at h3; simp at h3
  | x :: acts, k, o, o', ht, hg, h => by
    have hg' : ∀ x, Act.give p x ∉ acts := fun y hy => hg y (by simp [hy])
    rw [List.filterMap_cons] at h
    cases x with
    | give q t =>
      have hq : q ≠ p := fun e => hg t (by simp [e])
      simp only [Act.change, if_neg hq] at h
      rw [through_subcommand acts k ht hg' h]
      simp
    | enter q =>
      by_cases hq : q = p
      · simp only [Act.change, if_pos hq] at h
        obtain ⟨o1, h1, h2⟩ := h
        subst h1
        rw [through_subcommand acts k (o := { o with isSet := true }) ht hg' h2]
        simp [hq]
      · simp only [Act.change, if_neg hq] at h
        rw [through_subcommand acts k ht hg' h]
        simp [show p ≠ q from fun e => hq e.symm]
    | fail c =>
      simp only [Act.change] at h
      rw [through_subcommand acts k ht hg' h]; simp
    | noTable =>
      simp only [Act.change] at h
      rw [through_subcommand acts k ht hg' h]; simp

/-- The tables of the path after a successful parse are those the command line uses. -/
theorem onPath_iff {W : World} {env : Env} {a a' : Argus} {args : List Str}
    (hok : argusParse W env a args = .ok (.returned Err.success, a')) (k : Nat) :
    a'.OnPath k ↔ k ∈ a.tablesUsed args := by
  obtain ⟨a1, a2, h1, h2, h3⟩ := argusParse_success hok
  obtain ⟨es, hes⟩ := postValidation_eq h3
  simp only at hes
  have hstk : a'.stack = a.stack ++ entered (a.asks args) := by
    rw [hes, emits_stack, (loadEnvVars_frame h2).stack]
    rw [parseArgs_run] at h1
    exact (run_stack _ h1 (asks_no_fail0 a args) : a1.stack = _)
  obtain ⟨_, _, _, hf⟩ := argusParse_frame hok
  have hsub : ∀ q, a'.subOf q = a.subOf q := subOf_shape hf.shape
  have hex : ∀ q, (∃ cmd, a'.getOpt q = .ok cmd ∧ cmd.subOptions = some k) ↔
      (a.getOpt q).toOption.bind (·.subOptions) = some k := by
    intro q
    have h := hsub q
    unfold Argus.subOf at h
    constructor
    · rintro ⟨cmd, e1, e2⟩
      rw [e1] at h
      cases hg : a.getOpt q with
      | ok c => rw [hg] at h; exact h.symm.trans e2
      | ub u => rw [hg] at h; exact absurd (h.symm.trans e2) (by simp)
    · intro e
      cases hg : a.getOpt q with
      | ub u => rw [hg] at e; cases e
      | ok c =>
        rw [hg] at h e
        have e' : c.subOptions = some k := e
        cases hg' : a'.getOpt q with
        | ok c' => rw [hg'] at h; exact ⟨c', rfl, h.trans e'⟩
        | ub u => rw [hg'] at h; exact absurd (h.trans e') (by simp)
  unfold Argus.OnPath Argus.tablesUsed
  rw [List.mem_cons, List.mem_filterMap, ← hstk, show a'.root = a.root from hf.root]
  constructor
  · rintro (h | ⟨q, hq, h⟩)
    · exact .inl h
    · exact .inr ⟨q, hq, (hex q).1 h⟩
  · rintro (h | ⟨q, hq, h⟩)
    · exact .inl h
    · exact .inr ⟨q, hq, (hex q).2 h⟩

end Argus
