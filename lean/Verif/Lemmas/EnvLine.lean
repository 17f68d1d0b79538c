import Verif.Lemmas.Outcome
import Verif.Lemmas.Scalar
import Verif.Lemmas.Env
import Verif.Lemmas.Relax
import Verif.Lemmas.Depth
import Verif.Lemmas.Spelling
import Verif.Spec.EnvLine

/-!
# A variable and the same text on the command line
-/

set_option autoImplicit false

namespace Argus

theorem envIdle_on {env env' : Env} {ep : Option Str} {o : Opt}
    (h : o.type = .option ∨ o.type = .positional → ∀ m, envVarName ep o = some m → env' m = env m)
    (hi : EnvIdle env ep o) : EnvIdle env' ep o := by
  rcases hi with hi | hi | hi | hi
  · exact .inl hi
  · exact .inr (.inl hi)
  · exact .inr (.inr (.inl hi))
  · cases ht : o.type with
    | group => exact .inl ht
    | subcommand => exact .inr (.inl ht)
    | option => exact .inr (.inr (.inr fun m hm => (h (.inl ht) m hm).trans (hi m hm)))
    | positional => exact .inr (.inr (.inr fun m hm => (h (.inr ht) m hm).trans (hi m hm)))

theorem looksUp_on {W : World} {env env' : Env} {ep : Option Str} {o o' : Opt}
    (h : o.type = .option ∨ o.type = .positional → ∀ m, envVarName ep o = some m → env' m = env m)
    (hl : LooksUp W env ep o o') : LooksUp W env' ep o o' := by
  cases hl with
  | idle hi => exact .idle (envIdle_on h hi)
  | read m w _ h1 h2 h3 h4 h5 => exact .read m w _ h1 h2 h3 ((h h1 m h3).trans h4) h5

/-- Every change keeps what is declared. -/
theorem change_meta {W : World} {p : Ptr} {x : Act} {r : Opt → Opt → Prop} (h : x.change W p = some r) {o o1 : Opt}
    (h1 : r o o1) : o1.meta = o.meta := by
  cases x with
  | give q t =>
    simp only [Act.change] at h
    split at h
    · simp only [Option.some.injEq] at h; subst h
      exact runHandler_keeps_meta h1.handled
    · cases h
  | enter q =>
    simp only [Act.change] at h
    split at h
    · simp only [Option.some.injEq] at h; subst h
      subst h1
      rfl
    · cases h
  | fail c => cases h
  | noTable => cases h

/-- Two lists of changes that do the same to entries declared like `m`. -/
theorem through_on {R : List (Opt → Opt → Prop)} {n : Nat} {q q' : Opt → Opt → Prop} {m : Opt}
    (hR : ∀ r ∈ R, ∀ o o1, r o o1 → o1.meta = o.meta)
    (hq : ∀ o o1, o.meta = m → q o o1 → q' o o1) (hm : ∀ o o1, q o o1 → o1.meta = o.meta) {o o' : Opt} :
    o.meta = m → Through (R ++ List.replicate n q) o o' → Through (R ++ List.replicate n q') o o' := by
  induction R generalizing o with
  | nil =>
    simp only [List.nil_append]
    intro ho h
    induction n generalizing o with
    | zero => exact h
    | succ n ih =>
      rw [List.replicate_succ] at h ⊢
      obtain ⟨o1, h1, h2⟩ := h
      exact ⟨o1, hq o o1 ho h1, ih ((hm o o1 h1).trans ho) h2⟩
  | cons r R ih =>
    intro ho h
    obtain ⟨o1, h1, h2⟩ := h
    exact ⟨o1, h1, ih (fun r hr => hR r (by simp [hr])) ((hR r (by simp) o o1 h1).trans ho) h2⟩

/-- An entry that counts as set and is not to be overridden stays as it is. -/
theorem through_settled {W : World} {env : Env} {ep : Option Str} {o o' : Opt} (hs : o.isSet = true)
    (hov : o.flags.has .envOverride = false) : ∀ n, Through (List.replicate n (LooksUp W env ep)) o o' ↔ o' = o
  | 0 => Iff.rfl
  | n + 1 => by
    rw [List.replicate_succ]
    constructor
    · rintro ⟨o1, h1, h2⟩
      cases h1 with
      | idle _ => exact (through_settled hs hov n).1 h2
      | read m w _ _ h _ _ _ => rw [hs, hov] at h; simp at h
    · rintro rfl
      exact ⟨o', .idle (.inr (.inr (.inl ⟨hs, hov⟩))), (through_settled hs hov n).2 rfl⟩

/-- Reading a variable first, and then looking up again, is to take its text. -/
theorem through_variable {W : World} {env : Env} {ep : Option Str} {o o' : Opt} {n v : Str}
    (ht : o.type = .option ∨ o.type = .positional) (hs : o.isSet = false) (hov : o.flags.has .envOverride = false)
    (hn : envVarName ep o = some n) (hv : env n = some v) (c : Nat) :
    Through (List.replicate (c + 1) (LooksUp W env ep)) o o' ↔ TakesText W (some v) o o' := by
  rw [List.replicate_succ]
  have hf : ∀ o1, TakesText W (some v) o o1 → o1.isSet = true ∧ o1.flags.has .envOverride = false := fun o1 h =>
    ⟨give_isSet h.handled, by rw [flags_of_meta (runHandler_keeps_meta h.handled)]; exact hov⟩
  constructor
  · rintro ⟨o1, h1, h2⟩
    cases h1 with
    | idle hi =>
      rcases hi with hi | hi | hi | hi
      · rcases ht with ht | ht <;> rw [ht] at hi <;> cases hi
      · rcases ht with ht | ht <;> rw [ht] at hi <;> cases hi
      · rw [hs] at hi; cases hi.1
      · rw [hi n hn] at hv; cases hv
    | read m w _ _ _ h3 h4 h5 =>
      rw [hn, Option.some.injEq] at h3; subst h3
      rw [hv, Option.some.injEq] at h4; subst h4
      rw [(through_settled (hf o1 h5).1 (hf o1 h5).2 c).1 h2]
      exact h5
  · intro h
    exact ⟨o', .read n v _ ht (.inl hs) hn hv h, (through_settled (hf o' h).1 (hf o' h).2 c).2 rfl⟩

theorem through_text {W : World} {env : Env} {ep : Option Str} {o o' : Opt} {x : Option Str}
    (hov : o.flags.has .envOverride = false) (c : Nat) :
    Through (TakesText W x :: List.replicate c (LooksUp W env ep)) o o' ↔ TakesText W x o o' := by
  have hf : ∀ o1, TakesText W x o o1 → o1.isSet = true ∧ o1.flags.has .envOverride = false := fun o1 h =>
    ⟨give_isSet h.handled, by rw [flags_of_meta (runHandler_keeps_meta h.handled)]; exact hov⟩
  constructor
  · rintro ⟨o1, h1, h2⟩
    rw [(through_settled (hf o1 h1).1 (hf o1 h1).2 c).1 h2]
    exact h1
  · intro h
    exact ⟨o', h, (through_settled (hf o' h).1 (hf o' h).2 c).2 rfl⟩

theorem change_none {W : World} {p : Ptr} {acts : List Act} (hg : textsOf p acts = []) (he : Act.enter p ∉ acts) :
    acts.filterMap (Act.change W p) = [] := by
  rw [List.filterMap_eq_nil_iff]
  unfold textsOf at hg
  rw [List.filterMap_eq_nil_iff] at hg
  intro x hx
  cases x with
  | give q t =>
    have := hg _ hx
    simp only at this
    simp only [Act.change]
    split
    · rename_i h; simp [h] at this
    · rfl
  | enter q =>
    simp only [Act.change]
    split
    · rename_i h; subst h; exact absurd hx he
    · rfl
  | fail c => rfl
  | noTable => rfl

theorem entered_give (l r : List Act) (p : Ptr) (x : Option Str) :
    entered (l ++ .give p x :: r) = entered (l ++ r) := by
  simp [entered, List.filterMap_append]

/-- One more text asked for, or that text in the variable. -/
theorem accepted_variable {W : World} {env : Env} {a : Argus} {args args' : List Str} {T : List (List Opt)}
    {path : List Ptr} {p : Ptr} {o : Opt} {n v : Str} {x : Option Str} {l r : List Act}
    (ho : placeAt a.tables p = some o) (ht : o.type = .option ∨ o.type = .positional) (hs : o.isSet = false)
    (hov : o.flags.has .envOverride = false) (hn : envVarName a.envPrefix o = some n) (hu : env n = none)
    (halone : OnlyReader a p n) (h0 : a.asks args = l ++ r) (h1 : a.asks args' = l ++ .give p x :: r)
    (hfresh : textsOf p (a.asks args) = []) (hx : ∀ o', TakesText W x o o' ↔ TakesText W (some v) o o')
    (hsel : p.tbl ∈ pathTables a (a.stack ++ entered (a.asks args))) :
    Accepted W (env.with n v) a args T path ↔ Accepted W env a args' T path := by
  have hent : entered (a.asks args') = entered (a.asks args) := by rw [h0, h1, entered_give]
  have hmem : ∀ y, y ∈ a.asks args' ↔ y ∈ a.asks args ∨ y = .give p x := by
    intro y; rw [h0, h1]; simp only [List.mem_append, List.mem_cons]
    constructor
    · rintro (h | h | h)
      · exact .inl (.inl h)
      · exact .inr h
      · exact .inl (.inr h)
    · rintro ((h | h) | h)
      · exact .inl h
      · exact .inr (.inr h)
      · exact .inr (.inl h)
  have hnil : (a.asks args).filterMap (Act.change W p) = [] :=
    change_none hfresh (asks_no_enter (placeAt_getOpt.1 ho) (by rcases ht with h | h <;> rw [h] <;> decide) args)
  have hone : (a.asks args').filterMap (Act.change W p) = [TakesText W x] := by
    rw [h0, List.filterMap_append, List.append_eq_nil_iff] at hnil
    rw [h1, List.filterMap_append, List.filterMap_cons, hnil.1, hnil.2]
    simp [Act.change]
  have hother : ∀ q, q ≠ p → (a.asks args').filterMap (Act.change W q) = (a.asks args).filterMap (Act.change W q) := by
    intro q hq
    rw [h0, h1, List.filterMap_append, List.filterMap_append, List.filterMap_cons]
    simp [Act.change, Ne.symm hq]
  have hpath : path = a.stack ++ entered (a.asks args) →
      ∃ c, (pathTables a path).count p.tbl = c + 1 := by
    rintro rfl
    exact ⟨_, (Nat.succ_pred_eq_of_pos (List.count_pos_iff.2 hsel)).symm⟩
  have hsame : ∀ (q : Ptr) (oq : Opt) (e e' : Env), q ≠ p → placeAt a.tables q = some oq → (∀ m, m ≠ n → e' m = e m) →
      ∀ (c : Nat) (o' : Opt), Through ((a.asks args).filterMap (Act.change W q) ++
        List.replicate c (LooksUp W e a.envPrefix)) oq o' →
      Through ((a.asks args).filterMap (Act.change W q) ++ List.replicate c (LooksUp W e' a.envPrefix)) oq o' := by
    intro q oq e e' hq hoq he c o' h
    refine through_on (m := oq.meta) ?_ ?_ (fun _ _ h => looksUp_meta h) rfl h
    · intro y hy u w hc
      obtain ⟨z, _, hz⟩ := List.mem_filterMap.1 hy
      exact change_meta hz hc
    · intro u w hm hl
      refine looksUp_on (fun htu m hm' => he m ?_) hl
      rintro rfl
      have htq : oq.type = u.type := by
        have := congrArg Opt.type hm; exact this.symm
      exact hq (halone q oq hoq (by rw [htq]; exact htu) ((envVarName_meta hm _).symm.trans hm'))
  have hw : ∀ m, m ≠ n → env.with n v m = env m := fun m hm => by simp [Env.with, hm]
  have hvn : env.with n v n = some v := by simp [Env.with]
  constructor
  · intro h
    obtain ⟨c, hc⟩ := hpath h.selected
    refine ⟨?_, hent ▸ h.selected, hent ▸ h.depth, h.sizes, ?_, h.root, h.levels⟩
    · intro y hy
      rcases (hmem y).1 hy with hy | rfl
      · exact h.readable y hy
      · exact ⟨nofun, nofun⟩
    · intro q oq hoq
      obtain ⟨o', e1, e2⟩ := h.entries q oq hoq
      refine ⟨o', e1, ?_⟩
      by_cases hq : q = p
      · subst hq
        rw [ho, Option.some.injEq] at hoq; subst hoq
        rw [hnil, List.nil_append, hc, through_variable ht hs hov hn hvn c] at e2
        rw [hone, List.singleton_append, through_text hov]
        exact (hx o').2 e2
      · rw [hother q hq]
        exact hsame q oq _ _ hq hoq (fun m hm => (hw m hm).symm) _ o' e2
  · intro h
    obtain ⟨c, hc⟩ := hpath (hent ▸ h.selected)
    refine ⟨fun y hy => h.readable y ((hmem y).2 (.inl hy)), hent ▸ h.selected, hent ▸ h.depth, h.sizes, ?_, h.root, h.levels⟩
    intro q oq hoq
    obtain ⟨o', e1, e2⟩ := h.entries q oq hoq
    refine ⟨o', e1, ?_⟩
    by_cases hq : q = p
    · subst hq
      rw [ho, Option.some.injEq] at hoq; subst hoq
      rw [hone, List.singleton_append, through_text hov] at e2
      rw [hnil, List.nil_append, hc, through_variable ht hs hov hn hvn c]
      exact (hx o').1 e2
    · rw [hother q hq] at e2
      exact hsame q oq _ _ hq hoq hw _ o' e2

/-! ### The option after the names of the subcommands -/

theorem meaning_names_then {tables : List (List Opt)} : ∀ {ps : List Ptr} {ns : List Str} {t : Option Nat},
    NamesChain tables t ps ns → ∀ (rest : List Str),
    meaning tables t 0 false false (ns ++ rest) = ps.map Act.enter ++ meaning tables (chainEnd tables t ps) 0 false false rest
  | [], [], t, _, rest => rfl
  | [], _ :: _, t, h, _ => absurd h (by simp [NamesChain])
  | _ :: _, [], t, h, _ => absurd h (by simp [NamesChain])
  | p :: ps, n :: ns, t, h, rest => by
    obtain ⟨rfl, os, o, h1, h2, h3, h4, h5, h6, h7⟩ := h
    have hk : argKind n = .word := argKind_word h5
    have hc := subChoice_exact h2 h3 h4 h6
    have hb : tableBelow tables p = o.subOptions := by
      unfold tableBelow placeAt; rw [h1, Option.bind_some, h2, Option.bind_some]
    rw [List.cons_append]
    conv => lhs; unfold meaning
    rw [hk]
    simp only [reduceCtorEq, false_and, if_false, Option.bind_some, h1, Bool.false_eq_true, hc, List.map_cons,
      List.cons_append]
    rw [meaning_names_then h7, chainEnd, hb]

theorem meaning_attached {tables : List (List Opt)} {k i : Nat} {os : List Opt} {name v : Str} {rest : List Str} (pos : Nat)
    (hk : tables[k]? = some os) (hi : longIdx os name = some i) (heq : (61 : Byte) ∉ name)
    (hlen : name.length ≤ 63) :
    meaning tables (some k) pos false false ((c!"--" ++ name ++ c!"=" ++ v) :: rest) =
      .give ⟨k, i⟩ (if isFlagAt os i then none else some v) :: meaning tables (some k) pos false false rest := by
  have e1 : c!"--" ++ name ++ c!"=" ++ v = 45 :: 45 :: (name ++ 61 :: v) := by simp
  rw [e1]
  conv => lhs; unfold meaning
  rw [argKind_attached heq]
  simp only [reduceCtorEq, false_and, if_false, Option.bind_some, hk, Bool.false_eq_true]
  rw [List.take_of_length_le hlen, longActs, hi]
  by_cases hf : isFlagAt os i = true
  · simp [hf]
  · simp [hf]

theorem meaning_alone {tables : List (List Opt)} {k i : Nat} {os : List Opt} {name : Str} {rest : List Str} (pos : Nat)
    (hk : tables[k]? = some os) (hi : longIdx os name = some i) (hf : isFlagAt os i = true) (hne : name ≠ [])
    (heq : (61 : Byte) ∉ name) (hlen : name.length ≤ 63) :
    meaning tables (some k) pos false false ((c!"--" ++ name) :: rest) =
      .give ⟨k, i⟩ none :: meaning tables (some k) pos false false rest := by
  have e1 : c!"--" ++ name = 45 :: 45 :: name := by simp
  rw [e1]
  conv => lhs; unfold meaning
  rw [argKind_long hne heq]
  simp only [reduceCtorEq, false_and, if_false, Option.bind_some, hk, Bool.false_eq_true]
  rw [List.take_of_length_le hlen, longActs, hi]
  simp [hf]

theorem longIdx_first {l r : List Opt} {o : Opt} {name : Str} (ht : o.type = .option) (hn : o.lname = some name)
    (hl : ∀ x ∈ l, x.type = .option → x.lname ≠ some name) : longIdx (l ++ o :: r) name = some l.length := by
  unfold longIdx
  induction l with
  | nil => simp [List.findIdx?_cons, ht, hn]
  | cons x l ih =>
    rw [List.cons_append, List.findIdx?_cons, ih (fun y hy => hl y (by simp [hy]))]
    have : decide (x.type = .option ∧ x.lname = some name) = false := by
      simpa using hl x (by simp)
    rw [this]; simp

end Argus
