import Verif.Lemmas.Depth
import Verif.Lemmas.Order
import Verif.Lemmas.Scalar

/-! # Lemmas: what loading the environment does to an option -/

set_option autoImplicit false

namespace Argus

/-- One round of `load_env` on option `p` which reads a variable. -/
theorem loadEnvStep_reads {W : World} {env : Env} {a r : Argus} {p : Ptr} {o : Opt} {n v : Str}
    (h : loadEnvStep W env a p = .ok (Err.success, r)) (ho : a.getOpt p = .ok o)
    (h1 : o.type ≠ .group) (h2 : o.type ≠ .subcommand)
    (h3 : o.isSet = false ∨ o.flags.has .envOverride = true)
    (hn : envVarName a.envPrefix o = some n) (hv : env n = some v) :
    ∃ o', o.give W (some v) = some o' ∧ r.getOpt p = .ok o' := by
  unfold loadEnvStep at h
  rw [ho] at h
  simp only [Out.ok_bind] at h
  rw [if_neg (fun h => h.elim h1 h2), if_neg (by
    rintro ⟨h4, h5⟩
    rcases h3 with h3 | h3
    · rw [h3] at h4; simp at h4
    · rw [h3] at h5; simp at h5), hn] at h
  simp only [hv] at h
  obtain ⟨e, he, h4⟩ := Out.bind_eq_ok h
  split at h4
  · rename_i hne
    split at h4
    · obtain ⟨o1, _, h5⟩ := Out.bind_eq_ok h4
      simp only [Out.ok.injEq, Prod.mk.injEq] at h5
      exact absurd h5.1 hne
    · simp only [Out.ok.injEq] at h4
      rw [h4] at hne
      exact absurd rfl hne
  · simp only [Out.ok.injEq] at h4
    subst h4
    obtain ⟨o0, o', es, e1, e2, e3⟩ := execCallbacks_success he
    rw [ho] at e1
    cases e1
    refine ⟨o', e2, ?_⟩
    subst e3
    exact getOpt_setOpt_self (by rw [getOpt_emits]; exact ho)

/-- `I` is what is known of option `p` before it is visited, `Q` afterwards. -/
def Visits (W : World) (env : Env) (ep : Option Str) (p : Ptr) (I Q : Opt → Prop) : Prop :=
  ∀ a r o, loadEnvStep W env a p = .ok (Err.success, r) → a.envPrefix = ep → a.getOpt p = .ok o →
    I o ∨ Q o → ∃ o', r.getOpt p = .ok o' ∧ Q o'

theorem loadEnvLoop_visit {W : World} {env : Env} {ep : Option Str} {p : Ptr} {I Q : Opt → Prop}
    (hV : Visits W env ep p I Q) {k : Nat} : ∀ (n i : Nat) {a a' : Argus} {o : Opt},
    loadEnvLoop W env k n i a = .ok (Err.success, a') → a.envPrefix = ep → a.getOpt p = .ok o →
    I o ∨ Q o →
    ∃ o', a'.getOpt p = .ok o' ∧ (I o' ∨ Q o') ∧
      ((k = p.tbl ∧ i ≤ p.idx ∧ p.idx < i + n) ∨ Q o → Q o')
  | 0, i, a, a', o, h, _, ho, hi => by
    simp only [loadEnvLoop, Out.ok.injEq, Prod.mk.injEq, true_and] at h; subst h
    exact ⟨o, ho, hi, fun hx => hx.resolve_left (by omega)⟩
  | n + 1, i, a, a', o, h, hep, ho, hi => by
    unfold loadEnvLoop at h
    obtain ⟨r, hr, h1⟩ := Out.bind_eq_ok h
    split at h1
    · rename_i hne
      simp only [Out.ok.injEq] at h1
      rw [h1] at hne
      exact absurd rfl hne
    · rename_i he
      have he : r.1 = Err.success := Classical.not_not.1 he
      have hr' : loadEnvStep W env a ⟨k, i⟩ = .ok (Err.success, r.2) := by rw [hr, ← he]
      have hone := loadEnvStep_one hr
      have hep' : r.2.envPrefix = ep := hone.frame.envPrefix.trans hep
      by_cases hp : p = ⟨k, i⟩
      · subst hp
        obtain ⟨o1, ho1, hq⟩ := hV a r.2 o hr' hep ho hi
        obtain ⟨o', h2, h3, h4⟩ := loadEnvLoop_visit hV n (i + 1) h1 hep' ho1 (.inr hq)
        exact ⟨o', h2, h3, fun _ => h4 (.inr hq)⟩
      · have ho1 : r.2.getOpt p = .ok o := (hone.others p hp).trans ho
        obtain ⟨o', h2, h3, h4⟩ := loadEnvLoop_visit hV n (i + 1) h1 hep' ho1 hi
        refine ⟨o', h2, h3, fun hx => h4 ?_⟩
        rcases hx with ⟨e1, e2, e3⟩ | hx
        · refine .inl ⟨e1, ?_, by omega⟩
          by_cases hi : i = p.idx
          · exact absurd (by rw [e1, hi]) hp
          · omega
        · exact .inr hx

theorem loadEnvTable_visit {W : World} {env : Env} {ep : Option Str} {p : Ptr} {I Q : Opt → Prop}
    (hV : Visits W env ep p I Q) {k : Nat} {a a' : Argus} {o : Opt}
    (h : loadEnvTable W env a k = .ok (Err.success, a')) (hep : a.envPrefix = ep)
    (ho : a.getOpt p = .ok o) (hi : I o ∨ Q o) :
    ∃ o', a'.getOpt p = .ok o' ∧ (I o' ∨ Q o') ∧ (k = p.tbl ∨ Q o → Q o') := by
  unfold loadEnvTable at h
  obtain ⟨os, hos, h1⟩ := Out.bind_eq_ok h
  obtain ⟨o', h2, h3, h4⟩ := loadEnvLoop_visit hV _ _ h1 hep ho hi
  refine ⟨o', h2, h3, fun hx => h4 (hx.imp_left fun hk => ⟨hk, Nat.zero_le _, ?_⟩)⟩
  subst hk
  obtain ⟨os', h5, h6⟩ := getOpt_eq_ok.1 ho
  obtain ⟨k, hk1, hk2⟩ := table_eq_ok.1 hos
  cases hk1
  rw [h5] at hk2
  cases hk2
  have := (List.getElem?_eq_some_iff.1 h6).1
  omega

theorem loadEnvStack_visit {W : World} {env : Env} {ep : Option Str} {p : Ptr} {I Q : Opt → Prop}
    (hV : Visits W env ep p I Q) : ∀ (ps : List Ptr) {a a' : Argus} {o : Opt},
    loadEnvStack W env a ps = .ok (Err.success, a') → a.envPrefix = ep → a.getOpt p = .ok o →
    I o ∨ Q o →
    ∃ o', a'.getOpt p = .ok o' ∧ (I o' ∨ Q o') ∧ ((∃ q ∈ ps, a.subOf q = some p.tbl) ∨ Q o → Q o')
  | [], a, a', o, h, _, ho, hi => by
    simp only [loadEnvStack, Out.ok.injEq, Prod.mk.injEq, true_and] at h; subst h
    exact ⟨o, ho, hi, fun hx => hx.resolve_left (by simp)⟩
  | q :: ps, a, a', o, h, hep, ho, hi => by
    unfold loadEnvStack at h
    obtain ⟨cmd, hcmd, h1⟩ := Out.bind_eq_ok h
    have hsq := subOf_eq hcmd
    split at h1
    · rename_i hsub
      obtain ⟨o', h2, h3, h4⟩ := loadEnvStack_visit hV ps h1 hep ho hi
      refine ⟨o', h2, h3, fun hx => h4 ?_⟩
      rcases hx with ⟨q', hq', e⟩ | hx
      · rcases List.mem_cons.1 hq' with rfl | hq'
        · rw [hsq, hsub] at e; simp at e
        · exact .inl ⟨q', hq', e⟩
      · exact .inr hx
    · rename_i k hsub
      obtain ⟨r, hr, h2⟩ := Out.bind_eq_ok h1
      split at h2
      · rename_i hne
        simp only [Out.ok.injEq] at h2
        rw [h2] at hne
        exact absurd rfl hne
      · rename_i he
        have he : r.1 = Err.success := Classical.not_not.1 he
        have hr' : loadEnvTable W env a k = .ok (Err.success, r.2) := by rw [hr, ← he]
        have hfr := (loadEnvTable_frame hr).frame
        obtain ⟨o1, g1, g2, g3⟩ := loadEnvTable_visit hV hr' hep ho hi
        obtain ⟨o', h3, h4, h5⟩ := loadEnvStack_visit hV ps h2 (hfr.envPrefix.trans hep) g1 g2
        refine ⟨o', h3, h4, fun hx => h5 ?_⟩
        rcases hx with ⟨q', hq', e⟩ | hx
        · rcases List.mem_cons.1 hq' with rfl | hq'
          · rw [hsq, hsub] at e
            exact .inr (g3 (.inl (by simpa using e)))
          · exact .inl ⟨q', hq', (subOf_shape hfr.shape q').trans e⟩
        · exact .inr (g3 (.inr hx))

theorem loadEnvVars_visit {W : World} {env : Env} {ep : Option Str} {p : Ptr} {I Q : Opt → Prop}
    (hV : Visits W env ep p I Q) {a a' : Argus} {o : Opt}
    (h : loadEnvVars W env a = .ok (Err.success, a')) (hep : a.envPrefix = ep)
    (ho : a.getOpt p = .ok o) (hi : I o) (hp : a.onPath p.tbl) :
    ∃ o', a'.getOpt p = .ok o' ∧ Q o' := by
  unfold loadEnvVars at h
  obtain ⟨r, hr, h1⟩ := Out.bind_eq_ok h
  split at h1
  · rename_i hne
    simp only [Out.ok.injEq] at h1
    rw [h1] at hne
    exact absurd rfl hne
  · rename_i he
    have he : r.1 = Err.success := Classical.not_not.1 he
    have hr' : loadEnvTable W env a a.root = .ok (Err.success, r.2) := by rw [hr, ← he]
    have hin := loadEnvTable_frame hr
    obtain ⟨o1, g1, g2, g3⟩ := loadEnvTable_visit hV hr' hep ho (.inl hi)
    obtain ⟨o', h3, _, h5⟩ := loadEnvStack_visit hV _ h1 (hin.frame.envPrefix.trans hep) g1 g2
    refine ⟨o', h3, h5 ?_⟩
    rcases hp with hp | ⟨q, hq, e⟩
    · exact .inr (g3 (.inl hp.symm))
    · exact .inl ⟨q, by rw [hin.stack]; exact hq, (subOf_shape hin.frame.shape q).trans e⟩

/-- The environment part of a successful `argus_parse`. -/
theorem argusParse_visit {W : World} {env : Env} {a a' : Argus} {args : List Str} {p : Ptr} {o : Opt}
    {Q : Opt → Prop} {I : Opt → Prop} (hok : argusParse W env a args = .ok (.returned Err.success, a'))
    (hV : Visits W env a.envPrefix p I Q) (ho : a.getOpt p = .ok o) (ht : o.type ≠ .subcommand)
    (hI : ∀ o1, o.giveAll W (textsOf p (a.asks args)) = some o1 → I o1)
    (hp : p.tbl = a.root ∨ ∃ q ∈ a'.stack, a.subOf q = some p.tbl) :
    ∃ o', a'.getOpt p = .ok o' ∧ Q o' := by
  obtain ⟨a1, a2, h1, h2, h3⟩ := argusParse_success hok
  obtain ⟨o1, g1, g2⟩ := parseArgs_history h1 ho ht
  obtain ⟨ext, hst, _, hf⟩ := parseLoop_frame _ h1
  obtain ⟨es, hes⟩ := postValidation_eq h3
  simp only at hes
  have hfr := loadEnvVars_frame h2
  have hstk : a'.stack = a1.stack := by rw [hes, emits_stack, hfr.stack]
  obtain ⟨o', e1, e2⟩ := loadEnvVars_visit hV h2 (show a1.envPrefix = _ from hf.envPrefix)
    (show Argus.getOpt { a1 with errorCode := Err.success } p = .ok o1 from g2) (hI o1 g1) (by
      rcases hp with hp | ⟨q, hq, e⟩
      · exact .inl (hp.trans hf.root.symm)
      · rw [hstk] at hq
        exact .inr ⟨q, hq, (subOf_shape (a := a) (show Argus.shape { a1 with errorCode := Err.success } =
          a.shape from hf.shape) q).trans e⟩)
  refine ⟨o', ?_, e2⟩
  rw [hes, getOpt_emits]; exact e1

/-! ### Two environments -/

theorem envVarName_meta {o o' : Opt} (h : o'.meta = o.meta) (ep : Option Str) :
    envVarName ep o' = envVarName ep o := by
  have h1 : o'.envName = o.envName := (congrArg Opt.envName h : o'.meta.envName = o.meta.envName)
  have h2 : o'.flags = o.flags := (congrArg Opt.flags h : o'.meta.flags = o.meta.flags)
  have h3 : o'.name = o.name := (congrArg Opt.name h : o'.meta.name = o.meta.name)
  have h4 : o'.lname = o.lname := (congrArg Opt.lname h : o'.meta.lname = o.meta.lname)
  unfold envVarName
  rw [h1, h2, h3, h4]

/-- The two environments agree on the variables of the options of table `k`. -/
def Agree (env env' : Env) (a : Argus) (k : Nat) : Prop :=
  ∀ i o n, a.getOpt ⟨k, i⟩ = .ok o → o.type ≠ .group → o.type ≠ .subcommand →
    envVarName a.envPrefix o = some n → env n = env' n

theorem Agree.frame {env env' : Env} {a b : Argus} {k : Nat} {K : Nat → Prop} (h : Agree env env' a k)
    (hf : Frame K a b) : Agree env env' b k := by
  intro i o n ho h1 h2 hn
  obtain ⟨o', ho', hm⟩ := shape_getOpt hf.shape.symm ho
  have ht : o'.type = o.type := (congrArg Opt.type hm : o'.meta.type = o.meta.type)
  refine h i o' n ho' (ht ▸ h1) (ht ▸ h2) ?_
  rw [envVarName_meta hm, ← hf.envPrefix]; exact hn

theorem loadEnvStep_congr {W : World} {env env' : Env} {a : Argus} {k i : Nat} (h : Agree env env' a k) :
    loadEnvStep W env a ⟨k, i⟩ = loadEnvStep W env' a ⟨k, i⟩ := by
  unfold loadEnvStep
  cases ho : a.getOpt ⟨k, i⟩ with
  | ub u => rfl
  | ok o =>
    simp only [Out.ok_bind]
    by_cases h1 : o.type = .group ∨ o.type = .subcommand
    · rw [if_pos h1, if_pos h1]
    · rw [if_neg h1, if_neg h1]
      by_cases h2 : o.isSet = true ∧ o.flags.has .envOverride = false
      · rw [if_pos h2, if_pos h2]
      · rw [if_neg h2, if_neg h2]
        cases hn : envVarName a.envPrefix o with
        | none => rfl
        | some n =>
          simp only
          rw [h i o n ho (fun e => h1 (.inl e)) (fun e => h1 (.inr e)) hn]

theorem loadEnvLoop_congr {W : World} {env env' : Env} {k : Nat} : ∀ (n i : Nat) {a : Argus},
    Agree env env' a k → loadEnvLoop W env k n i a = loadEnvLoop W env' k n i a
  | 0, i, a, _ => rfl
  | n + 1, i, a, h => by
    unfold loadEnvLoop
    rw [loadEnvStep_congr h]
    cases hr : loadEnvStep W env' a ⟨k, i⟩ with
    | ub u => rfl
    | ok r =>
      simp only [Out.ok_bind]
      split
      · rfl
      · exact loadEnvLoop_congr n (i + 1) (h.frame (loadEnvStep_one hr).frame)

theorem loadEnvTable_congr {W : World} {env env' : Env} {k : Nat} {a : Argus} (h : Agree env env' a k) :
    loadEnvTable W env a k = loadEnvTable W env' a k := by
  unfold loadEnvTable
  cases a.table (some k) with
  | ub u => rfl
  | ok os => simp only [Out.ok_bind]; exact loadEnvLoop_congr _ _ h

theorem loadEnvStack_congr {W : World} {env env' : Env} : ∀ (ps : List Ptr) {a : Argus},
    (∀ q ∈ ps, ∀ k, a.subOf q = some k → Agree env env' a k) →
    loadEnvStack W env a ps = loadEnvStack W env' a ps
  | [], a, _ => rfl
  | q :: ps, a, h => by
    unfold loadEnvStack
    cases hc : a.getOpt q with
    | ub u => rfl
    | ok cmd =>
      simp only [Out.ok_bind]
      cases hs : cmd.subOptions with
      | none => exact loadEnvStack_congr ps (fun q' hq' => h q' (List.mem_cons_of_mem _ hq'))
      | some k =>
        simp only
        rw [loadEnvTable_congr (h q (by simp) k (by rw [subOf_eq hc, hs]))]
        cases hr : loadEnvTable W env' a k with
        | ub u => rfl
        | ok r =>
          simp only [Out.ok_bind]
          split
          · rfl
          · have hf := (loadEnvTable_frame hr).frame
            refine loadEnvStack_congr ps (fun q' hq' k' hk' => ?_)
            rw [subOf_shape hf.shape] at hk'
            exact (h q' (List.mem_cons_of_mem _ hq') k' hk').frame hf

theorem loadEnvVars_congr {W : World} {env env' : Env} {a : Argus}
    (h : ∀ k, a.onPath k → Agree env env' a k) : loadEnvVars W env a = loadEnvVars W env' a := by
  unfold loadEnvVars
  rw [loadEnvTable_congr (h a.root (.inl rfl))]
  cases hr : loadEnvTable W env' a a.root with
  | ub u => rfl
  | ok r =>
    simp only [Out.ok_bind]
    split
    · rfl
    · have hf := loadEnvTable_frame hr
      refine loadEnvStack_congr _ (fun q hq k hk => ?_)
      rw [subOf_shape hf.frame.shape] at hk
      rw [hf.stack] at hq
      exact (h k (.inr ⟨q, hq, hk⟩)).frame hf.frame

end Argus
