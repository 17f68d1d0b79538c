import Verif.Lemmas.Prefix

/-! What `argus_free` and a failing parse stage leave behind. -/

set_option autoImplicit false

namespace Argus

/-- What a failing parse stage makes of `argus_parse`: the status is returned. -/
theorem argusParse_of_error {W : World} {env : Env} {a : Argus} {args : List Str} {st : Int}
    {a1 : Argus} (h : parseArgs W a (some a.root) args = .ok (st, a1)) (h1 : st ≠ Err.success)
    (h2 : st ≠ Err.shouldExit) {r : ParseEnd × Argus} (hr : argusParse W env a args = .ok r) :
    r.1 = .returned st ∧
      argusFree (({ a1 with errorCode := st }.emit (.usage none)).emit .tryHelp) = .ok r.2 := by
  unfold argusParse at hr
  rw [h, Out.ok_bind] at hr
  simp only [h2, if_false, ne_eq, h1, not_false_eq_true, if_true] at hr
  obtain ⟨a2, ha2, h3⟩ := Out.bind_eq_ok hr
  simp only [Out.ok.injEq] at h3; subst h3
  exact ⟨rfl, ha2⟩


/-- An option after `argus_free`: an allocated value is dropped, everything else stays. -/
theorem freeOpts_get : ∀ (os : List Opt) {os' : List Opt}, freeOpts os = .ok os' → ∀ (i : Nat) (o : Opt),
    os[i]? = some o → ∃ o', os'[i]? = some o' ∧
      o' = (if o.isAllocated then { o with isAllocated := false, value := .null } else o)
  | [], os', h, i, o, hi => by simp at hi
  | x :: xs, os', h, i, o, hi => by
    unfold freeOpts at h
    obtain ⟨o1, h1, h2⟩ := Out.bind_eq_ok h
    obtain ⟨os1, h3, h4⟩ := Out.bind_eq_ok h2
    simp only [Out.ok.injEq] at h4; subst h4
    cases i with
    | zero =>
      simp only [List.getElem?_cons_zero, Option.some.injEq] at hi; subst hi
      refine ⟨o1, rfl, ?_⟩
      unfold freeOptionValue at h1
      split at h1
      · rename_i hf; simp only [Out.ok.injEq] at h1; subst h1; simp [hf]
      · rename_i hf
        obtain ⟨_, _, h5⟩ := Out.bind_eq_ok h1
        simp only [Out.ok.injEq] at h5; subst h5; simp at hf; simp [hf]
    | succ j =>
      simp only [List.getElem?_cons_succ] at hi ⊢
      exact freeOpts_get xs h3 j o hi

theorem freeTable_get {a a' : Argus} {t : Option Nat} (h : freeTable a t = .ok a') {p : Ptr} {o : Opt}
    (hp : a.getOpt p = .ok o) : ∃ o', a'.getOpt p = .ok o' ∧ FreedOpt o o' := by
  unfold freeTable at h
  obtain ⟨os, hos, h1⟩ := Out.bind_eq_ok h
  obtain ⟨os1, hos1, h2⟩ := Out.bind_eq_ok h1
  obtain ⟨k, rfl, hk⟩ := table_eq_ok.1 hos
  simp only [Out.ok.injEq] at h2; subst h2
  obtain ⟨ps, hps, hi⟩ := getOpt_eq_ok.1 hp
  by_cases hkp : k = p.tbl
  · subst hkp
    rw [hk] at hps; simp only [Option.some.injEq] at hps; subst hps
    obtain ⟨o', ho', he⟩ := freeOpts_get os hos1 p.idx o hi
    refine ⟨o', getOpt_eq_ok.2 ⟨os1, ?_, ho'⟩, ?_⟩
    · rw [List.getElem?_set]
      have hlt : p.tbl < a.tables.length := (List.getElem?_eq_some_iff.1 hk).1
      simp [hlt]
    · split at he
      · rename_i hal; exact .inr ⟨hal, he⟩
      · exact .inl he
  · refine ⟨o, getOpt_eq_ok.2 ⟨ps, ?_, hi⟩, .inl rfl⟩
    rw [List.getElem?_set]; simp [hkp, hps]

theorem FreedOpt.trans {a b c : Opt} (h1 : FreedOpt a b) (h2 : FreedOpt b c) : FreedOpt a c := by
  rcases h1 with rfl | ⟨h1, rfl⟩
  · exact h2
  · rcases h2 with rfl | ⟨h2, rfl⟩
    · exact .inr ⟨h1, rfl⟩
    · simp at h2

theorem freeStack_get : ∀ (ps : List Ptr) {a a' : Argus}, freeStack a ps = .ok a' → ∀ {p : Ptr} {o : Opt},
    a.getOpt p = .ok o → ∃ o', a'.getOpt p = .ok o' ∧ FreedOpt o o'
  | [], a, a', h, p, o, hp => by
    simp only [freeStack, Out.ok.injEq] at h; subst h; exact ⟨o, hp, .inl rfl⟩
  | q :: ps, a, a', h, p, o, hp => by
    unfold freeStack at h
    obtain ⟨cmd, _, h1⟩ := Out.bind_eq_ok h
    obtain ⟨a1, ha1, h2⟩ := Out.bind_eq_ok h1
    obtain ⟨o1, ho1, hf1⟩ := freeTable_get ha1 hp
    obtain ⟨o2, ho2, hf2⟩ := freeStack_get ps h2 ho1
    exact ⟨o2, ho2, hf1.trans hf2⟩

theorem argusFree_get {a a' : Argus} (h : argusFree a = .ok a') {p : Ptr} {o : Opt}
    (hp : a.getOpt p = .ok o) : ∃ o', a'.getOpt p = .ok o' ∧ FreedOpt o o' := by
  unfold argusFree at h
  obtain ⟨a1, ha1, h1⟩ := Out.bind_eq_ok h
  obtain ⟨o1, ho1, hf1⟩ := freeTable_get ha1 hp
  obtain ⟨o2, ho2, hf2⟩ := freeStack_get _ h1 ho1
  exact ⟨o2, ho2, hf1.trans hf2⟩

theorem missing_value_core {W : World} {env : Env} {a : Argus} {args : List Str} {s : PState}
    (key : parseArgs W a (some a.root) args =
      .ok (Err.missingValue, s.a.report Err.missingValue)) :
    ∀ r, argusParse W env a args = .ok r → r.1 = .returned Err.missingValue ∧
      ∀ p o, s.a.getOpt p = .ok o → ∃ o', r.2.getOpt p = .ok o' ∧ FreedOpt o o' := by
  intro r hr
  obtain ⟨h1, h2⟩ := argusParse_of_error key (by decide) (by decide) hr
  exact ⟨h1, fun p o hp => argusFree_get h2 hp⟩

theorem freeTable_out {a a' : Argus} {t : Option Nat} (h : freeTable a t = .ok a') :
    a'.out = a.out ∧ a'.errorCode = a.errorCode := by
  unfold freeTable at h
  obtain ⟨os, _, h1⟩ := Out.bind_eq_ok h
  obtain ⟨os1, _, h2⟩ := Out.bind_eq_ok h1
  split at h2 <;> (simp only [Out.ok.injEq] at h2; subst h2; exact ⟨rfl, rfl⟩)

theorem freeStack_out : ∀ (ps : List Ptr) {a a' : Argus}, freeStack a ps = .ok a' →
    a'.out = a.out ∧ a'.errorCode = a.errorCode
  | [], a, a', h => by simp only [freeStack, Out.ok.injEq] at h; subst h; exact ⟨rfl, rfl⟩
  | p :: ps, a, a', h => by
    unfold freeStack at h
    obtain ⟨cmd, _, h1⟩ := Out.bind_eq_ok h
    obtain ⟨a1, h2, h3⟩ := Out.bind_eq_ok h1
    have e1 := freeTable_out h2
    have e2 := freeStack_out ps h3
    exact ⟨e2.1.trans e1.1, e2.2.trans e1.2⟩

/-- `argus_free` shows nothing. -/
theorem argusFree_out {a a' : Argus} (h : argusFree a = .ok a') : a'.out = a.out := by
  unfold argusFree at h
  obtain ⟨a1, h1, h2⟩ := Out.bind_eq_ok h
  exact (freeStack_out _ h2).1.trans (freeTable_out h1).1

/-- `argus_free` leaves the error code alone. -/
theorem argusFree_errorCode {a a' : Argus} (h : argusFree a = .ok a') : a'.errorCode = a.errorCode := by
  unfold argusFree at h
  obtain ⟨a1, h1, h2⟩ := Out.bind_eq_ok h
  exact (freeStack_out _ h2).2.trans (freeTable_out h1).2

end Argus
