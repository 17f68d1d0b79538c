import Verif.Lemmas.History
import Verif.Lemmas.Commands

/-!
# Which option a single word reaches

Lemmas for `Verif.Props.HelpNames`.
-/

set_option autoImplicit false

namespace Argus

theorem enterSub_spares {a : Argus} {p q : Ptr} {e : Option Nat × Argus} (h : enterSub a q = .ok e) (hq : p ≠ q) :
    e.2.getOpt p = a.getOpt p := by
  unfold enterSub at h
  obtain ⟨o1, ho1, h2⟩ := Out.bind_eq_ok h
  split at h2
  · simp at h2
  · simp only [Out.ok.injEq] at h2; rw [← h2]
    show (a.setOpt q _).getOpt p = _
    rw [getOpt_setOpt_ne hq]

/-- An option that is neither given anything nor selected stays as it is, whatever the outcome. -/
theorem run_spares {W : World} {p : Ptr} : ∀ (acts : List Act) {a : Argus} {r : Int × Argus},
    run W a acts = .ok r → (∀ x, Act.give p x ∉ acts) → Act.enter p ∉ acts → r.2.getOpt p = a.getOpt p
  | [], a, r, h, _, _ => by
    simp only [run, Out.ok.injEq] at h; rw [← h]
  | .give q x :: acts, a, r, h, hg, he => by
    unfold run at h
    obtain ⟨r1, hr, h1⟩ := Out.bind_eq_ok h
    have hq : p ≠ q := by rintro rfl; exact hg x (by simp)
    have h2 := (execCallbacks_one hr).others p hq
    split at h1
    · simp only [Out.ok.injEq] at h1; rw [← h1, h2]
    · rw [run_spares acts h1 (fun y hm => hg y (by simp [hm])) (fun hm => he (by simp [hm])), h2]
  | .enter q :: acts, a, r, h, hg, he => by
    unfold run at h
    obtain ⟨e, hr, h1⟩ := Out.bind_eq_ok h
    have hq : p ≠ q := by rintro rfl; exact he (by simp)
    rw [run_spares acts h1 (fun y hm => hg y (by simp [hm])) (fun hm => he (by simp [hm])), enterSub_spares hr hq]
  | .fail c :: acts, a, r, h, _, _ => by
    simp only [run, Out.ok.injEq] at h; rw [← h]; rfl
  | .noTable :: acts, a, r, h, _, _ => by simp [run] at h

/-- Being asked for one thing only. -/
theorem run_give_one (W : World) (a : Argus) (p : Ptr) (x : Option Str) :
    run W a [.give p x] = execCallbacks W a p x := by
  unfold run
  cases execCallbacks W a p x with
  | ub u => rfl
  | ok r =>
    simp only [Out.ok_bind, run]
    split
    · rfl
    · rename_i h
      have : r.1 = Err.success := by simpa using h
      rw [← this]

theorem longIdx_at {os : List Opt} {i : Nat} {o : Opt} {l : Str} (hi : os[i]? = some o) (ht : o.type = .option)
    (hl : o.lname = some l) : longIdx os l = some i ↔
      ∀ j < i, ∀ o', os[j]? = some o' → o'.type = .option → o'.lname ≠ some l := by
  unfold longIdx
  rw [List.findIdx?_eq_some_iff_getElem]
  obtain ⟨hlt, hgi⟩ := List.getElem?_eq_some_iff.1 hi
  constructor
  · rintro ⟨_, _, h⟩ j hj o' ho' ht' hl'
    obtain ⟨hjl, hgj⟩ := List.getElem?_eq_some_iff.1 ho'
    have := h j hj
    rw [hgj] at this
    simp [ht', hl'] at this
  · intro h
    refine ⟨hlt, by simp [hgi, ht, hl], fun j hj => ?_⟩
    have hjl : j < os.length := by omega
    have := h j hj os[j] (List.getElem?_eq_getElem hjl)
    simpa using this

theorem shortIdx_at {os : List Opt} {i : Nat} {o : Opt} {c : Byte} (hi : os[i]? = some o) (ht : o.type = .option)
    (hl : o.sname = c) : shortIdx os c = some i ↔
      ∀ j < i, ∀ o', os[j]? = some o' → o'.type = .option → o'.sname ≠ c := by
  unfold shortIdx
  rw [List.findIdx?_eq_some_iff_getElem]
  obtain ⟨hlt, hgi⟩ := List.getElem?_eq_some_iff.1 hi
  constructor
  · rintro ⟨_, _, h⟩ j hj o' ho' ht' hl'
    obtain ⟨hjl, hgj⟩ := List.getElem?_eq_some_iff.1 ho'
    have := h j hj
    rw [hgj] at this
    simp [ht', hl'] at this
  · intro h
    refine ⟨hlt, by simp [hgi, ht, hl], fun j hj => ?_⟩
    have hjl : j < os.length := by omega
    have := h j hj os[j] (List.getElem?_eq_getElem hjl)
    simpa using this

/-- What a single `--name` or `--name=value` asks for. -/
theorem meaning_long_one {tables : List (List Opt)} {t : Nat} {os : List Opt} (ht : tables[t]? = some os) {w n : Str}
    {v : Option Str} (hw : argKind w = .long n v) :
    meaning tables (some t) 0 false false [w] = (longActs t os n v none).1 := by
  unfold meaning
  simp only [hw, reduceCtorEq, if_false, false_and, Option.bind_some, ht, List.head?_nil]
  cases (longActs t os n v none).2 <;> simp [meaning]

/-- What a single `-abc` asks for. -/
theorem meaning_short_one {tables : List (List Opt)} {t : Nat} {os : List Opt} (ht : tables[t]? = some os) {w : Str}
    {c : Byte} {cs : Str} (hw : argKind w = .short (c :: cs)) :
    meaning tables (some t) 0 false false [w] =
      if negNumber os 0 (c :: cs) then posActs t os 0 w else (shortActs t os none (c :: cs)).1 := by
  unfold meaning
  simp only [hw, reduceCtorEq, if_false, ArgKind.short.injEq, false_and, Option.bind_some, ht, List.head?_nil]
  split
  · simp [meaning]
  · cases (shortActs t os none (c :: cs)).2 <;> simp [meaning]

/-- Only the option found under the name is given something. -/
theorem longActs_only {t : Nat} {os : List Opt} {n : Str} {v nx : Option Str} {i : Nat} (h : longIdx os n ≠ some i) :
    (∀ x, Act.give ⟨t, i⟩ x ∉ (longActs t os n v nx).1) ∧ Act.enter ⟨t, i⟩ ∉ (longActs t os n v nx).1 := by
  unfold longActs
  cases hk : longIdx os n with
  | none => simp
  | some j =>
    have hj : i ≠ j := by rintro rfl; exact h hk
    by_cases hf : isFlagAt os j = true
    · simp [hf, hj]
    · cases v <;> cases nx <;> simp [hf, hj]

/-- A cluster does not reach an option whose letter belongs to an earlier one. -/
theorem shortActs_only {t : Nat} {os : List Opt} {nx : Option Str} {i : Nat} (h : ∀ c, shortIdx os c ≠ some i) :
    ∀ cs : Str, (∀ x, Act.give ⟨t, i⟩ x ∉ (shortActs t os nx cs).1) ∧ Act.enter ⟨t, i⟩ ∉ (shortActs t os nx cs).1
  | [] => by simp [shortActs]
  | c :: cs => by
    have ih := shortActs_only (t := t) (nx := nx) h cs
    unfold shortActs
    cases hk : shortIdx os c with
    | none => simp
    | some j =>
      have hj : i ≠ j := by rintro rfl; exact h c hk
      by_cases hf : isFlagAt os j = true
      · simp [hf, hj, ih.1, ih.2]
      · cases cs <;> cases nx <;> simp [hf, hj]

theorem posActs_only {t : Nat} {os : List Opt} {k i : Nat} {o : Opt} {w : Str} (hi : os[i]? = some o)
    (ht : o.type ≠ .positional) :
    (∀ x, Act.give ⟨t, i⟩ x ∉ posActs t os k w) ∧ Act.enter ⟨t, i⟩ ∉ posActs t os k w := by
  unfold posActs
  cases hs : slotAt os k with
  | none => simp
  | some x =>
    obtain ⟨o', j⟩ := x
    have hj : i ≠ j := by
      rintro rfl
      have := slotAt_get hs
      rw [hi] at this
      cases this.1; exact ht this.2
    simp [hj]

theorem argKind_long_plain {l : Str} (hne : l ≠ []) (heq : (61 : Byte) ∉ l) :
    argKind (c!"--" ++ l) = .long (l.take 63) none := by
  cases l with
  | nil => exact absurd rfl hne
  | cons x r =>
    show argKind (45 :: 45 :: x :: r) = _
    simp [argKind, heq]

theorem takeWhile_ne_eq {l v : Str} (heq : (61 : Byte) ∉ l) :
    (l ++ 61 :: v).takeWhile (· != 61) = l ∧ (l ++ 61 :: v).dropWhile (· != 61) = 61 :: v := by
  induction l with
  | nil => simp
  | cons x r ih =>
    simp only [List.mem_cons, not_or] at heq
    have hx : (x != 61) = true := by simpa using Ne.symm heq.1
    simp [hx, ih heq.2]

theorem not_mem_before_eq : ∀ r : Str, (61 : Byte) ∉ r.takeWhile (· != 61)
  | [] => by simp
  | x :: r => by
    rw [List.takeWhile_cons]
    split
    · rename_i h
      have ih := not_mem_before_eq r
      simp only [bne_iff_ne, ne_eq] at h
      simp only [List.mem_cons, not_or]
      exact ⟨fun e => h e.symm, ih⟩
    · simp

/-- Any word beginning with `--` and containing `=` names what stands before the first `=`. -/
theorem argKind_long_eq {r : Str} (h : (61 : Byte) ∈ r) :
    argKind (c!"--" ++ r) = .long ((r.takeWhile (· != 61)).take 63) (some ((r.dropWhile (· != 61)).drop 1)) := by
  cases r with
  | nil => simp at h
  | cons x r =>
    show argKind (45 :: 45 :: x :: r) = _
    simp only [argKind, h, if_true]

end Argus
