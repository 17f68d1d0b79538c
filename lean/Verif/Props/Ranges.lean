import Verif.Lemmas.Ranges
import Verif.Props.Arrays

/-!
# Property C15: what an int array makes of every text

`Props.Arrays` has the well written numbers and ranges; here is the meaning of all others.
-/

set_option autoImplicit false

namespace Argus

/-- **C15** The meaning of a piece is unique. -/
theorem C15_meaning_unique (v : Str) (lo hi lo' hi' : Int) (h : RangeText v lo hi) (h' : RangeText v lo' hi') :
    lo = lo' ∧ hi = hi' := by
  have := (parseIntRange_iff.2 h).symm.trans (parseIntRange_iff.2 h')
  cases this
  exact ⟨rfl, rfl⟩

/-- **C15** A piece has no meaning only if it is not empty, has no separator and is no numeral. -/
theorem C15_meaningless_iff (v : Str) :
    (¬ ∃ lo hi, RangeText v lo hi) ↔ v ≠ [] ∧ ¬ HasSeparator v ∧ ∀ n, ¬ IsNumeral v n := by
  constructor
  · intro h
    refine ⟨?_, ?_, ?_⟩
    · rintro rfl; exact h ⟨0, 0, .empty⟩
    · intro hs
      obtain ⟨l, sep, r, rfl, hsep⟩ := hasSeparator_iff.1 hs
      cases hp : parseIntRange (l ++ sep :: r) with
      | none =>
        rcases searchSep_first (l ++ sep :: r) [] with ⟨l0, sep0, r0, h1, h2, _, h4, h5⟩ | ⟨h4, h5⟩
        · simp only [List.getLast?_nil] at h4
          unfold parseIntRange at hp; rw [h4] at hp; cases hp
        · exact h5 l sep r (by simp) (by simp) hsep
      | some q => exact h ⟨q.1, q.2, parseIntRange_iff.1 hp⟩
    · intro n hn
      by_cases hs : HasSeparator v
      · obtain ⟨l, sep, r, rfl, hsep⟩ := hasSeparator_iff.1 hs
        cases hp : parseIntRange (l ++ sep :: r) with
        | none =>
          rcases searchSep_first (l ++ sep :: r) [] with ⟨l0, sep0, r0, h1, h2, _, h4, h5⟩ | ⟨h4, h5⟩
          · simp only [List.getLast?_nil] at h4
            unfold parseIntRange at hp; rw [h4] at hp; cases hp
          · exact h5 l sep r (by simp) (by simp) hsep
        | some q => exact h ⟨q.1, q.2, parseIntRange_iff.1 hp⟩
      · exact h ⟨_, _, .one v n _ hs hn (leadInt_iff.2 rfl)⟩
  · rintro ⟨h1, h2, h3⟩ ⟨lo, hi, h⟩
    cases h with
    | range l sep r x y g1 g2 g3 g4 => exact h2 (hasSeparator_iff.2 ⟨l, sep, r, rfl, g1⟩)
    | one _ n _ g1 g2 g3 => exact h3 n g2
    | empty => exact h1 rfl

/-- **C15** for every text: an int array accepts a list of texts exactly if each of their pieces means an interval
    that ends below INT_MAX. It then holds the numbers of these intervals, in order, arranged by the flags. -/
theorem C15_every_text (W : World) (o : Opt) (ts : List Str) (hh : o.handler = some .arrayInt)
    (hv : o.valueType = .arrayInt) (hf : o.Fresh) (hne : ts ≠ []) (hfirst : StartsWell ts) :
    ((∃ o', o.giveAll W (ts.map some) = some o') ↔
      ∀ v ∈ ts.flatMap pieces, ∃ lo hi, RangeText v lo hi ∧ hi ≠ intMax) ∧
    ∀ o', o.giveAll W (ts.map some) = some o' → ∃ (qs : List (Str × Int × Int)) (shown : List Int),
      ts.flatMap pieces = qs.map Prod.fst ∧ (∀ q ∈ qs, RangeText q.1 q.2.1 q.2.2) ∧ o'.Ints shown ∧
      Arranged o.flags (fun x y => x ≤ y) (qs.flatMap (fun q => fromTo q.2.1 q.2.2)) shown := by
  obtain ⟨h1, h2⟩ := intArray_after W hh hv hf hne hfirst
  refine ⟨⟨?_, ?_⟩, ?_⟩
  · rintro ⟨o', ho⟩ v hvm
    cases hg : gather pieceInts (ts.flatMap pieces) with
    | none => rw [h2 hg] at ho; cases ho
    | some ws =>
      obtain ⟨qs, e1, _, e3⟩ := gather_pieceInts.1 hg
      rw [e1] at hvm
      obtain ⟨q, hq, rfl⟩ := List.mem_map.1 hvm
      exact ⟨_, _, (e3 q hq).1, (e3 q hq).2⟩
  · intro hall
    have hq : ∀ ps : List Str, (∀ v ∈ ps, ∃ lo hi, RangeText v lo hi ∧ hi ≠ intMax) →
        ∃ qs : List (Str × Int × Int), ps = qs.map Prod.fst ∧ ∀ q ∈ qs, RangeText q.1 q.2.1 q.2.2 ∧ q.2.2 ≠ 2147483647 := by
      intro ps
      induction ps with
      | nil => intro _; exact ⟨[], rfl, by simp⟩
      | cons p ps ih =>
        intro h
        obtain ⟨qs, e1, e2⟩ := ih (fun v hv => h v (by simp [hv]))
        obtain ⟨lo, hi, g1, g2⟩ := h p (by simp)
        refine ⟨(p, lo, hi) :: qs, by rw [e1]; rfl, fun q hq => ?_⟩
        rcases List.mem_cons.1 hq with rfl | hq
        · exact ⟨g1, g2⟩
        · exact e2 q hq
    obtain ⟨qs, e1, e2⟩ := hq _ hall
    obtain ⟨o', _, ho, _⟩ := h1 _ (gather_pieceInts.2 ⟨qs, e1, rfl, e2⟩)
    exact ⟨o', ho⟩
  · intro o' ho
    cases hg : gather pieceInts (ts.flatMap pieces) with
    | none => rw [h2 hg] at ho; cases ho
    | some ws =>
      obtain ⟨qs, e1, rfl, e3⟩ := gather_pieceInts.1 hg
      obtain ⟨o1, shown, f1, f2, f3⟩ := h1 _ hg
      rw [ho] at f1; cases f1
      exact ⟨qs, shown, e1, fun q hq => (e3 q hq).1, f2, f3⟩

/-- **C15** for every text, over a whole parse: after a successful parse an unflagged int array holds the intervals
    its pieces mean, one after the other. -/
theorem C15_every_parse (W : World) (env : Env) (a a' : Argus) (args : List Str) (p : Ptr) (o : Opt)
    (ts : List Str) (hg : GivenTexts W env a args a' p o ts) (hh : o.handler = some .arrayInt)
    (hv : o.valueType = .arrayInt) (hf : o.Fresh) (hfirst : StartsWell ts)
    (hs : o.flags.has .sorted = false) (hu : o.flags.has .unique = false) :
    ∃ (o' : Opt) (qs : List (Str × Int × Int)), a'.getOpt p = .ok o' ∧ ts.flatMap pieces = qs.map Prod.fst ∧
      (∀ q ∈ qs, RangeText q.1 q.2.1 q.2.2) ∧ o'.Ints (qs.flatMap (fun q => fromTo q.2.1 q.2.2)) := by
  obtain ⟨o1, e1, e2⟩ := hg.result
  obtain ⟨qs, shown, k1, k2, k3, k4⟩ := (C15_every_text W o ts hh hv hf hg.given hfirst).2 o1 e1
  exact ⟨o1, qs, e2, k1, k2, by rw [← k4.plain hs hu]; exact k3⟩

/-- **C15** One text without comma: it is appended, or overflows, or is refused with ARGUS_ERROR_INVALID_FORMAT,
    and which of the three depends on the text alone. -/
theorem C15_one_text (W : World) (a : Argus) (o : Opt) (v : Str) (hcomma : (44 : Byte) ∉ v) (hf : o.Fresh)
    (hh : o.handler = some .arrayInt) (hv : o.valueType = .arrayInt) :
    (∀ lo hi, RangeText v lo hi → hi ≠ intMax → ∃ o', o.give W (some v) = some o' ∧ o'.Ints (fromTo lo hi)) ∧
    (∀ lo, RangeText v lo intMax → runHandler W a .arrayInt o (some v) = .ub .intOverflow) ∧
    ((∀ lo hi, ¬ RangeText v lo hi) →
      runHandler W a .arrayInt o (some v) = .ok (Err.invalidFormat, o, [.error Err.invalidFormat])) := by
  have h4 : v.contains 44 = false := by simpa using hcomma
  refine ⟨fun lo hi h hne => ?_, fun lo h => ?_, fun h => ?_⟩
  · have hpc : [v].flatMap pieces = [v] := by simp [pieces, hcomma]
    have hg : gather pieceInts ([v].flatMap pieces) = some (fromTo lo hi) := by
      rw [hpc]
      exact gather_pieceInts.2 ⟨[(v, lo, hi)], rfl, by simp, by
        intro q hq; simp only [List.mem_singleton] at hq; subst hq; exact ⟨h, hne⟩⟩
    obtain ⟨o', shown, e1, e2, e3⟩ := (intArray_after W hh hv hf (ts := [v]) (by simp) (by
      intro t ht
      simp only [List.head?_cons, Option.mem_def, Option.some.injEq] at ht
      subst ht
      simp [pieces, hcomma])).1 _ hg
    have e4 : o.give W (some v) = some o' := by
      simp only [List.map_cons, List.map_nil, Opt.giveAll] at e1
      cases hgv : o.give W (some v) with
      | none => rw [hgv] at e1; cases e1
      | some o1 => rw [hgv] at e1; exact e1
    exact ⟨o', e4, by rw [← e3.ascending (interval_ascending lo hi)]; exact e2⟩
  · have hp := parseIntRange_iff.2 h
    obtain ⟨o', e1, _⟩ := addRangeLoop_arr (intMax - lo + 1).toNat lo hf.arr
    simp only [runHandler, collect, storeParts, h4, Bool.false_eq_true, if_false, setValueInt, hp, addRange, e1,
      Out.ok_bind, if_true, Out.ub_bind]
  · obtain ⟨h1, h2, h3⟩ := (C15_meaningless_iff v).1 (fun ⟨lo, hi, g⟩ => h lo hi g)
    exact C15_rejected_partial W a o v h1 hcomma h2 h3

/-- **C15** What an interval is. -/
theorem C15_interval (lo hi : Int) : (∀ n, n ∈ fromTo lo hi ↔ lo ≤ n ∧ n ≤ hi) ∧
    (fromTo lo hi).Pairwise (· < ·) := by
  constructor
  · intro n
    simp only [fromTo, List.mem_map, List.mem_range]
    constructor
    · rintro ⟨i, hi, rfl⟩; omega
    · intro h; exact ⟨(n - lo).toNat, by omega, by omega⟩
  · exact interval_ascending lo hi

/-- `fromTo` of any bounds: 3, 4, 5. -/
example : fromTo 3 5 = [3, 4, 5] ∧ fromTo 7 7 = [7] := by decide +kernel

theorem leadInt_numeral {v rest : Str} {n : Int} (h : NumeralThen v n rest) (h1 : intMin ≤ n) (h2 : n ≤ intMax) :
    LeadInt v n := ⟨n, .inl ⟨rest, h⟩, h1, h2, 0, by unfold intMin at h1; unfold intMax at h2; omega⟩

/-- Odd texts and their meanings: `1-2abc` is 1 to 2, `abc1-2` is 0 to 2, `4294967297` is 1, and `abc` has none. -/
theorem C15_odd_texts : RangeText c!"1-2abc" 1 2 ∧ RangeText c!"abc1-2" 0 2 ∧ RangeText c!"4294967297" 1 1 ∧
    RangeText c!"9-2:5" 2 9 ∧ RangeText c!"1-2147483647" 1 intMax ∧ ∀ lo hi, ¬ RangeText c!"abc" lo hi := by
  refine ⟨parseIntRange_iff.1 (by decide +kernel), parseIntRange_iff.1 (by decide +kernel),
    parseIntRange_iff.1 (by decide +kernel), parseIntRange_iff.1 (by decide +kernel),
    parseIntRange_iff.1 (by decide +kernel), fun lo hi h => ?_⟩
  have := parseIntRange_iff.2 h
  rw [show parseIntRange c!"abc" = none from by decide +kernel] at this
  cases this

/-- A case of the whole-parse theorem: `--nums 9-2:5,x1-3` leaves 2 to 9, then 0 to 3. -/
example : ∃ o', (optArrayInt 110 none).giveAll Sample.world [some c!"9-2:5,x1-3"] = some o' ∧
    [c!"9-2:5,x1-3"].flatMap pieces = [c!"9-2:5", c!"x1-3"] ∧ (optArrayInt 110 none).Fresh ∧
    RangeText c!"9-2:5" 2 9 ∧ RangeText c!"x1-3" 0 3 ∧
    Sample.oneText c!"9-2:5,x1-3" =
      some [.ok 2, .ok 3, .ok 4, .ok 5, .ok 6, .ok 7, .ok 8, .ok 9, .ok 0, .ok 1, .ok 2, .ok 3] := by
  exact ⟨_, rfl, by decide +kernel, ⟨rfl, rfl⟩, parseIntRange_iff.1 (by decide +kernel),
    parseIntRange_iff.1 (by decide +kernel), by decide +kernel⟩

end Argus
