import Verif.Lemmas.Collected
import Verif.Props.Final

/-!
# Properties C13, C15, C16, C17: array and variadic options

The specification is `Verif.Spec.Collect`: `pieces` of a text, `CollectsStrings`, `CollectsInts`,
`CollectsFloats` (which options collect what from which texts) and `Arranged` (what the flags mean).
-/

set_option autoImplicit false

namespace Argus

theorem GivenTexts.result {W : World} {env : Env} {a a' : Argus} {args : List Str} {p : Ptr} {o : Opt}
    {ts : List Str} (h : GivenTexts W env a args a' p o ts) :
    ∃ o', o.giveAll W (ts.map some) = some o' ∧ a'.getOpt p = .ok o' := by
  obtain ⟨o', h1, h2⟩ := C28_final_state W env a a' args p o h.ok h.opt h.kind
  rw [h.texts] at h2
  exact ⟨o', h2, h1⟩

/-! ## C13 -/

/-- **C13** for strings (full statement: also when the first text consists of commas only). Without
    SORTED and UNIQUE the elements of an array or variadic option after a successful parse are the
    concatenation, in order, of the strings its texts stand for. A first text made of commas only corrupts
    the option: see `C13_only_commas`. -/
theorem C13_strings_partial (W : World) (env : Env) (a a' : Argus) (args : List Str) (p : Ptr) (o : Opt)
    (part : Str → List Str) (ts : List Str) (hg : GivenTexts W env a args a' p o ts)
    (hc : CollectsStrings o part) (hf : o.Fresh) (hfirst : ∀ t ∈ ts.head?, part t ≠ [])
    (hs : o.flags.has .sorted = false) (hu : o.flags.has .unique = false) :
    ∃ o', a'.getOpt p = .ok o' ∧ o'.Strings (ts.flatMap part) := by
  obtain ⟨o1, e1, e2⟩ := hg.result
  obtain ⟨o', shown, f1, f2, f3, _⟩ := strings_after W hc hf hg.given hfirst
  rw [e1] at f1
  cases f1
  exact ⟨o1, e2, by rw [← f3.plain hs hu]; exact f2⟩

/-- **C13** for floats, with the same restriction. -/
theorem C13_floats_partial (W : World) (env : Env) (a a' : Argus) (args : List Str) (p : Ptr) (o : Opt)
    (ts : List Str) (xs : List F64) (hg : GivenTexts W env a args a' p o ts)
    (hc : CollectsFloats W o ts xs) (hf : o.Fresh) (hfirst : StartsWell ts)
    (hs : o.flags.has .sorted = false) (hu : o.flags.has .unique = false) :
    ∃ o', a'.getOpt p = .ok o' ∧ o'.Floats xs := by
  obtain ⟨o1, e1, e2⟩ := hg.result
  obtain ⟨o', shown, f1, f2, f3, _⟩ := floats_after W hc hf hg.given hfirst
  rw [e1] at f1
  cases f1
  exact ⟨o1, e2, by rw [← f3.plain hs hu]; exact f2⟩

/-- **C13** Such texts are always accepted by the option itself. -/
theorem C13_accepted_partial (W : World) (o : Opt) (part : Str → List Str) (ts : List Str)
    (hc : CollectsStrings o part) (hf : o.Fresh) (hne : ts ≠ []) (hfirst : ∀ t ∈ ts.head?, part t ≠ []) :
    ∃ o', o.giveAll W (ts.map some) = some o' := by
  obtain ⟨o', _, f1, _⟩ := strings_after W hc hf hne hfirst
  exact ⟨o', f1⟩

/-- **C13** A comma is repetition: giving `s,t` and giving `s` and `t` separately, in the midst of any
    other texts, leaves the same strings in the option. -/
theorem C13_comma_is_repetition_partial (W : World) (o o1 o2 : Opt) (before after : List Str) (s t : Str)
    (hh : o.handler = some .arrayString) (hv : o.valueType = .arrayString) (hf : o.Fresh)
    (hs : s ≠ []) (ht : t ≠ []) (h1 : StartsWell (before ++ [s ++ c!"," ++ t] ++ after))
    (h2 : StartsWell (before ++ [s, t] ++ after))
    (hso : o.flags.has .sorted = false) (hu : o.flags.has .unique = false)
    (e1 : o.giveAll W ((before ++ [s ++ c!"," ++ t] ++ after).map some) = some o1)
    (e2 : o.giveAll W ((before ++ [s, t] ++ after).map some) = some o2) :
    ∃ xs, o1.Strings xs ∧ o2.Strings xs := by
  obtain ⟨p1, shown1, f1, g1, k1, _⟩ := strings_after W (.array hh hv) hf (by simp) h1
  obtain ⟨p2, shown2, f2, g2, k2, _⟩ := strings_after W (.array hh hv) hf (by simp) h2
  rw [e1] at f1; cases f1
  rw [e2] at f2; cases f2
  refine ⟨shown1, g1, ?_⟩
  rw [k1.plain hso hu]
  rw [k2.plain hso hu] at g2
  have : (before ++ [s ++ c!"," ++ t] ++ after).flatMap pieces = (before ++ [s, t] ++ after).flatMap pieces := by
    simp only [List.flatMap_append, List.flatMap_cons, List.flatMap_nil, List.append_nil, pieces_comma hs ht]
  rw [this]
  exact g2

/-- A case of C13: `--tags a,b -t c,,d` leaves a, b, c, d. -/
example : ∃ a' o, GivenTexts Sample.world Sample.noEnv Sample.prog [c!"--tags", c!"a,b", c!"-t", c!"c,,d"] a' ⟨0, 4⟩ o
      [c!"a,b", c!"c,,d"] ∧ CollectsStrings o pieces ∧ o.Fresh ∧ StartsWell [c!"a,b", c!"c,,d"] ∧
      [c!"a,b", c!"c,,d"].flatMap pieces = [c!"a", c!"b", c!"c", c!"d"] := by
  refine ⟨_, _, ⟨rfl, rfl, by decide, by decide +kernel, by simp⟩, .array rfl rfl, ⟨rfl, rfl⟩, ?_, by decide +kernel⟩
  intro t ht
  simp only [List.head?_cons, Option.mem_def, Option.some.injEq] at ht
  subst ht
  decide +kernel

/-- **C13** fails for a text of commas: the option then claims one element but has none, and reading that
    element is a NULL dereference. -/
theorem C13_only_commas :
    ∃ a' o', argusParse Sample.world Sample.noEnv Sample.prog [c!"--tags=,"] = .ok (.returned Err.success, a') ∧
      a'.getOpt ⟨0, 4⟩ = .ok o' ∧ o'.valueCount = 1 ∧ o'.value = .null ∧ (∀ xs, ¬ o'.Strings xs) ∧
      argusArrayGet a' c!"tags" 0 = .ub .nullDeref := by
  refine ⟨_, _, rfl, rfl, by decide +kernel, by decide +kernel, ?_, by decide +kernel⟩
  rintro xs ⟨cells, ⟨h, _⟩, _⟩
  cases h

/-! ## C15 -/

/-- **C15** (full statement: for all integers). For an int array option without SORTED and UNIQUE, given
    any numbers and ranges below INT_MAX written in decimal, separated by commas or in separate
    occurrences, a successful parse leaves exactly the listed numbers and expanded ranges, in order.
    Missing: numbers that do not fit an `int` are truncated (`C15_truncated`) and a range or number
    ending at INT_MAX overflows (`C15_int_max`). -/
theorem C15_expand_partial (W : World) (env : Env) (a a' : Argus) (args : List Str) (p : Ptr) (o : Opt)
    (ts : List Str) (ps : List IntPiece) (hg : GivenTexts W env a args a' p o ts)
    (hh : o.handler = some .arrayInt) (hv : o.valueType = .arrayInt) (hf : o.Fresh)
    (hp : ts.flatMap pieces = ps.map IntPiece.text) (hfit : ∀ q ∈ ps, q.Fits) (hfirst : StartsWell ts)
    (hs : o.flags.has .sorted = false) (hu : o.flags.has .unique = false) :
    ∃ o', a'.getOpt p = .ok o' ∧ o'.Ints (ps.flatMap IntPiece.ints) := by
  obtain ⟨o1, e1, e2⟩ := hg.result
  obtain ⟨o', shown, f1, f2, f3, _⟩ := ints_after W (.array ps hh hv hp hfit) hf hg.given hfirst
  rw [e1] at f1
  cases f1
  exact ⟨o1, e2, by rw [← f3.plain hs hu]; exact f2⟩

/-- **C15** Such texts are accepted by the option. -/
theorem C15_accepted_partial (W : World) (o : Opt) (ts : List Str) (ps : List IntPiece)
    (hh : o.handler = some .arrayInt) (hv : o.valueType = .arrayInt) (hf : o.Fresh) (hne : ts ≠ [])
    (hp : ts.flatMap pieces = ps.map IntPiece.text) (hfit : ∀ q ∈ ps, q.Fits) (hfirst : StartsWell ts) :
    ∃ o', o.giveAll W (ts.map some) = some o' := by
  obtain ⟨o', _, f1, _⟩ := ints_after W (.array ps hh hv hp hfit) hf hne hfirst
  exact ⟨o', f1⟩

/-- What the expansion is: the integers from the smaller to the larger bound, each once, ascending. -/
theorem C15_ints_of_range (x y : Int) (colon : Bool) :
    (∀ n, n ∈ (IntPiece.range x colon y).ints ↔ min x y ≤ n ∧ n ≤ max x y) ∧
    (IntPiece.range x colon y).ints.Pairwise (· < ·) := by
  constructor
  · intro n
    simp only [IntPiece.ints, List.mem_map, List.mem_range]
    constructor
    · rintro ⟨i, hi, rfl⟩; omega
    · intro h; exact ⟨(n - min x y).toNat, by omega, by omega⟩
  · simp only [IntPiece.ints]
    rw [List.pairwise_map]
    exact List.pairwise_lt_range.imp (fun h => by omega)

/-- **C15** (full statement: any text that is neither a number nor a range). A non-empty text without
    comma and range separator that is not a number is rejected with ARGUS_ERROR_INVALID_FORMAT and leaves
    the option as it was. Texts with a separator are never rejected, and the empty text is taken for 0: see
    `C15_garbage_accepted`. -/
theorem C15_rejected_partial (W : World) (a : Argus) (o : Opt) (v : Str) (hne : v ≠ []) (hcomma : (44 : Byte) ∉ v)
    (hsep : ¬ HasSeparator v) (hnum : ∀ n, ¬ IsNumeral v n) :
    runHandler W a .arrayInt o (some v) = .ok (Err.invalidFormat, o, [.error Err.invalidFormat]) := by
  have h1 : searchSep none v = none := by
    cases h : searchSep none v with
    | none => rfl
    | some r =>
      rcases searchSep_some h with h2 | ⟨_, _, _, _, h2, _⟩
      · obtain ⟨l, d, sep, e, r', q⟩ := h2
        exact absurd ⟨l, d, sep, e, r', q⟩ hsep
      · cases h2
  have h2 : (strtoll v).2 ≠ [] := by
    by_cases hp : ∃ n rest, NumeralThen v n rest
    · obtain ⟨n, rest, hp⟩ := hp
      rw [strtoll_numeral hp]
      rintro rfl
      exact hnum n hp
    · rw [strtoll_other (fun n rest h => hp ⟨n, rest, h⟩)]
      exact hne
  have h3 : parseIntRange v = none := by
    unfold parseIntRange
    rw [h1]
    simp only [h2, ne_eq, not_false_eq_true, if_true]
  have h4 : v.contains 44 = false := by simpa using hcomma
  simp only [runHandler, collect, storeParts, h4, Bool.false_eq_true, if_false, setValueInt, h3, Out.ok_bind]
  rw [if_pos (by decide)]

/-- A case of the rejection: `abc`. -/
example : (c!"abc" : Str) ≠ [] ∧ (44 : Byte) ∉ c!"abc" ∧
    runHandler Sample.world Sample.prog .arrayInt (optArrayInt 110 none) (some c!"abc") =
      .ok (Err.invalidFormat, optArrayInt 110 none, [.error Err.invalidFormat]) := by
  refine ⟨by decide, by decide +kernel, by decide +kernel⟩

/-- The integers left by one text in a fresh int array. -/
def Sample.oneText (v : Str) : Option (List (Out Int)) :=
  ((optArrayInt 110 none).give Sample.world (some v)).map (fun o =>
    match o.value with
    | .arr cells => cells.map Word.asInt
    | _ => [])

/-- A case of C15: `3-1,7,-2:0`. -/
example : ∃ o', (optArrayInt 110 none).giveAll Sample.world [some c!"3-1,7,-2:0"] = some o' ∧
    [c!"3-1,7,-2:0"].flatMap pieces =
      [IntPiece.range 3 false 1, .one 7, .range (-2) true 0].map IntPiece.text ∧
    (∀ q ∈ [IntPiece.range 3 false 1, .one 7, .range (-2) true 0], q.Fits) ∧
    Sample.oneText c!"3-1,7,-2:0" = some [.ok 1, .ok 2, .ok 3, .ok 7, .ok (-2), .ok (-1), .ok 0] := by
  refine ⟨_, rfl, by decide +kernel, ?_, by decide +kernel⟩
  intro q hq
  simp only [List.mem_cons, List.not_mem_nil, or_false] at hq
  rcases hq with rfl | rfl | rfl <;> simp [IntPiece.Fits, intMin, intMax]

/-- **C15** fails for garbage around a range, and for the empty text. -/
theorem C15_garbage_accepted :
    Sample.oneText c!"1-2abc" = some [.ok 1, .ok 2] ∧ Sample.oneText c!"abc1-2" = some [.ok 0, .ok 1, .ok 2] ∧
    Sample.oneText c!"" = some [.ok 0] := by decide +kernel

/-- **C15** fails for numbers beyond `int`: 4294967297 is stored as 1. -/
theorem C15_truncated : Sample.oneText c!"4294967297" = some [.ok 1] := by decide +kernel

/-- **C15** fails at INT_MAX: a number or range ending there makes the loop variable overflow, which is
    undefined behaviour. -/
theorem C15_int_max (W : World) (a : Argus) (o : Opt) (n : Int) (hn : intMin ≤ n) (hm : n ≤ intMax)
    (hf : o.Fresh) :
    runHandler W a .arrayInt o (some (showInt n ++ c!":" ++ showInt intMax)) = .ub .intOverflow := by
  have h1 : parseIntRange (showInt n ++ c!":" ++ showInt intMax) = some (n, intMax) := by
    have := parseIntRange_two (a := n) (b := intMax) (sep := 58) (.inr rfl) hn hm (by decide) (by decide)
    have e : min n intMax = n ∧ max n intMax = intMax := by omega
    rw [e.1, e.2] at this
    simpa using this
  have h2 : (showInt n ++ c!":" ++ showInt intMax).contains 44 = false := by
    have hd : ∀ m : Int, (44 : Byte) ∉ showInt m := by
      intro m hmem
      obtain ⟨sign, d, ds, e, hd, hds, hs⟩ := showInt_shape m
      rw [e] at hmem
      rcases List.mem_append.1 hmem with h | h
      · rcases hs with rfl | rfl
        · simp at h
        · simp at h
      · rcases List.mem_cons.1 h with rfl | h
        · exact absurd hd (by decide)
        · exact absurd (hds _ h) (by decide)
    have : (44 : Byte) ∉ showInt n ++ c!":" ++ showInt intMax := by
      simp only [List.mem_append, not_or]
      exact ⟨⟨hd n, by decide +kernel⟩, hd intMax⟩
    simpa using this
  obtain ⟨o', e1, _⟩ := addRangeLoop_arr (intMax - n + 1).toNat n hf.arr
  simp only [runHandler, collect, storeParts, h2, Bool.false_eq_true, if_false, setValueInt, h1, addRange, e1,
    Out.ok_bind, if_true, Out.ub_bind]

/-! ## C16 -/

/-- **C16** for strings: after any occurrences of an array or variadic option with FLAG_SORTED its strings
    ascend in byte order, and without UNIQUE they are a permutation of those given. (Full statement: also
    when the first text consists of commas only, see `C13_only_commas`.) -/
theorem C16_strings_partial (W : World) (o o' : Opt) (part : Str → List Str) (ts : List Str)
    (hc : CollectsStrings o part) (hf : o.Fresh) (hne : ts ≠ []) (hfirst : ∀ t ∈ ts.head?, part t ≠ [])
    (hs : o.flags.has .sorted = true) (ho : o.giveAll W (ts.map some) = some o') :
    ∃ shown, o'.Strings shown ∧ shown.Pairwise (fun x y => x ≤ y) ∧
      (o.flags.has .unique = false → shown.Perm (ts.flatMap part)) := by
  obtain ⟨o1, shown, f1, f2, f3, _⟩ := strings_after W hc hf hne hfirst
  rw [ho] at f1; cases f1
  exact ⟨shown, f2, f3.sorted hs, f3.perm⟩

/-- **C16** for ints (full statement: for all integers). Missing: numbers of variadic int positionals that
    do not fit an `int`, see `C16_int64_order`. -/
theorem C16_ints_partial (W : World) (o o' : Opt) (ts : List Str) (xs : List Int)
    (hc : CollectsInts o ts xs) (hf : o.Fresh) (hne : ts ≠ []) (hfirst : StartsWell ts)
    (hs : o.flags.has .sorted = true) (ho : o.giveAll W (ts.map some) = some o') :
    ∃ shown, o'.Ints shown ∧ shown.Pairwise (fun x y => x ≤ y) ∧
      (o.flags.has .unique = false → shown.Perm xs) := by
  obtain ⟨o1, shown, f1, f2, f3, _⟩ := ints_after W hc hf hne hfirst
  rw [ho] at f1; cases f1
  exact ⟨shown, f2, f3.sorted hs, f3.perm⟩

/-- **C16** for doubles: no later element is smaller than an earlier one, provided no NaN was given (NaN
    cannot be ordered). -/
theorem C16_floats_partial (W : World) (o o' : Opt) (ts : List Str) (xs : List F64)
    (hc : CollectsFloats W o ts xs) (hf : o.Fresh) (hne : ts ≠ []) (hfirst : StartsWell ts)
    (hs : o.flags.has .sorted = true) (hn : ∀ x ∈ xs, F64.isNaN x = false)
    (ho : o.giveAll W (ts.map some) = some o') :
    ∃ shown, o'.Floats shown ∧ shown.Pairwise (fun x y => F64.lt y x = false) ∧
      (o.flags.has .unique = false → shown.Perm xs) := by
  obtain ⟨o1, shown, f1, f2, f3, _⟩ := floats_after W hc hf hne hfirst
  rw [ho] at f1; cases f1
  exact ⟨shown, f2, f3.sorted hs hn, f3.perm⟩

/-- **C16** at the level of a whole parse, for strings. -/
theorem C16_parse_partial (W : World) (env : Env) (a a' : Argus) (args : List Str) (p : Ptr) (o : Opt)
    (part : Str → List Str) (ts : List Str) (hg : GivenTexts W env a args a' p o ts)
    (hc : CollectsStrings o part) (hf : o.Fresh) (hfirst : ∀ t ∈ ts.head?, part t ≠ [])
    (hs : o.flags.has .sorted = true) :
    ∃ o' shown, a'.getOpt p = .ok o' ∧ o'.Strings shown ∧ shown.Pairwise (fun x y => x ≤ y) ∧
      (o.flags.has .unique = false → shown.Perm (ts.flatMap part)) := by
  obtain ⟨o1, e1, e2⟩ := hg.result
  obtain ⟨shown, h⟩ := C16_strings_partial W o o1 part ts hc hf hg.given hfirst hs e1
  exact ⟨o1, shown, e2, h⟩

/-- **C16** at the level of a whole parse, for ints. -/
theorem C16_parse_ints_partial (W : World) (env : Env) (a a' : Argus) (args : List Str) (p : Ptr) (o : Opt)
    (ts : List Str) (xs : List Int) (hg : GivenTexts W env a args a' p o ts)
    (hc : CollectsInts o ts xs) (hf : o.Fresh) (hfirst : StartsWell ts) (hs : o.flags.has .sorted = true) :
    ∃ o' shown, a'.getOpt p = .ok o' ∧ o'.Ints shown ∧ shown.Pairwise (fun x y => x ≤ y) ∧
      (o.flags.has .unique = false → shown.Perm xs) := by
  obtain ⟨o1, e1, e2⟩ := hg.result
  obtain ⟨shown, h⟩ := C16_ints_partial W o o1 ts xs hc hf hg.given hfirst hs e1
  exact ⟨o1, shown, e2, h⟩

/-- A sorted variadic int positional. -/
def Sample.sortedInts (fl : List Flag) : Opt := { posManyInt c!"n" with flags := Flags.ofList fl }

/-- The 64-bit integers of a variadic int positional after some texts. -/
def Sample.int64s (o : Opt) (ts : List Str) : Option (List (Out Int)) :=
  (o.giveAll Sample.world (ts.map some)).map (fun o =>
    match o.value with
    | .arr cells => cells.map Word.asInt64
    | _ => [])

/-- A case of C16: 3, -5, 3 are shown as -5, 3, 3. -/
example : CollectsInts (Sample.sortedInts [.sorted]) [c!"3", c!"-5", c!"+3"] [3, -5, 3] ∧
    (Sample.sortedInts [.sorted]).Fresh ∧ StartsWell [c!"3", c!"-5", c!"+3"] ∧
    Sample.int64s (Sample.sortedInts [.sorted]) [c!"3", c!"-5", c!"+3"] = some [.ok (-5), .ok 3, .ok 3] := by
  refine ⟨.variadic [(c!"3", 3), (c!"-5", -5), (c!"+3", 3)] rfl rfl rfl ?_, ⟨rfl, rfl⟩, ?_, by decide +kernel⟩
  · intro n hn
    simp only [List.mem_cons, List.not_mem_nil, or_false] at hn
    rcases hn with rfl | rfl | rfl
    · exact ⟨⟨[], [], c!"3", rfl, by simp, .inl rfl, by decide, by decide, by decide +kernel, by simp⟩, by decide, by decide⟩
    · exact ⟨⟨[], c!"-", c!"5", rfl, by simp, .inr (.inr rfl), by decide, by decide, by decide +kernel, by simp⟩, by decide, by decide⟩
    · exact ⟨⟨[], c!"+", c!"3", rfl, by simp, .inr (.inl rfl), by decide, by decide, by decide +kernel, by simp⟩, by decide, by decide⟩
  · intro t ht
    simp only [List.head?_cons, Option.mem_def, Option.some.injEq] at ht
    subst ht
    decide +kernel

/-- **C16** fails beyond `int`: the comparison looks at the low 32 bits only, so 4294967296 comes before
    1 in a sorted variadic int positional. -/
theorem C16_int64_order :
    Sample.int64s (Sample.sortedInts [.sorted]) [c!"1", c!"4294967296"] = some [.ok 4294967296, .ok 1] := by
  decide +kernel

/-! ## C17 -/

/-- **C17** for strings: after any occurrences of an array or variadic option with FLAG_UNIQUE no string
    occurs twice, the strings shown are exactly those given, and without SORTED they are in the order of
    their first occurrence. (Full statement: also when the first text consists of commas only.) -/
theorem C17_strings_partial (W : World) (o o' : Opt) (part : Str → List Str) (ts : List Str)
    (hc : CollectsStrings o part) (hf : o.Fresh) (hne : ts ≠ []) (hfirst : ∀ t ∈ ts.head?, part t ≠ [])
    (hu : o.flags.has .unique = true) (ho : o.giveAll W (ts.map some) = some o') :
    ∃ shown, o'.Strings shown ∧ shown.Nodup ∧ (∀ s, s ∈ shown ↔ ∃ t ∈ ts, s ∈ part t) ∧
      (o.flags.has .sorted = false → shown = (ts.flatMap part).eraseDups) := by
  obtain ⟨o1, shown, f1, f2, f3, _⟩ := strings_after W hc hf hne hfirst
  rw [ho] at f1; cases f1
  refine ⟨shown, f2, f3.nodup hu, fun s => by rw [f3.mem, List.mem_flatMap], fun hs => ?_⟩
  rw [f3.firsts hu hs, eraseDups_str]

/-- **C17** for ints (full statement: for all integers). Missing: numbers of variadic int positionals that
    do not fit an `int`, see `C17_int64_lost`. -/
theorem C17_ints_partial (W : World) (o o' : Opt) (ts : List Str) (xs : List Int)
    (hc : CollectsInts o ts xs) (hf : o.Fresh) (hne : ts ≠ []) (hfirst : StartsWell ts)
    (hu : o.flags.has .unique = true) (ho : o.giveAll W (ts.map some) = some o') :
    ∃ shown, o'.Ints shown ∧ shown.Nodup ∧ (∀ x, x ∈ shown ↔ x ∈ xs) ∧
      (o.flags.has .sorted = false → shown = xs.eraseDups) := by
  obtain ⟨o1, shown, f1, f2, f3, _⟩ := ints_after W hc hf hne hfirst
  rw [ho] at f1; cases f1
  exact ⟨shown, f2, f3.nodup hu, f3.mem, f3.firsts hu⟩

/-- **C17** for doubles (full statement: no two equal elements, no value lost). Proved: no two finite
    elements are equal, nothing is invented, and without SORTED every value is kept or less than 0.0000001
    away from a kept one. What is missing is false: see `C17_near_lost`, `C17_infinity_twice` and
    `C17_sorted_unique_lost`. -/
theorem C17_floats_partial (W : World) (o o' : Opt) (ts : List Str) (xs : List F64)
    (hc : CollectsFloats W o ts xs) (hf : o.Fresh) (hne : ts ≠ []) (hfirst : StartsWell ts)
    (hu : o.flags.has .unique = true) (ho : o.giveAll W (ts.map some) = some o') :
    ∃ shown, o'.Floats shown ∧
      shown.Pairwise (fun x y => F64.isFinite x = true → F64.isFinite y = true → x ≠ y) ∧
      (∀ x ∈ shown, x ∈ xs) ∧
      (o.flags.has .sorted = false → ∀ x ∈ xs, x ∈ shown ∨ ∃ y ∈ shown, F64.near x y = true) := by
  obtain ⟨o1, shown, f1, f2, f3, _⟩ := floats_after W hc hf hne hfirst
  rw [ho] at f1; cases f1
  refine ⟨shown, f2, (f3.apart hu).imp (fun {x y} h hx hy he => ?_), f3.sub, f3.cover hu⟩
  subst he
  unfold F64.near at h
  rw [hx] at h
  have hpos : 0 < F64.epsMid := by
    unfold F64.epsMid
    exact Nat.mul_pos (by decide) (Nat.pow_pos (by decide))
  simp at h
  omega

/-- **C17** at the level of a whole parse, for strings. -/
theorem C17_parse_partial (W : World) (env : Env) (a a' : Argus) (args : List Str) (p : Ptr) (o : Opt)
    (part : Str → List Str) (ts : List Str) (hg : GivenTexts W env a args a' p o ts)
    (hc : CollectsStrings o part) (hf : o.Fresh) (hfirst : ∀ t ∈ ts.head?, part t ≠ [])
    (hu : o.flags.has .unique = true) :
    ∃ o' shown, a'.getOpt p = .ok o' ∧ o'.Strings shown ∧ shown.Nodup ∧
      (∀ s, s ∈ shown ↔ ∃ t ∈ ts, s ∈ part t) ∧
      (o.flags.has .sorted = false → shown = (ts.flatMap part).eraseDups) := by
  obtain ⟨o1, e1, e2⟩ := hg.result
  obtain ⟨shown, h⟩ := C17_strings_partial W o o1 part ts hc hf hg.given hfirst hu e1
  exact ⟨o1, shown, e2, h⟩

/-- **C17** at the level of a whole parse, for ints. -/
theorem C17_parse_ints_partial (W : World) (env : Env) (a a' : Argus) (args : List Str) (p : Ptr) (o : Opt)
    (ts : List Str) (xs : List Int) (hg : GivenTexts W env a args a' p o ts)
    (hc : CollectsInts o ts xs) (hf : o.Fresh) (hfirst : StartsWell ts) (hu : o.flags.has .unique = true) :
    ∃ o' shown, a'.getOpt p = .ok o' ∧ o'.Ints shown ∧ shown.Nodup ∧ (∀ x, x ∈ shown ↔ x ∈ xs) ∧
      (o.flags.has .sorted = false → shown = xs.eraseDups) := by
  obtain ⟨o1, e1, e2⟩ := hg.result
  obtain ⟨shown, h⟩ := C17_ints_partial W o o1 ts xs hc hf hg.given hfirst hu e1
  exact ⟨o1, shown, e2, h⟩

/-- A case of C17: `b,a` then `a,c` with FLAG_UNIQUE gives b, a, c. -/
example : CollectsStrings { optArrayString 116 none with flags := Flags.ofList [.unique] } pieces ∧
    StartsWell [c!"b,a", c!"a,c"] ∧
    ∃ o', ({ optArrayString 116 none with flags := Flags.ofList [.unique] } : Opt).giveAll Sample.world
        [some c!"b,a", some c!"a,c"] = some o' ∧
      o'.value = .arr [.ptr c!"b", .ptr c!"a", .ptr c!"c"] := by
  refine ⟨.array rfl rfl, ?_, _, rfl, by decide +kernel⟩
  intro t ht
  simp only [List.head?_cons, Option.mem_def, Option.some.injEq] at ht
  subst ht
  decide +kernel

/-- **C17** fails beyond `int`: 4294967297 is taken for a duplicate of 1. -/
theorem C17_int64_lost :
    Sample.int64s (Sample.sortedInts [.unique]) [c!"1", c!"4294967297"] = some [.ok 1] := by decide +kernel

/-- A world that reads `0`, `a`, `b`, `i` as 0, 9e-8 (rounded to binary32), 1.8e-7 (likewise) and infinity. -/
def Sample.smallFloats : List (Str × F64) :=
  [(c!"a", 0x3E78289400000000#64), (c!"b", 0x3E88289400000000#64), (c!"i", 0x7FF0000000000000#64)]

def Sample.smallFloat (s : Str) : F64 :=
  ((Sample.smallFloats.find? (fun p => p.1 == s)).map (·.2)).getD 0

def Sample.smallWorld : World :=
  { Sample.world with
    strtof := Sample.smallFloat
    strtof_low := fun s => by
      unfold Sample.smallFloat Sample.smallFloats
      simp only [List.find?]
      repeat' split
      all_goals decide }

/-- The doubles of a float array with the given flags after some texts. -/
def Sample.floatArray (fl : List Flag) (ts : List Str) : Option Val :=
  (({ optArrayFloat 102 none with flags := Flags.ofList fl } : Opt).giveAll Sample.smallWorld (ts.map some)).map
    (·.value)

/-- **C17** fails for doubles: the value 9e-8 is dropped because 0 is present. -/
theorem C17_near_lost : Sample.floatArray [.unique] [c!"0", c!"a"] = some (.arr [.bits 0]) := by decide +kernel

/-- **C17** fails for doubles: infinity is kept twice. -/
theorem C17_infinity_twice : Sample.floatArray [.unique] [c!"i", c!"i"] =
    some (.arr [.bits 0x7FF0000000000000#64, .bits 0x7FF0000000000000#64]) := by decide +kernel

/-- **C17** fails for doubles: with SORTED and UNIQUE a value can get lost without anything near it
    remaining. After 9e-8 the value 1.8e-7 is dropped as its duplicate, and then 9e-8 itself is dropped as a
    duplicate of 0, although 1.8e-7 and 0 are not near each other. -/
theorem C17_sorted_unique_lost :
    Sample.floatArray [.sorted, .unique] [c!"a,b", c!"0"] = some (.arr [.bits 0]) ∧
    F64.near (Sample.smallFloat c!"b") 0 = false ∧
    Sample.floatArray [.sorted, .unique] [c!"0,a,b"] = some (.arr [.bits 0, .bits 0x3E88289400000000#64]) := by
  decide +kernel

/-- A case of C13 with the environment: with TAGS=x,y in the environment `prog --tags a,b` leaves a, b, x, y when the
    variable overrides. -/
example : ∃ a' o, GivenTexts Sample.world (Sample.env1 c!"TAGS" c!"x,y") Sample.envTags [c!"--tags", c!"a,b"] a' ⟨0, 1⟩ o
      [c!"a,b", c!"x,y"] ∧ CollectsStrings o pieces ∧ o.Fresh ∧
      [c!"a,b", c!"x,y"].flatMap pieces = [c!"a", c!"b", c!"x", c!"y"] :=
  ⟨_, _, ⟨rfl, rfl, by decide, by decide +kernel, by simp⟩, .array rfl rfl, ⟨rfl, rfl⟩, by decide +kernel⟩

/-- A world that reads `n` as NaN, `1` and `2` as 1 and 2. -/
def Sample.nanFloat (s : Str) : F64 :=
  if s = c!"n" then 0x7FF8000000000000#64 else if s = c!"1" then 0x3FF0000000000000#64
  else if s = c!"2" then 0x4000000000000000#64 else 0

def Sample.nanWorld : World :=
  { Sample.world with
    strtof := Sample.nanFloat
    strtof_low := fun s => by
      unfold Sample.nanFloat
      repeat' split
      all_goals decide }

/-- **C16** fails for doubles when a NaN is among them: it counts as equal to everything, which makes the comparison
    inconsistent, and a conforming `qsort` may leave 2 before 1. -/
theorem C16_nan_order : ∃ o', ({ optArrayFloat 102 none with flags := Flags.ofList [.sorted] } : Opt).giveAll
      Sample.nanWorld [some c!"2,n,1"] = some o' ∧
    o'.value = .arr [.bits 0x4000000000000000#64, .bits 0x7FF8000000000000#64, .bits 0x3FF0000000000000#64] ∧
    F64.lt 0x3FF0000000000000#64 0x4000000000000000#64 = true := by
  refine ⟨_, rfl, by decide +kernel, by decide +kernel⟩

end Argus
