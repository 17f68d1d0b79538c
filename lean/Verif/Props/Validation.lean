import Verif.Lemmas.Validate
import Verif.Props.Env
import Verif.Props.Values

/-!
# C22–C27: validation after parsing

The conditions (`Meets`, `LevelOk`, `Refusal`) are stated in Spec/Constraints without reference to the
code that checks them.
-/

set_option autoImplicit false

namespace Argus

theorem Selected.onPath {W : World} {env : Env} {a a' : Argus} {args : List Str} {p : Ptr}
    (hok : argusParse W env a args = .ok (.returned Err.success, a')) (h : Selected a a' p) :
    a'.OnPath p.tbl := by
  obtain ⟨_, _, _, hf⟩ := argusParse_frame hok
  rcases h with h | ⟨q, hq, cmd, ho, hs⟩
  · exact .inl (h.trans hf.root.symm)
  · obtain ⟨cmd', h1, h2⟩ := shape_getOpt hf.shape ho
    exact .inr ⟨q, hq, cmd', h1,
      (congrArg Opt.subOptions h2 : cmd'.meta.subOptions = cmd.meta.subOptions).trans hs⟩

/-- After a successful parse a set option of the selected path meets all its validators. -/
theorem argusParse_meets {W : World} {env : Env} {a a' : Argus} {args : List Str} {p : Ptr} {o o' : Opt}
    {v : Validator} (hok : argusParse W env a args = .ok (.returned Err.success, a'))
    (ho : a.getOpt p = .ok o) (hp : Selected a a' p) (hg : o.type ≠ .group)
    (hv : v ∈ o.validators.getD []) (hpost : v.order = .post)
    (ho' : a'.getOpt p = .ok o') (hs : o'.isSet = true) : Meets W o' v.kind := by
  obtain ⟨_, _, _, hf⟩ := argusParse_frame hok
  obtain ⟨o1, h1, h2⟩ := shape_getOpt hf.shape ho
  rw [ho'] at h1; cases h1
  obtain ⟨os, h3, h4⟩ := getOpt_eq_ok.1 ho'
  have hc := argusParse_checked hok (hp.onPath hok) h3
  refine (hc.entry (List.mem_of_getElem? h4)).val ?_ hs v ?_ hpost
  · rw [show o'.type = o.type from (congrArg Opt.type h2 : o'.meta.type = o.meta.type)]; exact hg
  · rw [show o'.validators = o.validators from
      (congrArg Opt.validators h2 : o'.meta.validators = o.meta.validators)]
    exact hv

/-! ## C22 -/

/-- **C22** (full statement: the bounds hold for the value read as `as_int` and as `as_int64`). Proved for
    `as_int`: after a successful parse the value of a set option with V_RANGE lies in the range. For
    `as_int64` see `C22_int64_escapes`. -/
theorem C22_range_partial (W : World) (env : Env) (a a' : Argus) (args : List Str) (p : Ptr) (o o' : Opt)
    (mn mx : Int) (hok : argusParse W env a args = .ok (.returned Err.success, a'))
    (ho : a.getOpt p = .ok o) (hp : Selected a a' p) (hg : o.type ≠ .group)
    (hv : vRange mn mx ∈ o.validators.getD []) (ho' : a'.getOpt p = .ok o') (hs : o'.isSet = true) :
    ∃ n, o'.ReadsInt n ∧ mn ≤ n ∧ n ≤ mx :=
  argusParse_meets hok ho hp hg hv rfl ho' hs

theorem toInt_truncate {n : Int} (h1 : -2147483648 ≤ n) (h2 : n ≤ 2147483647) :
    ((BitVec.ofInt 64 n).truncate 32).toInt = n := by
  rw [BitVec.truncate_eq_setWidth]
  rw [BitVec.toInt_setWidth, BitVec.toNat_ofInt]
  simp only [Int.bmod_def]
  omega

/-- **C22** in terms of what was typed: if the last text for an int option with V_RANGE is the decimal
    representation of a 32-bit integer and the parse succeeds, then that integer lies in the range, and
    both `as_int` and `as_int64` give it. -/
theorem C22_typed_partial (W : World) (env : Env) (a a' : Argus) (args : List Str) (p : Ptr) (o : Opt)
    (earlier : List (Option Str)) (n mn mx : Int)
    (hok : argusParse W env a args = .ok (.returned Err.success, a'))
    (ho : a.getOpt p = .ok o) (hp : Selected a a' p) (ht : o.type ≠ .subcommand) (hg : o.type ≠ .group)
    (hh : o.handler = some .int)
    (hv : vRange mn mx ∈ o.validators.getD [])
    (hlast : allTexts env a args p o = earlier ++ [some (showInt n)])
    (hmin : -2147483648 ≤ n) (hmax : n ≤ 2147483647) :
    mn ≤ n ∧ n ≤ mx ∧ ∃ o', a'.getOpt p = .ok o' ∧ o'.ReadsInt n ∧ o'.ReadsInt64 n := by
  obtain ⟨o', h1, h2, hset⟩ := C11_last_text W env a a' args p o .int earlier _ hok ho ht hh rfl hlast
  have hs := strtoll_showInt n [] (by simp)
  rw [List.append_nil] at hs
  have h2 : o'.value = .word (.bits (BitVec.ofInt 64 (strtoll (showInt n)).1)) := h2
  rw [hs, clampLL_id (by unfold llongMin; omega) (by unfold llongMax; omega)] at h2
  have hr : o'.ReadsInt n := ⟨_, h2, congrArg Out.ok (toInt_truncate hmin hmax)⟩
  obtain ⟨m, ⟨w, hw, hm⟩, h3, h4⟩ := C22_range_partial W env a a' args p o o' mn mx hok ho hp hg hv h1 hset
  obtain ⟨w', hw', hn⟩ := hr
  rw [hw] at hw'; cases hw'
  rw [hm] at hn; cases hn
  exact ⟨h3, h4, o', h1, ⟨w, hw, hm⟩, _, h2, congrArg Out.ok (ofInt64_toInt (by unfold llongMin; omega) (by unfold llongMax; omega))⟩

/-- **C22** The validator rejects a value outside the range, always with ARGUS_ERROR_INVALID_RANGE. -/
theorem C22_rejects (W : World) (o : Opt) (mn mx n : Int) (hn : o.ReadsInt n) :
    runPost W (.range mn mx) o = .ok (if mn ≤ n ∧ n ≤ mx then (Err.success, none)
      else (Err.invalidRange, some Err.invalidRange)) := by
  simp only [runPost, rangeValidator]
  by_cases h : mn > mx
  · rw [if_pos h, if_neg (by omega)]; rfl
  · rw [if_neg h, asInt_iff.2 hn, Out.ok_bind]
    by_cases h1 : n < mn ∨ n > mx
    · rw [if_pos h1, if_neg (by omega)]; rfl
    · rw [if_neg h1, if_pos (by omega)]; rfl

/-- A case of `C22_typed_partial`: `--port 80` with V_RANGE(1, 65535). -/
example : ∃ a', argusParse Sample.world Sample.noEnv Sample.prog [c!"--port", c!"80"] =
      .ok (.returned Err.success, a') ∧ Selected Sample.prog a' ⟨0, 6⟩ ∧
    ∃ o, Sample.prog.getOpt ⟨0, 6⟩ = .ok o ∧ vRange 1 65535 ∈ o.validators.getD [] ∧
      allTexts Sample.noEnv Sample.prog [c!"--port", c!"80"] ⟨0, 6⟩ o = [] ++ [some (showInt 80)] :=
  ⟨_, rfl, .inl rfl, _, rfl, by decide, by decide +kernel⟩

/-- **C22** fails for `as_int64`: `--port 4294967376` passes V_RANGE(1, 65535), because the validator looks
    at the low 32 bits, and reads back as 4294967376. -/
theorem C22_int64_escapes : ∃ a' o', argusParse Sample.world Sample.noEnv Sample.prog
      [c!"--port", c!"4294967376"] = .ok (.returned Err.success, a') ∧
    a'.getOpt ⟨0, 6⟩ = .ok o' ∧ vRange 1 65535 ∈ o'.validators.getD [] ∧ o'.ReadsInt64 4294967376 :=
  ⟨_, _, rfl, rfl, by decide, _, rfl, by decide +kernel⟩

/-! ## C23 -/

/-- **C23** (full statement: V_RANGE accepts exactly the floats in the range, V_CHOICE_FLOAT exactly the
    listed ones). Proved: after a successful parse the value of a set option with V_CHOICE_FLOAT compares
    equal to a listed one, and the validator rejects every other value. V_RANGE does not compare floats at
    all and V_CHOICE_FLOAT misses values that binary32 cannot represent: see the two theorems below. -/
theorem C23_choice_partial (W : World) (env : Env) (a a' : Argus) (args : List Str) (p : Ptr) (o o' : Opt)
    (cs : List F64) (hok : argusParse W env a args = .ok (.returned Err.success, a'))
    (ho : a.getOpt p = .ok o) (hp : Selected a a' p) (hg : o.type ≠ .group)
    (hv : vChoiceFloat cs ∈ o.validators.getD []) (ho' : a'.getOpt p = .ok o') (hs : o'.isSet = true) :
    ∃ x, o'.ReadsFloat x ∧ ∃ c ∈ cs, F64.eq x c = true :=
  argusParse_meets hok ho hp hg hv rfl ho' hs

theorem C23_choice_decides (W : World) (o : Opt) (cs : List F64) (x : F64) (hx : o.ReadsFloat x) :
    runPost W (.choiceFloat cs) o = .ok (if ∃ c ∈ cs, F64.eq x c = true then (Err.success, none)
      else (Err.invalidChoice, some Err.invalidChoice)) := by
  simp only [runPost, choicesFloat]
  rw [asFloat_iff.2 hx, Out.ok_bind]
  by_cases h : ∃ c ∈ cs, F64.eq x c = true
  · rw [if_pos h, if_pos (List.any_eq_true.2 h)]; rfl
  · rw [if_neg h, if_neg (fun h' => h (List.any_eq_true.1 h'))]; rfl

namespace Sample

/-- A program with one float option, `-f`/`--factor`, and the given validators. -/
def floatProg (vs : List Validator) : Argus :=
  argusInit [[helpOption, { optFloat 102 (some c!"factor") with validators := some vs }]] c!"prog" none

/-- What `strtof` makes of three more texts; 0.1 is rounded to binary32. -/
def moreFloats : List (Str × F64) :=
  [(c!"0.1", 0x3FB99999A0000000#64), (c!"100", 0x4059000000000000#64)]

def moreFloat (s : Str) : F64 := ((moreFloats.find? (fun p => p.1 == s)).map (·.2)).getD 0

def floatWorld : World :=
  { world with
    strtof := moreFloat
    strtof_low := by
      intro s
      unfold moreFloat moreFloats
      simp only [List.find?]
      repeat' split
      all_goals decide }

/-- 1.5 is `0x3FF8000000000000`. -/
example : ∃ a', argusParse world noEnv (floatProg [vChoiceFloat [0x3FF8000000000000#64]])
      [c!"-f", c!"1.5"] = .ok (.returned Err.success, a') ∧
    Selected (floatProg [vChoiceFloat [0x3FF8000000000000#64]]) a' ⟨0, 1⟩ ∧
    ∃ o', a'.getOpt ⟨0, 1⟩ = .ok o' ∧ o'.isSet = true ∧ o'.ReadsFloat 0x3FF8000000000000#64 :=
  ⟨_, rfl, .inl rfl, _, rfl, by decide +kernel, _, rfl, by decide +kernel⟩

end Sample

/-- **C23** fails for V_RANGE: it compares the low half of the float's bit pattern as an integer, so
    V_RANGE(0, 1) accepts 100 and rejects 0.1. -/
theorem C23_range_ignores_the_value :
    (∃ a' o', argusParse Sample.floatWorld Sample.noEnv (Sample.floatProg [vRange 0 1]) [c!"-f", c!"100"] =
        .ok (.returned Err.success, a') ∧ a'.getOpt ⟨0, 1⟩ = .ok o' ∧
        o'.ReadsFloat 0x4059000000000000#64) ∧
    ∃ a', argusParse Sample.floatWorld Sample.noEnv (Sample.floatProg [vRange 0 1]) [c!"-f", c!"0.1"] =
        .ok (.returned Err.invalidRange, a') :=
  ⟨⟨_, _, rfl, rfl, _, rfl, by decide +kernel⟩, _, rfl⟩

/-- **C23** fails for V_CHOICE_FLOAT: the option stores a binary32 value, the choice 0.1 is a double
    (`0x3FB999999999999A`), so the listed value 0.1 is rejected. -/
theorem C23_choice_misses :
    ∃ a', argusParse Sample.floatWorld Sample.noEnv
      (Sample.floatProg [vChoiceFloat [0x3FB999999999999A#64]]) [c!"-f", c!"0.1"] =
        .ok (.returned Err.invalidChoice, a') :=
  ⟨_, rfl⟩

/-! ## C24 -/

/-- **C24** for strings: after a successful parse the value of a set option with V_CHOICE_STR is one of the
    listed strings. -/
theorem C24_string_choice (W : World) (env : Env) (a a' : Argus) (args : List Str) (p : Ptr) (o o' : Opt)
    (cs : List Str) (hok : argusParse W env a args = .ok (.returned Err.success, a'))
    (ho : a.getOpt p = .ok o) (hp : Selected a a' p) (hg : o.type ≠ .group)
    (hv : vChoiceStr cs ∈ o.validators.getD []) (ho' : a'.getOpt p = .ok o') (hs : o'.isSet = true) :
    ∃ s, o'.ReadsString s ∧ s ∈ cs :=
  argusParse_meets hok ho hp hg hv rfl ho' hs

/-- **C24** for strings: the validator accepts exactly the listed strings and rejects the others with
    ARGUS_ERROR_INVALID_CHOICE. -/
theorem C24_string_decides (W : World) (o : Opt) (cs : List Str) (s : Str) (hs : o.ReadsString s) :
    runPost W (.choiceStr cs) o = .ok (if s ∈ cs then (Err.success, none)
      else (Err.invalidChoice, some Err.invalidChoice)) := by
  simp only [runPost, choicesString]
  rw [asString_iff.2 hs, Out.ok_bind]
  simp only
  by_cases h : s ∈ cs
  · rw [if_pos h, if_pos (List.any_eq_true.2 ⟨s, h, by rw [strcmp_self]; rfl⟩)]; rfl
  · rw [if_neg h, if_neg]
    · rfl
    · intro h'
      obtain ⟨c, hc, he⟩ := List.any_eq_true.1 h'
      rw [beq_iff_eq, strcmp_eq_zero_iff] at he
      exact h (he ▸ hc)

/-- **C24** for ints (full statement: of the value read as `as_int` or `as_int64`). Proved for `as_int`:
    after a successful parse the value of a set option with V_CHOICE_INT is one of the listed ints. -/
theorem C24_int_choice_partial (W : World) (env : Env) (a a' : Argus) (args : List Str) (p : Ptr) (o o' : Opt)
    (cs : List Int) (hok : argusParse W env a args = .ok (.returned Err.success, a'))
    (ho : a.getOpt p = .ok o) (hp : Selected a a' p) (hg : o.type ≠ .group)
    (hv : vChoiceInt cs ∈ o.validators.getD []) (ho' : a'.getOpt p = .ok o') (hs : o'.isSet = true) :
    ∃ n, o'.ReadsInt n ∧ n ∈ cs :=
  argusParse_meets hok ho hp hg hv rfl ho' hs

/-- **C24** for ints: the validator accepts exactly the listed ints and rejects the others with
    ARGUS_ERROR_INVALID_CHOICE. -/
theorem C24_int_decides_partial (W : World) (o : Opt) (cs : List Int) (n : Int) (hn : o.ReadsInt n) :
    runPost W (.choiceInt cs) o = .ok (if n ∈ cs then (Err.success, none)
      else (Err.invalidChoice, some Err.invalidChoice)) := by
  simp only [runPost, choicesInt]
  rw [asInt_iff.2 hn, Out.ok_bind]
  by_cases h : n ∈ cs
  · rw [if_pos h, if_pos (List.any_eq_true.2 ⟨n, h, by simp⟩)]; rfl
  · rw [if_neg h, if_neg]
    · rfl
    · intro h'
      obtain ⟨c, hc, he⟩ := List.any_eq_true.1 h'
      rw [beq_iff_eq] at he
      exact h (he ▸ hc)

namespace Sample

/-- Options with choices: `-c`/`--color` and `-l`/`--level`, and a `-n`/`--name` of 2 to 4 bytes and
    `-t`/`--tag` with one to two values. -/
def choiceProg : Argus :=
  argusInit [[helpOption,
    { optString 99 (some c!"color") with validators := some [vChoiceStr [c!"red", c!"green"]] },
    { optInt 108 (some c!"level") with validators := some [vChoiceInt [1, 5]] },
    { optString 110 (some c!"name") with validators := some [vLength 2 4] },
    { optArrayString 116 (some c!"tag") with validators := some [vCount 1 2] }]] c!"prog" none

/-- A case of both. -/
example : ∃ a', argusParse world noEnv choiceProg [c!"-cred", c!"-l5"] =
      .ok (.returned Err.success, a') ∧ Selected choiceProg a' ⟨0, 1⟩ ∧
    ∃ o o2, a'.getOpt ⟨0, 1⟩ = .ok o ∧ o.isSet = true ∧ o.ReadsString c!"red" ∧
      a'.getOpt ⟨0, 2⟩ = .ok o2 ∧ o2.isSet = true ∧ o2.ReadsInt 5 :=
  ⟨_, rfl, .inl rfl, _, _, rfl, by decide +kernel, by unfold Opt.ReadsString; decide +kernel, rfl,
    by decide +kernel, _, rfl, by decide +kernel⟩

end Sample

/-- **C24** A string that is not listed stops the parse with ARGUS_ERROR_INVALID_CHOICE; an int fails the
    claim for `as_int64`, as 4294967301 passes the choices 1 and 5. -/
theorem C24_int64_escapes :
    (∃ a', argusParse Sample.world Sample.noEnv Sample.choiceProg [c!"-cblue"] =
      .ok (.returned Err.invalidChoice, a')) ∧
    ∃ a' o', argusParse Sample.world Sample.noEnv Sample.choiceProg [c!"-l4294967301"] =
      .ok (.returned Err.success, a') ∧ a'.getOpt ⟨0, 2⟩ = .ok o' ∧
      vChoiceInt [1, 5] ∈ o'.validators.getD [] ∧ o'.ReadsInt64 4294967301 :=
  ⟨⟨_, rfl⟩, _, _, rfl, rfl, by decide, _, rfl, by decide +kernel⟩

/-! ## C25 -/

/-- **C25** After a successful parse the value of a set option with V_LENGTH is a string whose length lies
    in the interval. -/
theorem C25_length (W : World) (env : Env) (a a' : Argus) (args : List Str) (p : Ptr) (o o' : Opt)
    (mn mx : Int) (hok : argusParse W env a args = .ok (.returned Err.success, a'))
    (ho : a.getOpt p = .ok o) (hp : Selected a a' p) (hg : o.type ≠ .group)
    (hv : vLength mn mx ∈ o.validators.getD []) (ho' : a'.getOpt p = .ok o') (hs : o'.isSet = true) :
    ∃ s, o'.ReadsString s ∧ 0 ≤ mn ∧ mn ≤ s.length ∧ (s.length : Int) ≤ mx :=
  argusParse_meets hok ho hp hg hv rfl ho' hs

/-- **C25** After a successful parse the value count of a set option with V_COUNT lies in the interval. -/
theorem C25_count (W : World) (env : Env) (a a' : Argus) (args : List Str) (p : Ptr) (o o' : Opt)
    (mn mx : Int) (hok : argusParse W env a args = .ok (.returned Err.success, a'))
    (ho : a.getOpt p = .ok o) (hp : Selected a a' p) (hg : o.type ≠ .group)
    (hv : vCount mn mx ∈ o.validators.getD []) (ho' : a'.getOpt p = .ok o') (hs : o'.isSet = true) :
    0 ≤ mn ∧ mn ≤ o'.valueCount ∧ (o'.valueCount : Int) ≤ mx :=
  argusParse_meets hok ho hp hg hv rfl ho' hs

/-- **C25** V_LENGTH passes exactly the strings whose length lies in the interval, never with a negative
    lower bound; the others are rejected with ARGUS_ERROR_INVALID_RANGE. -/
theorem C25_length_decides (W : World) (o : Opt) (mn mx : Int) (s : Str) (hs : o.ReadsString s) :
    runPost W (.length mn mx) o =
      .ok (if 0 ≤ mn ∧ mn ≤ s.length ∧ (s.length : Int) ≤ mx then (Err.success, none)
        else (Err.invalidRange, some Err.invalidRange)) := by
  simp only [runPost, lengthValidator]
  rw [asString_iff.2 hs, Out.ok_bind]
  simp only
  by_cases h0 : mn < 0 ∨ mx < 0
  · rw [if_pos h0, if_neg (by omega)]; rfl
  · rw [if_neg h0]
    by_cases h1 : mn > mx
    · rw [if_pos h1, if_neg (by omega)]; rfl
    · rw [if_neg h1]
      by_cases h2 : (s.length : Int) < mn ∨ (s.length : Int) > mx
      · rw [if_pos h2, if_neg (by omega)]; rfl
      · rw [if_neg h2, if_pos (by omega)]; rfl

/-- **C25** V_COUNT passes exactly the counts in the interval, never with a negative lower bound; the others
    are rejected with ARGUS_ERROR_INVALID_RANGE. -/
theorem C25_count_decides (W : World) (o : Opt) (mn mx : Int) :
    runPost W (.count mn mx) o =
      .ok (if 0 ≤ mn ∧ mn ≤ o.valueCount ∧ (o.valueCount : Int) ≤ mx then (Err.success, none)
        else (Err.invalidRange, some Err.invalidRange)) := by
  simp only [runPost, countValidator]
  by_cases h0 : mn < 0 ∨ mx < 0
  · rw [if_pos h0, if_neg (by omega)]; rfl
  · rw [if_neg h0]
    by_cases h1 : mn > mx
    · rw [if_pos h1, if_neg (by omega)]; rfl
    · rw [if_neg h1]
      by_cases h2 : (o.valueCount : Int) < mn ∨ (o.valueCount : Int) > mx
      · rw [if_pos h2, if_neg (by omega)]; rfl
      · rw [if_neg h2, if_pos (by omega)]; rfl

/-- **C25** Inverted bounds never pass, whatever the option holds. -/
theorem C25_inverted (W : World) (o : Opt) (mn mx : Int) (h : mx < mn) :
    ¬ Meets W o (.length mn mx) ∧ ¬ Meets W o (.count mn mx) := by
  refine ⟨?_, ?_⟩
  · rintro ⟨s, _, _, h1, h2⟩; omega
  · rintro ⟨_, h1, h2⟩; omega

/-- A case of both, at the bounds, and the rejections just outside. -/
example : (∃ a' o o2, argusParse Sample.world Sample.noEnv Sample.choiceProg [c!"-nanna", c!"-tx,y"] =
      .ok (.returned Err.success, a') ∧ Selected Sample.choiceProg a' ⟨0, 3⟩ ∧
      a'.getOpt ⟨0, 3⟩ = .ok o ∧ o.isSet = true ∧ o.ReadsString c!"anna" ∧
      a'.getOpt ⟨0, 4⟩ = .ok o2 ∧ o2.isSet = true ∧ o2.valueCount = 2) ∧
    (∃ a', argusParse Sample.world Sample.noEnv Sample.choiceProg [c!"-nannas"] =
      .ok (.returned Err.invalidRange, a')) ∧
    ∃ a', argusParse Sample.world Sample.noEnv Sample.choiceProg [c!"-tx,y,z"] =
      .ok (.returned Err.invalidRange, a') :=
  ⟨⟨_, _, _, rfl, .inl rfl, rfl, by decide +kernel, by unfold Opt.ReadsString; decide +kernel, rfl,
    by decide +kernel, by decide +kernel⟩, ⟨_, rfl⟩, _, rfl⟩

/-! ## C26 -/

/-- **C26** After a successful parse everything the tables of the selected path declare holds: required
    positionals are set, set options meet their validators, what they require is set, what they conflict
    with is not, and no exclusive group has two set options. Equivalently, if any of this fails the parse
    does not succeed. -/
theorem C26_success_satisfies (W : World) (env : Env) (a a' : Argus) (args : List Str)
    (hok : argusParse W env a args = .ok (.returned Err.success, a'))
    (hn : ∀ os ∈ a.tables, AllNamed os) (k : Nat) (hk : a'.OnPath k) (os : List Opt)
    (hos : a'.tables[k]? = some os) : LevelOk W os := by
  obtain ⟨_, _, _, hf⟩ := argusParse_frame hok
  obtain ⟨os0, h1, h2⟩ := shape_table hf.shape.symm (table_eq_ok.2 ⟨k, rfl, hos⟩)
  obtain ⟨k', hk', h3⟩ := table_eq_ok.1 h1
  have hna : AllNamed os := by
    intro o ho hg
    obtain ⟨i, hi⟩ := List.getElem?_of_mem ho
    have h4 : (os0.map Opt.meta)[i]? = some o.meta := by rw [h2]; simp [hi]
    simp only [List.getElem?_map, Option.map_eq_some_iff] at h4
    obtain ⟨o0, h5, h6⟩ := h4
    have ht : o0.type = o.type := (congrArg Opt.type h6 : o0.meta.type = o.meta.type)
    have hnm : o0.name = o.name := (congrArg Opt.name h6 : o0.meta.name = o.meta.name)
    rw [← hnm]
    exact hn os0 (List.mem_of_getElem? h3) o0 (List.mem_of_getElem? h5) (ht ▸ hg)
  exact (validateSet_levelOk hna).1 (argusParse_checked hok hk hos)

/-- **C26** Every text handed to an option, by the command line or the environment, passes the validators that look at
    texts. -/
theorem C26_texts (W : World) (env : Env) (a a' : Argus) (args : List Str) (p : Ptr) (o : Opt)
    (hok : argusParse W env a args = .ok (.returned Err.success, a')) (ho : a.getOpt p = .ok o)
    (x : Option Str) (hx : x ∈ allTexts env a args p o) (v : Validator) (hv : v ∈ o.validators.getD [])
    (hpre : v.order = .pre) : MeetsText W x v.kind :=
  argusParse_texts_pre hok ho hx v hv hpre

/-- **C26** Conversely the checks refuse nothing else: if reading the command line and the environment
    succeed and everything declared holds at every level, the parse succeeds. -/
theorem C26_nothing_else_refused (W : World) (env : Env) (a a1 a2 : Argus) (args : List Str)
    (h1 : parseArgs W a (some a.root) args = .ok (Err.success, a1))
    (h2 : loadEnvVars W env { a1 with errorCode := Err.success } = .ok (Err.success, a2))
    (hroot : ∃ os, a2.tables[a2.root]? = some os ∧ AllNamed os ∧ LevelOk W os)
    (hsub : ∀ q ∈ a2.stack, ∃ cmd k os, a2.getOpt q = .ok cmd ∧ cmd.subOptions = some k ∧
      a2.tables[k]? = some os ∧ AllNamed os ∧ LevelOk W os) :
    ∃ a', argusParse W env a args = .ok (.returned Err.success, a') ∧ a'.tables = a2.tables := by
  obtain ⟨os, hr, hn, hl⟩ := hroot
  obtain ⟨es, h3⟩ := postValidation_of_checked hr ((validateSet_levelOk hn).2 hl)
    (fun q hq => by
      obtain ⟨cmd, k, os, g1, g2, g3, g4, g5⟩ := hsub q hq
      exact ⟨cmd, k, os, g1, g2, g3, (validateSet_levelOk g4).2 g5⟩)
  refine ⟨a2.emits es, ?_, by simp⟩
  unfold argusParse
  rw [h1, Out.ok_bind]
  simp only [show Err.success ≠ Err.shouldExit by decide, if_false, ne_eq, not_true_eq_false]
  rw [h2, Out.ok_bind]
  simp only [not_true_eq_false, if_false]
  rw [h3, Out.ok_bind]
  simp only [not_true_eq_false, if_false]

/-- **C26** A refusal has a reason, and the status names it: some level of the path has a missing required
    positional, an unmet validator, an unset requirement, a set conflict, or an exclusive group with two set
    options. -/
theorem C26_refusal_has_reason (W : World) (env : Env) (a a1 a2 a' : Argus) (args : List Str) (st : Int)
    (h1 : parseArgs W a (some a.root) args = .ok (Err.success, a1))
    (h2 : loadEnvVars W env { a1 with errorCode := Err.success } = .ok (Err.success, a2))
    (h : argusParse W env a args = .ok (.returned st, a')) (hst : st ≠ Err.success) :
    ∃ k os, a2.OnPath k ∧ a2.tables[k]? = some os ∧ Refusal W os st := by
  unfold argusParse at h
  rw [h1, Out.ok_bind] at h
  simp only [show Err.success ≠ Err.shouldExit by decide, if_false, ne_eq, not_true_eq_false] at h
  rw [h2, Out.ok_bind] at h
  simp only [not_true_eq_false, if_false] at h
  obtain ⟨v, hv, h3⟩ := Out.bind_eq_ok h
  split at h3
  · rename_i hne
    obtain ⟨a3, _, h4⟩ := Out.bind_eq_ok h3
    simp only [Out.ok.injEq, Prod.mk.injEq, ParseEnd.returned.injEq] at h4
    obtain ⟨k, os, g1, g2, g3⟩ := postValidation_reject hv hne
    exact ⟨k, os, g1, g2, h4.1 ▸ g3⟩
  · rename_i hs
    simp only [Out.ok.injEq, Prod.mk.injEq, ParseEnd.returned.injEq] at h3
    exact absurd (h3.1 ▸ Classical.not_not.1 hs) hst

namespace Sample

/-- A table with every kind of constraint: an exclusive group of `-a` and `-b`, `--user` requires `--pass`,
    `--quiet` conflicts with `--loud`, and a required positional. -/
def rules : List Opt :=
  [ helpOption,
    groupBase (some c!"mode") (Flags.ofList [.exclusive]),
    optFlag 97 none, optFlag 98 none,
    groupBase none,
    { optString 117 (some c!"user") with require := some [c!"pass"] },
    optString 112 (some c!"pass"),
    { optFlag 113 (some c!"quiet") with conflict := some [c!"loud"] },
    optFlag 108 (some c!"loud"),
    posString c!"file" ]

def rulesProg : Argus := argusInit [rules] c!"prog" none

/-- How a parse of this program ends. -/
def rulesEnd (args : List Str) : Option ParseEnd :=
  (argusParse world noEnv rulesProg args).toOption.map (·.1)

/-- Accepted, and refused for each of the reasons. -/
example : (∀ os ∈ rulesProg.tables, AllNamed os) ∧
    rulesEnd [c!"-a", c!"-ux", c!"-py", c!"-q", c!"f"] = some (.returned Err.success) ∧
    rulesEnd [c!"-a", c!"-b", c!"f"] = some (.returned Err.exclusiveGroup) ∧
    rulesEnd [c!"-ux", c!"f"] = some (.returned Err.missingRequired) ∧
    rulesEnd [c!"-q", c!"-l", c!"f"] = some (.returned Err.conflictingOptions) ∧
    rulesEnd [c!"-a"] = some (.returned Err.missingRequired) := by
  refine ⟨?_, by decide +kernel, by decide +kernel, by decide +kernel, by decide +kernel,
    by decide +kernel⟩
  unfold AllNamed
  decide +kernel

end Sample

/-! ## C27 -/

/-- **C27** (full statement: for every option with FLAG_REQUIRED). Proved for positionals: after a successful
    parse, a required positional of the selected path that was not set before has a text on the command line
    or its variable is set in the environment. -/
theorem C27_positional_partial (W : World) (env : Env) (a a' : Argus) (args : List Str) (p : Ptr) (o : Opt)
    (hok : argusParse W env a args = .ok (.returned Err.success, a'))
    (ho : a.getOpt p = .ok o) (hp : Selected a a' p) (ht : o.type = .positional)
    (hr : o.flags.has .required = true) (hs : o.isSet = false) :
    textsOf p (a.asks args) ≠ [] ∨ ∃ n v, envVarName a.envPrefix o = some n ∧ env n = some v := by
  by_cases hx : textsOf p (a.asks args) = []
  · refine .inr (Classical.byContradiction fun hn => ?_)
    obtain ⟨o1, h1, h2⟩ := argusParse_history hok ho (by rw [ht]; decide)
    rw [hx] at h1
    simp only [Opt.giveAll, Option.some.injEq] at h1; subst h1
    have ho' := h2 (.inr (.inr (.inr fun n hn' => by
      cases hv : env n with
      | none => rfl
      | some v => exact absurd ⟨n, v, hn', hv⟩ hn)))
    obtain ⟨os, h3, h4⟩ := getOpt_eq_ok.1 ho'
    have hc := argusParse_checked hok (hp.onPath hok) h3
    have := (hc.entry (List.mem_of_getElem? h4)).pos ht hr
    rw [hs] at this; cases this
  · exact .inl hx

/-- A case: the required positional of `rulesProg` given on the command line. -/
example : ∃ a' o, argusParse Sample.world Sample.noEnv Sample.rulesProg [c!"f"] =
      .ok (.returned Err.success, a') ∧ Sample.rulesProg.getOpt ⟨0, 9⟩ = .ok o ∧
    Selected Sample.rulesProg a' ⟨0, 9⟩ ∧ o.type = .positional ∧ o.flags.has .required = true ∧
    o.isSet = false :=
  ⟨_, _, rfl, rfl, .inl rfl, rfl, by decide +kernel, rfl⟩

/-- **C27** fails for options: a program whose `--output` carries FLAG_REQUIRED parses an empty command line,
    with an empty environment, successfully. -/
theorem C27_required_option_ignored :
    ∃ a' o o', argusParse Sample.world Sample.noEnv
        (argusInit [[helpOption, { optString 111 (some c!"output") with
          flags := Flags.ofList [.required] }]] c!"prog" none) [] = .ok (.returned Err.success, a') ∧
      (argusInit [[helpOption, { optString 111 (some c!"output") with
          flags := Flags.ofList [.required] }]] c!"prog" none).getOpt ⟨0, 1⟩ = .ok o ∧
      o.flags.has .required = true ∧ a'.getOpt ⟨0, 1⟩ = .ok o' ∧ o'.isSet = false :=
  ⟨_, _, _, rfl, rfl, by decide +kernel, rfl, rfl⟩

end Argus
