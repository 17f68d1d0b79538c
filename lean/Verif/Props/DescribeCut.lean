import Verif.Props.Describe

/-!
# C67: exactly what fits

The theorems of `Props/Describe` hold for texts that fit the buffers. Here each of these sizes is shown to be exact: a
longer text is not shown in full.
-/

set_option autoImplicit false

namespace Argus

theorem snprintf_whole_iff {n : Nat} {s : Str} : snprintf (n + 1) s = s ↔ s.length ≤ n := by
  unfold snprintf
  constructor
  · intro h
    have := congrArg List.length h
    rw [List.length_take] at this
    omega
  · exact fun h => List.take_of_length_le h

/-- The data of a validator as the macros of options.h write it: integers of 64 bits, and a format that prints a float in
    at most 20 bytes (`%.2g` does). -/
def VKind.Sound (g2 : F64 → Str) : VKind → Prop
  | .choiceInt cs => ∀ n ∈ cs, -2 ^ 63 ≤ n ∧ n < 2 ^ 63
  | .choiceFloat cs => ∀ x ∈ cs, (g2 x).length ≤ 20
  | _ => True

/-- The number of bytes up to which the words of a constraint are shown in full. -/
def VKind.room : VKind → Nat
  | .range _ _ => 31
  | .length _ _ => 31
  | .count _ _ => 31
  | .choiceStr _ => 252
  | .choiceInt _ => 252
  | .choiceFloat _ => 252
  | .regex _ _ => 243
  | .custom _ => 0

theorem interval_note_iff (pre post : Str) (w : Str) (hp : pre.length + post.length ≤ 200) :
    snprintf 256 (pre ++ snprintf 32 w ++ post) = pre ++ w ++ post ↔ w.length ≤ 31 := by
  have hs : (snprintf 32 w).length ≤ 31 := by unfold snprintf; rw [List.length_take]; omega
  rw [snprintf_fits (by simp; omega), List.append_cancel_right_eq, List.append_cancel_left_eq]
  exact snprintf_whole_iff

theorem text_note_iff (pre post w : Str) (n : Nat) (hn : n + pre.length + post.length = 255) :
    snprintf 256 (pre ++ w ++ post) = pre ++ w ++ post ↔ w.length ≤ n := by
  rw [snprintf_whole_iff]
  simp only [List.length_append]
  omega

/-- **C67** The description mentions a constraint in full exactly if its words have at most 31 bytes (intervals), 252
    bytes (choices) or 243 bytes (patterns). -/
theorem C67_note_exactly (F : Fmt) (v : Validator) (w : Str) (hf : v.hasFormatter = true) (hs : v.kind.Sound F.g2)
    (hw : v.kind.words F.g2 = some w) : validatorInfo F v = v.kind.note F.g2 ↔ w.length ≤ v.kind.room := by
  obtain ⟨k, ord, hfm⟩ := v
  simp only at hf hs hw ⊢
  subst hf
  unfold validatorInfo Validator.text
  simp only [if_true]
  cases k with
  | custom id => simp [VKind.words] at hw
  | range mn mx =>
    simp only [VKind.words, Option.some.injEq] at hw; subst hw
    exact interval_note_iff c!" (range: " c!")" (interval mn mx) (by decide)
  | length mn mx =>
    simp only [VKind.words, Option.some.injEq] at hw; subst hw
    have h := interval_note_iff c!" (" c!")" (interval mn mx ++ c!" chars") (by decide)
    have e : VKind.note F.g2 (.length mn mx) = c!" (" ++ (interval mn mx ++ c!" chars") ++ c!")" := by
      simp [VKind.note]
    rw [e]; exact h
  | count mn mx =>
    simp only [VKind.words, Option.some.injEq] at hw; subst hw
    exact interval_note_iff c!" (count: " c!")" (interval mn mx) (by decide)
  | choiceStr cs =>
    simp only [VKind.words, Option.some.injEq] at hw; subst hw
    have h := choices_map id List.length cs (fun x _ => Nat.le_refl _)
    rw [List.map_id] at h
    simp only [formatter, h, VKind.note]
    exact text_note_iff c!" [" c!"]" _ 252 (by decide)
  | choiceInt cs =>
    simp only [VKind.words, Option.some.injEq] at hw; subst hw
    have hlen : ∀ n ∈ cs, (showInt n).length ≤ 20 := fun n hn =>
      (showInt_text (by have := (hs n hn).1; unfold llongMin; omega)
        (by have := (hs n hn).2; unfold llongMax; omega)).2
    have hm : cs.map (fun n => snprintf 32 (showInt n)) = cs.map showInt :=
      List.map_congr_left fun n hn => snprintf_fits (by have := hlen n hn; omega)
    simp only [formatter, hm, choices_map showInt (fun _ => 20) cs hlen, VKind.note]
    exact text_note_iff c!" [" c!"]" _ 252 (by decide)
  | choiceFloat cs =>
    simp only [VKind.words, Option.some.injEq] at hw; subst hw
    have hm : cs.map (fun x => snprintf 32 (F.g2 x)) = cs.map F.g2 :=
      List.map_congr_left fun n hn => snprintf_fits (by have := hs n hn; omega)
    simp only [formatter, hm, choices_map F.g2 (fun _ => 20) cs hs, VKind.note]
    exact text_note_iff c!" [" c!"]" _ 252 (by decide)
  | regex p h =>
    simp only [VKind.words, Option.some.injEq] at hw; subst hw
    simp only [formatter, patternWords_eq, VKind.note]
    exact text_note_iff c!" (pattern: " c!")" _ 243 (by decide)

/-- The range of all 64-bit integers has 40 bytes: its second bound is cut. -/
example : let v := vRange (-2 ^ 63) (2 ^ 63 - 1)
    v.hasFormatter = true ∧ v.kind.Sound Sample.fmt.g2 ∧
    v.kind.words Sample.fmt.g2 = some c!"-9223372036854775808-9223372036854775807" ∧
    validatorInfo Sample.fmt v = c!" (range: -9223372036854775808-9223372036)" ∧
    validatorInfo Sample.fmt (vRange 1 5) = c!" (range: 1-5)" := by
  refine ⟨rfl, trivial, ?_⟩
  decide +kernel

/-! ## Defaults -/

theorem showInt_inj {m n : Int} (h : showInt m = showInt n) : m = n := by
  have hm := natDigits_spec m.natAbs
  have hn := natDigits_spec n.natAbs
  have minus : ∀ k : Nat, ∀ t : Str, natDigits k ≠ 45 :: t := by
    intro k t e
    have := (natDigits_spec k).2.1 45 (by rw [e]; exact List.mem_cons_self)
    exact absurd this (by decide)
  unfold showInt at h
  split at h <;> split at h
  · have := congrArg digitsVal (List.cons.inj h).2
    rw [hm.2.2, hn.2.2] at this; omega
  · exact absurd h.symm (minus _ _)
  · exact absurd h (minus _ _)
  · have := congrArg digitsVal h
    rw [hm.2.2, hn.2.2] at this; omega

theorem asInt_low {w : Word} {n : Int} (h : w.asInt64 = .ok n) : w.asInt = .ok (n.bmod (2 ^ 32)) := by
  cases w with
  | bits b =>
    simp only [Word.asInt64, Out.ok.injEq] at h
    simp only [Word.asInt, Out.ok.injEq]
    subst h
    rw [BitVec.truncate_eq_setWidth, BitVec.toInt_setWidth]
    have hb : b.toInt = (b.toNat : Int).bmod (2 ^ 64) := BitVec.toInt_eq_toNat_bmod b
    rw [hb]
    exact (Int.bmod_bmod_of_dvd (by decide)).symm
  | _ => simp [Word.asInt64] at h

/-- **C67** An integer default is shown reduced to 32 bits, and so it is right exactly if it has 32 bits. -/
theorem C67_default_int_exactly (F : Fmt) (o : Opt) (d : Str) (n : Int) (h : o.haveDefault = true)
    (ht : o.valueType = .int) (hn : o.defaultValue.asInt64 = .ok n) :
    appendDefault F o d = .ok (d ++ c!" (default: " ++ showInt (n.bmod (2 ^ 32)) ++ c!")") ∧
    (appendDefault F o d = .ok (d ++ c!" (default: " ++ showInt n ++ c!")") ↔ -2 ^ 31 ≤ n ∧ n < 2 ^ 31) := by
  have lo := Int.le_bmod (x := n) (m := 2 ^ 32) (by decide)
  have hi := Int.bmod_lt (x := n) (m := 2 ^ 32) (by decide)
  have key : appendDefault F o d = .ok (d ++ c!" (default: " ++ showInt (n.bmod (2 ^ 32)) ++ c!")") := by
    unfold appendDefault
    rw [if_neg (by simp [h, ht])]
    simp only [defaultInfo, ht, asInt_low hn, Out.ok_bind]
    have hl := showInt_length_le (n := n.bmod (2 ^ 32)) (by omega) (by omega)
    rw [snprintf_fits (by simp only [List.length_append, List.length_cons, List.length_nil]; omega)]
    simp [appendTo]
  refine ⟨key, ?_⟩
  rw [key, Out.ok.injEq, List.append_cancel_right_eq, List.append_cancel_left_eq]
  constructor
  · intro e
    have := showInt_inj e
    omega
  · rintro ⟨h1, h2⟩
    rw [Int.bmod_eq_of_le (by omega) (by omega)]

/-- **C67** A string default is shown in full exactly if it has at most 113 bytes. -/
theorem C67_default_string_exactly (F : Fmt) (o : Opt) (d t : Str) (h : o.haveDefault = true)
    (ht : o.valueType = .string) (hv : o.defaultValue = .ptr t) :
    appendDefault F o d = .ok (d ++ (c!" (default: \"" ++ t ++ c!"\")").take 127) ∧
    (appendDefault F o d = .ok (d ++ (c!" (default: \"" ++ t ++ c!"\")")) ↔ t.length ≤ 113) := by
  have key : appendDefault F o d = .ok (d ++ (c!" (default: \"" ++ t ++ c!"\")").take 127) := by
    unfold appendDefault
    rw [if_neg (by simp [h, ht])]
    simp only [defaultInfo, ht, hv, Word.asString, Out.ok_bind]
    rfl
  refine ⟨key, ?_⟩
  rw [key, Out.ok.injEq, List.append_cancel_left_eq]
  show snprintf (127 + 1) _ = _ ↔ _
  rw [snprintf_whole_iff]
  simp

/-- **C67** A float default is shown as `%.2f` prints it exactly if that has at most 115 bytes. -/
theorem C67_default_float_exactly (F : Fmt) (o : Opt) (d : Str) (x : F64) (h : o.haveDefault = true)
    (ht : o.valueType = .float) (hv : o.defaultValue.asFloat = .ok x) :
    appendDefault F o d = .ok (d ++ (c!" (default: " ++ F.f2 x ++ c!")").take 127) ∧
    (appendDefault F o d = .ok (d ++ (c!" (default: " ++ F.f2 x ++ c!")")) ↔ (F.f2 x).length ≤ 115) := by
  have key : appendDefault F o d = .ok (d ++ (c!" (default: " ++ F.f2 x ++ c!")").take 127) := by
    unfold appendDefault
    rw [if_neg (by simp [h, ht])]
    simp only [defaultInfo, ht, hv, Out.ok_bind]
    rfl
  refine ⟨key, ?_⟩
  rw [key, Out.ok.injEq, List.append_cancel_left_eq]
  show snprintf (127 + 1) _ = _ ↔ _
  rw [snprintf_whole_iff]
  simp

/-- A default of 5000000000, one of 113 bytes and one of 114. -/
example : let o := (optInt 110 (some c!"num")).withDefault (.bits 5000000000)
    let s := fun k => (optString 110 (some c!"name")).withDefault (.ptr (List.replicate k 65))
    o.haveDefault = true ∧ o.valueType = .int ∧ o.defaultValue.asInt64 = .ok 5000000000 ∧
    (s 113).haveDefault = true ∧ (s 113).valueType = .string ∧
    appendDefault Sample.fmt (s 113) [] = .ok (c!" (default: \"" ++ List.replicate 113 65 ++ c!"\")") ∧
    appendDefault Sample.fmt (s 114) [] = .ok (c!" (default: \"" ++ List.replicate 114 65 ++ c!"\"") := by
  decide +kernel

/-! ## The first column -/

/-- **C67** The first column shows what stands for the value in full exactly if the option takes one value, or if the
    whole with the signs for several values has at most 63 bytes. -/
theorem C67_name_exactly (F : Fmt) (cfg : HelperConfig) (o : Opt) (h : Str)
    (hv : ∀ v, o.validators = some [v] → v.Fits F.g2) (hs : o.StandsFor F cfg h) (hf : o.valueType ≠ .flag) :
    optionName F cfg o = o.typed ++ c!" <" ++ o.valueType.several h ++ c!">" ↔
      ((o.valueType.isVariadic || o.valueType.isArray || o.valueType.isMap) = false ∨
        (o.valueType.several h).length ≤ 63) := by
  have h0 : optionName F cfg o = o.typed ++ (if o.valueType ≠ .flag then
      match collectionHint o.valueType (smartHint F cfg o) with
      | some s => c!" <" ++ s ++ c!">"
      | none => c!" <" ++ smartHint F cfg o ++ c!">"
     else []) := by
    rw [optTyped_eq]; rfl
  rw [h0, smartHint_eq F cfg o h hv hs, if_pos hf]
  have whole : ∀ s t : Str, o.typed ++ (c!" <" ++ s ++ c!">") = o.typed ++ c!" <" ++ t ++ c!">" ↔ s = t := by
    intro s t
    have e : o.typed ++ (c!" <" ++ s ++ c!">") = o.typed ++ c!" <" ++ s ++ c!">" := by simp
    rw [e, List.append_cancel_right_eq, List.append_cancel_left_eq]
  unfold collectionHint ValueType.several
  cases o.valueType.isVariadic
  · cases o.valueType.isArray
    · cases o.valueType.isMap
      · simp only [Bool.false_eq_true, if_false, whole]
        simp
      · simp only [Bool.false_eq_true, if_false, if_true, whole]
        rw [show (64 : Nat) = 63 + 1 from rfl, snprintf_whole_iff]
        simp
    · simp only [Bool.false_eq_true, if_false, if_true, whole]
      rw [show (64 : Nat) = 63 + 1 from rfl, snprintf_whole_iff]
      simp
  · simp only [if_true, whole]
    rw [show (64 : Nat) = 63 + 1 from rfl, snprintf_whole_iff]
    simp

/-- Hints of 59 and 60 bytes for an array. -/
example : let o := fun k => { optArrayInt 110 (some c!"nums") with hint := some (List.replicate k 65) }
    (∀ k, (o k).StandsFor Sample.fmt Sample.prog.helper (List.replicate k 65)) ∧ (o 59).valueType ≠ .flag ∧
    optionName Sample.fmt Sample.prog.helper (o 59) = c!"-n, --nums <" ++ List.replicate 59 65 ++ c!",...>" ∧
    optionName Sample.fmt Sample.prog.helper (o 60) = c!"-n, --nums <" ++ List.replicate 60 65 ++ c!",..>" := by
  refine ⟨fun k => .inl rfl, ?_⟩
  decide +kernel

end Argus
