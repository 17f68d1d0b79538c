import Verif.Model.Values
import Verif.Lemmas.Compare
import Verif.Lemmas.Strings
import Verif.Lemmas.Numbers
import Verif.Props.Defaults

/-!
# C70: comparing and printing values
-/

set_option autoImplicit false

namespace Argus

/-- The sign of `r` says how `x` and `y` compare: negative for less, zero for equal, positive for greater. -/
def Says {α : Type} (lt : α → α → Prop) (x y : α) (r : Int) : Prop :=
  (r < 0 ↔ lt x y) ∧ (0 < r ↔ lt y x) ∧ (r = 0 ↔ ¬ lt x y ∧ ¬ lt y x)

/-- **C70** (full statement: for all values of a scalar type.) `cmp_value` says how two integers compare, if they are
    in the range of `int` and their difference too. -/
theorem C70_ints_partial (a b : Word) (x y : Int) (ha : a.asInt64 = .ok x) (hb : b.asInt64 = .ok y)
    (hx : -2 ^ 31 ≤ x ∧ x < 2 ^ 31) (hy : -2 ^ 31 ≤ y ∧ y < 2 ^ 31) (hd : -2 ^ 31 ≤ x - y ∧ x - y < 2 ^ 31) :
    ∃ r, cmpValue .int a b = .ok r ∧ Says (· < ·) x y r := by
  by_cases h : a = b
  · subst h
    rw [ha, Out.ok.injEq] at hb
    subst hb
    exact ⟨0, by simp [cmpValue], by simp [Says]⟩
  · refine ⟨x - y, ?_, ?_, ?_, ?_⟩
    · unfold cmpValue
      rw [if_neg h]
      simp only [asInt_of_asInt64 ha hx.1 hx.2, asInt_of_asInt64 hb hy.1 hy.2, Out.ok_bind, intSub]
      rw [if_pos hd]
    all_goals omega

/-- **C70** `cmp_value` says how two strings compare (bytes as unsigned, a prefix first). -/
theorem C70_strings (s t : Str) : ∃ r, cmpValue .string (.ptr s) (.ptr t) = .ok r ∧ Says (· < ·) s t r := by
  have key : Says (· < ·) s t (strcmp s t) := by
    have h1 := @strcmp_le_iff s t
    have h2 := @strcmp_le_iff t s
    have h3 := @strcmp_neg_iff s t
    have h4 := @strcmp_neg_iff t s
    have e1 : (0 < strcmp s t) ↔ ¬ (s ≤ t) := by rw [← h1]; omega
    have e2 : (0 < strcmp t s) ↔ ¬ (t ≤ s) := by rw [← h2]; omega
    have l1 : ¬ (s ≤ t) ↔ t < s := List.not_le
    have l2 : ¬ (t ≤ s) ↔ s < t := List.not_le
    refine ⟨?_, ?_, ?_⟩
    · rw [h3, e2, l2]
    · rw [e1, l1]
    · show strcmp s t = 0 ↔ ¬ s < t ∧ ¬ t < s
      rw [← l1, ← l2, ← e1, ← e2]
      omega
  unfold cmpValue
  split
  · rename_i h
    simp only [Word.ptr.injEq] at h
    subst h
    rw [strcmp_self] at key
    exact ⟨0, rfl, key⟩
  · exact ⟨strcmp s t, rfl, key⟩

/-- **C70** `cmp_value` says how two floats compare, if neither is NaN. -/
theorem C70_floats_partial (x y : F64) (hx : F64.isNaN x = false) (hy : F64.isNaN y = false) :
    ∃ r, cmpValue .float (.bits x) (.bits y) = .ok r ∧ Says (fun a b => F64.lt a b = true) x y r := by
  have hl : ∀ a b : F64, F64.isNaN a = false → F64.isNaN b = false → (F64.lt a b = true ↔ F64.key a < F64.key b) := by
    intro a b ha hb
    simp [F64.lt, ha, hb]
  unfold cmpValue Says
  simp only [hl x y hx hy, hl y x hy hx]
  split
  · rename_i h
    simp only [Word.bits.injEq] at h
    subst h
    exact ⟨0, rfl, by omega, by omega, by omega⟩
  · simp only [Word.asFloat, Out.ok_bind]
    by_cases h1 : F64.eq x y = true
    · rw [if_pos h1]
      simp only [F64.eq, hx, hy, Bool.not_false, Bool.true_and, beq_iff_eq] at h1
      exact ⟨0, rfl, by omega, by omega, by omega⟩
    · rw [if_neg h1]
      simp only [F64.eq, hx, hy, Bool.not_false, Bool.true_and, beq_iff_eq] at h1
      by_cases h2 : F64.lt y x = true
      · rw [if_pos h2]
        rw [hl y x hy hx] at h2
        exact ⟨1, rfl, by omega, by omega, by omega⟩
      · rw [if_neg h2]
        rw [hl y x hy hx] at h2
        exact ⟨-1, rfl, by omega, by omega, by omega⟩

/-- **C70** `cmp_value` says how two truth values compare, false first, also for flags. -/
theorem C70_bools (t : ValueType) (ht : t = .bool ∨ t = .flag) (a b : Word) (x y : Bool) (ha : a.asBool = .ok x)
    (hb : b.asBool = .ok y) :
    ∃ r, cmpValue t a b = .ok r ∧ Says (fun p q => p = false ∧ q = true) x y r := by
  have key : cmpValue t a b = .ok (boolSub x y) := by
    unfold cmpValue
    split
    · rename_i h
      subst h
      rw [ha, Out.ok.injEq] at hb
      subst hb
      cases x <;> rfl
    · rcases ht with rfl | rfl <;> simp only [ha, hb, Out.ok_bind]
  refine ⟨_, key, ?_⟩
  cases x <;> cases y <;> simp [Says, boolSub]

example : (Word.ofInt64 (-3)).asInt64 = .ok (-3) ∧ cmpValue .int (.ofInt64 (-3)) (.ofInt64 4) = .ok (-7) ∧
    cmpValue .string (.ptr c!"ab") (.ptr c!"abc") = .ok (-1) ∧
    cmpValue .float (.bits 0x4004000000000000#64) (.bits 0xC004000000000000#64) = .ok 1 ∧
    cmpValue .bool (.bits 1) (.bits 0) = .ok 1 := by decide +kernel

/-- **C70** fails for integers further apart than 32 bits: the difference overflows. -/
theorem C70_overflow : cmpValue .int (.ofInt64 2147483647) (.ofInt64 (-1)) = .ub .intOverflow := by decide +kernel

/-- **C70** fails for 64-bit integers: 4294967296 and 0 are called equal. -/
theorem C70_int64_equal : cmpValue .int (.ofInt64 4294967296) (.ofInt64 0) = .ok 0 := by decide +kernel

/-- **C70** fails for NULL: it is less than every string, and every string is less than it. -/
theorem C70_null_both_ways (s : Str) : cmpValue .string .null (.ptr s) = .ok (-1) ∧
    cmpValue .string (.ptr s) .null = .ok (-1) := ⟨rfl, rfl⟩

/-- **C70** fails for NaN: it is less than every number, and every number is less than it. -/
theorem C70_nan_both_ways (x y : F64) (h : F64.isNaN x = true) (hy : F64.isNaN y = false) :
    cmpValue .float (.bits x) (.bits y) = .ok (-1) ∧ cmpValue .float (.bits y) (.bits x) = .ok (-1) := by
  have hne : x ≠ y := by rintro rfl; rw [h] at hy; simp at hy
  unfold cmpValue
  rw [if_neg (by simpa using hne), if_neg (by simpa using Ne.symm hne)]
  simp [Word.asFloat, F64.eq, F64.lt, h, hy, Out.ok_bind]

example : F64.isNaN 0x7FF8000000000000#64 = true ∧ F64.isNaN 0x3FF0000000000000#64 = false := by decide +kernel

/-! ## Choices -/

/-- **C70** `choices_to_value` gives the choice at the index for the three types of choices, and zero beyond the end. -/
theorem C70_choices (ns : List Int) (ss : List Str) (xs : List F64) (i : Nat) :
    (∀ n, ns[i]? = some n → -2 ^ 63 ≤ n → n < 2 ^ 63 →
      ∃ w, choicesToValue .int (.ints ns) ns.length i = .ok w ∧ w.asInt64 = .ok n) ∧
    (∀ s, ss[i]? = some s → ∃ w, choicesToValue .string (.strings (ss.map some)) ss.length i = .ok w ∧
      w.asString = .ok (some s)) ∧
    (∀ x, xs[i]? = some x → ∃ w, choicesToValue .float (.floats xs) xs.length i = .ok w ∧ w.asFloat = .ok x) ∧
    (∀ t cs n, n ≤ i → ∃ w, choicesToValue t cs n i = .ok w ∧ w.asInt64 = .ok 0 ∧ w.asString = .ok none) := by
  refine ⟨?_, ?_, ?_, ?_⟩
  · intro n h h1 h2
    obtain ⟨hlt, _⟩ := List.getElem?_eq_some_iff.1 h
    refine ⟨.ofInt64 n, ?_, ?_⟩
    · unfold choicesToValue elementAt
      rw [if_neg (by omega)]
      simp only [h]
      rfl
    · simp only [Word.ofInt64, Word.asInt64, Out.ok.injEq, BitVec.toInt_ofInt]
      exact Int.bmod_eq_of_le (by omega) (by omega)
  · intro s h
    obtain ⟨hlt, _⟩ := List.getElem?_eq_some_iff.1 h
    refine ⟨.ptr s, ?_, rfl⟩
    unfold choicesToValue elementAt
    rw [if_neg (by omega)]
    simp only [List.getElem?_map, h, Option.map_some]
    rfl
  · intro x h
    obtain ⟨hlt, _⟩ := List.getElem?_eq_some_iff.1 h
    refine ⟨.bits x, ?_, rfl⟩
    unfold choicesToValue elementAt
    rw [if_neg (by omega)]
    simp only [h]
    rfl
  · intro t cs n h
    refine ⟨.bits 0, ?_, by decide, by decide⟩
    unfold choicesToValue
    rw [if_pos h]

example : [c!"fast", c!"slow"][1]? = some c!"slow" ∧
    choicesToValue .string (.strings ([c!"fast", c!"slow"].map some)) 2 1 = .ok (.ptr c!"slow") := by decide

/-! ## Printing -/

/-- The strings separated by a comma and a space. -/
def commas : List Str → Str
  | [] => []
  | [s] => s
  | s :: t :: ss => s ++ c!", " ++ commas (t :: ss)

theorem printValues_eq (f6 : F64 → Str) (t : ValueType) (count : Nat) (h64 : count < 2 ^ 64) :
    ∀ (ws : List Word) (ss : List Str) (i : Nat), i + ws.length = count →
      ws.map (printValue f6 t) = ss.map .ok → printValues f6 t count i ws = .ok (commas ss)
  | [], [], _, _, _ => rfl
  | [], _ :: _, _, _, h => by simp at h
  | _ :: _, [], _, _, h => by simp at h
  | [w], [s], i, hi, h => by
    simp only [List.map_cons, List.map_nil, List.cons.injEq, and_true] at h
    simp only [List.length_cons, List.length_nil] at hi
    simp only [printValues, h, Out.ok_bind, commas]
    have : sizeSub count 1 = count - 1 := by unfold sizeSub; omega
    rw [if_neg (by omega)]
    simp
  | [_], _ :: _ :: _, _, _, h => by simp at h
  | _ :: _ :: _, [_], _, _, h => by simp at h
  | w :: w2 :: ws, s :: s2 :: ss, i, hi, h => by
    simp only [List.map_cons, List.cons.injEq] at h
    have ih := printValues_eq f6 t count h64 (w2 :: ws) (s2 :: ss) (i + 1) (by simp only [List.length_cons] at hi ⊢; omega)
      (by simp only [List.map_cons, List.cons.injEq]; exact h.2)
    rw [printValues, h.1, ih]
    simp only [Out.ok_bind, commas]
    simp only [List.length_cons] at hi
    have : sizeSub count 1 = count - 1 := by unfold sizeSub; omega
    rw [if_pos (by omega)]

/-- **C70** `print_value_array` prints the texts of the values in order, separated by commas, in brackets. -/
theorem C70_array_text (f6 : F64 → Str) (t : ValueType) (ws : List Word) (ss : List Str) (h64 : ws.length < 2 ^ 64)
    (h : ws.map (printValue f6 t) = ss.map .ok) :
    printValueArray f6 t ws = .ok (c!"[" ++ commas ss ++ c!"]") := by
  unfold printValueArray
  rw [printValues_eq f6 t ws.length h64 ws ss 0 (by simp) h]
  rfl

example : [Word.ofInt64 1, .ofInt64 (-2), .ofInt64 3].map (printValue (fun _ => []) .int) =
      [c!"1", c!"-2", c!"3"].map .ok ∧
    printValueArray (fun _ => []) .int [.ofInt64 1, .ofInt64 (-2), .ofInt64 3] = .ok c!"[1, -2, 3]" ∧
    printValueArray (fun _ => []) .int [] = .ok c!"[]" := by decide +kernel

/-- **C70** A printed string stands in quotes, a number is in decimal, a truth value is a word; for integers in the
    range of `int`. -/
theorem C70_value_text_partial (f6 : F64 → Str) :
    (∀ s, printValue f6 .string (.ptr s) = .ok (c!"\"" ++ s ++ c!"\"")) ∧
    (∀ w n, w.asInt64 = .ok n → -2 ^ 31 ≤ n → n < 2 ^ 31 → printValue f6 .int w = .ok (showInt n)) ∧
    (∀ w b, w.asBool = .ok b → printValue f6 .bool w = .ok (if b then c!"true" else c!"false") ∧
      printValue f6 .flag w = .ok (if b then c!"true" else c!"false")) ∧
    (∀ x, printValue f6 .float (.bits x) = .ok (f6 x)) := by
  refine ⟨fun _ => rfl, ?_, ?_, fun _ => rfl⟩
  · intro w n h h1 h2
    simp only [printValue, asInt_of_asInt64 h h1 h2, Out.ok_bind]
  · intro w b h
    simp only [printValue, h, Out.ok_bind, and_self]

/-- **C70** fails for NULL strings, which are handed to `%s`, and for 64-bit integers. -/
theorem C70_print_fails (f6 : F64 → Str) : printValue f6 .string .null = .ub .nullDeref ∧
    (∃ w, w.asInt64 = .ok 4294967297 ∧ printValue f6 .int w = .ok c!"1") :=
  ⟨rfl, .ofInt64 4294967297, by decide +kernel, by
    simp only [printValue]
    rw [show (Word.ofInt64 4294967297).asInt = .ok 1 by decide +kernel]
    rfl⟩

end Argus
