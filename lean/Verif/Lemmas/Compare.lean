import Verif.Lemmas.ArrayFlags
import Verif.Lemmas.Numbers

/-! # Lemmas: the comparison functions are orders -/

set_option autoImplicit false

namespace Argus

theorem strcmp_cases : ∀ s t : Str,
    (strcmp s t = -1 ∧ s < t) ∨ (strcmp s t = 0 ∧ s = t) ∨ (strcmp s t = 1 ∧ t < s)
  | [], [] => .inr (.inl ⟨rfl, rfl⟩)
  | [], b :: bs => .inl ⟨rfl, List.nil_lt_cons b bs⟩
  | a :: as, [] => .inr (.inr ⟨rfl, List.nil_lt_cons a as⟩)
  | a :: as, b :: bs => by
    unfold strcmp
    by_cases h1 : a < b
    · rw [if_pos h1]; exact .inl ⟨rfl, List.cons_lt_cons_iff.2 (.inl h1)⟩
    · rw [if_neg h1]
      by_cases h2 : b < a
      · rw [if_pos h2]; exact .inr (.inr ⟨rfl, List.cons_lt_cons_iff.2 (.inl h2)⟩)
      · rw [if_neg h2]
        have he : a = b := UInt8.le_antisymm (UInt8.not_lt.1 h2) (UInt8.not_lt.1 h1)
        subst he
        rcases strcmp_cases as bs with ⟨e, h⟩ | ⟨e, h⟩ | ⟨e, h⟩
        · exact .inl ⟨e, List.cons_lt_cons_iff.2 (.inr ⟨rfl, h⟩)⟩
        · exact .inr (.inl ⟨e, by rw [h]⟩)
        · exact .inr (.inr ⟨e, List.cons_lt_cons_iff.2 (.inr ⟨rfl, h⟩)⟩)

instance : Std.Asymm (α := Byte) (· < ·) := ⟨fun _ _ h => UInt8.lt_asymm h⟩

theorem str_lt_asymm {s t : Str} (h : s < t) : ¬ t < s := fun h' => (List.lt_asymm h h').elim

theorem str_lt_trans {s t u : Str} (h : s < t) (h' : t < u) : s < u := List.lt_trans h h'

theorem strcmp_le_iff {s t : Str} : strcmp s t ≤ 0 ↔ s ≤ t := by
  show _ ↔ ¬ t < s
  rcases strcmp_cases s t with ⟨e, h⟩ | ⟨e, h⟩ | ⟨e, h⟩
  · rw [e]; exact ⟨fun _ => str_lt_asymm h, fun _ => by decide⟩
  · rw [e]; subst h; exact ⟨fun _ h => (str_lt_asymm h h), fun _ => by decide⟩
  · rw [e]; exact ⟨fun h => by omega, fun h' => absurd h h'⟩

theorem strcmp_neg_iff {s t : Str} : strcmp s t < 0 ↔ 0 < strcmp t s := by
  rcases strcmp_cases s t with ⟨e, h⟩ | ⟨e, h⟩ | ⟨e, h⟩ <;>
    rcases strcmp_cases t s with ⟨e', h'⟩ | ⟨e', h'⟩ | ⟨e', h'⟩ <;> rw [e, e'] <;> try decide
  · exact absurd h' (str_lt_asymm h)
  · subst h'; exact absurd h (str_lt_asymm h)
  · subst h; exact absurd h' (str_lt_asymm h')
  · exact absurd h' (str_lt_asymm h)

theorem strcmp_trans {s t u : Str} (h1 : strcmp s t ≤ 0) (h2 : strcmp t u ≤ 0) : strcmp s u ≤ 0 := by
  rcases strcmp_cases s t with ⟨e, h⟩ | ⟨e, h⟩ | ⟨e, h⟩ <;> rw [e] at h1
  · rcases strcmp_cases t u with ⟨e', h'⟩ | ⟨e', h'⟩ | ⟨e', h'⟩ <;> rw [e'] at h2
    · rcases strcmp_cases s u with ⟨e3, h3⟩ | ⟨e3, h3⟩ | ⟨e3, h3⟩ <;> rw [e3] <;> try decide
      exact absurd (str_lt_trans h h') (str_lt_asymm h3)
    · subst h'; rw [e]; decide
    · omega
  · subst h; exact h2
  · omega

theorem cmpString_consistent (xs : List Str) : Consistent cmpString (xs.map Word.ptr) := by
  refine ⟨?_, ?_⟩
  · intro a ha b hb
    obtain ⟨s, _, rfl⟩ := List.mem_map.1 ha
    obtain ⟨t, _, rfl⟩ := List.mem_map.1 hb
    exact strcmp_neg_iff
  · intro a ha b hb c hc
    obtain ⟨s, _, rfl⟩ := List.mem_map.1 ha
    obtain ⟨t, _, rfl⟩ := List.mem_map.1 hb
    obtain ⟨u, _, rfl⟩ := List.mem_map.1 hc
    exact strcmp_trans

theorem cmpInt_consistent (xs : List Word) : Consistent cmpInt xs := by
  refine ⟨fun a _ b _ => ?_, fun a _ b _ c _ => ?_⟩
  · unfold cmpInt
    by_cases h1 : a.intD < b.intD <;> by_cases h2 : b.intD < a.intD <;> simp [h1, h2] <;> omega
  · unfold cmpInt
    intro h1 h2
    repeat' split at h1
    all_goals repeat' split at h2
    all_goals repeat' split
    all_goals omega

theorem cmpInt_le_iff {a b : Word} : cmpInt a b ≤ 0 ↔ a.intD ≤ b.intD := by
  unfold cmpInt
  repeat' split
  all_goals constructor <;> intro h <;> omega

theorem cmpFloat_consistent (xs : List F64) (hn : ∀ x ∈ xs, x.isNaN = false) :
    Consistent cmpFloat (xs.map Word.bits) := by
  have key : ∀ x y : F64, x.isNaN = false → y.isNaN = false →
      cmpFloat (.bits x) (.bits y) = if x.key < y.key then -1 else if y.key < x.key then 1 else 0 := by
    intro x y hx hy
    show (if F64.lt x y then _ else if F64.lt y x then _ else _) = _
    simp only [F64.lt, hx, hy, Bool.not_false, Bool.true_and, decide_eq_true_eq]
  refine ⟨?_, ?_⟩
  · intro a ha b hb
    obtain ⟨s, hs, rfl⟩ := List.mem_map.1 ha
    obtain ⟨t, ht, rfl⟩ := List.mem_map.1 hb
    rw [key s t (hn s hs) (hn t ht), key t s (hn t ht) (hn s hs)]
    by_cases h1 : F64.key s < F64.key t <;> by_cases h2 : F64.key t < F64.key s <;> simp [h1, h2] <;> omega
  · intro a ha b hb c hc
    obtain ⟨s, hs, rfl⟩ := List.mem_map.1 ha
    obtain ⟨t, ht, rfl⟩ := List.mem_map.1 hb
    obtain ⟨u, hu, rfl⟩ := List.mem_map.1 hc
    rw [key s t (hn s hs) (hn t ht), key t u (hn t ht) (hn u hu), key s u (hn s hs) (hn u hu)]
    intro h1 h2
    repeat' split at h1
    all_goals repeat' split at h2
    all_goals repeat' split
    all_goals omega

theorem cmpFloat_le {x y : F64} (hx : x.isNaN = false) (hy : y.isNaN = false)
    (h : cmpFloat (.bits x) (.bits y) ≤ 0) : x.key ≤ y.key := by
  have : cmpFloat (.bits x) (.bits y) = if x.key < y.key then -1 else if y.key < x.key then 1 else 0 := by
    show (if F64.lt x y then _ else if F64.lt y x then _ else _) = _
    simp only [F64.lt, hx, hy, Bool.not_false, Bool.true_and, decide_eq_true_eq]
  rw [this] at h
  repeat' split at h
  all_goals omega

/-! ### Cells of the three kinds -/

theorem string_dup (x y : Str) : CellKind.string.dup (.ptr x) (.ptr y) = decide (x = y) := by
  show (x == y) = _
  rw [Bool.eq_iff_iff]; simp

theorem intD_ofInt64 {x : Int} (h : intMin ≤ x ∧ x ≤ intMax) : (Word.ofInt64 x).intD = x := by
  show ((BitVec.ofInt 64 x).truncate 32).toInt = x
  have : (BitVec.ofInt 64 x).truncate 32 = BitVec.ofInt 32 x := by
    apply BitVec.eq_of_toNat_eq
    simp only [BitVec.truncate_eq_setWidth, BitVec.toNat_setWidth, BitVec.toNat_ofInt]
    omega
  rw [this, wrap32_id h.1 h.2]

theorem intD_intCell {x : Int} (h : intMin ≤ x ∧ x ≤ intMax) : (intCell x).intD = x :=
  wrap32_id h.1 h.2

theorem int_dup {enc : Int → Word} {x y : Int} (hx : (enc x).intD = x) (hy : (enc y).intD = y) :
    CellKind.int.dup (enc x) (enc y) = decide (x = y) := by
  show ((enc x).intD == (enc y).intD) = _
  rw [hx, hy, Bool.eq_iff_iff]; simp

/-! ### Doubles -/

theorem near_symm {a b : F64} (h : F64.near a b = true) : F64.near b a = true := by
  unfold F64.near at *
  simp only [Bool.and_eq_true, decide_eq_true_eq] at *
  refine ⟨⟨h.1.2, h.1.1⟩, ?_⟩
  have := h.2
  omega

end Argus
