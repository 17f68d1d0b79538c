import Verif.Model.Bytes

/-! Facts about the string helpers. -/

set_option autoImplicit false

namespace Argus

theorem byte_lt_irrefl (a : Byte) : ¬ a < a := by
  intro h; exact absurd h (UInt8.lt_irrefl a)

theorem byte_eq_of_not_lt {a b : Byte} (h1 : ¬ a < b) (h2 : ¬ b < a) : a = b :=
  UInt8.le_antisymm (UInt8.not_lt.mp h2) (UInt8.not_lt.mp h1)

theorem strcmp_eq_zero_iff : ∀ (a b : Str), strcmp a b = 0 ↔ a = b
  | [], [] => by simp [strcmp]
  | [], _ :: _ => by simp [strcmp]
  | _ :: _, [] => by simp [strcmp]
  | a :: as, b :: bs => by
    unfold strcmp
    by_cases h1 : a < b
    · have : a ≠ b := fun h => byte_lt_irrefl b (h ▸ h1)
      simp [h1, this]
    · by_cases h2 : b < a
      · have : a ≠ b := fun h => byte_lt_irrefl b (h ▸ h2)
        simp [h1, h2, this]
      · have := byte_eq_of_not_lt h1 h2
        simp [h1, h2, this, strcmp_eq_zero_iff as bs]

theorem strcmp_self (a : Str) : strcmp a a = 0 := (strcmp_eq_zero_iff a a).2 rfl

theorem strncmpEq_iff : ∀ (n : Nat) (a b : Str), strncmpEq n a b = true ↔ a.take n = b.take n
  | 0, _, _ => by simp [strncmpEq]
  | _ + 1, [], [] => by simp [strncmpEq]
  | _ + 1, [], _ :: _ => by simp [strncmpEq]
  | _ + 1, _ :: _, [] => by simp [strncmpEq]
  | n + 1, a :: as, b :: bs => by simp [strncmpEq, strncmpEq_iff n as bs]

/-- `starts_with` finds exactly the strings with that prefix. -/
theorem startsWith_eq_some_iff (pre s r : Str) : startsWith pre s = some r ↔ s = pre ++ r := by
  unfold startsWith
  simp only [strncmpEq_iff]
  constructor
  · intro h
    split at h
    · rename_i h1
      simp only [Option.some.injEq] at h
      rw [← h]
      conv => lhs; rw [← List.take_append_drop pre.length s]
      rw [h1, List.take_length]
    · simp at h
  · intro h
    subst h
    simp

theorem startsWith_eq_none_iff (pre s : Str) : startsWith pre s = none ↔ ¬ pre <+: s := by
  constructor
  · rintro h ⟨r, hr⟩
    rw [(startsWith_eq_some_iff pre s r).2 hr.symm] at h
    simp at h
  · intro h
    cases hs : startsWith pre s with
    | none => rfl
    | some r => exact absurd ⟨r, ((startsWith_eq_some_iff pre s r).1 hs).symm⟩ h

theorem startsWith_append (pre r : Str) : startsWith pre (pre ++ r) = some r :=
  (startsWith_eq_some_iff _ _ _).2 rfl

theorem strchrSplit_none_iff (c : Byte) : ∀ s : Str, strchrSplit c s = none ↔ c ∉ s
  | [] => by simp [strchrSplit]
  | b :: bs => by
    unfold strchrSplit
    by_cases h : b = c
    · simp [h]
    · have h' : c ≠ b := fun e => h e.symm
      simp [h, h', strchrSplit_none_iff c bs]

theorem strchrSplit_some_iff (c : Byte) : ∀ (s p q : Str),
    strchrSplit c s = some (p, q) ↔ s = p ++ c :: q ∧ c ∉ p
  | [], p, q => by simp [strchrSplit]
  | b :: bs, p, q => by
    unfold strchrSplit
    by_cases h : b = c
    · subst h
      simp only [beq_self_eq_true, if_true, Option.some.injEq, Prod.mk.injEq]
      constructor
      · rintro ⟨rfl, rfl⟩; simp
      · rintro ⟨h1, h2⟩
        cases p with
        | nil => simpa using h1
        | cons x xs =>
          simp only [List.cons_append, List.cons.injEq] at h1
          exact absurd (h1.1 ▸ List.mem_cons_self) h2
    · have hb : (b == c) = false := by simpa using h
      simp only [hb, Bool.false_eq_true, if_false]
      cases p with
      | nil =>
        constructor
        · intro h1
          cases h2 : strchrSplit c bs <;> simp [h2] at h1
        · rintro ⟨h1, _⟩
          simp only [List.nil_append, List.cons.injEq] at h1
          exact absurd h1.1 h
      | cons x xs =>
        have ih := strchrSplit_some_iff c bs xs q
        constructor
        · intro h1
          cases h2 : strchrSplit c bs with
          | none => simp [h2] at h1
          | some r =>
            simp only [h2, Option.map_some, Option.some.injEq, Prod.mk.injEq, List.cons.injEq] at h1
            obtain ⟨⟨rfl, h3⟩, h4⟩ := h1
            have : r = (xs, q) := by cases r; simp_all
            rw [this] at h2
            obtain ⟨h5, h6⟩ := ih.1 h2
            refine ⟨by simp [h5], ?_⟩
            simp only [List.mem_cons, not_or]
            exact ⟨fun e => h e.symm, h6⟩
        · rintro ⟨h1, h2⟩
          simp only [List.cons_append, List.cons.injEq] at h1
          simp only [List.mem_cons, not_or] at h2
          rw [ih.2 ⟨h1.2, h2.2⟩]
          simp [h1.1]

end Argus
