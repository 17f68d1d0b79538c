import Verif.Spec.Fields

/-! # Lemmas: splitting -/

set_option autoImplicit false

namespace Argus

theorem fields_ne_nil (sep : Byte → Bool) : ∀ s : Str, fields sep s ≠ []
  | [] => by simp [fields]
  | c :: r => by
    unfold fields
    split
    · simp
    · split <;> simp

theorem fields_word (sep : Byte → Bool) : ∀ (w : Str) (rest : Str), (∀ c ∈ w, sep c = false) →
    fields sep (w ++ rest) = match fields sep rest with
      | [] => [w]
      | x :: xs => (w ++ x) :: xs
  | [], rest, _ => by
    cases h : fields sep rest with
    | nil => exact absurd h (fields_ne_nil sep rest)
    | cons x xs => simp [h]
  | c :: w, rest, hw => by
    rw [List.cons_append, fields, if_neg (by simp [hw c (by simp)]),
      fields_word sep w rest (fun d hd => hw d (by simp [hd]))]
    cases fields sep rest <;> rfl

/-- Putting the separators back gives the text. -/
theorem fields_join (c : Byte) : ∀ s : Str, [c].intercalate (fields (· == c) s) = s
  | [] => by simp [fields, List.intercalate]
  | b :: r => by
    have ih := fields_join c r
    unfold fields
    split
    · rename_i h
      have hb : b = c := by simpa using h
      cases hf : fields (· == c) r with
      | nil => exact absurd hf (fields_ne_nil _ r)
      | cons w ws =>
        rw [hf] at ih
        simp only [List.intercalate, List.intersperse, List.flatten_cons, List.nil_append] at ih ⊢
        rw [ih, hb]; rfl
    · cases hf : fields (· == c) r with
      | nil => exact absurd hf (fields_ne_nil _ r)
      | cons w ws =>
        rw [hf] at ih
        simp only
        rw [← ih]
        cases ws <;> simp [List.intercalate, List.intersperse]

theorem fields_no_sep (sep : Byte → Bool) : ∀ (s : Str), ∀ w ∈ fields sep s, ∀ c ∈ w, sep c = false
  | [], w, hw, c, hc => by simp [fields] at hw; subst hw; simp at hc
  | b :: r, w, hw, c, hc => by
    unfold fields at hw
    split at hw
    · rcases List.mem_cons.1 hw with rfl | hw
      · simp at hc
      · exact fields_no_sep sep r w hw c hc
    · rename_i hb
      split at hw
      · simp only [List.mem_singleton] at hw; subst hw
        simp only [List.mem_singleton] at hc; subst hc; simpa using hb
      · rename_i w' ws he
        rcases List.mem_cons.1 hw with rfl | hw
        · rcases List.mem_cons.1 hc with rfl | hc
          · simpa using hb
          · exact fields_no_sep sep r w' (by rw [he]; simp) c hc
        · exact fields_no_sep sep r w (by rw [he]; simp [hw]) c hc

theorem splitLoop_sep {cs : Str} {c : Byte} (hc : cs.contains c = true) (n : Nat) (r : Str) :
    splitLoop cs n (c :: r) = splitLoop cs n r := by
  cases n with
  | zero => rfl
  | succ n =>
    unfold splitLoop
    simp only [skipCharset, hc, if_true, List.drop_succ_cons]

theorem countWords_true (cs : Str) : ∀ r : Str,
    countWords cs true r = countWords cs false (r.drop (wordLen cs r))
  | [] => rfl
  | c :: r => by
    unfold wordLen
    by_cases h : cs.contains c = true
    · simp only [countWords, h, if_true, List.drop_zero]
    · simp only [countWords, h, Bool.false_eq_true, if_false, if_true, List.drop_succ_cons]
      exact countWords_true cs r

theorem wordLen_take (cs : Str) : ∀ r : Str, ∀ c ∈ r.take (wordLen cs r), cs.contains c = false
  | [], c, hc => by simp at hc
  | b :: r, c, hc => by
    unfold wordLen at hc
    split at hc
    · simp at hc
    · rename_i h
      rcases List.mem_cons.1 (by simpa using hc) with rfl | hc
      · simpa using h
      · exact wordLen_take cs r c hc

theorem wordLen_drop (cs : Str) : ∀ r : Str,
    r.drop (wordLen cs r) = [] ∨ ∃ d r', r.drop (wordLen cs r) = d :: r' ∧ cs.contains d = true
  | [] => by simp
  | b :: r => by
    unfold wordLen
    split
    · rename_i h; exact .inr ⟨b, r, by simp, h⟩
    · simpa using wordLen_drop cs r

theorem split_aux (cs : Str) : ∀ (n : Nat) (s : Str), s.length ≤ n →
    splitLoop cs (countWords cs false s) s = (fields cs.contains s).filter (· ≠ [])
  | _, [], _ => by simp [countWords, splitLoop, fields]
  | 0, c :: r, h => by simp at h
  | n + 1, c :: r, h => by
    simp only [List.length_cons, Nat.add_le_add_iff_right] at h
    by_cases hc : cs.contains c = true
    · rw [splitLoop_sep hc, countWords, if_pos hc, split_aux cs n r h, fields, if_pos hc]
      simp
    · have hw : countWords cs false (c :: r) = countWords cs true r + 1 := by
        simp only [countWords, if_neg hc, Bool.false_eq_true, if_false]
      rw [hw]
      unfold splitLoop
      have hs : skipCharset cs (c :: r) = 0 := by rw [skipCharset, if_neg hc]
      have hl : wordLen cs (c :: r) = wordLen cs r + 1 := by rw [wordLen, if_neg hc]
      simp only [hs, List.drop_zero, hl, List.take_succ_cons, List.drop_succ_cons]
      rw [countWords_true, split_aux cs n _ (by simp; omega)]
      have e : c :: r = (c :: r.take (wordLen cs r)) ++ r.drop (wordLen cs r) := by simp
      have hno : ∀ d ∈ c :: r.take (wordLen cs r), cs.contains d = false := by
        intro d hd
        rcases List.mem_cons.1 hd with rfl | hd
        · simpa using hc
        · exact wordLen_take cs r d hd
      conv => rhs; rw [e, fields_word _ _ _ hno]
      rcases wordLen_drop cs r with h0 | ⟨d, r', h0, hd⟩
      · rw [h0]; simp [fields]
      · rw [h0, fields, if_pos hd]; simp

theorem split_eq (s cs : Str) : split s cs = (fields cs.contains s).filter (· ≠ []) :=
  split_aux cs s.length s (Nat.le_refl _)

end Argus
