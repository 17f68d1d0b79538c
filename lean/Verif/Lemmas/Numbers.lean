import Verif.Spec.Numeral

/-! # Lemmas: reading and writing numbers -/

set_option autoImplicit false

namespace Argus

theorem takeWhile_append_stop {p : Byte → Bool} : ∀ (xs ys : Str), (∀ c ∈ xs, p c = true) →
    (∀ c ∈ ys.head?, p c = false) → (xs ++ ys).takeWhile p = xs ∧ (xs ++ ys).dropWhile p = ys
  | [], ys, _, hy => by
    cases ys with
    | nil => simp
    | cons y ys =>
      have := hy y (by simp)
      simp [this]
  | x :: xs, ys, hx, hy => by
    have := takeWhile_append_stop xs ys (fun c hc => hx c (by simp [hc])) hy
    simp [hx x (by simp), this]

theorem isDigit_not_space {c : Byte} (h : isDigit c = true) : isSpace c = false := by
  unfold isDigit at h
  unfold isSpace
  simp only [Bool.and_eq_true, decide_eq_true_eq] at h
  have h1 : (48 : Nat) ≤ c.toNat := UInt8.le_iff_toNat_le.1 h.1
  have h2 : ¬ c ≤ 13 := by
    intro hc
    have : c.toNat ≤ 13 := UInt8.le_iff_toNat_le.1 hc
    omega
  have h3 : ¬ c = 32 := by
    intro hc; subst hc; revert h1; decide
  simp [h2, h3]

theorem strtollSign_digit {ds rest : Str} (hne : ds ≠ []) (hd : ∀ c ∈ ds, isDigit c = true) :
    strtollSign (ds ++ rest) = (false, ds ++ rest) := by
  cases ds with
  | nil => exact absurd rfl hne
  | cons d ds =>
    have h := hd d (by simp)
    have h1 : d ≠ 45 := by rintro rfl; revert h; decide
    have h2 : d ≠ 43 := by rintro rfl; revert h; decide
    simp [strtollSign, h1, h2]

theorem digits_head_not_space {ds rest : Str} (hne : ds ≠ []) (hd : ∀ c ∈ ds, isDigit c = true) :
    ∀ c ∈ (ds ++ rest).head?, isSpace c = false := by
  cases ds with
  | nil => exact absurd rfl hne
  | cons d ds =>
    intro c hc
    simp at hc; subst hc
    exact isDigit_not_space (hd d (by simp))

/-- `strtoll` reads numerals. -/
theorem strtoll_numeral {s rest : Str} {v : Int} (h : NumeralThen s v rest) :
    strtoll s = (clampLL v, rest) := by
  obtain ⟨sp, sg, ds, rfl, hsp, hsg, hne, hd, hv, hrest⟩ := h
  have hds := takeWhile_append_stop ds rest hd hrest
  have e : strtollSign ((sp ++ sg ++ ds ++ rest).dropWhile isSpace) =
      (decide (sg = c!"-"), ds ++ rest) := by
    have hs : (sp ++ sg ++ ds ++ rest).dropWhile isSpace = sg ++ (ds ++ rest) := by
      rw [List.append_assoc, List.append_assoc]
      refine (takeWhile_append_stop sp _ hsp ?_).2
      rcases hsg with rfl | rfl | rfl
      · simpa using digits_head_not_space hne hd
      · simp; decide
      · simp; decide
    rw [hs]
    rcases hsg with rfl | rfl | rfl
    · rw [List.nil_append, strtollSign_digit hne hd]; rfl
    · rfl
    · rfl
  unfold strtoll
  rw [e]
  simp only [hds.1, hds.2, if_neg hne]
  rw [hv]
  by_cases hm : sg = c!"-" <;> simp [hm]

/-- Without a numeral, nothing is read. -/
theorem strtoll_other {s : Str} (h : ∀ v rest, ¬ NumeralThen s v rest) : strtoll s = (0, s) := by
  unfold strtoll
  simp only
  split
  · rfl
  · rename_i hne
    exfalso
    have hs : s = s.takeWhile isSpace ++ s.dropWhile isSpace := (List.takeWhile_append_dropWhile).symm
    have hp : ∃ sg, (sg = [] ∨ sg = c!"+" ∨ sg = c!"-") ∧
        s.dropWhile isSpace = sg ++ (strtollSign (s.dropWhile isSpace)).2 := by
      generalize s.dropWhile isSpace = t
      cases t with
      | nil => exact ⟨[], .inl rfl, rfl⟩
      | cons b r =>
        unfold strtollSign
        by_cases h1 : b = 45
        · subst h1; exact ⟨c!"-", .inr (.inr rfl), rfl⟩
        · by_cases h2 : b = 43
          · subst h2; exact ⟨c!"+", .inr (.inl rfl), rfl⟩
          · exact ⟨[], .inl rfl, by simp [h1, h2]⟩
    obtain ⟨sg, hsg, hp⟩ := hp
    generalize (strtollSign (s.dropWhile isSpace)).2 = t at hp hne
    refine h _ (t.dropWhile isDigit) ⟨s.takeWhile isSpace, sg, t.takeWhile isDigit, ?_, ?_, hsg, hne, ?_,
      rfl, ?_⟩
    · rw [List.append_assoc, List.takeWhile_append_dropWhile, List.append_assoc, ← hp,
        List.takeWhile_append_dropWhile]
    · intro c hc
      exact (List.all_eq_true.1 (List.all_takeWhile)) c hc
    · intro c hc
      exact (List.all_eq_true.1 (List.all_takeWhile)) c hc
    · intro c hc
      have := List.head?_dropWhile_not isDigit t
      rw [Option.mem_def.1 hc] at this
      simpa using this

/-! ### Writing -/

theorem digitsVal_snoc (ds : Str) (d : Byte) :
    digitsVal (ds ++ [d]) = 10 * digitsVal ds + (d.toNat - 48) := by
  simp [digitsVal, List.foldl_append]

theorem digit_byte (d : Nat) (h : d < 10) :
    isDigit (UInt8.ofNat (48 + d)) = true ∧ (UInt8.ofNat (48 + d)).toNat - 48 = d := by
  have : ∀ d : Fin 10, isDigit (UInt8.ofNat (48 + d.val)) = true ∧
    (UInt8.ofNat (48 + d.val)).toNat - 48 = d.val := by decide
  exact this ⟨d, h⟩

theorem natDigitsAux_spec : ∀ (fuel n : Nat), n < fuel →
    natDigitsAux fuel n ≠ [] ∧ (∀ c ∈ natDigitsAux fuel n, isDigit c = true) ∧
      digitsVal (natDigitsAux fuel n) = n
  | 0, n, h => by omega
  | fuel + 1, n, h => by
    unfold natDigitsAux
    split
    · rename_i hn
      obtain ⟨h1, h2⟩ := digit_byte n hn
      refine ⟨by simp, by simpa using h1, ?_⟩
      simp [digitsVal]; simpa using h2
    · rename_i hn
      obtain ⟨h1, h2, h3⟩ := natDigitsAux_spec fuel (n / 10) (by omega)
      obtain ⟨h4, h5⟩ := digit_byte (n % 10) (by omega)
      refine ⟨by simp, ?_, ?_⟩
      · intro c hc
        rcases List.mem_append.1 hc with hc | hc
        · exact h2 c hc
        · simp only [List.mem_singleton] at hc; rw [hc]; exact h4
      · rw [digitsVal_snoc, h3, h5]; omega

theorem natDigits_spec (n : Nat) : natDigits n ≠ [] ∧ (∀ c ∈ natDigits n, isDigit c = true) ∧
    digitsVal (natDigits n) = n := natDigitsAux_spec (n + 1) n (Nat.lt_succ_self n)

/-- The decimal representation of `n` is a numeral of value `n`. -/
theorem showInt_numeral (n : Int) (rest : Str) (hr : ∀ c ∈ rest.head?, isDigit c = false) :
    NumeralThen (showInt n ++ rest) n rest := by
  obtain ⟨h1, h2, h3⟩ := natDigits_spec n.natAbs
  unfold showInt
  split
  · refine ⟨[], c!"-", natDigits n.natAbs, by simp, by simp, by simp, h1, h2, ?_, hr⟩
    rw [if_pos rfl, h3]; omega
  · refine ⟨[], [], natDigits n.natAbs, by simp, by simp, by simp, h1, h2, ?_, hr⟩
    rw [if_neg (by simp), h3]; omega

theorem strtoll_showInt (n : Int) (rest : Str) (hr : ∀ c ∈ rest.head?, isDigit c = false) :
    strtoll (showInt n ++ rest) = (clampLL n, rest) := strtoll_numeral (showInt_numeral n rest hr)

theorem clampLL_id {n : Int} (h1 : llongMin ≤ n) (h2 : n ≤ llongMax) : clampLL n = n := by
  unfold clampLL
  rw [if_neg (by omega), if_neg (by omega)]

theorem ofInt64_toInt {n : Int} (h1 : llongMin ≤ n) (h2 : n ≤ llongMax) :
    (BitVec.ofInt 64 n).toInt = n := by
  unfold llongMin at h1; unfold llongMax at h2
  rw [BitVec.toInt_ofInt, Int.bmod_def]
  split <;> omega

theorem clampLL_range (n : Int) : llongMin ≤ clampLL n ∧ clampLL n ≤ llongMax := by
  unfold clampLL llongMin llongMax
  split <;> (try split) <;> omega

theorem wrap32_id {n : Int} (h1 : intMin ≤ n) (h2 : n ≤ intMax) : (BitVec.ofInt 32 n).toInt = n := by
  unfold intMin at h1; unfold intMax at h2
  rw [BitVec.toInt_ofInt, Int.bmod_def]
  split <;> omega

end Argus
