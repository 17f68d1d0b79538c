import Verif.Lemmas.Regex
import Verif.Lemmas.Numbers
import Verif.Spec.Patterns

/-!
# Reading the predefined patterns
-/

set_option autoImplicit false

namespace Argus

/-! ### Classes -/

theorem digit_iff (x : Byte) : Digit x ↔ isDigit x = true := by
  simp [Digit, isDigit]

theorem digit_nat {x : Byte} : Digit x ↔ 48 ≤ x.toNat ∧ x.toNat ≤ 57 := by
  unfold Digit; rw [UInt8.le_iff_toNat_le, UInt8.le_iff_toNat_le]; rfl

/-- `[0-9]` and `\d`. -/
def cDigit : Cls := ⟨false, [(48, 57)]⟩
/-- `[0-9a-fA-F]`. -/
def cHex : Cls := ⟨false, [(48, 57), (97, 102), (65, 70)]⟩

theorem cDigit_has (x : Byte) : cDigit.has x = true ↔ Digit x := by
  simp [Cls.has, cDigit, Digit]

theorem cHex_has (x : Byte) : cHex.has x = true ↔ HexDigit x := by
  simp [Cls.has, cHex, HexDigit, Digit]; grind

theorem range_has (lo hi x : Byte) : (Cls.mk false [(lo, hi)]).has x = true ↔ lo.toNat ≤ x.toNat ∧ x.toNat ≤ hi.toNat := by
  simp [Cls.has, UInt8.le_iff_toNat_le]

/-! ### Numerals -/

theorem natDigitsAux_fuel : ∀ (f g n : Nat), n < f → n < g → natDigitsAux f n = natDigitsAux g n
  | 0, _, _, h, _ => by omega
  | _ + 1, 0, _, _, h => by omega
  | f + 1, g + 1, n, _, _ => by
    unfold natDigitsAux
    split
    · rfl
    · rw [natDigitsAux_fuel f g (n / 10) (by omega) (by omega)]

theorem natDigits_step (n : Nat) (h : 10 ≤ n) :
    natDigits n = natDigits (n / 10) ++ [UInt8.ofNat (48 + n % 10)] := by
  show natDigitsAux (n + 1) n = natDigitsAux (n / 10 + 1) (n / 10) ++ _
  have e : natDigitsAux (n + 1) n = natDigitsAux n (n / 10) ++ [UInt8.ofNat (48 + n % 10)] := by
    simp only [natDigitsAux]; rw [if_neg (by omega)]
  rw [e, natDigitsAux_fuel n (n / 10 + 1) (n / 10) (by omega) (by omega)]

theorem natDigits_small (n : Nat) (h : n < 10) : natDigits n = [UInt8.ofNat (48 + n)] := by
  show natDigitsAux (n + 1) n = _
  simp only [natDigitsAux]; rw [if_pos h]

theorem digit_ofNat {d : Byte} (h : Digit d) : UInt8.ofNat (48 + (d.toNat - 48)) = d := by
  have := digit_nat.1 h
  rw [show 48 + (d.toNat - 48) = d.toNat by omega, UInt8.ofNat_toNat]

theorem digitsVal_pos {x : Byte} {m : Str} (h : Digit x) (h0 : x ≠ 48) : 1 ≤ digitsVal (x :: m) := by
  have hx : 1 ≤ x.toNat - 48 := by
    have := digit_nat.1 h
    have : x.toNat ≠ 48 := fun e => h0 (UInt8.toNat_inj.1 e)
    omega
  have key : ∀ (m : Str) (k : Nat), 1 ≤ k → 1 ≤ m.foldl (fun acc d => 10 * acc + (d.toNat - 48)) k := by
    intro m
    induction m with
    | nil => intro k hk; exact hk
    | cons y m ih => intro k hk; simp only [List.foldl_cons]; exact ih _ (by omega)
  unfold digitsVal
  simp only [List.foldl_cons]
  exact key m _ (by omega)

/-- Digits without a leading zero are the decimal representation of their value. -/
theorem natDigits_digitsVal : ∀ (n : Nat) (x : Byte) (m : Str), m.length = n → Digit x → x ≠ 48 → (∀ y ∈ m, Digit y) →
    natDigits (digitsVal (x :: m)) = x :: m
  | 0, x, m, hn, hx, h0, hm => by
    rw [List.length_eq_zero_iff.1 hn]
    have := digit_nat.1 hx
    have e : digitsVal [x] = x.toNat - 48 := by simp [digitsVal]
    rw [e, natDigits_small _ (by omega), digit_ofNat hx]
  | n + 1, x, m, hn, hx, h0, hm => by
    obtain ⟨m', d, rfl⟩ : ∃ m' d, m = m' ++ [d] := by
      have : m ≠ [] := by intro h; rw [h] at hn; simp at hn
      exact ⟨m.dropLast, m.getLast this, (List.dropLast_concat_getLast this).symm⟩
    have hd : Digit d := hm d (by simp)
    have ih := natDigits_digitsVal n x m' (by simp at hn; exact hn) hx h0 (fun y hy => hm y (by simp [hy]))
    have h1 : 1 ≤ digitsVal (x :: m') := digitsVal_pos hx h0
    have e : digitsVal (x :: (m' ++ [d])) = 10 * digitsVal (x :: m') + (d.toNat - 48) := digitsVal_snoc (x :: m') d
    have hd' := digit_nat.1 hd
    rw [e, natDigits_step _ (by omega)]
    have e1 : (10 * digitsVal (x :: m') + (d.toNat - 48)) / 10 = digitsVal (x :: m') := by omega
    have e2 : (10 * digitsVal (x :: m') + (d.toNat - 48)) % 10 = d.toNat - 48 := by omega
    rw [e1, e2, ih, digit_ofNat hd]
    simp

/-- The first digit of a positive number is not 0. -/
theorem natDigits_head : ∀ (k n : Nat), n ≤ k → 1 ≤ n → ∃ x m, natDigits n = x :: m ∧ Digit x ∧ x ≠ 48 ∧ ∀ y ∈ m, Digit y
  | 0, n, h, h1 => by omega
  | k + 1, n, h, h1 => by
    by_cases hn : n < 10
    · rw [natDigits_small n hn]
      refine ⟨_, [], rfl, (digit_iff _).2 (digit_byte n hn).1, ?_, by simp⟩
      intro e
      have := (digit_byte n hn).2
      rw [e] at this
      have h2 : 0 = n := this
      clear e this
      omega
    · rw [natDigits_step n (by omega)]
      obtain ⟨x, m, e, hx, h0, hm⟩ := natDigits_head k (n / 10) (by omega) (by omega)
      rw [e]
      refine ⟨x, m ++ [UInt8.ofNat (48 + n % 10)], rfl, hx, h0, ?_⟩
      intro y hy
      simp only [List.mem_append, List.mem_singleton] at hy
      rcases hy with hy | rfl
      · exact hm y hy
      · exact (digit_iff _).2 (digit_byte (n % 10) (by omega)).1

/-- The positive numbers. -/
theorem posNumeral_iff (m : Str) : (∃ n : Nat, 1 ≤ n ∧ m = natDigits n) ↔
    ∃ x t, m = x :: t ∧ Digit x ∧ x ≠ 48 ∧ ∀ y ∈ t, Digit y := by
  constructor
  · rintro ⟨n, h1, rfl⟩
    obtain ⟨x, t, e, h2, h3, h4⟩ := natDigits_head n n (Nat.le_refl n) h1
    exact ⟨x, t, e, h2, h3, h4⟩
  · rintro ⟨x, t, rfl, h1, h2, h3⟩
    exact ⟨_, digitsVal_pos h1 h2, (natDigits_digitsVal _ x t rfl h1 h2 h3).symm⟩

/-- All numbers. -/
theorem numeral_iff (m : Str) : (∃ n : Nat, m = natDigits n) ↔
    m = c!"0" ∨ ∃ x t, m = x :: t ∧ Digit x ∧ x ≠ 48 ∧ ∀ y ∈ t, Digit y := by
  rw [← posNumeral_iff]
  constructor
  · rintro ⟨n, rfl⟩
    by_cases h : n = 0
    · subst h; left; rfl
    · right; exact ⟨n, by omega, rfl⟩
  · rintro (rfl | ⟨n, _, rfl⟩)
    · exact ⟨0, rfl⟩
    · exact ⟨n, rfl⟩

theorem nonzero_has (x : Byte) : (Cls.mk false [(49, 57)]).has x = true ↔ Digit x ∧ x ≠ 48 := by
  rw [range_has, digit_nat]
  have h49 : (49 : Byte).toNat = 49 := rfl
  have h57 : (57 : Byte).toNat = 57 := rfl
  rw [h49, h57]
  have : x ≠ 48 ↔ x.toNat ≠ 48 := not_congr (UInt8.toNat_inj (b := 48)).symm
  rw [this]; omega

/-- `[1-9][0-9]*`. -/
theorem lang_posNumeral (m : Str) :
    (Re.ofList [.cls ⟨false, [(49, 57)]⟩, .rep (.cls cDigit) 0 none]).Lang m ↔ ∃ n : Nat, 1 ≤ n ∧ m = natDigits n := by
  rw [posNumeral_iff, lang_cls_cons]
  simp only [lang_single, lang_rep_cls, cDigit_has, nonzero_has]
  constructor
  · rintro ⟨x, y, e, ⟨h1, h2⟩, _, _, h3⟩; exact ⟨x, y, e, h1, h2, h3⟩
  · rintro ⟨x, y, e, h1, h2, h3⟩; exact ⟨x, y, e, ⟨h1, h2⟩, by omega, by simp, h3⟩

/-! ### Numbers -/

theorem parse_posInt : Re.parse rePosInt =
    some (.seq .bol (Re.ofList ([.cls ⟨false, [(49, 57)]⟩, .rep (.cls cDigit) 0 none] ++ [.eol]))) := by decide +kernel

theorem found_posInt {r : Re} (h : Re.parse rePosInt = some r) (s : Str) : r.Found s ↔ ∃ m, Line s m ∧ IsPosInt m := by
  rw [parse_posInt, Option.some.injEq] at h; subst h
  rw [Re.found_anchored (by decide)]
  simp only [lang_posNumeral, IsPosInt]

theorem parse_negInt : Re.parse reNegInt =
    some (.seq .bol (Re.ofList ([Re.byte 45, .cls ⟨false, [(49, 57)]⟩, .rep (.cls cDigit) 0 none] ++ [.eol]))) := by
  decide +kernel

theorem found_negInt {r : Re} (h : Re.parse reNegInt = some r) (s : Str) : r.Found s ↔ ∃ m, Line s m ∧ IsNegInt m := by
  rw [parse_negInt, Option.some.injEq] at h; subst h
  rw [Re.found_anchored (by decide)]
  simp only [lang_byte_cons, lang_posNumeral, IsNegInt]
  constructor
  · rintro ⟨m, h1, y, rfl, n, h2, rfl⟩; exact ⟨_, h1, n, h2, rfl⟩
  · rintro ⟨m, h1, n, h2, rfl⟩; exact ⟨_, h1, _, rfl, n, h2, rfl⟩

theorem parse_hex : Re.parse reHex =
    some (.seq .bol (Re.ofList ([Re.byte 48, Re.byte 120, .rep (.cls cHex) 1 none] ++ [.eol]))) := by decide +kernel

theorem length_pos_iff_ne {m : Str} : 1 ≤ m.length ↔ m ≠ [] := by
  cases m <;> simp

theorem found_hex {r : Re} (h : Re.parse reHex = some r) (s : Str) : r.Found s ↔ ∃ m, Line s m ∧ IsHexNumber m := by
  rw [parse_hex, Option.some.injEq] at h; subst h
  rw [Re.found_anchored (by decide)]
  simp only [lang_byte_cons, lang_single, lang_rep_cls, cHex_has, IsHexNumber, length_pos_iff_ne]
  constructor
  · rintro ⟨m, h1, y, rfl, z, rfl, h2, _, h3⟩; exact ⟨_, h1, z, rfl, h2, h3⟩
  · rintro ⟨m, h1, z, rfl, h2, h3⟩; exact ⟨_, h1, _, rfl, z, rfl, h2, by simp, h3⟩

/-- `[-+]`. -/
def cSign : Cls := ⟨false, [(45, 45), (43, 43)]⟩

theorem cSign_has (x : Byte) : cSign.has x = true ↔ x = 45 ∨ x = 43 := by
  have h1 := byte_has 45 x
  have h2 := byte_has 43 x
  simp only [Cls.has, cSign, List.any_cons, List.any_nil, Bool.or_false, Bool.false_bne, Bool.or_eq_true] at h1 h2 ⊢
  rw [h1, h2]

theorem parse_float : Re.parse reFloat = some (.seq .bol (Re.ofList
    ([.rep (.cls cSign) 0 (some 1), .rep (.cls cDigit) 0 none, .rep (Re.byte 46) 0 (some 1), .rep (.cls cDigit) 1 none] ++
      [.eol]))) := by decide +kernel

theorem found_float {r : Re} (h : Re.parse reFloat = some r) (s : Str) : r.Found s ↔ ∃ m, Line s m ∧ IsDecimal m := by
  rw [parse_float, Option.some.injEq] at h; subst h
  rw [Re.found_anchored (by decide)]
  simp only [lang_cons, lang_nil, lang_opt, lang_byte, lang_rep_cls, cDigit_has, IsDecimal, length_pos_iff_ne]
  constructor
  · rintro ⟨m, h1, sg, _, rfl, h2, i, _, rfl, ⟨_, _, h3⟩, p, _, rfl, h4, f, _, rfl, ⟨h5, _, h6⟩, rfl⟩
    refine ⟨_, h1, sg, i, p, f, by simp, ?_, h3, h4, h5, h6⟩
    rcases h2 with h2 | ⟨x, rfl, h2⟩
    · exact .inl h2
    · rcases (cSign_has x).1 h2 with rfl | rfl
      · exact .inr (.inl rfl)
      · exact .inr (.inr rfl)
  · rintro ⟨m, h1, sg, i, p, f, rfl, h2, h3, h4, h5, h6⟩
    refine ⟨_, h1, sg, _, by simp only [List.append_assoc], ?_, i, _, rfl, ⟨by omega, by simp, h3⟩, p, _, rfl, h4, f, _,
      (List.append_nil f).symm, ⟨h5, by simp, h6⟩, rfl⟩
    rcases h2 with h2 | h2 | h2
    · exact .inl h2
    · exact .inr ⟨45, h2, (cSign_has _).2 (.inl rfl)⟩
    · exact .inr ⟨43, h2, (cSign_has _).2 (.inr rfl)⟩

end Argus
