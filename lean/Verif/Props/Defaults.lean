import Verif.Model.Defaults
import Verif.Props.Order
import Verif.Props.Describe
import Verif.Lemmas.Floats

/-!
# C69: DEFAULT sets the default

`Opt.default` is the macro; `as_int64`, `as_bool`, `as_string` and `as_float` are `asInt64` and so on.
-/

set_option autoImplicit false

namespace Argus

/-- An option that is not given keeps the value of its declaration. -/
theorem default_kept (W : World) (env : Env) (a a' : Argus) (args : List Str) (p : Ptr) (o base : Opt) (v : Arg)
    (hok : argusParse W env a args = .ok (.returned Err.success, a'))
    (ho : a.getOpt p = .ok o) (ht : o.type ≠ .subcommand) (hd : base.default v = .ok o)
    (hcl : ∀ x, Act.give p x ∉ a.asks args)
    (henv : ∀ n, envVarName a.envPrefix o = some n → env n = none) :
    ∃ o' w, a'.getOpt p = .ok o' ∧ v.toUintptr = .ok w ∧ o'.value = .word w ∧ o'.defaultValue = w ∧ o'.isSet = true := by
  have h1 := C50_untouched_keeps_default_partial W env a a' args p o hok ho ht hcl henv
  unfold Opt.default at hd
  obtain ⟨w, hw, h2⟩ := Out.bind_eq_ok hd
  simp only [Out.ok.injEq] at h2
  subst h2
  exact ⟨_, w, h1, hw, rfl, rfl, rfl⟩

/-- **C69** (full statement: for every argument of DEFAULT, an option that is not given has that value.) Proved for
    integers, booleans, strings and NULL; false for floats, see `C69_float_only_zero`.
    An option with DEFAULT that is given neither on the command line nor by the environment has the value written
    there after every parse, and counts as set. -/
theorem C69_default_partial (W : World) (env : Env) (a a' : Argus) (args : List Str) (p : Ptr) (o base : Opt) (v : Arg)
    (hok : argusParse W env a args = .ok (.returned Err.success, a'))
    (ho : a.getOpt p = .ok o) (ht : o.type ≠ .subcommand) (hd : base.default v = .ok o)
    (hcl : ∀ x, Act.give p x ∉ a.asks args)
    (henv : ∀ n, envVarName a.envPrefix o = some n → env n = none) :
    ∃ o' w, a'.getOpt p = .ok o' ∧ o'.value = .word w ∧ o'.isSet = true ∧
      (∀ n, v = .int n → -2 ^ 63 ≤ n → n < 2 ^ 63 → w.asInt64 = .ok n) ∧
      (∀ n, v = .int n → -2 ^ 31 ≤ n → n < 2 ^ 31 → w.asInt = .ok n) ∧
      (∀ b, v = .bool b → w.asBool = .ok b) ∧
      (∀ s, v = .string s → w.asString = .ok (some s)) ∧
      (v = .null → w.asString = .ok none) := by
  obtain ⟨o', w, h1, h2, h3, _, h4⟩ := default_kept W env a a' args p o base v hok ho ht hd hcl henv
  refine ⟨o', w, h1, h3, h4, ?_, ?_, ?_, ?_, ?_⟩
  · rintro n rfl hl hu
    simp only [Arg.toUintptr, Out.ok.injEq] at h2
    subst h2
    simp only [Word.asInt64, Out.ok.injEq, BitVec.toInt_ofInt]
    exact Int.bmod_eq_of_le (by omega) (by omega)
  · rintro n rfl hl hu
    simp only [Arg.toUintptr, Out.ok.injEq] at h2
    subst h2
    refine asInt_of_asInt64 ?_ hl hu
    simp only [Word.asInt64, Out.ok.injEq, BitVec.toInt_ofInt]
    exact Int.bmod_eq_of_le (by omega) (by omega)
  · rintro b rfl
    simp only [Arg.toUintptr, Out.ok.injEq] at h2
    subst h2
    cases b <;> rfl
  · rintro s rfl
    simp only [Arg.toUintptr, Out.ok.injEq] at h2
    subst h2
    rfl
  · rintro rfl
    simp only [Arg.toUintptr, Out.ok.injEq] at h2
    subst h2
    rfl

/-- The integral part of a number from 1 on never has the bit pattern of that number. -/
theorem whole_ne (x : F64) (h2 : F64.whole x < 2 ^ 64) (h3 : x.msb = false)
    (h : F64.whole x = x.toNat) : x.toNat = 0 := by
  have hx : x.toNat < 2 ^ 63 := by
    rw [BitVec.msb_eq_false_iff_two_mul_lt] at h3
    omega
  have hm : F64.mag x = x.toNat := Nat.mod_eq_of_lt hx
  unfold F64.whole F64.absUnits at h h2
  simp only [hm] at h h2
  generalize x.toNat = X at *
  have hX : X = 2 ^ 52 * (X / 2 ^ 52) + X % 2 ^ 52 := (Nat.div_add_mod X (2 ^ 52)).symm
  have hml : X % 2 ^ 52 < 2 ^ 52 := Nat.mod_lt _ (by decide)
  generalize X / 2 ^ 52 = e at *
  generalize X % 2 ^ 52 = m at *
  split at h
  · rename_i he
    subst he
    rw [Nat.div_eq_of_lt (Nat.lt_of_lt_of_le hml (Nat.pow_le_pow_right (by decide) (by decide)))] at h
    exact h.symm
  · rename_i he
    rw [if_neg he] at h2
    by_cases hbig : e ≤ 1075
    · have h4 : (2 ^ 52 + m) * 2 ^ (e - 1) / 2 ^ 1074 ≤ 2 ^ 52 + m := by
        apply Nat.div_le_of_le_mul
        rw [Nat.mul_comm]
        exact Nat.mul_le_mul_right _ (Nat.pow_le_pow_right (by decide) (by omega))
      rw [h] at h4
      have he1 : e = 1 := by
        by_cases h5 : e = 1
        · exact h5
        · have : 2 ^ 52 * 2 ≤ 2 ^ 52 * e := Nat.mul_le_mul_left _ (by omega)
          omega
      subst he1
      rw [Nat.sub_self, Nat.pow_zero, Nat.mul_one, Nat.div_eq_of_lt] at h
      · omega
      · exact Nat.lt_of_lt_of_le (by omega : 2 ^ 52 + m < 2 ^ 53) (Nat.pow_le_pow_right (by decide) (by decide))
    · obtain ⟨k, rfl⟩ : ∃ k, e = 1075 + k := ⟨e - 1075, by omega⟩
      have h4 : (2 ^ 52 + m) * 2 ^ (1075 + k - 1) / 2 ^ 1074 = (2 ^ 52 + m) * 2 ^ k := by
        rw [show 1075 + k - 1 = k + 1074 by omega, Nat.pow_add, ← Nat.mul_assoc, Nat.mul_div_cancel _ (by exact Nat.two_pow_pos _)]
      rw [h4] at h h2
      have hk : k < 12 := by
        apply Nat.lt_of_not_le
        intro h5
        have h6 : (2 ^ 52 : Nat) * 2 ^ 12 ≤ (2 ^ 52 + m) * 2 ^ k :=
          Nat.mul_le_mul (by omega) (Nat.pow_le_pow_right (by decide) h5)
        omega
      have hcases : k = 0 ∨ k = 1 ∨ k = 2 ∨ k = 3 ∨ k = 4 ∨ k = 5 ∨ k = 6 ∨ k = 7 ∨ k = 8 ∨ k = 9 ∨ k = 10 ∨ k = 11 := by
        omega
      rcases hcases with rfl | rfl | rfl | rfl | rfl | rfl | rfl | rfl | rfl | rfl | rfl | rfl <;> omega

theorem feq_comm (a b : F64) : F64.eq a b = F64.eq b a := by
  unfold F64.eq
  rw [Bool.and_comm (!F64.isNaN a), Bool.beq_comm]

/-- **C69** fails for floats: whenever DEFAULT(x) is defined at all, the value read back with `as_float` is x only if
    x is zero. -/
theorem C69_float_only_zero (o base : Opt) (x y : F64) (h : base.default (.float x) = .ok o)
    (hy : o.defaultValue.asFloat = .ok y) : o.value = .word o.defaultValue ∧
      (F64.eq y x = true ↔ F64.eq x 0 = true) := by
  unfold Opt.default at h
  obtain ⟨w, hw, h2⟩ := Out.bind_eq_ok h
  simp only [Out.ok.injEq] at h2
  subst h2
  simp only [Arg.toUintptr] at hw
  split at hw
  · rename_i hc
    obtain ⟨hf, hlt, hneg⟩ := hc
    simp only [Out.ok.injEq] at hw
    subst hw
    simp only [Opt.withDefault, Word.asFloat, Out.ok.injEq] at hy
    subst hy
    refine ⟨rfl, ?_⟩
    by_cases hz : F64.whole x = 0
    · rw [hz, feq_comm x 0]
      exact Iff.rfl
    · have hmsb : x.msb = false := by
        cases hb : x.msb with
        | false => rfl
        | true => exact absurd (hneg hb) hz
      have hx : x.toNat < 2 ^ 63 := by
        rw [BitVec.msb_eq_false_iff_two_mul_lt] at hmsb
        omega
      have hk : F64.key x = (x.toNat : Int) := by
        unfold F64.key F64.mag
        rw [hmsb, Nat.mod_eq_of_lt hx]
        rfl
      have hpos : x.toNat ≠ 0 := by
        intro h0
        apply hz
        have : x = 0 := BitVec.eq_of_toNat_eq h0
        rw [this]
        unfold F64.whole
        rw [show F64.absUnits 0 = 0 by decide, Nat.zero_div]
      have hyn : (BitVec.ofNat 64 (F64.whole x)).toNat = F64.whole x := by
        rw [BitVec.toNat_ofNat, Nat.mod_eq_of_lt hlt]
      constructor
      · intro he
        exfalso
        unfold F64.eq at he
        simp only [Bool.and_eq_true, beq_iff_eq] at he
        have hkey := he.2
        rw [hk] at hkey
        unfold F64.key F64.mag at hkey
        rw [hyn] at hkey
        split at hkey
        · omega
        · rename_i hm
          have hl : F64.whole x < 2 ^ 63 := by
            rw [Bool.not_eq_true, BitVec.msb_eq_false_iff_two_mul_lt, hyn] at hm
            omega
          rw [Nat.mod_eq_of_lt hl] at hkey
          exact hpos (whole_ne x hlt hmsb (by omega))
      · intro he
        exfalso
        unfold F64.eq at he
        simp only [Bool.and_eq_true, beq_iff_eq] at he
        have hkey := he.2
        rw [hk] at hkey
        have : F64.key 0 = 0 := by decide
        rw [this] at hkey
        omega
  · simp at hw

namespace Sample

/-- `OPTION_INT('n', "num", DEFAULT(-5))`, `OPTION_STRING('o', "out", DEFAULT("a.out"))`. -/
def defaults : Argus :=
  argusInit [[helpOption, (optInt 110 (some c!"num")).withDefault (.bits (BitVec.ofInt 64 (-5))),
    (optString 111 (some c!"out")).withDefault (.ptr c!"a.out")]] c!"prog" none

end Sample

/-- `prog -n 3`: the other option keeps its default. -/
example : ∃ a' o, argusParse Sample.world Sample.noEnv Sample.defaults [c!"-n", c!"3"] = .ok (.returned Err.success, a') ∧
    Sample.defaults.getOpt ⟨0, 2⟩ = .ok o ∧ o.type ≠ .subcommand ∧
    (optString 111 (some c!"out")).default (.string c!"a.out") = .ok o ∧
    (∀ x, Act.give ⟨0, 2⟩ x ∉ Sample.defaults.asks [c!"-n", c!"3"]) ∧
    (∀ n, envVarName Sample.defaults.envPrefix o = some n → Sample.noEnv n = none) := by
  refine ⟨_, _, rfl, rfl, by decide, rfl, ?_, fun _ _ => rfl⟩
  intro x
  have : Sample.defaults.asks [c!"-n", c!"3"] = [.give ⟨0, 1⟩ (some c!"3")] := by decide +kernel
  rw [this]
  simp

example : (optInt 110 (some c!"num")).default (.int (-5)) = .ok ((optInt 110 (some c!"num")).withDefault (.bits (BitVec.ofInt 64 (-5)))) :=
  rfl

/-- The two examples of the documentation (docs/docs/fundamentals/basic-options.md:120, 246): DEFAULT(0.8) is 0.0, and
    DEFAULT(1.0) is the smallest number above zero, 4.9e-324. -/
theorem C69_documented :
    ((optFloat 114 (some c!"ratio")).default (.float 0x3FE999999999999A#64)).toOption.map (·.value) = some (.word (.bits 0)) ∧
    ((optFloat 115 (some c!"scale")).default (.float 0x3FF0000000000000#64)).toOption.map (·.value) = some (.word (.bits 1)) ∧
    F64.eq 1 0x3FF0000000000000#64 = false ∧ F64.units 1 = 1 := by
  decide +kernel

/-- **C69** For a negative number from -1 on DEFAULT is undefined. -/
theorem C69_negative (base : Opt) (x : F64) (h1 : x.msb = true) (h2 : 1 ≤ F64.whole x) :
    base.default (.float x) = .ub .intOverflow := by
  simp only [Opt.default, Arg.toUintptr]
  rw [if_neg]
  · rfl
  · rintro ⟨_, _, h⟩
    have := h h1
    omega

/-- -2.5. -/
example : (0xC004000000000000#64 : F64).msb = true ∧ F64.whole 0xC004000000000000#64 = 2 := by decide +kernel

end Argus
