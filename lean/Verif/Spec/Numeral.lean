import Verif.Model.Bytes

/-!
# Numerals

`showInt n` (Model/Bytes) is the decimal representation of `n`, `digitsVal` the value of a string of
digits. A numeral is white space, an optional sign and at least one digit.
-/

set_option autoImplicit false

namespace Argus

/-- `s` begins with a numeral of value `v`, which ends before `rest`. -/
def NumeralThen (s : Str) (v : Int) (rest : Str) : Prop :=
  ∃ spaces sign ds, s = spaces ++ sign ++ ds ++ rest ∧ (∀ c ∈ spaces, isSpace c = true) ∧
    (sign = [] ∨ sign = c!"+" ∨ sign = c!"-") ∧ ds ≠ [] ∧ (∀ c ∈ ds, isDigit c = true) ∧
    v = (if sign = c!"-" then -(digitsVal ds : Int) else digitsVal ds) ∧
    (∀ c ∈ rest.head?, isDigit c = false)

/-- `s` is a numeral of value `v`. -/
def IsNumeral (s : Str) (v : Int) : Prop := NumeralThen s v []

end Argus
