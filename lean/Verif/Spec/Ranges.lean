import Verif.Spec.Collect

/-!
# What any text means to an int array option

Not only well written numbers and ranges: every sequence of bytes.
-/

set_option autoImplicit false

namespace Argus

/-- The `int` a text begins with: the value of the numeral at its beginning, or 0 if there is none, brought to the
    nearest 64-bit integer, of which the low 32 bits are kept. -/
def LeadInt (v : Str) (m : Int) : Prop :=
  ∃ n : Int, ((∃ rest, NumeralThen v n rest) ∨ (n = 0 ∧ ∀ k rest, ¬ NumeralThen v k rest)) ∧
    -2147483648 ≤ m ∧ m ≤ 2147483647 ∧
    ∃ q : Int, max (-9223372036854775808) (min n 9223372036854775807) = m + q * 4294967296

/-- `l` ends at a range separator of `l ++ sep :: r`: a `-` or `:` after a digit and before a digit or `-`. -/
def SeparatorAt (l : Str) (sep : Byte) (r : Str) : Prop :=
  (∃ d ∈ l.getLast?, isDigit d = true) ∧ (sep = 45 ∨ sep = 58) ∧ ∃ e ∈ r.head?, isDigit e = true ∨ e = 45

/-- What a piece of text means: from the first separator on two numbers, in either order; without one a numeral; the
    empty text is 0. -/
inductive RangeText : Str → Int → Int → Prop
  | range (l : Str) (sep : Byte) (r : Str) (x y : Int) : SeparatorAt l sep r →
      (∀ l' sep' r', l' ++ sep' :: r' = l ++ sep :: r → SeparatorAt l' sep' r' → l.length ≤ l'.length) →
      LeadInt (l ++ sep :: r) x → LeadInt r y → RangeText (l ++ sep :: r) (min x y) (max x y)
  | one (v : Str) (n x : Int) : ¬ HasSeparator v → IsNumeral v n → LeadInt v x → RangeText v x x
  | empty : RangeText [] 0 0

/-- The integers from `lo` to `hi`. -/
def fromTo (lo hi : Int) : List Int := (List.range (hi - lo + 1).toNat).map (fun (i : Nat) => lo + (i : Int))

end Argus
