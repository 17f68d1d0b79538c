import Verif.Spec.Ranges
import Verif.Spec.Maps

/-!
# Which texts a collection takes
-/

set_option autoImplicit false

namespace Argus

/-- The type of the values of an option with a handler for collections. -/
def Handler.collects : Handler → Option ValueType
  | .arrayString => some .arrayString
  | .arrayInt => some .arrayInt
  | .arrayFloat => some .arrayFloat
  | .variadicString => some .variadicString
  | .variadicInt => some .variadicInt
  | .variadicFloat => some .variadicFloat
  | .mapString => some .mapString
  | .mapInt => some .mapInt
  | .mapFloat => some .mapFloat
  | .mapBool => some .mapBool
  | _ => none

/-- The text `t` can be read by an option of type `vt`: arrays and variadics of strings and arrays of doubles take
    anything, each piece of an int array means an interval below INT_MAX, a variadic number is all of the text, and
    each piece of a map is `key=value` with a value of its type. -/
def CanRead (W : World) (vt : ValueType) (t : Str) : Prop :=
  match vt with
  | .arrayString | .arrayFloat | .variadicString => True
  | .arrayInt => ∀ v ∈ pieces t, ∃ lo hi, RangeText v lo hi ∧ hi ≠ 2147483647
  | .variadicInt => ∃ n, IsNumeral t n
  | .variadicFloat => t ≠ [] ∧ (W.strtod t).2 = t.length
  | .mapString | .mapInt | .mapFloat | .mapBool =>
    ∀ v ∈ pieces t, ∃ k w x, v = k ++ c!"=" ++ w ∧ (61 : Byte) ∉ k ∧ TextValue W vt w x
  | _ => False

end Argus
