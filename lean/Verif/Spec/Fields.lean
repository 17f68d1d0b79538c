import Verif.Model.Bytes

/-!
# Comma-separated values
-/

set_option autoImplicit false

namespace Argus

/-- The fields of a text between separators, empty ones included: a text with `n` separators has
    `n + 1` fields. -/
def fields (sep : Byte → Bool) : Str → List Str
  | [] => [[]]
  | c :: r =>
    if sep c then [] :: fields sep r
    else
      match fields sep r with
      | [] => [[c]]
      | w :: ws => (c :: w) :: ws

/-- The pieces of a value given to an array or map option: its non-empty comma-separated fields, or the
    whole value if it has no comma. -/
def pieces (v : Str) : List Str :=
  if (44 : Byte) ∈ v then (fields (· == 44) v).filter (· ≠ []) else [v]

end Argus
