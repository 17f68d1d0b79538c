import Verif.Model.Types

/-! # What it means for memory to hold a string -/

set_option autoImplicit false

namespace Argus

/-- The memory object `m` holds the string `s`: its bytes, followed by NUL. -/
def HoldsStr (m s : List Byte) : Prop := 0 ∉ s ∧ ∃ rest, m = s ++ 0 :: rest

/-- `new` comes from `old` by writing within the first `size` bytes, and there holds the string `s`. -/
structure Wrote (old new : List Byte) (size : Nat) (s : Str) : Prop where
  holds : HoldsStr new s
  fits : s.length < size
  length : new.length = old.length
  beyond : new.drop size = old.drop size

/-- An allocator that gives blocks of the size asked for. -/
def Sized (malloc : Nat → Option (List Byte)) : Prop := ∀ n m, malloc n = some m → m.length = n

/-- The strings separated by `|`. -/
def bars : List Str → Str
  | [] => []
  | [s] => s
  | s :: t :: ss => s ++ 124 :: bars (t :: ss)

end Argus
