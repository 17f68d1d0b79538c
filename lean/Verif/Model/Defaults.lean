import Verif.Model.Define
import Verif.Model.Float

/-!
# DEFAULT, includes/argus/options.h:75-78

The macro stores its argument as `.raw = (uintptr_t)(val)`. What that does depends on the type of the argument.
-/

set_option autoImplicit false

namespace Argus

/-- The argument of `DEFAULT`. -/
inductive Arg where
  | int (n : Int)
  | bool (b : Bool)
  | float (x : F64)
  | string (s : Str)
  | null
  deriving DecidableEq, Repr

/-- The integral part of a finite double without its sign. -/
def F64.whole (x : F64) : Nat := F64.absUnits x / 2 ^ 1074

/-- `(uintptr_t)(val)`: an integer modulo 2^64; a pointer as it is; a double without its fraction (C11 6.3.1.4), which
    is undefined if the integral part is negative, too large, or not a number (counted as `intOverflow`). -/
def Arg.toUintptr : Arg → Out Word
  | .int n => .ok (.bits (BitVec.ofInt 64 n))
  | .bool b => .ok (.bits (if b then 1 else 0))
  | .string s => .ok (.ptr s)
  | .null => .ok .null
  | .float x =>
    if F64.isFinite x ∧ F64.whole x < 2 ^ 64 ∧ (x.msb = true → F64.whole x = 0) then
      .ok (.bits (BitVec.ofNat 64 (F64.whole x)))
    else .ub .intOverflow

/-- includes/argus/options.h:75-78 `DEFAULT(val)` among the arguments of an option macro. -/
def Opt.default (o : Opt) (v : Arg) : Out Opt := do
  let w ← v.toUintptr
  .ok (o.withDefault w)

end Argus
