/-!
# Binary64 values

`double` is its 64-bit pattern. Only the operations the library performs are defined: the
comparisons and the test `fabs(a - b) < 0.0000001`.
-/

set_option autoImplicit false

namespace Argus

/-- A `double` by its bit pattern (IEEE 754 binary64). -/
abbrev F64 := BitVec 64

namespace F64

/-- The pattern without its sign bit. -/
def mag (w : F64) : Nat := w.toNat % 2 ^ 63

/-- Exponent field all ones and a non-zero mantissa. -/
def isNaN (w : F64) : Bool := 0x7FF0000000000000 < mag w

/-- Neither infinite nor NaN. -/
def isFinite (w : F64) : Bool := mag w < 0x7FF0000000000000

/-- Position on the number line; patterns of equal sign are ordered like their magnitudes, and the
    two zeros coincide. -/
def key (w : F64) : Int := if w.msb then - (mag w : Int) else (mag w : Int)

/-- `a < b` on doubles. -/
def lt (a b : F64) : Bool := !isNaN a && !isNaN b && key a < key b

/-- `a == b` on doubles. -/
def eq (a b : F64) : Bool := !isNaN a && !isNaN b && key a == key b

/-- Magnitude of a finite double, in units of `2^-1074`. -/
def absUnits (w : F64) : Nat :=
  let e := mag w / 2 ^ 52
  let m := mag w % 2 ^ 52
  if e = 0 then m else (2 ^ 52 + m) * 2 ^ (e - 1)

/-- Value of a finite double, in units of `2^-1074`. -/
def units (w : F64) : Int := if w.msb then - (absUnits w : Int) else (absUnits w : Int)

/-- The double nearest to `0.0000001` is `0x3E7AD7F29ABCAF48`; a non-negative exact difference
    rounds to a smaller double iff it is below the midpoint of that double and its predecessor
    (the mantissa is even, so the midpoint itself rounds up). -/
def epsMid : Nat := (2 * (2 ^ 52 + 0xAD7F29ABCAF48) - 1) * 2 ^ 997

/-- `fabs(a - b) < 0.0000001`. With an infinity or NaN the difference is infinite or NaN. -/
def near (a b : F64) : Bool :=
  isFinite a && isFinite b && decide ((units a - units b).natAbs < epsMid)

end F64
end Argus
