import Verif.Model.Display
import Verif.Model.Float

/-!
# Values, source/utils/value_utils.c

`free_option_value` (lines 17-28) is in Model/Handlers. The other functions are not called by the library itself.
-/

set_option autoImplicit false

namespace Argus

/-- What the pointer in `choices` points to. -/
inductive ChoiceArray where
  | ints (cs : List Int)
  | strings (cs : List (Option Str))
  | floats (cs : List F64)
  deriving DecidableEq, Repr

/-- A string pointer in a cell. -/
def Word.ofString : Option Str → Word
  | some s => .ptr s
  | none => .null

/-- `array[index]`. -/
def elementAt {α : Type} (cs : List α) (index : Nat) : Out α :=
  match cs[index]? with
  | some x => .ok x
  | none => .ub .outOfBounds

/-- source/utils/value_utils.c:30-52 `choices_to_value`; an array of another type than `type` is not accessed as
    such (`badCallback`). -/
def choicesToValue (type : ValueType) (choices : ChoiceArray) (count index : Nat) : Out Word :=
  if index ≥ count then .ok (.bits 0)
  else
    match type with
    | .int =>
      match choices with
      | .ints cs => do
        let n ← elementAt cs index
        .ok (.ofInt64 n)
      | _ => .ub .badCallback
    | .string =>
      match choices with
      | .strings cs => do
        let s ← elementAt cs index
        .ok (.ofString s)
      | _ => .ub .badCallback
    | .float =>
      match choices with
      | .floats cs => do
        let x ← elementAt cs index
        .ok (.bits x)
      | _ => .ub .badCallback
    | _ => .ok (.bits 0)

/-- `a - b` on `int`. -/
def intSub (a b : Int) : Out Int :=
  if -2 ^ 31 ≤ a - b ∧ a - b < 2 ^ 31 then .ok (a - b) else .ub .intOverflow

/-- `a - b` on `bool`, promoted to `int`. -/
def boolSub (a b : Bool) : Int := (if a then 1 else 0) - (if b then 1 else 0)

/-- source/utils/value_utils.c:54-80 `cmp_value`. Line 56 compares `raw`; strings of equal content count as equal
    there, which for strings gives the same result as line 67. Of `strcmp` only the sign is modelled. -/
def cmpValue (type : ValueType) (a b : Word) : Out Int :=
  if a = b then .ok 0
  else
    match type with
    | .flag => do
      let x ← a.asBool
      let y ← b.asBool
      .ok (boolSub x y)
    | .int => do
      let x ← a.asInt
      let y ← b.asInt
      intSub x y
    | .string => do
      let x ← a.asString
      let y ← b.asString
      match x, y with
      | some s, some t => .ok (strcmp s t)
      | _, _ => .ok (-1)
    | .float => do
      let x ← a.asFloat
      let y ← b.asFloat
      if F64.eq x y then .ok 0 else if F64.lt y x then .ok 1 else .ok (-1)
    | .bool => do
      let x ← a.asBool
      let y ← b.asBool
      .ok (boolSub x y)
    | _ => .ok (-1)

/-- source/utils/value_utils.c:82-103 `print_value`: the text printed. `f6` is `printf("%f", x)`; `%s` with NULL is
    undefined. -/
def printValue (f6 : F64 → Str) (type : ValueType) (w : Word) : Out Str :=
  match type with
  | .flag => do
    let b ← w.asBool
    .ok (if b then c!"true" else c!"false")
  | .int => do
    let n ← w.asInt
    .ok (showInt n)
  | .string => do
    match ← w.asString with
    | some s => .ok (c!"\"" ++ s ++ c!"\"")
    | none => .ub .nullDeref
  | .float => do
    let x ← w.asFloat
    .ok (f6 x)
  | .bool => do
    let b ← w.asBool
    .ok (if b then c!"true" else c!"false")
  | _ => .ok []

/-- source/utils/value_utils.c:108-112: the loop of `print_value_array` on the values from index `i` on. -/
def printValues (f6 : F64 → Str) (type : ValueType) (count : Nat) : (i : Nat) → List Word → Out Str
  | _, [] => .ok []
  | i, w :: ws => do
    let s ← printValue f6 type w
    let r ← printValues f6 type count (i + 1) ws
    .ok (s ++ (if i < sizeSub count 1 then c!", " else []) ++ r)

/-- source/utils/value_utils.c:105-114 `print_value_array`. -/
def printValueArray (f6 : F64 → Str) (type : ValueType) (values : List Word) : Out Str := do
  let s ← printValues f6 type values.length 0 values
  .ok (c!"[" ++ s ++ c!"]")

end Argus
