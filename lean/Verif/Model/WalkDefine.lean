import Verif.Model.Walk
import Verif.Model.Structure

/-!
# The checks of a definition on the memory of a table, source/core/validation/validate_structure.c
-/

set_option autoImplicit false

namespace Argus

/-- validate_structure.c:20-80 `validate_placement`; the variables are its flags and `status`. -/
def validatePlacementAt (memory : List (Option Opt)) (fuel : Nat) : Out (Option Int) := do
  match ← walkTable memory (fun (s : Placed × Int) _ o => .ok (.inl (placementStep s.1 s.2 o) : (Placed × Int) ⊕ Unit)) fuel 0
      ({}, Err.success) with
  | none => .ok none
  | some (.inl s) => .ok (some (check (!s.1.helper) Err.malformedOption s.2))
  | some (.inr _) => .ok none

/-- validate_structure.c:89-100, the body of the loop of `lname_is_unique`; the variable is `status`. -/
def uniqueBody (l : Str) (st : Int) (_ : Int) (p : Opt) : Out (Int ⊕ Unit) :=
  .ok (.inl (check (p.name == some l || p.lname == some l) Err.duplicateOption st))

/-- validate_structure.c:82-102 `lname_is_unique`: the loop begins at `i + 1`. The entry at `i` is never the end mark in the calls. -/
def lnameIsUniqueAt (memory : List (Option Opt)) (fuel : Nat) (i : Int) : Out (Option Int) := do
  match ← tableEntry memory i with
  | none => .ok (some Err.success)
  | some o =>
    match o.lname with
    | none => .ok (some Err.success)
    | some l => do
      let j ← intInc i
      match ← walkTable memory (uniqueBody l) fuel j Err.success with
      | none => .ok none
      | some (.inl st) => .ok (some st)
      | some (.inr _) => .ok none

/-- `used_short[(unsigned char)c]`, an array of 256 flags. -/
def usedShort (used : List Bool) (c : Byte) : Out Bool :=
  match used[c.toNat]? with
  | some b => .ok b
  | none => .ub .outOfBounds

/-- validate_structure.c:127 `option->sname != '\0' && used_short[(unsigned char)option->sname]`. -/
def seenShort (used : List Bool) (c : Byte) : Out Bool := if c != 0 then usedShort used c else .ok false

/-- validate_structure.c:109-153, the body of the loop of `validate_naming`; the variables are `used_short` and `status`. -/
def namingBody (memory : List (Option Opt)) (fuel : Nat) (s : List Bool × Int) (i : Int) (o : Opt) :
    Out ((List Bool × Int) ⊕ Unit) := do
  let seen ← seenShort s.1 o.sname
  let used := if o.sname != 0 then s.1.set o.sname.toNat true else s.1
  match ← lnameIsUniqueAt memory fuel i with
  | none => .ok (.inr ())
  | some u =>
    let l := o.lname
    .ok (.inl (used,
      check (u != Err.success) Err.malformedOption <|
      check (l == some []) Err.malformedOption <|
      check (l.any fun s => s.contains 46) Err.malformedOption <|
      check (l.any fun s => s.contains 32) Err.malformedOption <|
      check (l.any fun s => s.head? == some 45) Err.malformedOption <|
      check seen Err.malformedOption <|
      check (o.sname == 45) Err.malformedOption <|
      check (o.sname == 32) Err.malformedOption <|
      check ((o.name.getD []).isEmpty && o.type != .group) Err.malformedOption s.2))

/-- validate_structure.c:104-155 `validate_naming`. -/
def validateNamingAt (memory : List (Option Opt)) (fuel : Nat) : Out (Option Int) := do
  match ← walkTable memory (namingBody memory fuel) fuel 0 (List.replicate 256 false, Err.success) with
  | none => .ok none
  | some (.inl s) => .ok (some s.2)
  | some (.inr _) => .ok none

end Argus
