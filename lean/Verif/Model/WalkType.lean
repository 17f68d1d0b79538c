import Verif.Model.WalkDepend

/-!
# The checks of the entries of a definition on memory, source/core/validation

With `validate_placement`, `validate_naming` (Model/WalkDefine) and `validate_dependencies` (Model/WalkDepend) all loops of the
checks of one table.
-/

set_option autoImplicit false

namespace Argus

/-- validate_arguments.c:26-46, the body of the loop of `validate_default_value`. -/
def defaultBody (W : World) (o : Opt) (st : Int) (_ : Int) (v : Validator) : Out (Int ⊕ Unit) := do
  let r ← defaultCheck W o v
  .ok (.inl (check (r != Err.success) Err.invalidDefault st))

/-- validate_arguments.c:18-49 `validate_default_value`; `validators` is the memory of the list. The index is a `size_t` in the
    code; here its `++` is checked as that of an `int`, which is stricter. -/
def validateDefaultAt (W : World) (o : Opt) (fuel : Nat) (validators : Option (List (Option Validator))) : Out (Option Int) :=
  if o.haveDefault ∧ o.valueType = .flag then .ok (some Err.invalidDefault)
  else if o.haveDefault then
    match validators with
    | none => .ok (some Err.success)
    | some l => do
      match ← walkTable l (defaultBody W o) fuel 0 Err.success with
      | some (.inl st) => .ok (some st)
      | _ => .ok none
  else .ok (some Err.success)

/-- validate_arguments.c:93-125 `validate_option`. -/
def validateOptionAt (W : World) (memory : List (Option Opt)) (L : ListsAt) (fuel : Nat) (o : Opt) : Out (Option Int) := do
  match ← validateDefaultAt W o fuel (L.validators o) with
  | none => .ok none
  | some d =>
    match ← validateDependenciesAt memory fuel (L.require o) (L.conflict o) with
    | none => .ok none
    | some q =>
      .ok <| some <|
        check (q != Err.success) Err.malformedOption <|
        check (d != Err.success) Err.malformedOption <|
        check o.handler.isNone Err.invalidHandler <|
        check o.help.isNone Err.malformedOption <|
        check ((o.valueType.code == primitiveMask && o.flags.outside optionFlagMask) ||
          (o.valueType.code == arrayMask && o.flags.outside arrayFlagMask) ||
          (o.valueType.code == mapMask && o.flags.outside mapFlagMask)) Err.invalidFlag <|
        check (o.sname == 0 && o.lname.isNone) Err.malformedOption Err.success

/-- validate_arguments.c:127-172 `validate_positional`. -/
def validatePositionalAt (W : World) (L : ListsAt) (fuel : Nat) (o : Opt) : Out (Option Int) := do
  match ← validateDefaultAt W o fuel (L.validators o) with
  | none => .ok none
  | some d =>
    .ok <| some <|
      check ((L.require o).isSome || (L.conflict o).isSome) Err.invalidDependency <|
      check (d != Err.success) Err.malformedOption <|
      check (o.flags.has .required && o.haveDefault) Err.invalidFlag <|
      check o.handler.isNone Err.invalidHandler <|
      check (o.flags.outside positionalFlagMask) Err.invalidFlag <|
      check (o.valueType.isVariadic && o.flags.outside positionalManyFlagMask) Err.invalidFlag <|
      check o.help.isNone Err.malformedOption <|
      check o.name.isNone Err.malformedOption Err.success

/-- validate_structure.c:164-182, the `switch` of `validate_type_format`. `validate_group` and `validate_subcommand` have no loop. -/
def validateEntryAt (W : World) (memory : List (Option Opt)) (L : ListsAt) (fuel : Nat) (o : Opt) : Out (Option Int) :=
  match o.type with
  | .option => validateOptionAt W memory L fuel o
  | .positional => validatePositionalAt W L fuel o
  | .group => .ok (some (validateGroup o))
  | .subcommand => .ok (some (validateSubcommand o))

/-- validate_structure.c:161-185, the body of the loop of `validate_type_format`. -/
def typeFormatBody (W : World) (memory : List (Option Opt)) (L : ListsAt) (fuel : Nat) (st : Int) (_ : Int) (o : Opt) :
    Out (Int ⊕ Unit) := do
  match ← validateEntryAt W memory L fuel o with
  | none => .ok (.inr ())
  | some r => .ok (.inl (check (r != Err.success) Err.malformedOption st))

/-- validate_structure.c:157-187 `validate_type_format`. -/
def validateTypeFormatAt (W : World) (memory : List (Option Opt)) (L : ListsAt) (fuel : Nat) : Out (Option Int) := do
  match ← walkTable memory (typeFormatBody W memory L fuel) fuel 0 Err.success with
  | some (.inl st) => .ok (some st)
  | _ => .ok none

end Argus
