import Verif.Model.Lookup
import Verif.Model.Validators

/-!
# Validation of definitions, source/core/validation

Statuses only: the messages on stderr, and what validators run on default values report, are left out. A status
variable that is assigned an error is never set back to success.
-/

set_option autoImplicit false

namespace Argus

/-- Statement `if (c) status = e;`. -/
def check (c : Bool) (e st : Int) : Int := if c then e else st

/-! ## Masks, includes/argus/types.h:55-63, 108-117 -/

/-- includes/argus/types.h:29-53: the bits of a value type. -/
def ValueType.code : ValueType → Nat
  | .none => 0 | .int => 1 | .string => 2 | .float => 4 | .bool => 8 | .flag => 16
  | .arrayString => 32 | .arrayInt => 64 | .arrayFloat => 128
  | .mapString => 256 | .mapInt => 512 | .mapFloat => 1024 | .mapBool => 2048
  | .variadicString => 4096 | .variadicInt => 8192 | .variadicFloat => 16384
  | .custom => 32768

/-- includes/argus/types.h:57-61 `VALUE_TYPE_PRIMITIVE`, `VALUE_TYPE_ARRAY`, `VALUE_TYPE_MAP`. -/
def primitiveMask : Nat := 1 ||| 2 ||| 4 ||| 8
def arrayMask : Nat := 32 ||| 64 ||| 128
def mapMask : Nat := 256 ||| 512 ||| 1024 ||| 2048

/-- includes/argus/types.h:109-117. `FLAG_OPTIONAL` is 0. -/
def optionFlagMask : Flags := Flags.ofList [.required, .hidden, .advanced, .exit, .deprecated, .experimental]
def arrayFlagMask : Flags := Flags.ofList [.sorted, .unique, .deprecated, .experimental]
def mapFlagMask : Flags := Flags.ofList [.sortedValue, .sortedKey, .uniqueValue, .deprecated, .experimental]
def groupFlagMask : Flags := Flags.ofList [.exclusive]
def positionalFlagMask : Flags := Flags.ofList [.required]
def positionalManyFlagMask : Flags := arrayFlagMask ||| Flags.ofList [.required]
def subcommandFlagMask : Flags := Flags.ofList [.hidden, .advanced, .deprecated, .experimental]

/-- `flags & ~mask`, as a truth value. -/
def Flags.outside (fs mask : Flags) : Bool := fs &&& ~~~mask != 0

/-! ## validate_arguments.c -/

/-- source/core/validation/validate_arguments.c:29-36, one validator applied to the default value. -/
def defaultCheck (W : World) (o : Opt) (v : Validator) : Out Int :=
  if v.order = .pre ∧ o.valueType = .string then do
    let s ← o.defaultValue.asString
    let r ← runPre W v.kind s
    .ok r.1
  else if v.order = .post then do
    let r ← runPost W v.kind o
    .ok r.1
  else .ok Err.success

/-- source/core/validation/validate_arguments.c:26-46, the loop over the validators. -/
def defaultLoop (W : World) (o : Opt) (st : Int) : List Validator → Out Int
  | [] => .ok st
  | v :: vs => do
    let r ← defaultCheck W o v
    defaultLoop W o (check (r != Err.success) Err.invalidDefault st) vs

/-- source/core/validation/validate_arguments.c:18-49 `validate_default_value`. The redirection of stderr around
    the validators is in Model/Stream. -/
def validateDefault (W : World) (o : Opt) : Out Int :=
  if o.haveDefault ∧ o.valueType = .flag then .ok Err.invalidDefault
  else if o.haveDefault then
    match o.validators with
    | none => .ok Err.success
    | some vs => defaultLoop W o Err.success vs
  else .ok Err.success

/-- source/core/validation/validate_arguments.c:51-91 `validate_dependencies`. -/
def validateDependencies (os : List Opt) (o : Opt) : Int :=
  let req := o.require.getD []
  let con := o.conflict.getD []
  check (con.any fun n => (findName os n).isNone) Err.invalidDependency <|
  check (req.any fun n => (findName os n).isNone) Err.invalidDependency <|
  check (req.any fun r => con.any fun c => strcmp r c == 0) Err.invalidDependency Err.success

/-- source/core/validation/validate_arguments.c:93-125 `validate_option`. -/
def validateOption (W : World) (os : List Opt) (o : Opt) : Out Int := do
  let d ← validateDefault W o
  .ok <|
    check (validateDependencies os o != Err.success) Err.malformedOption <|
    check (d != Err.success) Err.malformedOption <|
    check o.handler.isNone Err.invalidHandler <|
    check o.help.isNone Err.malformedOption <|
    check ((o.valueType.code == primitiveMask && o.flags.outside optionFlagMask) ||
      (o.valueType.code == arrayMask && o.flags.outside arrayFlagMask) ||
      (o.valueType.code == mapMask && o.flags.outside mapFlagMask)) Err.invalidFlag <|
    check (o.sname == 0 && o.lname.isNone) Err.malformedOption Err.success

/-- source/core/validation/validate_arguments.c:127-172 `validate_positional`. -/
def validatePositional (W : World) (o : Opt) : Out Int := do
  let d ← validateDefault W o
  .ok <|
    check (o.require.isSome || o.conflict.isSome) Err.invalidDependency <|
    check (d != Err.success) Err.malformedOption <|
    check (o.flags.has .required && o.haveDefault) Err.invalidFlag <|
    check o.handler.isNone Err.invalidHandler <|
    check (o.flags.outside positionalFlagMask) Err.invalidFlag <|
    check (o.valueType.isVariadic && o.flags.outside positionalManyFlagMask) Err.invalidFlag <|
    check o.help.isNone Err.malformedOption <|
    check o.name.isNone Err.malformedOption Err.success

/-! ## validate_containers.c -/

/-- source/core/validation/validate_containers.c:14-59 `validate_subcommand`. -/
def validateSubcommand (o : Opt) : Int :=
  check o.validators.isSome Err.invalidFlag <|
  check o.haveDefault Err.invalidDefault <|
  check (o.require.isSome || o.conflict.isSome) Err.invalidDependency <|
  check o.handler.isSome Err.invalidHandler <|
  check (o.flags.outside subcommandFlagMask) Err.invalidFlag <|
  check o.subOptions.isNone Err.malformedOption <|
  check o.help.isNone Err.malformedOption <|
  check o.name.isNone Err.malformedOption Err.success

/-- source/core/validation/validate_containers.c:61-71 `validate_group`. -/
def validateGroup (o : Opt) : Int := check (o.flags.outside groupFlagMask) Err.invalidGroup Err.success

/-! ## validate_structure.c -/

/-- The local variables of `validate_placement`. -/
structure Placed where
  positional : Bool := false
  optionalPositional : Bool := false
  positionalMany : Bool := false
  subcommands : Bool := false
  helper : Bool := false
  deriving DecidableEq, Repr

/-- source/core/validation/validate_structure.c:29-74, one round of the loop of `validate_placement`. -/
def placementStep (s : Placed) (st : Int) (o : Opt) : Placed × Int :=
  let pos := o.type == .positional
  let req := o.flags.has .required
  let many := o.valueType.isVariadic
  let s1 : Placed :=
    { subcommands := s.subcommands || o.type == .subcommand
      optionalPositional := s.optionalPositional || (pos && !req)
      positionalMany := s.positionalMany || (pos && req && many)
      positional := s.positional || (pos && req && !many)
      helper := s.helper || (o.type == .option && o.name == some c!"help") }
  (s1,
    check (pos && req && s1.optionalPositional) Err.structError <|
    check (s1.subcommands && s1.positional) Err.structError <|
    check (o.type == .option && s1.subcommands) Err.structError <|
    check (s1.optionalPositional && s1.positionalMany) Err.malformedOption <|
    check (pos && req && s.positionalMany) Err.malformedOption st)

/-- source/core/validation/validate_structure.c:29-74, the loop of `validate_placement`. -/
def placementLoop (s : Placed) (st : Int) : List Opt → Placed × Int
  | [] => (s, st)
  | o :: os => placementLoop (placementStep s st o).1 (placementStep s st o).2 os

/-- source/core/validation/validate_structure.c:20-80 `validate_placement`. -/
def validatePlacement (os : List Opt) : Int :=
  let r := placementLoop {} Err.success os
  check (!r.1.helper) Err.malformedOption r.2

/-- source/core/validation/validate_structure.c:82-102 `lname_is_unique` for an entry and those after it. -/
def lnameIsUnique (o : Opt) (after : List Opt) : Int :=
  match o.lname with
  | none => Err.success
  | some l => check (after.any fun p => p.name == some l || p.lname == some l) Err.duplicateOption Err.success

/-- source/core/validation/validate_structure.c:109-153, the loop of `validate_naming`; `used` lists the short names
    marked in `used_short`. -/
def namingLoop (used : List Byte) (st : Int) : List Opt → Int
  | [] => st
  | o :: os =>
    let l := o.lname
    let st1 :=
      check (lnameIsUnique o os != Err.success) Err.malformedOption <|
      check (l == some []) Err.malformedOption <|
      check (l.any fun s => s.contains 46) Err.malformedOption <|
      check (l.any fun s => s.contains 32) Err.malformedOption <|
      check (l.any fun s => s.head? == some 45) Err.malformedOption <|
      check (o.sname != 0 && used.contains o.sname) Err.malformedOption <|
      check (o.sname == 45) Err.malformedOption <|
      check (o.sname == 32) Err.malformedOption <|
      check ((o.name.getD []).isEmpty && o.type != .group) Err.malformedOption st
    namingLoop (if o.sname != 0 then o.sname :: used else used) st1 os

/-- source/core/validation/validate_structure.c:104-155 `validate_naming`. -/
def validateNaming (os : List Opt) : Int := namingLoop [] Err.success os

/-- source/core/validation/validate_structure.c:161-185, one round of the loop of `validate_type_format`. -/
def validateEntry (W : World) (os : List Opt) (o : Opt) : Out Int :=
  match o.type with
  | .option => validateOption W os o
  | .positional => validatePositional W o
  | .group => .ok (validateGroup o)
  | .subcommand => .ok (validateSubcommand o)

/-- source/core/validation/validate_structure.c:161-185, the loop of `validate_type_format` over the options `os`. -/
def typeFormatLoop (W : World) (all : List Opt) (st : Int) : List Opt → Out Int
  | [] => .ok st
  | o :: os => do
    let r ← validateEntry W all o
    typeFormatLoop W all (check (r != Err.success) Err.malformedOption st) os

/-- source/core/validation/validate_structure.c:157-187 `validate_type_format`. -/
def validateTypeFormat (W : World) (os : List Opt) : Out Int := typeFormatLoop W os Err.success os

/-- includes/argus/types.h:293-295. -/
def maxSubcommandDepth : Nat := 8

/-- source/core/validation/validate_structure.c:201-214, the loop of `validate_structure` over its options; `sub` is
    the recursive call. -/
def subLoop (sub : Option Nat → Out (Option Int)) (depth : Nat) (st : Int) : List Opt → Out (Option Int)
  | [] => .ok (some st)
  | o :: os =>
    if o.type = .subcommand ∧ o.subOptions ≠ none then do
      match ← sub o.subOptions with
      | none => .ok none
      | some r =>
        subLoop sub depth
          (check (r != Err.success) Err.malformedOption <|
            check (decide (depth + 1 > maxSubcommandDepth)) Err.malformedOption st) os
    else subLoop sub depth st os

/-- source/core/validation/validate_structure.c:189-216 `validate_structure`. The static variable `subcommand_depth`
    has the same value after a call as before, so it is the parameter `depth`. The calls may be nested without end:
    `none` when they are nested deeper than `fuel`. -/
def validateStructure (W : World) (tables : List (List Opt)) : (fuel depth : Nat) → Option Nat → Out (Option Int)
  | 0, _, _ => .ok none
  | fuel + 1, depth, t => do
    let os ← (match t with
      | none => .ub .nullDeref
      | some k =>
        match tables[k]? with
        | some os => .ok os
        | none => .ub .nullDeref : Out (List Opt))
    let f ← validateTypeFormat W os
    let st :=
      check (f != Err.success) Err.malformedOption <|
      check (validateNaming os != Err.success) Err.malformedOption <|
      check (validatePlacement os != Err.success) Err.malformedOption Err.success
    subLoop (validateStructure W tables fuel (depth + 1)) depth st os

/-- source/api/argus_init.c:20-38 `_argus_init_validate` with validation: the context, or `none` when the process
    exits with a failure. The outer `none` is a validation that does not end within `fuel`. -/
def argusInitValidate (W : World) (fuel : Nat) (tables : List (List Opt)) (programName : Str) (version : Option Str) :
    Out (Option (Option Argus)) := do
  match ← validateStructure W tables fuel 0 (some 0) with
  | none => .ok none
  | some st =>
    if st ≠ Err.success then .ok (some none)
    else .ok (some (some { tables, root := 0, programName, version }))

end Argus
