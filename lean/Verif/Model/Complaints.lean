import Verif.Model.Structure
import Verif.Model.Messages
import Verif.Model.HelpMem

/-!
# What the validation of definitions prints, source/core/validation

Model/Structure has the statuses. Here are the lines that `argus_struct_error` prints to stderr, function by function and in the
order in which they are printed. Text that validators print while stderr is redirected is read back in full (C48).
-/

set_option autoImplicit false

namespace Argus

/-- includes/argus/types.h:286-287: where an entry is written; `ARGUS_DEBUG_INFO` of options.h:69-73 sets both. -/
structure Site where
  file : Str
  line : Int
  deriving DecidableEq, Repr

/-- One call of `ARGUS_STRUCT_ERROR`: the index of the entry in its table, and the text. -/
abbrev Complaint := Nat × Str

/-- Statement `if (c) ARGUS_STRUCT_ERROR(&options[i], text);`. -/
def complain (c : Bool) (i : Nat) (text : Str) : List Complaint := if c then [(i, text)] else []

/-- includes/argus/errors.h:85-101: the type of an entry; `none` is the end of the table. -/
def typeWord : Option OptType → Str
  | some .option => c!"Option [ "
  | some .group => c!"Group [ "
  | some .positional => c!"Positional [ "
  | some .subcommand => c!"Subcommand [ "
  | none => c!"Unknown [ "

/-- includes/argus/errors.h:102-110: the names of an entry. -/
def entryWord : Option Opt → Str
  | none => c!"unnamed"
  | some o =>
    match o.name with
    | none => c!"unnamed"
    | some n =>
      if o.type = .option then
        (match o.lname with
          | some l => c!"--" ++ l
          | none => []) ++
        (if o.sname ≠ 0 then c!" -" ++ [o.sname] else [])
      else n

/-- includes/argus/errors.h:82-118 `argus_struct_error`, for entry `c.1` of the table `os`, which is written at `L c.1`. -/
def complaintLine (L : Nat → Site) (os : List Opt) (c : Complaint) : Str :=
  (L c.1).file ++ c!":" ++ showInt (L c.1).line ++ c!" -> " ++ typeWord (os[c.1]?.map (·.type)) ++ entryWord os[c.1]? ++
    c!" ]:\n\t" ++ c.2 ++ c!"\n"

/-! ## validate_arguments.c -/

/-- source/utils/stream.c:92-148 `stream_read` as used by `read_stderr()`: NULL if nothing was printed. The result is printed
    with `%s`. -/
def captured (printed : Str) : Out Str := if printed = [] then .ub .nullDeref else .ok printed

/-- source/core/validation/validate_arguments.c:29-36: what one validator prints while it is applied to the default value. -/
def defaultMessages (W : World) (M : Wording) (o : Opt) (v : Validator) : Out (List Message) :=
  if v.order = .pre ∧ o.valueType = .string then do
    let s ← o.defaultValue.asString
    preMessages W M v.kind s
  else if v.order = .post then postMessages W M v.kind o
  else .ok []

/-- source/core/validation/validate_arguments.c:26-46, the loop over the validators; `status` is kept from round to round. -/
def defaultComplaintLoop (W : World) (M : Wording) (prog : Str) (i : Nat) (o : Opt) (st : Int) :
    List Validator → Out (List Complaint)
  | [] => .ok []
  | v :: vs => do
    let r ← defaultCheck W o v
    let m ← defaultMessages W M o v
    let st1 := check (r != Err.success) Err.invalidDefault st
    if st1 ≠ Err.success then do
      let s ← captured (m.map (Message.line prog)).flatten
      let cs ← defaultComplaintLoop W M prog i o st1 vs
      .ok ((i, c!"Default value does not pass validations: \n\t    " ++ s) :: cs)
    else defaultComplaintLoop W M prog i o st1 vs

/-- source/core/validation/validate_arguments.c:18-49 `validate_default_value`. -/
def defaultComplaints (W : World) (M : Wording) (prog : Str) (i : Nat) (o : Opt) : Out (List Complaint) :=
  if o.haveDefault ∧ o.valueType = .flag then .ok [(i, c!"Option type flag cannot have a default value")]
  else if o.haveDefault then
    match o.validators with
    | none => .ok []
    | some vs => defaultComplaintLoop W M prog i o Err.success vs
  else .ok []

/-- source/core/validation/validate_arguments.c:51-91 `validate_dependencies`. -/
def dependencyComplaints (os : List Opt) (i : Nat) (o : Opt) : List Complaint :=
  let req := o.require.getD []
  let con := o.conflict.getD []
  (req.flatMap fun r => con.flatMap fun c =>
    complain (strcmp r c == 0) i (c!"Option cannot require and conflict with the same option: " ++ quoted r)) ++
  (req.flatMap fun n => complain (findName os n).isNone i (c!"Required option not found " ++ quoted n ++ c!" in options")) ++
  (con.flatMap fun n => complain (findName os n).isNone i (c!"Conflicting option not found " ++ quoted n ++ c!" in options"))

/-- source/core/validation/validate_arguments.c:93-125 `validate_option`. -/
def optionComplaints (W : World) (M : Wording) (prog : Str) (os : List Opt) (i : Nat) (o : Opt) : Out (List Complaint) := do
  let d ← defaultComplaints W M prog i o
  .ok <|
    complain (o.sname == 0 && o.lname.isNone) i c!"Option must have a short name or a long name" ++
    complain ((o.valueType.code == primitiveMask && o.flags.outside optionFlagMask) ||
      (o.valueType.code == arrayMask && o.flags.outside arrayFlagMask) ||
      (o.valueType.code == mapMask && o.flags.outside mapFlagMask)) i c!"Option has invalid flags for its value type" ++
    complain o.help.isNone i c!"Option must have a help message" ++
    complain o.handler.isNone i c!"Option must have a handler" ++
    d ++ dependencyComplaints os i o

/-- source/core/validation/validate_arguments.c:127-172 `validate_positional`. -/
def positionalComplaints (W : World) (M : Wording) (prog : Str) (i : Nat) (o : Opt) : Out (List Complaint) := do
  let d ← defaultComplaints W M prog i o
  .ok <|
    complain o.name.isNone i c!"Positional must have a name" ++
    complain o.help.isNone i c!"Positional must have a help message" ++
    complain (o.valueType.isVariadic && o.flags.outside positionalManyFlagMask) i c!"Invalid flags for POSITIONAL_MANY argument" ++
    complain (o.flags.outside positionalFlagMask) i c!"Invalid flags for positional" ++
    complain o.handler.isNone i c!"Positional must have a handler" ++
    complain (o.flags.has .required && o.haveDefault) i c!"Positional cannot be required and have a default value" ++
    d ++
    complain (o.require.isSome || o.conflict.isSome) i c!"Positional cannot have dependencies"

/-! ## validate_containers.c -/

/-- source/core/validation/validate_containers.c:14-59 `validate_subcommand`. -/
def subcommandComplaints (i : Nat) (o : Opt) : List Complaint :=
  complain o.name.isNone i c!"Subcommand must have a name" ++
  complain o.help.isNone i c!"Subcommand must have a help message" ++
  complain o.subOptions.isNone i c!"Subcommand must have options" ++
  complain (o.flags.outside subcommandFlagMask) i c!"Invalid flags for subcommand" ++
  complain o.handler.isSome i c!"Subcommand cannot have a handler" ++
  complain (o.require.isSome || o.conflict.isSome) i c!"Subcommand cannot have dependencies" ++
  complain o.haveDefault i c!"Subcommand cannot have a default value" ++
  complain o.validators.isSome i c!"Subcommand cannot have validators"

/-- source/core/validation/validate_containers.c:61-71 `validate_group`. -/
def groupComplaints (i : Nat) (o : Opt) : List Complaint :=
  complain (o.flags.outside groupFlagMask) i c!"Group have Invalid flags"

/-! ## validate_structure.c -/

/-- source/core/validation/validate_structure.c:29-74, one round of the loop of `validate_placement`. -/
def placementComplaint (s : Placed) (i : Nat) (o : Opt) : List Complaint :=
  let pos := o.type == .positional
  let req := o.flags.has .required
  let many := o.valueType.isVariadic
  let s1 := (placementStep s Err.success o).1
  complain (pos && req && many && s.positionalMany) i c!"Only one POSITIONAL_MANY argument is allowed" ++
  complain (pos && req && !many && s.positionalMany) i c!"POSITIONAL argument must be placed before POSITIONAL_MANY argument" ++
  complain (s1.optionalPositional && s1.positionalMany) i c!"Cannot mix optional positional and POSITIONAL_MANY arguments" ++
  complain (o.type == .option && s1.subcommands) i c!"Options should be placed at the top level, before any subcommands" ++
  complain (s1.subcommands && s1.positional) i c!"Cannot mix subcommands and positional arguments at the same level" ++
  complain (pos && req && s1.optionalPositional) i c!"Required positional must be before all optional positional arguments"

/-- source/core/validation/validate_structure.c:29-74, the loop of `validate_placement` from entry `i`. -/
def placementComplaintLoop (s : Placed) (i : Nat) : List Opt → List Complaint
  | [] => []
  | o :: os => placementComplaint s i o ++ placementComplaintLoop (placementStep s Err.success o).1 (i + 1) os

/-- source/core/validation/validate_structure.c:20-80 `validate_placement`. -/
def placementComplaints (os : List Opt) : List Complaint :=
  placementComplaintLoop {} 0 os ++ complain (!(placementLoop {} Err.success os).1.helper) 0 c!"Help option is missing"

/-- source/core/validation/validate_structure.c:82-102 `lname_is_unique`: entry `i` with the long name `l`, and the entries from
    `j` on. -/
def lnameComplaints (L : Nat → Site) (i : Nat) (l : Str) (j : Nat) : List Opt → List Complaint
  | [] => []
  | p :: ps =>
    complain (p.name == some l) i (c!"Name conflict with option line: " ++ showInt (L j).line) ++
    complain (p.lname == some l) i (c!"Long name conflict with option line: " ++ showInt (L j).line) ++
    lnameComplaints L i l (j + 1) ps

/-- source/core/validation/validate_structure.c:109-153, one round of the loop of `validate_naming`. -/
def namingComplaint (L : Nat → Site) (used : List Byte) (i : Nat) (o : Opt) (after : List Opt) : List Complaint :=
  let l := o.lname
  complain ((o.name.getD []).isEmpty && o.type != .group) i c!"Option name cannot be empty" ++
  complain (o.sname == 32) i c!"Short name cannot be a space character" ++
  complain (o.sname == 45) i c!"Short name cannot be a hyphen" ++
  complain (o.sname != 0 && used.contains o.sname) i (c!"Short name " ++ quoted [o.sname] ++ c!" is already used") ++
  complain (l.any fun s => s.head? == some 45) i c!"Long name cannot start with a hyphen" ++
  complain (l.any fun s => s.contains 32) i c!"Long name cannot contain spaces" ++
  complain (l.any fun s => s.contains 46) i c!"Long name cannot contain dots" ++
  complain (l == some []) i c!"Long name cannot be empty" ++
  (match l with
    | none => []
    | some s => lnameComplaints L i s (i + 1) after)

/-- source/core/validation/validate_structure.c:109-153, the loop of `validate_naming` from entry `i`. -/
def namingComplaintLoop (L : Nat → Site) (used : List Byte) (i : Nat) : List Opt → List Complaint
  | [] => []
  | o :: os =>
    namingComplaint L used i o os ++ namingComplaintLoop L (if o.sname != 0 then o.sname :: used else used) (i + 1) os

/-- source/core/validation/validate_structure.c:161-185, one round of the loop of `validate_type_format`. -/
def entryComplaints (W : World) (M : Wording) (prog : Str) (os : List Opt) (i : Nat) (o : Opt) : Out (List Complaint) :=
  match o.type with
  | .option => optionComplaints W M prog os i o
  | .positional => positionalComplaints W M prog i o
  | .group => .ok (groupComplaints i o)
  | .subcommand => .ok (subcommandComplaints i o)

/-- source/core/validation/validate_structure.c:161-185, the loop of `validate_type_format` from entry `i`. -/
def typeComplaintLoop (W : World) (M : Wording) (prog : Str) (all : List Opt) (i : Nat) : List Opt → Out (List Complaint)
  | [] => .ok []
  | o :: os => do
    let c ← entryComplaints W M prog all i o
    let cs ← typeComplaintLoop W M prog all (i + 1) os
    .ok (c ++ cs)

/-- source/core/validation/validate_structure.c:194-199: the three checks of one table. -/
def tableComplaints (W : World) (M : Wording) (prog : Str) (L : Nat → Site) (os : List Opt) : Out (List Complaint) := do
  let t ← typeComplaintLoop W M prog os 0 os
  .ok (placementComplaints os ++ namingComplaintLoop L [] 0 os ++ t)

/-- source/core/validation/validate_structure.c:201-214, the loop of `validate_structure` over the entries of table `k` from `i`;
    `sub` is the recursive call. -/
def subComplaints (sub : Option Nat → Out (Option (List (Nat × Complaint)))) (depth k i : Nat) :
    List Opt → Out (Option (List (Nat × Complaint)))
  | [] => .ok (some [])
  | o :: os =>
    if o.type = .subcommand ∧ o.subOptions ≠ none then
      Ends.bind (sub o.subOptions) fun c =>
        Ends.bind (subComplaints sub depth k (i + 1) os) fun cs =>
          .ok (some ((complain (decide (depth + 1 > maxSubcommandDepth)) i
            (c!"Subcommand depth exceeds maximum allowed (" ++ showInt maxSubcommandDepth ++ c!")")).map ((k, ·)) ++ c ++ cs))
    else subComplaints sub depth k (i + 1) os

/-- source/core/validation/validate_structure.c:189-216 `validate_structure`: all complaints, with the number of the table each is
    about. `L k i` is where entry `i` of table `k` is written. `none` as in Model/Structure. -/
def structureComplaints (W : World) (M : Wording) (prog : Str) (L : Nat → Nat → Site) (tables : List (List Opt)) :
    (fuel depth : Nat) → Option Nat → Out (Option (List (Nat × Complaint)))
  | 0, _, _ => .ok none
  | _ + 1, _, none => .ub .nullDeref
  | fuel + 1, depth, some k =>
    match tables[k]? with
    | none => .ub .nullDeref
    | some os => do
      let c ← tableComplaints W M prog (L k) os
      Ends.bind (subComplaints (structureComplaints W M prog L tables fuel (depth + 1)) depth k 0 os) fun cs =>
        .ok (some (c.map ((k, ·)) ++ cs))

/-- What `argus_init` with validation prints. -/
def initStderr (W : World) (M : Wording) (L : Nat → Nat → Site) (fuel : Nat) (tables : List (List Opt)) (prog : Str) : Text :=
  Ends.bind (structureComplaints W M prog L tables fuel 0 (some 0)) fun cs =>
    .ok (some (cs.map fun c => complaintLine (L c.1) (tables[c.1]?.getD []) c.2).flatten)

end Argus
