import Verif.Model.Bytes
import Verif.Model.Float

/-!
# Types: outcomes, values, options, the context, the outside world
-/

set_option autoImplicit false

namespace Argus

/-- Ways in which the C program leaves defined behaviour. -/
inductive Ub where
  /-- NULL pointer dereference -/
  | nullDeref
  /-- access outside an allocated block -/
  | outOfBounds
  /-- write past the end of `subcommand_stack` -/
  | stackOverflow
  /-- signed integer overflow -/
  | intOverflow
  /-- use of an indeterminate value -/
  | uninit
  /-- `free`/`realloc` of a pointer that is not a live heap block -/
  | badFree
  /-- a callback applied to an object of the wrong type -/
  | badCallback
  deriving DecidableEq, Repr

/-- Outcome of a step: a result, or undefined behaviour. -/
inductive Out (α : Type) where
  | ok (a : α)
  | ub (u : Ub)
  deriving DecidableEq, Repr

namespace Out

@[inline] def bind {α β : Type} (x : Out α) (f : α → Out β) : Out β :=
  match x with
  | ok a => f a
  | ub u => ub u

instance : Monad Out where
  pure := ok
  bind := Out.bind

@[simp] theorem pure_eq {α : Type} (a : α) : (pure a : Out α) = ok a := rfl
@[simp] theorem ok_bind {α β : Type} (a : α) (f : α → Out β) : (ok a >>= f) = f a := rfl
@[simp] theorem ub_bind {α β : Type} (u : Ub) (f : α → Out β) :
    ((ub u : Out α) >>= f) = ub u := rfl

def isOk {α : Type} : Out α → Bool
  | ok _ => true
  | ub _ => false

/-- The result, if there is one. -/
def toOption {α : Type} : Out α → Option α
  | ok a => some a
  | ub _ => none

end Out

/-! ## Error codes, includes/argus/errors.h:19-64 -/

namespace Err
abbrev success : Int := 0
abbrev shouldExit : Int := 1
abbrev structError : Int := 2
abbrev duplicateOption : Int := 3
abbrev invalidHandler : Int := 4
abbrev invalidDefault : Int := 5
abbrev invalidGroup : Int := 6
abbrev invalidDependency : Int := 7
abbrev invalidFlag : Int := 8
abbrev invalidPosition : Int := 9
abbrev malformedOption : Int := 10
abbrev missingHelp : Int := 11
abbrev invalidArgument : Int := 12
abbrev missingValue : Int := 13
abbrev missingRequired : Int := 14
abbrev conflictingOptions : Int := 15
abbrev invalidFormat : Int := 16
abbrev exclusiveGroup : Int := 17
abbrev invalidChoice : Int := 18
abbrev invalidRange : Int := 19
abbrev ambiguousSubcommand : Int := 20
abbrev noCommand : Int := 21
abbrev noValue : Int := 22
abbrev invalidType : Int := 23
abbrev invalidIndex : Int := 24
abbrev invalidKey : Int := 25
abbrev memory : Int := 26
abbrev internal : Int := 27
abbrev unsupported : Int := 28
abbrev invalidValue : Int := 29
abbrev stackOverflow : Int := 30
end Err

/-! ## Values, includes/argus/types.h:122-149 -/

/-- One `argus_value_t` cell, by what has been stored in its eight bytes. -/
inductive Word where
  /-- all eight bytes known: an integer, a double, or NULL (`bits 0`) -/
  | bits (w : BitVec 64)
  /-- only the low four bytes were written into fresh memory (`as_int = ...`) -/
  | low (w : BitVec 32)
  /-- only the lowest byte was written into fresh memory (`as_bool = ...`) -/
  | lowBool (b : Bool)
  /-- pointer to a string -/
  | ptr (s : Str)
  /-- never written -/
  | undef
  deriving DecidableEq, Repr

namespace Word

/-- NULL, and the all-zero `argus_value_t`. -/
def null : Word := bits 0

/-- Store to `as_int64`. -/
def ofInt64 (i : Int) : Word := bits (BitVec.ofInt 64 i)

/-- `as_int`: the low four bytes as a signed integer. -/
def asInt : Word → Out Int
  | bits w => .ok (w.truncate 32).toInt
  | low w => .ok w.toInt
  | _ => .ub .uninit

/-- `as_int64`. -/
def asInt64 : Word → Out Int
  | bits w => .ok w.toInt
  | _ => .ub .uninit

/-- `as_float`. -/
def asFloat : Word → Out F64
  | bits w => .ok w
  | _ => .ub .uninit

/-- `as_bool`: the lowest byte, which must hold 0 or 1. -/
def asBool : Word → Out Bool
  | bits w =>
    if w.truncate 8 = (0 : BitVec 8) then .ok false
    else if w.truncate 8 = (1 : BitVec 8) then .ok true
    else .ub .uninit
  | lowBool b => .ok b
  | low w =>
    if w.truncate 8 = (0 : BitVec 8) then .ok false
    else if w.truncate 8 = (1 : BitVec 8) then .ok true
    else .ub .uninit
  | _ => .ub .uninit

/-- `as_string`, about to be dereferenced if not NULL. -/
def asString : Word → Out (Option Str)
  | bits w => if w = 0 then .ok none else .ub .outOfBounds
  | ptr s => .ok (some s)
  | _ => .ub .uninit

/-- Store to `as_bool`: only the lowest byte changes. -/
def setBool (b : Bool) : Word → Word
  | bits w => bits ((w &&& 0xFFFFFFFFFFFFFF00#64) ||| (if b then 1#64 else 0#64))
  | low w => low ((w &&& 0xFFFFFF00#32) ||| (if b then 1#32 else 0#32))
  | _ => lowBool b

end Word

/-- Value of an option: a plain cell, or a pointer to a heap block of cells / pairs whose written
    prefix is listed. -/
inductive Val where
  | word (w : Word)
  | arr (cells : List Word)
  | map (cells : List (Str × Word))
  /-- pointer to a heap block that `realloc` has released -/
  | dangling
  deriving DecidableEq, Repr

namespace Val
def null : Val := word Word.null
end Val

/-! ## Option metadata -/

/-- includes/argus/types.h:29-53 `argus_valtype_t`. Combinations of bits are not modelled. -/
inductive ValueType where
  | none | int | string | float | bool | flag
  | arrayString | arrayInt | arrayFloat
  | mapString | mapInt | mapFloat | mapBool
  | variadicString | variadicInt | variadicFloat
  | custom
  deriving DecidableEq, Repr

namespace ValueType

/-- `type & VALUE_TYPE_ANY_NUMERIC`, types.h:55. -/
def isNumeric : ValueType → Bool
  | int | float => true
  | _ => false

/-- `type & VALUE_TYPE_ANY_BOOL`, types.h:56. -/
def isAnyBool : ValueType → Bool
  | bool | flag => true
  | _ => false

/-- `type & VALUE_TYPE_ARRAY`, types.h:59. -/
def isArray : ValueType → Bool
  | arrayString | arrayInt | arrayFloat => true
  | _ => false

/-- `type & VALUE_TYPE_MAP`, types.h:60-61. -/
def isMap : ValueType → Bool
  | mapString | mapInt | mapFloat | mapBool => true
  | _ => false

/-- `type & VALUE_TYPE_VARIADIC`, types.h:62-63. -/
def isVariadic : ValueType → Bool
  | variadicString | variadicInt | variadicFloat => true
  | _ => false

end ValueType

/-- includes/argus/types.h:68-75 `argus_optype_t`; `TYPE_NONE` is the end of the list. -/
inductive OptType where
  | option | group | positional | subcommand
  deriving DecidableEq, Repr

/-- includes/argus/types.h:80-103 `argus_optflags_t`, by bit number. -/
inductive Flag where
  | required | hidden | advanced | deprecated | experimental | exit | envOverride | autoEnv
  | noEnvPrefix | sorted | unique | sortedValue | sortedKey | uniqueValue | exclusive
  deriving DecidableEq, Repr

/-- Bit number of a flag. -/
def Flag.bit : Flag → Nat
  | required => 0 | hidden => 1 | advanced => 2 | deprecated => 3 | experimental => 4
  | exit => 5 | envOverride => 6 | autoEnv => 7 | noEnvPrefix => 8 | sorted => 9
  | unique => 10 | sortedValue => 11 | sortedKey => 12 | uniqueValue => 13 | exclusive => 14

/-- A flag word. -/
abbrev Flags := BitVec 32

/-- `flags & FLAG_X`. -/
def Flags.has (fs : Flags) (f : Flag) : Bool := fs.getLsbD f.bit

/-- The flag word with exactly the given flags. -/
def Flags.ofList (l : List Flag) : Flags := l.foldl (fun acc f => acc ||| (1#32 <<< f.bit)) 0#32

/-- Handlers of source/callbacks/handlers, or a user handler. -/
inductive Handler where
  | flag | bool | string | int | float | help | version
  | arrayString | arrayInt | arrayFloat
  | mapString | mapInt | mapFloat | mapBool
  | variadicString | variadicInt | variadicFloat
  | custom (id : Nat)
  deriving DecidableEq, Repr

/-- Free handlers of source/callbacks/handlers, or a user one. -/
inductive FreeHandler where
  | default
  | arrayString | variadicString
  | mapString | mapInt | mapFloat | mapBool
  | custom (id : Nat)
  deriving DecidableEq, Repr

/-- Validators of source/callbacks/validators with their data (types.h:177-217), or a user one. -/
inductive VKind where
  | range (min max : Int)
  | length (min max : Int)
  | count (min max : Int)
  | choiceStr (cs : List Str)
  | choiceInt (cs : List Int)
  | choiceFloat (cs : List F64)
  | regex (pattern hint : Option Str)
  | custom (id : Nat)
  deriving DecidableEq, Repr

/-- includes/argus/types.h:226-230. -/
inductive Order where
  | pre | post
  deriving DecidableEq, Repr

/-- includes/argus/types.h:235-241 `validator_entry_t`. The formatter of a built-in validator is
    the one of its kind; `hasFormatter` records whether it is non-NULL. -/
structure Validator where
  kind : VKind
  order : Order
  hasFormatter : Bool := true
  deriving DecidableEq, Repr

/-- includes/argus/types.h:246-288 `struct argus_option_s` (without `line`, `file`). -/
structure Opt where
  type : OptType
  name : Option Str := none
  /-- 0 when there is no short name -/
  sname : Byte := 0
  lname : Option Str := none
  help : Option Str := none
  hint : Option Str := none
  valueType : ValueType := .none
  value : Val := .null
  isAllocated : Bool := false
  defaultValue : Word := .null
  haveDefault : Bool := false
  valueCount : Nat := 0
  valueCapacity : Nat := 0
  envName : Option Str := none
  handler : Option Handler := none
  freeHandler : Option FreeHandler := none
  validators : Option (List Validator) := none
  conflict : Option (List Str) := none
  require : Option (List Str) := none
  flags : Flags := 0
  isSet : Bool := false
  action : Option Nat := none
  /-- index of the table `sub_options` points to -/
  subOptions : Option Nat := none
  deriving DecidableEq, Repr

/-- Address of an option: table number and index. -/
structure Ptr where
  tbl : Nat
  idx : Nat
  deriving DecidableEq, Repr

/-- What the program shows the user. Texts are not modelled here, except for the error code an
    error message comes with. -/
inductive Event where
  /-- `ARGUS_PARSING_ERROR(argus, code, ...)`, errors.h:119-132 -/
  | error (code : Int)
  /-- `display_usage(argus, command)` -/
  | usage (command : Option Nat)
  /-- `display_help(argus, command)` -/
  | help (command : Option Nat)
  /-- `display_version(argus)` -/
  | version
  /-- the "Try '... --help'" line of argus_parse.c:32-35 -/
  | tryHelp
  /-- `display_all_commands`, `display_available_subcommands` -/
  | commands
  deriving DecidableEq, Repr

/-- includes/argus/types.h:300-310 `argus_helper_config_t`; the defaults are those of
    source/display/help/help_formatter.c:26-33 `get_default_helper_config` (display.h:18-26). -/
structure HelperConfig where
  maxLineWidth : Nat := 100
  descriptionColumn : Nat := 32
  optionIndent : Nat := 2
  smartHintMaxLength : Nat := 20
  smartHintAllowSpaces : Bool := false
  deriving DecidableEq, Repr

/-- includes/argus/types.h:323-337 `struct argus_s`, with the option arrays it can reach: a pointer
    to an array is an index into `tables`, and an array is the list of its entries before the
    terminator. `subcommand_stack[0 .. subcommand_depth)` is `stack`. `out` collects what was
    shown. -/
structure Argus where
  tables : List (List Opt)
  root : Nat := 0
  stack : List Ptr := []
  errorCode : Int := 0
  envPrefix : Option Str := none
  programName : Str := []
  version : Option Str := none
  description : Option Str := none
  helper : HelperConfig := {}
  out : List Event := []
  deriving DecidableEq, Repr

/-- Effect of an error message on `error_code`. -/
def Event.code (old : Int) : Event → Int
  | .error c => c
  | _ => old

/-- errors.h:119-132 and the display functions: show something. Only an error message has an
    effect on the state. -/
def Argus.emit (a : Argus) (e : Event) : Argus :=
  { a with errorCode := e.code a.errorCode, out := a.out ++ [e] }

/-- Several messages in order. -/
def Argus.emits (a : Argus) (es : List Event) : Argus := es.foldl Argus.emit a

/-- `ARGUS_PARSING_ERROR(argus, code, ...)`. -/
def Argus.report (a : Argus) (code : Int) : Argus := a.emit (.error code)

/-- The array an options pointer points to; `none` is NULL. -/
def Argus.table (a : Argus) (t : Option Nat) : Out (List Opt) :=
  match t with
  | none => .ub .nullDeref
  | some k =>
    match a.tables[k]? with
    | some os => .ok os
    | none => .ub .nullDeref

/-- `*option`. -/
def Argus.getOpt (a : Argus) (p : Ptr) : Out Opt :=
  match a.tables[p.tbl]? with
  | some os =>
    match os[p.idx]? with
    | some o => .ok o
    | none => .ub .nullDeref
  | none => .ub .nullDeref

/-- Write `*option`. -/
def Argus.setOpt (a : Argus) (p : Ptr) (o : Opt) : Argus :=
  { a with tables := a.tables.modify p.tbl (fun os => os.set p.idx o) }

/-- Result of matching a regular expression. -/
inductive RegexResult where
  | isMatch | noMatch | compileError | otherError
  deriving DecidableEq, Repr

/-- Result of a user handler: its status, the option fields it may write, and the code of the error
    message it printed, if any. -/
structure CustomResult where
  status : Int
  value : Val
  isAllocated : Bool
  valueCount : Nat
  valueCapacity : Nat
  reported : Option Int
  deriving DecidableEq, Repr

/-- `cmp` is a consistent comparison function on the elements of `l` (C17 7.22.5p4). -/
structure Consistent {α : Type} (cmp : α → α → Int) (l : List α) : Prop where
  swap : ∀ a ∈ l, ∀ b ∈ l, (cmp a b < 0 ↔ 0 < cmp b a)
  trans : ∀ a ∈ l, ∀ b ∈ l, ∀ c ∈ l, cmp a b ≤ 0 → cmp b c ≤ 0 → cmp a c ≤ 0

/-- What the library calls but does not implement: float parsing, `qsort`, PCRE2 and user callbacks,
    with the parts of their specification that the proofs use. -/
structure World where
  /-- `strtof`, widened to double: the stored pattern -/
  strtof : Str → F64
  /-- `strtod`: value and number of bytes consumed -/
  strtod : Str → F64 × Nat
  /-- compiled with `ARGUS_REGEX` -/
  regexAvailable : Bool
  /-- pattern, subject -/
  regex : Str → Option Str → RegexResult
  /-- `qsort(base, n, size, cmp)` on the listed elements -/
  qsort : {α : Type} → (α → α → Int) → List α → List α
  /-- user handler: id, option, argument -/
  handler : Nat → Opt → Option Str → CustomResult
  /-- user validator run before the handler: status and reported code -/
  preValidator : Nat → Option Str → Int × Option Int
  /-- user validator run after parsing -/
  postValidator : Nat → Opt → Int × Option Int
  /-- user action of a subcommand -/
  action : Nat → Argus → Int
  /-- a double obtained from a `float` has its low 29 mantissa bits clear -/
  strtof_low : ∀ s, (strtof s).toNat % 2 ^ 29 = 0
  strtod_consumed : ∀ s, (strtod s).2 ≤ s.length
  qsort_perm : ∀ {α : Type} (cmp : α → α → Int) (l : List α), (qsort cmp l).Perm l
  qsort_sorted : ∀ {α : Type} (cmp : α → α → Int) (l : List α), Consistent cmp l →
    (qsort cmp l).Pairwise (fun a b => cmp a b ≤ 0)
  /-- `qsort` sees the elements only through the comparison function -/
  qsort_map : ∀ {α β : Type} (f : α → β) (cmp : β → β → Int) (l : List α),
    (qsort (fun a b => cmp (f a) (f b)) l).map f = qsort cmp (l.map f)

/-- The process environment. -/
abbrev Env := Str → Option Str

end Argus
