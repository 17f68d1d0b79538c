import Verif.Model.Parse
import Verif.Model.Statics

/-!
# The parser on `argc` and `argv`

`Verif.Model.Parse` reads the command line as a list of texts. In C it is an array of pointers, a count and an index that the
handlers move. Here the array is a list of pointers (`none` is NULL), every access to it is checked, and so is the
arithmetic on `int`. What does not touch `argv` is taken from `Verif.Model.Parse`.
-/

set_option autoImplicit false

namespace Argus

/-- `argv[i]` for the pointer `argv = memory + base`. -/
def argAt (memory : List (Option Str)) (base : Nat) (i : Int) : Out (Option Str) :=
  if i < 0 then .ub .outOfBounds
  else
    match memory[base + i.toNat]? with
    | some p => .ok p
    | none => .ub .outOfBounds

/-- source/core/parsing/parse_args.c:52-54: `argv[i]`, on which `strcmp` is called. -/
def textAt (memory : List (Option Str)) (base : Nat) (i : Int) : Out Str := do
  match ← argAt memory base i with
  | some s => .ok s
  | none => .ub .nullDeref

/-- A difference of two `int`. -/
def intDiff (x y : Int) : Out Int := if x - y < intMin ∨ intMax < x - y then .ub .intOverflow else .ok (x - y)

/-- The pointer `memory + base + i`, at most one past the end of the array. -/
def argPtr (memory : List (Option Str)) (base : Nat) (i : Int) : Out Nat :=
  if i < 0 ∨ memory.length < base + i.toNat then .ub .outOfBounds else .ok (base + i.toNat)

/-- option_handle_long.c:40-42 and option_handle_short.c:39-42: the value from the next argument and the index moved to it, if
    `*current_index + 1 < argc`. -/
def nextArg (memory : List (Option Str)) (base : Nat) (argc i : Int) : Out (Option (Option Str × Int)) := do
  let j ← intInc i
  if j < argc then do
    let v ← argAt memory base j
    .ok (some (v, j))
  else .ok none

/-- Result of handling an option argument; `index` is `*current_index` afterwards. -/
structure ResAt where
  status : Int
  argus : Argus
  index : Int

/-- source/core/parsing/option_handle_long.c:19-51 `handle_long_option`. -/
def handleLongAt (W : World) (memory : List (Option Str)) (base : Nat) (argc i : Int) (a : Argus) (t : Option Nat) (arg : Str) :
    Out ResAt := do
  let os ← a.table t
  match t, findLname os (longParts arg).1 with
  | some k, some j => do
    let o ← a.getOpt ⟨k, j⟩
    if o.valueType = .flag then do
      let r ← execCallbacks W a ⟨k, j⟩ none
      .ok ⟨r.1, r.2, i⟩
    else
      match (longParts arg).2 with
      | some v => do
        let r ← execCallbacks W a ⟨k, j⟩ (some v)
        .ok ⟨r.1, r.2, i⟩
      | none => do
        match ← nextArg memory base argc i with
        | some (v, i1) => do
          let r ← execCallbacks W a ⟨k, j⟩ v
          .ok ⟨r.1, r.2, i1⟩
        | none => .ok ⟨Err.missingValue, a.report Err.missingValue, i⟩
  | _, _ => .ok ⟨Err.invalidArgument, a.report Err.invalidArgument, i⟩

/-- source/core/parsing/option_handle_short.c:18-54 `handle_short_option`, the loop over the remaining bytes of the cluster. -/
def handleShortAt (W : World) (memory : List (Option Str)) (base : Nat) (argc : Int) (t : Option Nat) : (i : Int) → Argus → Str → Out ResAt
  | i, a, [] => .ok ⟨Err.success, a, i⟩
  | i, a, c :: cs => do
    let os ← a.table t
    match t, findSname os c with
    | some k, some j => do
      let o ← a.getOpt ⟨k, j⟩
      if o.valueType = .flag then do
        let r ← execCallbacks W a ⟨k, j⟩ none
        if r.1 ≠ Err.success then .ok ⟨r.1, r.2, i⟩
        else handleShortAt W memory base argc t i r.2 cs
      else
        match cs with
        | _ :: _ => do
          let r ← execCallbacks W a ⟨k, j⟩ (some cs)
          .ok ⟨r.1, r.2, i⟩
        | [] => do
          match ← nextArg memory base argc i with
          | some (v, i1) => do
            let r ← execCallbacks W a ⟨k, j⟩ v
            .ok ⟨r.1, r.2, i1⟩
          | none => .ok ⟨Err.missingValue, a.report Err.missingValue, i⟩
    | _, _ => .ok ⟨Err.invalidArgument, a.report Err.invalidArgument, i⟩

/-- Outcome of one round of the loop of `parse_args`. -/
inductive StepAt where
  /-- `return status` -/
  | done (status : Int) (a : Argus)
  /-- `continue`, with the index as the handler left it -/
  | next (a : Argus) (pos : Nat) (only : Bool) (i : Int)
  /-- `return handle_subcommand(...)` -/
  | enter (t : Option Nat) (a : Argus)

/-- parse_args.c:60-63, 81-84, 104-106: the argument is a positional; `positional_index++` is checked. -/
def positionalAt (W : World) (t : Option Nat) (a : Argus) (pos : Nat) (only : Bool) (arg : Str) (i : Int) : Out StepAt := do
  let _ ← intInc pos
  let r ← handlePositional W a t arg pos
  .ok (if r.1 ≠ Err.success then .done r.1 r.2 else .next r.2 (pos + 1) only i)

/-- parse_args.c:68-71, 89-92: what follows a call of `handle_long_option` or `handle_short_option`. -/
def ResAt.step (r : ResAt) (pos : Nat) : StepAt :=
  if r.status ≠ Err.success then .done r.status r.argus else .next r.argus pos false r.index

/-- source/core/parsing/parse_args.c:52-106, one round of the loop. -/
def parseStepAt (W : World) (memory : List (Option Str)) (base : Nat) (argc i : Int) (t : Option Nat) (a : Argus) (pos : Nat)
    (only : Bool) (arg : Str) : Out StepAt :=
  if arg = [45, 45] then .ok (.next a pos true i)
  else if only then positionalAt W t a pos true arg i
  else
    match startsWith [45, 45] arg with
    | some longArg => do
      let r ← handleLongAt W memory base argc i a t longArg
      .ok (r.step pos)
    | none =>
      match startsWith [45] arg with
      | some shortArg => do
        let neg ← isNegNumber a t shortArg pos
        if neg then positionalAt W t a pos false arg i
        else do
          let r ← handleShortAt W memory base argc t i a shortArg
          .ok (r.step pos)
      | none => do
        let os ← a.table t
        if (findSub os arg).1 ≠ Err.success then
          .ok (.done (findSub os arg).1 (a.report (findSub os arg).1))
        else
          match t, (findSub os arg).2 with
          | some k, some j => do
            let e ← enterSub a ⟨k, j⟩
            .ok (.enter e.1 e.2)
          | _, _ => positionalAt W t a pos false arg i

/-- source/core/parsing/parse_args.c:45-109 `parse_args` with `argv = memory + base`, from index `i` on, and
    option_handle_subcommand.c:18 (`argc - i - 1` and `&argv[i + 1]`, parse_args.c:100). `none` when `fuel` rounds are not
    enough. -/
def parseFrom (W : World) (memory : List (Option Str)) : (fuel : Nat) → (base : Nat) → (argc i : Int) → (t : Option Nat) → (a : Argus) →
    (pos : Nat) → (only : Bool) → Out (Option (Int × Argus))
  | 0, _, _, _, _, _, _, _ => .ok none
  | fuel + 1, base, argc, i, t, a, pos, only =>
    if i < argc then do
      let arg ← textAt memory base i
      match ← parseStepAt W memory base argc i t a pos only arg with
      | .done status a1 => .ok (some (status, a1))
      | .next a1 pos1 only1 i1 => do
        let i2 ← intInc i1
        parseFrom W memory fuel base argc i2 t a1 pos1 only1
      | .enter t1 a1 => do
        let n ← intDiff argc i
        let n ← intDiff n 1
        let j ← intInc i
        let base1 ← argPtr memory base j
        parseFrom W memory fuel base1 n 0 t1 a1 0 false
    else .ok (some (Err.success, a))

/-- source/api/argus_parse.c:23: `parse_args(argus, argus->options, argc - 1, &argv[1])`. -/
def parseArgv (W : World) (fuel : Nat) (a : Argus) (argc : Int) (argv : List (Option Str)) : Out (Option (Int × Argus)) := do
  let n ← intDiff argc 1
  let base ← argPtr argv 0 1
  parseFrom W argv fuel base n 0 (some a.root) a 0 false

end Argus
