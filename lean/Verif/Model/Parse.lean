import Verif.Model.Handlers
import Verif.Model.Validators

/-!
# Parsing, source/core/parsing and source/api/argus_parse.c, argus_free.c, argus_init.c, argus_exec.c
-/

set_option autoImplicit false

namespace Argus

/-- source/core/parsing/execute_callbacks.c:25-34: the validators run before the handler. -/
def runPreAll (W : World) (a : Argus) (arg : Option Str) : List Validator → Out (Int × Argus)
  | [] => .ok (Err.success, a)
  | v :: vs =>
    if v.order = .pre then do
      let r ← runPre W v.kind arg
      let a1 := a.emits (r.2.toList.map .error)
      if r.1 ≠ Err.success then .ok (r.1, a1) else runPreAll W a1 arg vs
    else runPreAll W a arg vs

/-- source/core/parsing/execute_callbacks.c:40-42: what happens to an option after its handler
    succeeded. -/
def Opt.markSet (o : Opt) : Opt :=
  { o with isSet := true, valueCount := if o.valueCount = 0 then 1 else o.valueCount }

/-- source/core/parsing/execute_callbacks.c:15-47 `execute_callbacks`. -/
def execCallbacks (W : World) (a : Argus) (p : Ptr) (arg : Option Str) : Out (Int × Argus) := do
  let o ← a.getOpt p
  match o.handler with
  | none => .ok (Err.invalidHandler, a.report Err.invalidHandler)
  | some h => do
    let pre ← runPreAll W a arg (o.validators.getD [])
    if pre.1 ≠ Err.success then .ok pre
    else do
      let a1 := pre.2
      let r ← runHandler W a1 h o arg
      let a2 := a1.emits r.2.2
      if r.1 ≠ Err.success then .ok (r.1, a2.setOpt p r.2.1)
      else
        let o1 := r.2.1.markSet
        .ok (if o1.flags.has .exit then Err.shouldExit else Err.success, a2.setOpt p o1)

/-- source/core/parsing/option_handle_positional.c:17-26 `handle_positional`. -/
def handlePositional (W : World) (a : Argus) (t : Option Nat) (value : Str) (position : Nat) :
    Out (Int × Argus) := do
  let os ← a.table t
  match t, findPositional os position with
  | some k, some i => execCallbacks W a ⟨k, i⟩ (some value)
  | _, _ => .ok (Err.invalidArgument, a.report Err.invalidArgument)

/-- Result of handling an option argument. -/
structure OptRes where
  status : Int
  argus : Argus
  /-- the next argument was taken as the value -/
  used : Bool
  deriving DecidableEq

/-- source/core/parsing/option_handle_long.c:22-27: the name part of `name=value`, cut to the 63
    bytes that fit `option_name`, and the value part. -/
def longParts (arg : Str) : Str × Option Str :=
  match strchrSplit 61 arg with
  | some (n, v) => (n.take 63, some v)
  | none => (arg.take 63, none)

/-- source/core/parsing/option_handle_long.c:19-51 `handle_long_option`; `rest` are the arguments
    after this one. -/
def handleLong (W : World) (a : Argus) (t : Option Nat) (arg : Str) (rest : List Str) :
    Out OptRes := do
  let os ← a.table t
  match t, findLname os (longParts arg).1 with
  | some k, some i => do
    let o ← a.getOpt ⟨k, i⟩
    if o.valueType = .flag then do
      let r ← execCallbacks W a ⟨k, i⟩ none
      .ok ⟨r.1, r.2, false⟩
    else
      match (longParts arg).2, rest with
      | some v, _ => do
        let r ← execCallbacks W a ⟨k, i⟩ (some v)
        .ok ⟨r.1, r.2, false⟩
      | none, v :: _ => do
        let r ← execCallbacks W a ⟨k, i⟩ (some v)
        .ok ⟨r.1, r.2, true⟩
      | none, [] => .ok ⟨Err.missingValue, a.report Err.missingValue, false⟩
  | _, _ => .ok ⟨Err.invalidArgument, a.report Err.invalidArgument, false⟩

/-- source/core/parsing/option_handle_short.c:18-54 `handle_short_option`, the loop over the
    remaining bytes of the cluster. -/
def handleShort (W : World) (t : Option Nat) (rest : List Str) : Argus → Str → Out OptRes
  | a, [] => .ok ⟨Err.success, a, false⟩
  | a, c :: cs => do
    let os ← a.table t
    match t, findSname os c with
    | some k, some i => do
      let o ← a.getOpt ⟨k, i⟩
      if o.valueType = .flag then do
        let r ← execCallbacks W a ⟨k, i⟩ none
        if r.1 ≠ Err.success then .ok ⟨r.1, r.2, false⟩
        else handleShort W t rest r.2 cs
      else
        match cs, rest with
        | _ :: _, _ => do
          let r ← execCallbacks W a ⟨k, i⟩ (some cs)
          .ok ⟨r.1, r.2, false⟩
        | [], v :: _ => do
          let r ← execCallbacks W a ⟨k, i⟩ (some v)
          .ok ⟨r.1, r.2, true⟩
        | [], [] => .ok ⟨Err.missingValue, a.report Err.missingValue, false⟩
    | _, _ => .ok ⟨Err.invalidArgument, a.report Err.invalidArgument, false⟩

/-- source/core/parsing/parse_args.c:18-43 `find_subcommand`, the loop from entry `i` on with the
    match found so far: status and result. -/
def findSubFrom (name : Str) : (i : Nat) → (sub : Option Nat) → List Opt → Int × Option Nat
  | _, sub, [] => (Err.success, sub)
  | i, sub, o :: os =>
    match o.type, o.name with
    | .subcommand, some n =>
      if (startsWith name n).isSome then
        if sub.isSome then (Err.ambiguousSubcommand, none)
        else if strcmp name n = 0 then (Err.success, some i)
        else findSubFrom name (i + 1) (some i) os
      else findSubFrom name (i + 1) sub os
    | _, _ => findSubFrom name (i + 1) sub os

/-- source/core/parsing/parse_args.c:18-43 `find_subcommand`. -/
def findSub (os : List Opt) (name : Str) : Int × Option Nat := findSubFrom name 0 none os

/-- includes/argus/types.h:293-295. -/
def maxDepth : Nat := 8

/-- source/core/parsing/option_handle_subcommand.c:13-17: mark the subcommand and push it. -/
def enterSub (a : Argus) (p : Ptr) : Out (Option Nat × Argus) := do
  let o ← a.getOpt p
  if maxDepth ≤ a.stack.length then .ub .stackOverflow
  else
    let a1 := a.setOpt p { o with isSet := true }
    .ok (o.subOptions, { a1 with stack := a1.stack ++ [p] })

/-- source/core/parsing/parse_args.c:77: a dash argument that reads like a negative number. -/
def looksNumeric : Str → Bool
  | c :: r => isDigit c || (c == 46 && r.head?.any isDigit)
  | [] => false

/-- source/core/parsing/parse_args.c:77-80: the dash argument is a negative number and the next
    positional is numeric. -/
def isNegNumber (a : Argus) (t : Option Nat) (shortArg : Str) (pos : Nat) : Out Bool :=
  if looksNumeric shortArg then do
    let os ← a.table t
    match findPositional os pos with
    | some i =>
      match os[i]? with
      | some o => .ok o.valueType.isNumeric
      | none => .ok false
    | none => .ok false
  else .ok false

/-- Outcome of one round of the loop of `parse_args`. -/
inductive Step where
  /-- `return status` -/
  | done (status : Int) (a : Argus)
  /-- go on with the next argument, or the one after it if `used` -/
  | next (a : Argus) (pos : Nat) (only used : Bool)
  /-- `return handle_subcommand(...)`: parse the rest with the table of the subcommand -/
  | enter (t : Option Nat) (a : Argus)
  deriving DecidableEq

/-- parse_args.c:60-63, 81-84, 104-106: the argument is a positional. -/
def stepPositional (W : World) (t : Option Nat) (a : Argus) (pos : Nat) (only : Bool) (arg : Str) :
    Out Step := do
  let r ← handlePositional W a t arg pos
  .ok (if r.1 ≠ Err.success then .done r.1 r.2 else .next r.2 (pos + 1) only false)

/-- parse_args.c:68-71, 89-92: what follows a call of `handle_long_option` or
    `handle_short_option`. -/
def OptRes.step (r : OptRes) (pos : Nat) : Step :=
  if r.status ≠ Err.success then .done r.status r.argus else .next r.argus pos false r.used

/-- source/core/parsing/parse_args.c:52-106, one round of the loop of `parse_args` and the first part
    of option_handle_subcommand.c:13-19. `pos` is `positional_index`, `only` is `only_positional`,
    `rest` are the arguments after `arg`. -/
def parseStep (W : World) (t : Option Nat) (a : Argus) (pos : Nat) (only : Bool) (arg : Str)
    (rest : List Str) : Out Step :=
  if arg = [45, 45] then .ok (.next a pos true false)
  else if only then stepPositional W t a pos true arg
  else
    match startsWith [45, 45] arg with
    | some longArg => do
      let r ← handleLong W a t longArg rest
      .ok (r.step pos)
    | none =>
      match startsWith [45] arg with
      | some shortArg => do
        let neg ← isNegNumber a t shortArg pos
        if neg then stepPositional W t a pos false arg
        else do
          let r ← handleShort W t rest a shortArg
          .ok (r.step pos)
      | none => do
        let os ← a.table t
        if (findSub os arg).1 ≠ Err.success then
          .ok (.done (findSub os arg).1 (a.report (findSub os arg).1))
        else
          match t, (findSub os arg).2 with
          | some k, some i => do
            let e ← enterSub a ⟨k, i⟩
            .ok (.enter e.1 e.2)
          | _, _ => stepPositional W t a pos false arg

/-- source/core/parsing/parse_args.c:51-108, the loop of `parse_args`, and
    option_handle_subcommand.c:18. `skip` says that the argument at hand was taken as a value by the
    previous one (`*current_index += 1`). -/
def parseLoop (W : World) : (t : Option Nat) → (a : Argus) → (pos : Nat) → (only skip : Bool) →
    List Str → Out (Int × Argus)
  | _, a, _, _, _, [] => .ok (Err.success, a)
  | t, a, pos, only, true, _ :: rest => parseLoop W t a pos only false rest
  | t, a, pos, only, false, arg :: rest => do
    match ← parseStep W t a pos only arg rest with
    | .done status a1 => .ok (status, a1)
    | .next a1 pos1 only1 used => parseLoop W t a1 pos1 only1 used rest
    | .enter t1 a1 => parseLoop W t1 a1 0 false false rest

/-- source/core/parsing/parse_args.c:45-109 `parse_args`. -/
def parseArgs (W : World) (a : Argus) (t : Option Nat) (args : List Str) : Out (Int × Argus) :=
  parseLoop W t a 0 false false args

/-! ## Environment variables -/

/-- The 128-byte buffer of `get_env_var_name`, written with `snprintf`. -/
def envBuffer (s : Str) : Str := s.take 127

/-- source/core/parsing/load_env_vars.c:27-66 `get_env_var_name`. -/
def envVarName (envPrefix : Option Str) (o : Opt) : Option Str :=
  let pre := envPrefix.getD []
  let needsUnderscore := decide (pre.length > 0) && pre.getLast? != some 95
  match o.envName with
  | some n =>
    if o.flags.has .noEnvPrefix then some n
    else if envPrefix.isSome && strncmpEq pre.length n pre then some n
    else if needsUnderscore then some (envBuffer (pre ++ [95] ++ n))
    else some (envBuffer (pre ++ n))
  | none =>
    if o.flags.has .autoEnv then
      let name := (o.name.orElse fun _ => o.lname).getD []
      let full :=
        if o.flags.has .noEnvPrefix then envBuffer name
        else if needsUnderscore then envBuffer (pre ++ [95] ++ name)
        else envBuffer (pre ++ name)
      some (full.map (fun c => if c == 45 then 95 else toUpper c))
    else none

/-- source/core/parsing/load_env_vars.c:94-95: the value an option holds after the saved union is
    written back. A saved block pointer still points to the block unless it was reallocated, and
    then to the block's present contents. -/
def restoreValue (old new : Opt) : Val :=
  match old.value, new.value with
  | .word w, _ => .word w
  | .arr _, .arr cells => if old.valueCapacity = new.valueCapacity then .arr cells else .dangling
  | .map _, .map cells => if old.valueCapacity = new.valueCapacity then .map cells else .dangling
  | _, _ => .dangling

/-- source/core/parsing/load_env_vars.c:71-98, one round of the loop of `load_env`. -/
def loadEnvStep (W : World) (env : Env) (a : Argus) (p : Ptr) : Out (Int × Argus) := do
  let o ← a.getOpt p
  if o.type = .group ∨ o.type = .subcommand then .ok (Err.success, a)
  else if o.isSet ∧ o.flags.has .envOverride = false then .ok (Err.success, a)
  else
    match envVarName a.envPrefix o with
    | none => .ok (Err.success, a)
    | some n =>
      match env n with
      | none => .ok (Err.success, a)
      | some v => do
        let r ← execCallbacks W a p (some v)
        if r.1 ≠ Err.success then
          if o.isSet then do
            let o1 ← r.2.getOpt p
            .ok (r.1, r.2.setOpt p { o1 with isSet := true, value := restoreValue o o1 })
          else .ok r
        else .ok r

/-- source/core/parsing/load_env_vars.c:70-99, `n` rounds of the loop of `load_env` from entry `i`
    of table `k`. -/
def loadEnvLoop (W : World) (env : Env) (k : Nat) : (n i : Nat) → Argus → Out (Int × Argus)
  | 0, _, a => .ok (Err.success, a)
  | n + 1, i, a => do
    let r ← loadEnvStep W env a ⟨k, i⟩
    if r.1 ≠ Err.success then .ok r else loadEnvLoop W env k n (i + 1) r.2

/-- source/core/parsing/load_env_vars.c:68-101 `load_env`. -/
def loadEnvTable (W : World) (env : Env) (a : Argus) (k : Nat) : Out (Int × Argus) := do
  let os ← a.table (some k)
  loadEnvLoop W env k os.length 0 a

/-- source/core/parsing/load_env_vars.c:117-124, the loop over the subcommand stack. -/
def loadEnvStack (W : World) (env : Env) : Argus → List Ptr → Out (Int × Argus)
  | a, [] => .ok (Err.success, a)
  | a, p :: ps => do
    let cmd ← a.getOpt p
    match cmd.subOptions with
    | none => loadEnvStack W env a ps
    | some k => do
      let r ← loadEnvTable W env a k
      if r.1 ≠ Err.success then .ok r else loadEnvStack W env r.2 ps

/-- source/core/parsing/load_env_vars.c:111-126 `load_env_vars`. -/
def loadEnvVars (W : World) (env : Env) (a : Argus) : Out (Int × Argus) := do
  let r ← loadEnvTable W env a a.root
  if r.1 ≠ Err.success then .ok r else loadEnvStack W env r.2 r.2.stack

/-! ## Validation after parsing -/

/-- source/core/parsing/post_parse_validation.c:17-31 `validate_required`. -/
def validateRequired (os : List Opt) : List Str → VRes
  | [] => .pass
  | n :: ns =>
    match (findName os n).bind (fun i => os[i]?) with
    | some r => if r.isSet then validateRequired os ns else .fail Err.missingRequired
    | none => validateRequired os ns

/-- source/core/parsing/post_parse_validation.c:33-46 `validate_conflicts`. -/
def validateConflicts (os : List Opt) : List Str → VRes
  | [] => .pass
  | n :: ns =>
    match (findName os n).bind (fun i => os[i]?) with
    | some r => if r.isSet then .fail Err.conflictingOptions else validateConflicts os ns
    | none => validateConflicts os ns

/-- source/core/parsing/post_parse_validation.c:48-62 `call_validators`. A validator that succeeds
    may still have printed a message; the codes of all messages are returned. -/
def callValidators (W : World) (o : Opt) : List Validator → Out (Int × List Int)
  | [] => .ok (Err.success, [])
  | v :: vs =>
    if v.order = .post then do
      let r ← runPost W v.kind o
      if r.1 ≠ Err.success then .ok (r.1, r.2.toList)
      else do
        let r2 ← callValidators W o vs
        .ok (r2.1, r.2.toList ++ r2.2)
    else callValidators W o vs

/-- source/core/parsing/post_parse_validation.c:64-114 `validate_options_set`: the loop over the
    remaining entries of table `os`. `excl` and `first` are `current_group_is_exclusive` and
    `first_set_option_name`. The result is the status and the codes of the messages printed. -/
def validateSet (W : World) (os : List Opt) : (excl : Bool) → (first : Option Str) → List Opt →
    Out (Int × List Int)
  | _, _, [] => .ok (Err.success, [])
  | excl, first, o :: rest =>
    if o.type = .group then validateSet W os (o.flags.has .exclusive) none rest
    else if o.type = .positional ∧ o.flags.has .required ∧ o.isSet = false then
      .ok (Err.missingRequired, [Err.missingRequired])
    else if o.isSet then
      if excl ∧ first.isSome then .ok (Err.exclusiveGroup, [Err.exclusiveGroup])
      else do
        let r ← callValidators W o (o.validators.getD [])
        if r.1 ≠ Err.success then .ok r
        else
          let q := validateRequired os (o.require.getD [])
          if q.1 ≠ Err.success then .ok (q.1, r.2 ++ q.2.toList)
          else
            let c := validateConflicts os (o.conflict.getD [])
            if c.1 ≠ Err.success then .ok (c.1, r.2 ++ c.2.toList)
            else do
              let r2 ← validateSet W os excl (if excl then o.name else first) rest
              .ok (r2.1, r.2 ++ r2.2)
    else validateSet W os excl first rest

/-- `validate_options_set` for an options pointer, with its messages. -/
def validateTable (W : World) (a : Argus) (t : Option Nat) : Out (Int × Argus) := do
  let os ← a.table t
  let r ← validateSet W os false none os
  .ok (r.1, a.emits (r.2.map .error))

/-- source/core/parsing/post_parse_validation.c:124-129, the loop over the subcommand stack. -/
def validateStack (W : World) : Argus → List Ptr → Out (Int × Argus)
  | a, [] => .ok (Err.success, a)
  | a, p :: ps => do
    let cmd ← a.getOpt p
    let r ← validateTable W a cmd.subOptions
    if r.1 ≠ Err.success then .ok r else validateStack W r.2 ps

/-- source/core/parsing/post_parse_validation.c:116-132 `post_parse_validation`. -/
def postValidation (W : World) (a : Argus) : Out (Int × Argus) := do
  let r ← validateTable W a (some a.root)
  if r.1 ≠ Err.success then .ok r else validateStack W r.2 r.2.stack

/-! ## The API -/

/-- `free_option_value` for every entry, in order. -/
def freeOpts : List Opt → Out (List Opt)
  | [] => .ok []
  | o :: os => do
    let o1 ← freeOptionValue o
    let os1 ← freeOpts os
    .ok (o1 :: os1)

/-- source/api/argus_free.c:15-19 `free_options`. -/
def freeTable (a : Argus) (t : Option Nat) : Out Argus := do
  let os ← a.table t
  let os1 ← freeOpts os
  match t with
  | none => .ok a
  | some k => .ok { a with tables := a.tables.set k os1 }

/-- source/api/argus_free.c:24-28, the loop over the subcommand stack. -/
def freeStack : Argus → List Ptr → Out Argus
  | a, [] => .ok a
  | a, p :: ps => do
    let cmd ← a.getOpt p
    let a1 ← freeTable a cmd.subOptions
    freeStack a1 ps

/-- source/api/argus_free.c:21-29 `argus_free`. -/
def argusFree (a : Argus) : Out Argus := do
  let a1 ← freeTable a (some a.root)
  freeStack a1 a1.stack

/-- How `argus_parse` ends. -/
inductive ParseEnd where
  /-- it returns a status -/
  | returned (status : Int)
  /-- it calls `exit(0)` -/
  | exited
  deriving DecidableEq, Repr

/-- source/api/argus_parse.c:21-50 `argus_parse`; `args` is `argv[1 .. argc)`. -/
def argusParse (W : World) (env : Env) (a : Argus) (args : List Str) : Out (ParseEnd × Argus) := do
  let r ← parseArgs W a (some a.root) args
  let a1 := { r.2 with errorCode := r.1 }
  if r.1 = Err.shouldExit then do
    let a2 ← argusFree a1
    .ok (.exited, a2)
  else if r.1 ≠ Err.success then do
    let a2 ← argusFree ((a1.emit (.usage none)).emit .tryHelp)
    .ok (.returned r.1, a2)
  else do
    let e ← loadEnvVars W env a1
    if e.1 ≠ Err.success then do
      let a2 ← argusFree e.2
      .ok (.returned e.1, a2)
    else do
      let v ← postValidation W e.2
      if v.1 ≠ Err.success then do
        let a2 ← argusFree v.2
        .ok (.returned v.1, a2)
      else .ok (.returned v.1, v.2)

/-- source/api/argus_exec.c:15-18 `argus_has_command`. -/
def hasCommand (a : Argus) : Bool := decide (a.stack.length > 0)

/-- source/api/argus_exec.c:20-35 `argus_exec`: status, the action called (if any) and what was
    shown. -/
def argusExec (W : World) (a : Argus) : Out (Int × Option Nat × List Event) :=
  match a.stack.getLast? with
  | none => .ok (Err.noCommand, none, [.commands])
  | some p => do
    let cmd ← a.getOpt p
    match cmd.action with
    | none => .ok (Err.invalidHandler, none, [.commands])
    | some f => .ok (W.action f a, some f, [])

end Argus
