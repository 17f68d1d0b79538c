import Verif.Model.Parse
import Verif.Model.Display

/-!
# The text of the error messages

Model/Parse records a message by its error code only. Here its text is computed: every function follows the function of
Model/Parse of the same purpose and returns the messages it prints, in order, each with its code. Memory allocation succeeds.
`%s` of NULL is undefined.
-/

set_option autoImplicit false

namespace Argus

/-- Texts that the library does not make itself. -/
structure Wording extends Fmt where
  /-- `printf("%f", x)` -/
  f6 : F64 → Str
  /-- `pcre2_get_error_message` for a pattern that cannot be compiled -/
  regexError : Str → Str
  /-- the result of `pcre2_match` when it is an error other than "no match" -/
  regexCode : Str → Option Str → Int
  /-- what the callbacks of the user report -/
  handler : Nat → Opt → Option Str → Str
  preValidator : Nat → Option Str → Str
  postValidator : Nat → Opt → Str

/-- A message: the code and the text between the program name and the newline. -/
abbrev Message := Int × Str

/-- includes/argus/errors.h:119-132 `argus_parsing_error`: what is printed to stderr. -/
def Message.line (programName : Str) (m : Message) : Str := programName ++ c!": " ++ m.2 ++ c!"\n"

/-- A text in quotes. -/
def quoted (s : Str) : Str := c!"'" ++ s ++ c!"'"

/-! ## Handlers -/

/-- source/callbacks/handlers/array_int_handler.c:105-106. -/
def intPartMessage (value : Str) : Option Message :=
  if (parseIntRange value).isSome then none
  else some (Err.invalidFormat, c!"Invalid integer or range format: " ++ quoted value)

/-- The messages of `set_kv_pair`, e.g. source/callbacks/handlers/map_int_handler.c:29-30, 50-51; `what` describes the value,
    `tail` ends the message. -/
def pairMessage (conv : Str → Option MapStore) (what tail pair : Str) : Option Message :=
  match strchrSplit 61 pair with
  | none => some (Err.invalidFormat, c!"Invalid key-value format, expected 'key=value': " ++ quoted pair)
  | some (key, value) =>
    if (conv value).isSome then none
    else some (Err.invalidValue, c!"Invalid " ++ what ++ c!" value for key " ++ quoted key ++ c!": " ++ quoted value ++ tail)

/-- The loop over the parts stops at the first message, e.g. array_int_handler.c:129-135. -/
def partsMessages (f : Str → Option Message) (value : Str) : List Message :=
  (((if value.contains 44 then split value [44] else [value]).findSome? f)).toList

/-- The shape of the array and map handlers; the argument must not be NULL. -/
def collectMessages (f : Str → Option Message) (arg : Option Str) : Out (List Message) :=
  match arg with
  | none => .ub .nullDeref
  | some value => .ok (partsMessages f value)

/-- source/callbacks/handlers/variadic_int_handler.c:41-43, variadic_float_handler.c:40-42. -/
def variadicMessages (conv : Str → Option Word) (what : Str) (o : Opt) (arg : Option Str) : Out (List Message) :=
  match arg with
  | none => .ub .nullDeref
  | some value =>
    if (conv value).isSome then .ok []
    else do
      let n ← nameText o.name
      .ok [(Err.invalidValue, c!"Invalid " ++ what ++ c!" value " ++ quoted value ++ c!" for positional argument " ++ quoted n)]

/-- source/callbacks/handlers/bool_handler.c:47-58. -/
def boolMessages (o : Opt) (arg : Option Str) : Out (List Message) :=
  match arg with
  | none => do
    let n ← nameText o.name
    .ok [(Err.invalidArgument, c!"Invalid argument for option: " ++ quoted n)]
  | some s =>
    if (stringToBool s).isSome then .ok []
    else .ok [(Err.invalidArgument, c!"Invalid boolean value: " ++ quoted s ++ c!". Expected 'true' or 'false'")]

/-- source/callbacks/handlers/map_bool_handler.c:84-87. -/
def boolTail : Str := c!" (expected true/false, yes/no, 1/0, on/off, y/n)"

/-- The messages of `option->handler`. -/
def handlerMessages (W : World) (M : Wording) (h : Handler) (o : Opt) (arg : Option Str) : Out (List Message) :=
  match h with
  | .flag | .string | .int | .float | .help | .version => .ok []
  | .bool => boolMessages o arg
  | .arrayString | .arrayFloat => collectMessages (fun _ => none) arg
  | .arrayInt => collectMessages intPartMessage arg
  | .mapString => collectMessages (pairMessage mapStringConv c!"string" []) arg
  | .mapInt => collectMessages (pairMessage mapIntConv c!"integer" []) arg
  | .mapFloat => collectMessages (pairMessage (mapFloatConv W) c!"float" []) arg
  | .mapBool => collectMessages (pairMessage mapBoolConv c!"boolean" boolTail) arg
  | .variadicString => variadicMessages (fun s => some (.ptr s)) c!"string" o arg
  | .variadicInt => variadicMessages variadicIntConv c!"integer" o arg
  | .variadicFloat => variadicMessages (variadicFloatConv W) c!"float" o arg
  | .custom id => .ok ((W.handler id o arg).reported.toList.map fun c => (c, M.handler id o arg))

/-! ## Validators -/

/-- `%s` of an argument text. -/
def argText (arg : Option Str) : Out Str := nameText arg

/-- source/callbacks/validators/regex_validator.c:36, 42, 54-55, 67-79. -/
def regexMessages (W : World) (M : Wording) (arg pattern hint : Option Str) : Out (List Message) :=
  if W.regexAvailable = false then .ok [(Err.invalidValue, c!"regex support is not available")]
  else
    match pattern with
    | none => .ok [(Err.invalidValue, c!"Regular expression pattern is NULL")]
    | some p =>
      match W.regex p arg with
      | .isMatch => .ok []
      | .noMatch => do
        let v ← argText arg
        if hint.getD [] ≠ [] then
          .ok [(Err.invalidValue, c!"Value " ++ quoted v ++ c!" does not match required pattern: " ++ hint.getD [])]
        else .ok [(Err.invalidValue, c!"Value " ++ quoted v ++ c!" does not match the expected format")]
      | .compileError =>
        .ok [(Err.invalidFormat, c!"Failed to compile regex " ++ quoted p ++ c!": " ++ M.regexError p)]
      | .otherError =>
        .ok [(Err.invalidFormat, c!"Internal error: Regex match failed with error code " ++ showInt (M.regexCode p arg))]

/-- The messages of a validator that runs before the handler. -/
def preMessages (W : World) (M : Wording) (k : VKind) (arg : Option Str) : Out (List Message) :=
  match k with
  | .regex p h => regexMessages W M arg p h
  | .custom id => .ok ((W.preValidator id arg).2.toList.map fun c => (c, M.preValidator id arg))
  | _ => .ub .badCallback

/-- `%PRId64-%PRId64`. -/
def rangeText (mn mx : Int) : Str := showInt mn ++ c!"-" ++ showInt mx

/-- source/callbacks/validators/range_validator.c:21-32. -/
def rangeMessages (o : Opt) (mn mx : Int) : Out (List Message) :=
  if mn > mx then .ok [(Err.invalidRange, c!"Range is invalid " ++ rangeText mn mx)]
  else do
    let v ← o.asInt
    if v < mn ∨ v > mx then
      .ok [(Err.invalidRange, c!"Value " ++ showInt v ++ c!" is out of range " ++ rangeText mn mx)]
    else .ok []

/-- source/callbacks/validators/length_validator.c:23-44. -/
def lengthMessages (o : Opt) (mn mx : Int) : Out (List Message) := do
  match ← o.asString with
  | none => .ok [(Err.invalidValue, c!"Value is NULL")]
  | some s =>
    if mn < 0 ∨ mx < 0 then .ok [(Err.invalidRange, c!"Range is negative")]
    else if mn > mx then .ok [(Err.invalidRange, c!"Range is invalid " ++ rangeText mn mx)]
    else if (s.length : Int) < mn ∨ (s.length : Int) > mx then
      .ok [(Err.invalidRange, c!"Value length " ++ showInt s.length ++ c!" is out of range " ++ rangeText mn mx)]
    else .ok []

/-- source/callbacks/validators/count_validator.c:22-39. -/
def countMessages (o : Opt) (mn mx : Int) : List Message :=
  if mn < 0 ∨ mx < 0 then [(Err.invalidRange, c!"Range is negative")]
  else if mn > mx then [(Err.invalidRange, c!"Range is invalid " ++ rangeText mn mx)]
  else if (o.valueCount : Int) < mn ∨ (o.valueCount : Int) > mx then
    [(Err.invalidRange, c!"Values count " ++ showInt o.valueCount ++ c!" is out of range " ++ rangeText mn mx)]
  else []

/-- source/callbacks/validators/choices_validator.c:31-35, 53-57, 75-79: the value and the list of choices. -/
def choiceMessage (F : Fmt) (k : VKind) (value : Str) : List Message :=
  [(Err.invalidChoice, c!"Value " ++ quoted value ++ c!" is not one of [" ++ (formatter F k).getD [] ++ c!"]")]

/-- source/callbacks/validators/choices_validator.c:22-85. -/
def choiceMessages (M : Wording) (o : Opt) (k : VKind) : Out (List Message) :=
  match k with
  | .choiceStr cs => do
    match ← o.asString with
    | none => .ub .nullDeref
    | some s => if cs.any (fun c => strcmp s c == 0) then .ok [] else .ok (choiceMessage M.toFmt k s)
  | .choiceInt cs => do
    let v ← o.asInt
    if cs.any (fun c => v == c) then .ok [] else .ok (choiceMessage M.toFmt k (showInt v))
  | .choiceFloat cs => do
    let v ← o.asFloat
    if cs.any (fun c => F64.eq v c) then .ok [] else .ok (choiceMessage M.toFmt k (M.f6 v))
  | _ => .ok []

/-- The messages of a validator that runs after parsing. -/
def postMessages (W : World) (M : Wording) (k : VKind) (o : Opt) : Out (List Message) :=
  match k with
  | .range mn mx => rangeMessages o mn mx
  | .length mn mx => lengthMessages o mn mx
  | .count mn mx => .ok (countMessages o mn mx)
  | .choiceStr cs => choiceMessages M o (.choiceStr cs)
  | .choiceInt cs => choiceMessages M o (.choiceInt cs)
  | .choiceFloat cs => choiceMessages M o (.choiceFloat cs)
  | .regex _ _ => .ub .badCallback
  | .custom id => .ok ((W.postValidator id o).2.toList.map fun c => (c, M.postValidator id o))

/-! ## Command line -/

/-- source/core/parsing/execute_callbacks.c:25-34. -/
def preAllMessages (W : World) (M : Wording) (arg : Option Str) : List Validator → Out (List Message)
  | [] => .ok []
  | v :: vs =>
    if v.order = .pre then do
      let r ← runPre W v.kind arg
      let m ← preMessages W M v.kind arg
      if r.1 ≠ Err.success then .ok m
      else do
        let m2 ← preAllMessages W M arg vs
        .ok (m ++ m2)
    else preAllMessages W M arg vs

/-- source/core/parsing/execute_callbacks.c:15-47 `execute_callbacks`. -/
def execMessages (W : World) (M : Wording) (a : Argus) (p : Ptr) (arg : Option Str) : Out (List Message) := do
  let o ← a.getOpt p
  match o.handler with
  | none => do
    let n ← nameText o.name
    .ok [(Err.invalidHandler, c!"Option " ++ n ++ c!" has no handler")]
  | some h => do
    let pre ← runPreAll W a arg (o.validators.getD [])
    let m ← preAllMessages W M arg (o.validators.getD [])
    if pre.1 ≠ Err.success then .ok m
    else do
      let m2 ← handlerMessages W M h o arg
      .ok (m ++ m2)

/-- source/core/parsing/option_handle_positional.c:17-26 `handle_positional`. -/
def positionalMessages (W : World) (M : Wording) (a : Argus) (t : Option Nat) (value : Str) (position : Nat) :
    Out (List Message) := do
  let os ← a.table t
  match t, findPositional os position with
  | some k, some i => execMessages W M a ⟨k, i⟩ (some value)
  | _, _ => .ok [(Err.invalidArgument, c!"Unknown positional: " ++ quoted value)]

/-- source/core/parsing/option_handle_long.c:31, 44-45. -/
def longMessages (W : World) (M : Wording) (a : Argus) (t : Option Nat) (arg : Str) (rest : List Str) :
    Out (List Message) := do
  let os ← a.table t
  match t, findLname os (longParts arg).1 with
  | some k, some i => do
    let o ← a.getOpt ⟨k, i⟩
    if o.valueType = .flag then execMessages W M a ⟨k, i⟩ none
    else
      match (longParts arg).2, rest with
      | some v, _ => execMessages W M a ⟨k, i⟩ (some v)
      | none, v :: _ => execMessages W M a ⟨k, i⟩ (some v)
      | none, [] =>
        .ok [(Err.missingValue, c!"Missing value for option: " ++ quoted (c!"--" ++ (longParts arg).1))]
  | _, _ => .ok [(Err.invalidArgument, c!"Unknown option: " ++ quoted (c!"--" ++ (longParts arg).1))]

/-- source/core/parsing/option_handle_short.c:18-54. -/
def shortMessages (W : World) (M : Wording) (t : Option Nat) (rest : List Str) : Argus → Str → Out (List Message)
  | _, [] => .ok []
  | a, c :: cs => do
    let os ← a.table t
    match t, findSname os c with
    | some k, some i => do
      let o ← a.getOpt ⟨k, i⟩
      if o.valueType = .flag then do
        let r ← execCallbacks W a ⟨k, i⟩ none
        let m ← execMessages W M a ⟨k, i⟩ none
        if r.1 ≠ Err.success then .ok m
        else do
          let m2 ← shortMessages W M t rest r.2 cs
          .ok (m ++ m2)
      else
        match cs, rest with
        | _ :: _, _ => execMessages W M a ⟨k, i⟩ (some cs)
        | [], v :: _ => execMessages W M a ⟨k, i⟩ (some v)
        | [], [] => .ok [(Err.missingValue, c!"Missing value for option: " ++ quoted [45, c])]
    | _, _ => .ok [(Err.invalidArgument, c!"Unknown option: " ++ quoted [45, c])]

/-- source/core/parsing/parse_args.c:26-31. -/
def ambiguousMessage (name : Str) (first second : Opt) : Out (List Message) := do
  let n1 ← nameText first.name
  let h1 ← nameText first.help
  let n2 ← nameText second.name
  let h2 ← nameText second.help
  .ok [(Err.ambiguousSubcommand, quoted name ++ c!" is ambigous and could match:\n  " ++ quoted n1 ++ c!" - " ++ h1 ++
    c!"\n  " ++ quoted n2 ++ c!" - " ++ h2)]

/-- source/core/parsing/parse_args.c:18-43 `find_subcommand`, the loop with the match found so far. -/
def subMessagesFrom (name : Str) : (sub : Option Opt) → List Opt → Out (List Message)
  | _, [] => .ok []
  | sub, o :: os =>
    match o.type, o.name with
    | .subcommand, some n =>
      if (startsWith name n).isSome then
        match sub with
        | some first => ambiguousMessage name first o
        | none => if strcmp name n = 0 then .ok [] else subMessagesFrom name (some o) os
      else subMessagesFrom name sub os
    | _, _ => subMessagesFrom name sub os

/-- source/core/parsing/parse_args.c:18-43 `find_subcommand`. -/
def subMessages (os : List Opt) (name : Str) : Out (List Message) := subMessagesFrom name none os

/-- source/core/parsing/parse_args.c:52-106, one round of the loop of `parse_args`. -/
def stepMessages (W : World) (M : Wording) (t : Option Nat) (a : Argus) (pos : Nat) (only : Bool) (arg : Str)
    (rest : List Str) : Out (List Message) :=
  if arg = [45, 45] then .ok []
  else if only then positionalMessages W M a t arg pos
  else
    match startsWith [45, 45] arg with
    | some longArg => longMessages W M a t longArg rest
    | none =>
      match startsWith [45] arg with
      | some shortArg => do
        let neg ← isNegNumber a t shortArg pos
        if neg then positionalMessages W M a t arg pos
        else shortMessages W M t rest a shortArg
      | none => do
        let os ← a.table t
        let m ← subMessages os arg
        if (findSub os arg).1 ≠ Err.success then .ok m
        else
          match t, (findSub os arg).2 with
          | some _, some _ => .ok m
          | _, _ => positionalMessages W M a t arg pos

/-- source/core/parsing/parse_args.c:51-108, the loop of `parse_args`. -/
def loopMessages (W : World) (M : Wording) : (t : Option Nat) → (a : Argus) → (pos : Nat) → (only skip : Bool) →
    List Str → Out (List Message)
  | _, _, _, _, _, [] => .ok []
  | t, a, pos, only, true, _ :: rest => loopMessages W M t a pos only false rest
  | t, a, pos, only, false, arg :: rest => do
    let m ← stepMessages W M t a pos only arg rest
    match ← parseStep W t a pos only arg rest with
    | .done _ _ => .ok m
    | .next a1 pos1 only1 used => do
      let m2 ← loopMessages W M t a1 pos1 only1 used rest
      .ok (m ++ m2)
    | .enter t1 a1 => do
      let m2 ← loopMessages W M t1 a1 0 false false rest
      .ok (m ++ m2)

/-! ## Environment -/

/-- source/core/parsing/load_env_vars.c:71-98, one round of the loop of `load_env`. -/
def envStepMessages (W : World) (M : Wording) (env : Env) (a : Argus) (p : Ptr) : Out (List Message) := do
  let o ← a.getOpt p
  if o.type = .group ∨ o.type = .subcommand then .ok []
  else if o.isSet ∧ o.flags.has .envOverride = false then .ok []
  else
    match envVarName a.envPrefix o with
    | none => .ok []
    | some n =>
      match env n with
      | none => .ok []
      | some v => execMessages W M a p (some v)

/-- source/core/parsing/load_env_vars.c:70-99. -/
def envLoopMessages (W : World) (M : Wording) (env : Env) (k : Nat) : (n i : Nat) → Argus → Out (List Message)
  | 0, _, _ => .ok []
  | n + 1, i, a => do
    let r ← loadEnvStep W env a ⟨k, i⟩
    let m ← envStepMessages W M env a ⟨k, i⟩
    if r.1 ≠ Err.success then .ok m
    else do
      let m2 ← envLoopMessages W M env k n (i + 1) r.2
      .ok (m ++ m2)

/-- source/core/parsing/load_env_vars.c:68-101 `load_env`. -/
def envTableMessages (W : World) (M : Wording) (env : Env) (a : Argus) (k : Nat) : Out (List Message) := do
  let os ← a.table (some k)
  envLoopMessages W M env k os.length 0 a

/-- source/core/parsing/load_env_vars.c:117-124. -/
def envStackMessages (W : World) (M : Wording) (env : Env) : Argus → List Ptr → Out (List Message)
  | _, [] => .ok []
  | a, p :: ps => do
    let cmd ← a.getOpt p
    match cmd.subOptions with
    | none => envStackMessages W M env a ps
    | some k => do
      let r ← loadEnvTable W env a k
      let m ← envTableMessages W M env a k
      if r.1 ≠ Err.success then .ok m
      else do
        let m2 ← envStackMessages W M env r.2 ps
        .ok (m ++ m2)

/-- source/core/parsing/load_env_vars.c:111-126 `load_env_vars`. -/
def envMessages (W : World) (M : Wording) (env : Env) (a : Argus) : Out (List Message) := do
  let r ← loadEnvTable W env a a.root
  let m ← envTableMessages W M env a a.root
  if r.1 ≠ Err.success then .ok m
  else do
    let m2 ← envStackMessages W M env r.2 r.2.stack
    .ok (m ++ m2)

/-! ## Validation after parsing -/

/-- source/core/parsing/post_parse_validation.c:17-31 `validate_required`. -/
def requiredMessages (os : List Opt) (o : Opt) : List Str → Out (List Message)
  | [] => .ok []
  | n :: ns =>
    match (findName os n).bind (fun i => os[i]?) with
    | some r =>
      if r.isSet then requiredMessages os o ns
      else do
        let name ← nameText o.name
        .ok [(Err.missingRequired, c!"Required option is missing: " ++ quoted n ++ c!" with option " ++ quoted name)]
    | none => requiredMessages os o ns

/-- source/core/parsing/post_parse_validation.c:33-46 `validate_conflicts`. -/
def conflictMessages (os : List Opt) (o : Opt) : List Str → Out (List Message)
  | [] => .ok []
  | n :: ns =>
    match (findName os n).bind (fun i => os[i]?) with
    | some r =>
      if r.isSet then do
        let n1 ← nameText o.name
        let n2 ← nameText r.name
        .ok [(Err.conflictingOptions, c!"Conflict between " ++ quoted n1 ++ c!" and " ++ quoted n2)]
      else conflictMessages os o ns
    | none => conflictMessages os o ns

/-- source/core/parsing/post_parse_validation.c:48-62 `call_validators`. -/
def validatorMessages (W : World) (M : Wording) (o : Opt) : List Validator → Out (List Message)
  | [] => .ok []
  | v :: vs =>
    if v.order = .post then do
      let r ← runPost W v.kind o
      let m ← postMessages W M v.kind o
      if r.1 ≠ Err.success then .ok m
      else do
        let m2 ← validatorMessages W M o vs
        .ok (m ++ m2)
    else validatorMessages W M o vs

/-- source/core/parsing/post_parse_validation.c:64-114 `validate_options_set`; `group` is `group_name`. -/
def setMessages (W : World) (M : Wording) (os : List Opt) : (group : Option Str) → (excl : Bool) →
    (first : Option Str) → List Opt → Out (List Message)
  | _, _, _, [] => .ok []
  | group, excl, first, o :: rest =>
    if o.type = .group then setMessages W M os o.name (o.flags.has .exclusive) none rest
    else if o.type = .positional ∧ o.flags.has .required ∧ o.isSet = false then do
      let n ← nameText o.name
      .ok [(Err.missingRequired, c!"Required positional argument missing: " ++ quoted n)]
    else if o.isSet then
      if excl ∧ first.isSome then do
        let g ← nameText group
        let n1 ← nameText first
        let n2 ← nameText o.name
        .ok [(Err.exclusiveGroup, c!"Exclusive options group " ++ quoted g ++ c!" conflict: " ++ quoted n1 ++ c!" and " ++
          quoted n2)]
      else do
        let r ← callValidators W o (o.validators.getD [])
        let m ← validatorMessages W M o (o.validators.getD [])
        if r.1 ≠ Err.success then .ok m
        else do
          let m2 ← requiredMessages os o (o.require.getD [])
          if (validateRequired os (o.require.getD [])).1 ≠ Err.success then .ok (m ++ m2)
          else do
            let m3 ← conflictMessages os o (o.conflict.getD [])
            if (validateConflicts os (o.conflict.getD [])).1 ≠ Err.success then .ok (m ++ m2 ++ m3)
            else do
              let m4 ← setMessages W M os group excl (if excl then o.name else first) rest
              .ok (m ++ m2 ++ m3 ++ m4)
    else setMessages W M os group excl first rest

/-- `validate_options_set` for an options pointer. -/
def tableMessages (W : World) (M : Wording) (a : Argus) (t : Option Nat) : Out (List Message) := do
  let os ← a.table t
  setMessages W M os none false none os

/-- source/core/parsing/post_parse_validation.c:124-129. -/
def stackMessages (W : World) (M : Wording) : Argus → List Ptr → Out (List Message)
  | _, [] => .ok []
  | a, p :: ps => do
    let cmd ← a.getOpt p
    let r ← validateTable W a cmd.subOptions
    let m ← tableMessages W M a cmd.subOptions
    if r.1 ≠ Err.success then .ok m
    else do
      let m2 ← stackMessages W M r.2 ps
      .ok (m ++ m2)

/-- source/core/parsing/post_parse_validation.c:116-132 `post_parse_validation`. -/
def checkMessages (W : World) (M : Wording) (a : Argus) : Out (List Message) := do
  let r ← validateTable W a (some a.root)
  let m ← tableMessages W M a (some a.root)
  if r.1 ≠ Err.success then .ok m
  else do
    let m2 ← stackMessages W M r.2 r.2.stack
    .ok (m ++ m2)

/-! ## The whole parse -/

/-- source/api/argus_parse.c:29-35: what follows the message of `parse_args` on stderr. -/
def tryText (a : Argus) : Out Str := do
  let s ← stackNames a a.stack
  .ok (c!"\n" ++ c!"\nTry '" ++ a.programName ++ s ++ c!" --help' for more information.\n")

/-- source/api/argus_parse.c:21-50 `argus_parse`: the messages, and what follows them on stderr. -/
def parseMessages (W : World) (M : Wording) (env : Env) (a : Argus) (args : List Str) : Out (List Message × Str) := do
  let m ← loopMessages W M (some a.root) a 0 false false args
  let r ← parseArgs W a (some a.root) args
  if r.1 = Err.shouldExit then .ok (m, [])
  else if r.1 ≠ Err.success then do
    let t ← tryText r.2
    .ok (m, t)
  else do
    let a1 := { r.2 with errorCode := r.1 }
    let m2 ← envMessages W M env a1
    let e ← loadEnvVars W env a1
    if e.1 ≠ Err.success then .ok (m ++ m2, [])
    else do
      let m3 ← checkMessages W M e.2
      .ok (m ++ m2 ++ m3, [])

/-- What `argus_parse` prints to stderr. -/
def parseStderr (W : World) (M : Wording) (env : Env) (a : Argus) (args : List Str) : Out Str := do
  let r ← parseMessages W M env a args
  .ok ((r.1.map (Message.line a.programName)).flatten ++ r.2)

end Argus
