import Verif.Model.Parse

/-! # Classification of bytes, `<ctype.h>`

`isdigit`, `tolower` and `toupper` are called with a plain `char`. The C standard (C11 7.4) defines them for the values of
`unsigned char` and for `EOF` (-1) only, so where `char` is signed they are undefined for the bytes 128 to 254. The other models
take them as defined for all bytes. Here every call is checked. `sgn` says whether `char` is signed. A call outside the
range is a lookup outside the table of the C library. -/

set_option autoImplicit false

namespace Argus

/-- C11 7.4: the argument of a function of `<ctype.h>`. -/
def ctypeArg (sgn : Bool) (c : Byte) : Out Byte :=
  if sgn && 128 ≤ c && c != 255 then .ub .outOfBounds else .ok c

def isDigitC (sgn : Bool) (c : Byte) : Out Bool := do
  let c ← ctypeArg sgn c
  .ok (isDigit c)

def toLowerC (sgn : Bool) (c : Byte) : Out Byte := do
  let c ← ctypeArg sgn c
  .ok (toLower c)

def toUpperC (sgn : Bool) (c : Byte) : Out Byte := do
  let c ← ctypeArg sgn c
  .ok (toUpper c)

/-- `s[0]`: NUL at the end of the string. -/
def headByte (s : Str) : Byte := s.head?.getD 0

/-- The loops `for (i = 0; i < len; ++i) value[i] = f(arg[i])`. -/
def mapBytes (f : Byte → Out Byte) : Str → Out Str
  | [] => .ok []
  | c :: s => do
    let d ← f c
    let r ← mapBytes f s
    .ok (d :: r)

/-- source/callbacks/handlers/bool_handler.c:18-42, map_bool_handler.c:32-57 `string_to_bool`. -/
def stringToBoolC (sgn : Bool) (arg : Str) : Out (Option Bool) :=
  if arg.length > 5 then .ok none
  else do
    let value ← mapBytes (toLowerC sgn) arg
    if trueValues.contains value then .ok (some true)
    else if falseValues.contains value then .ok (some false)
    else .ok none

/-- source/callbacks/handlers/bool_handler.c:44-61 `bool_handler`. -/
def boolHandlerC (sgn : Bool) (o : Opt) (arg : Option Str) : Out HRes :=
  match arg with
  | none => .ok (Err.invalidArgument, o, [.error Err.invalidArgument])
  | some s => do
    match ← stringToBoolC sgn s with
    | none => .ok (Err.invalidArgument, o, [.error Err.invalidArgument])
    | some b => .ok (Err.success, o.setBool b, [])

/-- source/callbacks/handlers/map_bool_handler.c:62-110 `set_kv_pair`. -/
def setKvBoolC (sgn : Bool) (o : Opt) (pair : Str) : Out HRes :=
  match strchrSplit 61 pair with
  | none => .ok (Err.invalidFormat, o, [.error Err.invalidFormat])
  | some (key, value) => do
    match ← stringToBoolC sgn value with
    | none => .ok (Err.invalidValue, o, [.error Err.invalidValue])
    | some b => do
      let o1 ← setPair o key (Word.setBool b) (.lowBool b)
      .ok (Err.success, o1, [])

/-- source/callbacks/handlers/array_int_handler.c:37-49 `search_range_separator`; `prev` is the byte before. -/
def searchSepC (sgn : Bool) (prev : Option Byte) : Str → Out (Option Str)
  | [] => .ok none
  | c :: r =>
    if c == 45 || c == 58 then
      match prev with
      | none => searchSepC sgn (some c) r
      | some p => do
        if ← isDigitC sgn p then
          if ← isDigitC sgn (headByte r) then .ok (some r)
          else if headByte r = 45 then .ok (some r)
          else searchSepC sgn (some c) r
        else searchSepC sgn (some c) r
    else searchSepC sgn (some c) r

/-- source/callbacks/handlers/array_int_handler.c:59-83 `parse_int_range`. -/
def parseIntRangeC (sgn : Bool) (value : Str) : Out (Option (Int × Int)) := do
  match ← searchSepC sgn none value with
  | some r =>
    let s := wrap32 (strtoll value).1
    let e := wrap32 (strtoll r).1
    .ok (some (min s e, max s e))
  | none =>
    let p := strtoll value
    if p.2 ≠ [] then .ok none
    else .ok (some (wrap32 p.1, wrap32 p.1))

/-- source/callbacks/handlers/array_int_handler.c:100-111 `set_value`. -/
def setValueIntC (sgn : Bool) (o : Opt) (value : Str) : Out HRes := do
  match ← parseIntRangeC sgn value with
  | none => .ok (Err.invalidFormat, o, [.error Err.invalidFormat])
  | some r => do
    let o1 ← addRange o r
    .ok (Err.success, o1, [])

/-- Call of `option->handler`. The other handlers call no function of `<ctype.h>`. -/
def runHandlerC (sgn : Bool) (W : World) (a : Argus) (h : Handler) (o : Opt) (arg : Option Str) : Out HRes :=
  match h with
  | .bool => boolHandlerC sgn o arg
  | .arrayInt => collect (setValueIntC sgn) (applyArrayFlags W) o arg
  | .mapBool => collect (setKvBoolC sgn) (applyMapFlags W) o arg
  | h => runHandler W a h o arg

/-- source/core/parsing/execute_callbacks.c:15-47 `execute_callbacks`. -/
def execCallbacksC (sgn : Bool) (W : World) (a : Argus) (p : Ptr) (arg : Option Str) : Out (Int × Argus) := do
  let o ← a.getOpt p
  match o.handler with
  | none => .ok (Err.invalidHandler, a.report Err.invalidHandler)
  | some h => do
    let pre ← runPreAll W a arg (o.validators.getD [])
    if pre.1 ≠ Err.success then .ok pre
    else do
      let a1 := pre.2
      let r ← runHandlerC sgn W a1 h o arg
      let a2 := a1.emits r.2.2
      if r.1 ≠ Err.success then .ok (r.1, a2.setOpt p r.2.1)
      else
        let o1 := r.2.1.markSet
        .ok (if o1.flags.has .exit then Err.shouldExit else Err.success, a2.setOpt p o1)

/-- source/core/parsing/option_handle_positional.c:17-26 `handle_positional`. -/
def handlePositionalC (sgn : Bool) (W : World) (a : Argus) (t : Option Nat) (value : Str) (position : Nat) :
    Out (Int × Argus) := do
  let os ← a.table t
  match t, findPositional os position with
  | some k, some i => execCallbacksC sgn W a ⟨k, i⟩ (some value)
  | _, _ => .ok (Err.invalidArgument, a.report Err.invalidArgument)

/-- source/core/parsing/option_handle_long.c:19-51 `handle_long_option`. -/
def handleLongC (sgn : Bool) (W : World) (a : Argus) (t : Option Nat) (arg : Str) (rest : List Str) : Out OptRes := do
  let os ← a.table t
  match t, findLname os (longParts arg).1 with
  | some k, some i => do
    let o ← a.getOpt ⟨k, i⟩
    if o.valueType = .flag then do
      let r ← execCallbacksC sgn W a ⟨k, i⟩ none
      .ok ⟨r.1, r.2, false⟩
    else
      match (longParts arg).2, rest with
      | some v, _ => do
        let r ← execCallbacksC sgn W a ⟨k, i⟩ (some v)
        .ok ⟨r.1, r.2, false⟩
      | none, v :: _ => do
        let r ← execCallbacksC sgn W a ⟨k, i⟩ (some v)
        .ok ⟨r.1, r.2, true⟩
      | none, [] => .ok ⟨Err.missingValue, a.report Err.missingValue, false⟩
  | _, _ => .ok ⟨Err.invalidArgument, a.report Err.invalidArgument, false⟩

/-- source/core/parsing/option_handle_short.c:18-54 `handle_short_option`. -/
def handleShortC (sgn : Bool) (W : World) (t : Option Nat) (rest : List Str) : Argus → Str → Out OptRes
  | a, [] => .ok ⟨Err.success, a, false⟩
  | a, c :: cs => do
    let os ← a.table t
    match t, findSname os c with
    | some k, some i => do
      let o ← a.getOpt ⟨k, i⟩
      if o.valueType = .flag then do
        let r ← execCallbacksC sgn W a ⟨k, i⟩ none
        if r.1 ≠ Err.success then .ok ⟨r.1, r.2, false⟩
        else handleShortC sgn W t rest r.2 cs
      else
        match cs, rest with
        | _ :: _, _ => do
          let r ← execCallbacksC sgn W a ⟨k, i⟩ (some cs)
          .ok ⟨r.1, r.2, false⟩
        | [], v :: _ => do
          let r ← execCallbacksC sgn W a ⟨k, i⟩ (some v)
          .ok ⟨r.1, r.2, true⟩
        | [], [] => .ok ⟨Err.missingValue, a.report Err.missingValue, false⟩
    | _, _ => .ok ⟨Err.invalidArgument, a.report Err.invalidArgument, false⟩

/-- source/core/parsing/parse_args.c:77: `isdigit(s[0]) || (s[0] == '.' && isdigit(s[1]))`. -/
def looksNumericC (sgn : Bool) (s : Str) : Out Bool := do
  if ← isDigitC sgn (headByte s) then .ok true
  else if headByte s = 46 then isDigitC sgn (headByte (s.drop 1))
  else .ok false

/-- source/core/parsing/parse_args.c:77-80. -/
def isNegNumberC (sgn : Bool) (a : Argus) (t : Option Nat) (shortArg : Str) (pos : Nat) : Out Bool := do
  if ← looksNumericC sgn shortArg then do
    let os ← a.table t
    match findPositional os pos with
    | some i =>
      match os[i]? with
      | some o => .ok o.valueType.isNumeric
      | none => .ok false
    | none => .ok false
  else .ok false

/-- parse_args.c:60-63, 81-84, 104-106: the argument is a positional. -/
def stepPositionalC (sgn : Bool) (W : World) (t : Option Nat) (a : Argus) (pos : Nat) (only : Bool) (arg : Str) : Out Step := do
  let r ← handlePositionalC sgn W a t arg pos
  .ok (if r.1 ≠ Err.success then .done r.1 r.2 else .next r.2 (pos + 1) only false)

/-- source/core/parsing/parse_args.c:52-106, one round of the loop of `parse_args`. -/
def parseStepC (sgn : Bool) (W : World) (t : Option Nat) (a : Argus) (pos : Nat) (only : Bool) (arg : Str) (rest : List Str) :
    Out Step :=
  if arg = [45, 45] then .ok (.next a pos true false)
  else if only then stepPositionalC sgn W t a pos true arg
  else
    match startsWith [45, 45] arg with
    | some longArg => do
      let r ← handleLongC sgn W a t longArg rest
      .ok (r.step pos)
    | none =>
      match startsWith [45] arg with
      | some shortArg => do
        let neg ← isNegNumberC sgn a t shortArg pos
        if neg then stepPositionalC sgn W t a pos false arg
        else do
          let r ← handleShortC sgn W t rest a shortArg
          .ok (r.step pos)
      | none => do
        let os ← a.table t
        if (findSub os arg).1 ≠ Err.success then
          .ok (.done (findSub os arg).1 (a.report (findSub os arg).1))
        else
          match t, (findSub os arg).2 with
          | some k, some i => do
            let e ← enterSub a ⟨k, i⟩
            .ok (.enter e.1 e.2)
          | _, _ => stepPositionalC sgn W t a pos false arg

/-- source/core/parsing/parse_args.c:51-108, the loop of `parse_args`, and option_handle_subcommand.c:18. -/
def parseLoopC (sgn : Bool) (W : World) : (t : Option Nat) → (a : Argus) → (pos : Nat) → (only skip : Bool) →
    List Str → Out (Int × Argus)
  | _, a, _, _, _, [] => .ok (Err.success, a)
  | t, a, pos, only, true, _ :: rest => parseLoopC sgn W t a pos only false rest
  | t, a, pos, only, false, arg :: rest => do
    match ← parseStepC sgn W t a pos only arg rest with
    | .done status a1 => .ok (status, a1)
    | .next a1 pos1 only1 used => parseLoopC sgn W t a1 pos1 only1 used rest
    | .enter t1 a1 => parseLoopC sgn W t1 a1 0 false false rest

/-- source/core/parsing/load_env_vars.c:27-66 `get_env_var_name`. -/
def envVarNameC (sgn : Bool) (envPrefix : Option Str) (o : Opt) : Out (Option Str) :=
  let pre := envPrefix.getD []
  let needsUnderscore := decide (pre.length > 0) && pre.getLast? != some 95
  match o.envName with
  | some n =>
    if o.flags.has .noEnvPrefix then .ok (some n)
    else if envPrefix.isSome && strncmpEq pre.length n pre then .ok (some n)
    else if needsUnderscore then .ok (some (envBuffer (pre ++ [95] ++ n)))
    else .ok (some (envBuffer (pre ++ n)))
  | none =>
    if o.flags.has .autoEnv then do
      let name := (o.name.orElse fun _ => o.lname).getD []
      let full :=
        if o.flags.has .noEnvPrefix then envBuffer name
        else if needsUnderscore then envBuffer (pre ++ [95] ++ name)
        else envBuffer (pre ++ name)
      let s ← mapBytes (fun c => if c == 45 then .ok 95 else toUpperC sgn c) full
      .ok (some s)
    else .ok none

/-- source/core/parsing/load_env_vars.c:71-98, one round of the loop of `load_env`. -/
def loadEnvStepC (sgn : Bool) (W : World) (env : Env) (a : Argus) (p : Ptr) : Out (Int × Argus) := do
  let o ← a.getOpt p
  if o.type = .group ∨ o.type = .subcommand then .ok (Err.success, a)
  else if o.isSet ∧ o.flags.has .envOverride = false then .ok (Err.success, a)
  else do
    match ← envVarNameC sgn a.envPrefix o with
    | none => .ok (Err.success, a)
    | some n =>
      match env n with
      | none => .ok (Err.success, a)
      | some v => do
        let r ← execCallbacksC sgn W a p (some v)
        if r.1 ≠ Err.success then
          if o.isSet then do
            let o1 ← r.2.getOpt p
            .ok (r.1, r.2.setOpt p { o1 with isSet := true, value := restoreValue o o1 })
          else .ok r
        else .ok r

/-- source/core/parsing/load_env_vars.c:70-99, `n` rounds of the loop of `load_env`. -/
def loadEnvLoopC (sgn : Bool) (W : World) (env : Env) (k : Nat) : (n i : Nat) → Argus → Out (Int × Argus)
  | 0, _, a => .ok (Err.success, a)
  | n + 1, i, a => do
    let r ← loadEnvStepC sgn W env a ⟨k, i⟩
    if r.1 ≠ Err.success then .ok r else loadEnvLoopC sgn W env k n (i + 1) r.2

/-- source/core/parsing/load_env_vars.c:68-101 `load_env`. -/
def loadEnvTableC (sgn : Bool) (W : World) (env : Env) (a : Argus) (k : Nat) : Out (Int × Argus) := do
  let os ← a.table (some k)
  loadEnvLoopC sgn W env k os.length 0 a

/-- source/core/parsing/load_env_vars.c:117-124, the loop over the subcommand stack. -/
def loadEnvStackC (sgn : Bool) (W : World) (env : Env) : Argus → List Ptr → Out (Int × Argus)
  | a, [] => .ok (Err.success, a)
  | a, p :: ps => do
    let cmd ← a.getOpt p
    match cmd.subOptions with
    | none => loadEnvStackC sgn W env a ps
    | some k => do
      let r ← loadEnvTableC sgn W env a k
      if r.1 ≠ Err.success then .ok r else loadEnvStackC sgn W env r.2 ps

/-- source/core/parsing/load_env_vars.c:111-126 `load_env_vars`. -/
def loadEnvVarsC (sgn : Bool) (W : World) (env : Env) (a : Argus) : Out (Int × Argus) := do
  let r ← loadEnvTableC sgn W env a a.root
  if r.1 ≠ Err.success then .ok r else loadEnvStackC sgn W env r.2 r.2.stack

/-- source/api/argus_parse.c:21-50 `argus_parse`. -/
def argusParseC (sgn : Bool) (W : World) (env : Env) (a : Argus) (args : List Str) : Out (ParseEnd × Argus) := do
  let r ← parseLoopC sgn W (some a.root) a 0 false false args
  let a1 := { r.2 with errorCode := r.1 }
  if r.1 = Err.shouldExit then do
    let a2 ← argusFree a1
    .ok (.exited, a2)
  else if r.1 ≠ Err.success then do
    let a2 ← argusFree ((a1.emit (.usage none)).emit .tryHelp)
    .ok (.returned r.1, a2)
  else do
    let e ← loadEnvVarsC sgn W env a1
    if e.1 ≠ Err.success then do
      let a2 ← argusFree e.2
      .ok (.returned e.1, a2)
    else do
      let v ← postValidation W e.2
      if v.1 ≠ Err.success then do
        let a2 ← argusFree v.2
        .ok (.returned v.1, a2)
      else .ok (.returned v.1, v.2)

end Argus
