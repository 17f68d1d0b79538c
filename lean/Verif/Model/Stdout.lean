import Verif.Model.Messages
/-!
# What a parse prints to standard output

Model/Messages has what goes to stderr. Here is what goes to stdout: the texts of `--help` and `--version`, and the usage line
after an error, function by function, as text (Model/Display). What user handlers and validators print themselves is left out.
The order between the two streams is not modelled.
-/

set_option autoImplicit false

namespace Argus

/-- source/callbacks/handlers/help_handler.c:15-25 and version_handler.c:15-22; no other handler of the library prints to
    stdout. -/
def handlerStdout (F : Fmt) (a : Argus) : Handler → Text
  | .help => Text.cat (do let u ← displayUsage a; Text.lit u) (displayHelp F a)
  | .version => Text.lit (displayVersion a)
  | _ => Text.lit []

/-- source/core/parsing/execute_callbacks.c:15-47 `execute_callbacks`. -/
def execStdout (W : World) (F : Fmt) (a : Argus) (p : Ptr) (arg : Option Str) : Text := do
  let o ← a.getOpt p
  match o.handler with
  | none => Text.lit []
  | some h => do
    let pre ← runPreAll W a arg (o.validators.getD [])
    if pre.1 ≠ Err.success then Text.lit [] else handlerStdout F pre.2 h

/-- source/core/parsing/option_handle_positional.c:17-26 `handle_positional`. -/
def positionalStdout (W : World) (F : Fmt) (a : Argus) (t : Option Nat) (value : Str) (position : Nat) : Text := do
  let os ← a.table t
  match t, findPositional os position with
  | some k, some i => execStdout W F a ⟨k, i⟩ (some value)
  | _, _ => Text.lit []

/-- source/core/parsing/option_handle_long.c:19-51 `handle_long_option`. -/
def longStdout (W : World) (F : Fmt) (a : Argus) (t : Option Nat) (arg : Str) (rest : List Str) : Text := do
  let os ← a.table t
  match t, findLname os (longParts arg).1 with
  | some k, some i => do
    let o ← a.getOpt ⟨k, i⟩
    if o.valueType = .flag then execStdout W F a ⟨k, i⟩ none
    else
      match (longParts arg).2, rest with
      | some v, _ => execStdout W F a ⟨k, i⟩ (some v)
      | none, v :: _ => execStdout W F a ⟨k, i⟩ (some v)
      | none, [] => Text.lit []
  | _, _ => Text.lit []

/-- source/core/parsing/option_handle_short.c:18-54 `handle_short_option`. -/
def shortStdout (W : World) (F : Fmt) (t : Option Nat) (rest : List Str) : Argus → Str → Text
  | _, [] => Text.lit []
  | a, c :: cs => do
    let os ← a.table t
    match t, findSname os c with
    | some k, some i => do
      let o ← a.getOpt ⟨k, i⟩
      if o.valueType = .flag then do
        let r ← execCallbacks W a ⟨k, i⟩ none
        if r.1 ≠ Err.success then execStdout W F a ⟨k, i⟩ none
        else (execStdout W F a ⟨k, i⟩ none).cat (shortStdout W F t rest r.2 cs)
      else
        match cs, rest with
        | _ :: _, _ => execStdout W F a ⟨k, i⟩ (some cs)
        | [], v :: _ => execStdout W F a ⟨k, i⟩ (some v)
        | [], [] => Text.lit []
    | _, _ => Text.lit []

/-- source/core/parsing/parse_args.c:52-106, one round of the loop of `parse_args`. -/
def stepStdout (W : World) (F : Fmt) (t : Option Nat) (a : Argus) (pos : Nat) (only : Bool) (arg : Str)
    (rest : List Str) : Text :=
  if arg = [45, 45] then Text.lit []
  else if only then positionalStdout W F a t arg pos
  else
    match startsWith [45, 45] arg with
    | some longArg => longStdout W F a t longArg rest
    | none =>
      match startsWith [45] arg with
      | some shortArg => do
        let neg ← isNegNumber a t shortArg pos
        if neg then positionalStdout W F a t arg pos
        else shortStdout W F t rest a shortArg
      | none => do
        let os ← a.table t
        if (findSub os arg).1 ≠ Err.success then Text.lit []
        else
          match t, (findSub os arg).2 with
          | some _, some _ => Text.lit []
          | _, _ => positionalStdout W F a t arg pos

/-- source/core/parsing/parse_args.c:51-108, the loop of `parse_args`. -/
def loopStdout (W : World) (F : Fmt) : (t : Option Nat) → (a : Argus) → (pos : Nat) → (only skip : Bool) →
    List Str → Text
  | _, _, _, _, _, [] => Text.lit []
  | t, a, pos, only, true, _ :: rest => loopStdout W F t a pos only false rest
  | t, a, pos, only, false, arg :: rest => do
    match ← parseStep W t a pos only arg rest with
    | .done _ _ => stepStdout W F t a pos only arg rest
    | .next a1 pos1 only1 used =>
      (stepStdout W F t a pos only arg rest).cat (loopStdout W F t a1 pos1 only1 used rest)
    | .enter t1 a1 => (stepStdout W F t a pos only arg rest).cat (loopStdout W F t1 a1 0 false false rest)

/-- source/core/parsing/load_env_vars.c:71-98, one round of the loop of `load_env`. -/
def envStepStdout (W : World) (F : Fmt) (env : Env) (a : Argus) (p : Ptr) : Text := do
  let o ← a.getOpt p
  if o.type = .group ∨ o.type = .subcommand then Text.lit []
  else if o.isSet ∧ o.flags.has .envOverride = false then Text.lit []
  else
    match envVarName a.envPrefix o with
    | none => Text.lit []
    | some n =>
      match env n with
      | none => Text.lit []
      | some v => execStdout W F a p (some v)

/-- source/core/parsing/load_env_vars.c:70-99. -/
def envLoopStdout (W : World) (F : Fmt) (env : Env) (k : Nat) : (n i : Nat) → Argus → Text
  | 0, _, _ => Text.lit []
  | n + 1, i, a => do
    let r ← loadEnvStep W env a ⟨k, i⟩
    if r.1 ≠ Err.success then envStepStdout W F env a ⟨k, i⟩
    else (envStepStdout W F env a ⟨k, i⟩).cat (envLoopStdout W F env k n (i + 1) r.2)

/-- source/core/parsing/load_env_vars.c:68-101 `load_env`. -/
def envTableStdout (W : World) (F : Fmt) (env : Env) (a : Argus) (k : Nat) : Text := do
  let os ← a.table (some k)
  envLoopStdout W F env k os.length 0 a

/-- source/core/parsing/load_env_vars.c:117-124. -/
def envStackStdout (W : World) (F : Fmt) (env : Env) : Argus → List Ptr → Text
  | _, [] => Text.lit []
  | a, p :: ps => do
    let cmd ← a.getOpt p
    match cmd.subOptions with
    | none => envStackStdout W F env a ps
    | some k => do
      let r ← loadEnvTable W env a k
      if r.1 ≠ Err.success then envTableStdout W F env a k
      else (envTableStdout W F env a k).cat (envStackStdout W F env r.2 ps)

/-- source/core/parsing/load_env_vars.c:111-126 `load_env_vars`. -/
def envStdout (W : World) (F : Fmt) (env : Env) (a : Argus) : Text := do
  let r ← loadEnvTable W env a a.root
  if r.1 ≠ Err.success then envTableStdout W F env a a.root
  else (envTableStdout W F env a a.root).cat (envStackStdout W F env r.2 r.2.stack)

/-- source/api/argus_parse.c:21-50 `argus_parse`: what it prints to stdout. `post_parse_validation` prints to stderr only. -/
def parseStdout (W : World) (F : Fmt) (env : Env) (a : Argus) (args : List Str) : Text := do
  let r ← parseArgs W a (some a.root) args
  let s := loopStdout W F (some a.root) a 0 false false args
  if r.1 = Err.shouldExit then s
  else if r.1 ≠ Err.success then s.cat (do let u ← displayUsage r.2; Text.lit u)
  else s.cat (envStdout W F env { r.2 with errorCode := r.1 })

end Argus
