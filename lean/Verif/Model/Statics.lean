import Verif.Model.Buffer
import Verif.Model.Display
import Verif.Model.Parse
import Verif.Model.Structure

/-! # Static variables

The functions of the library that keep a static variable, with that variable written out as state. The other models of these
functions leave the variables out (`Model/Structure` has a parameter for the counter, `Model/Parse` and `Model/Display` have
texts for the buffers). The fifth static variable, `streams` of stream.c:46, is part of `Model/Stream`. What user callbacks do
with these variables (by calling the library themselves) is left out. -/

set_option autoImplicit false

namespace Argus

/-! ## The counter of `validate_structure` -/

/-- `subcommand_depth++` on an `int`. -/
def intInc (d : Int) : Out Int := if d + 1 > 2147483647 then .ub .intOverflow else .ok (d + 1)

/-- `subcommand_depth--` on an `int`. -/
def intDec (d : Int) : Out Int := if d - 1 < -2147483648 then .ub .intOverflow else .ok (d - 1)

/-- source/core/validation/validate_structure.c:201-214: the loop, with the counter `d`; `sub` is the recursive call. The
    result is the status and the counter. -/
def subLoopS (sub : Option Nat → Int → Out (Option (Int × Int))) (st d : Int) : List Opt → Out (Option (Int × Int))
  | [] => .ok (some (st, d))
  | o :: os =>
    if o.type = .subcommand ∧ o.subOptions ≠ none then do
      let d1 ← intInc d
      let st1 := if d1 > 8 then Err.malformedOption else st
      match ← sub o.subOptions d1 with
      | none => .ok none
      | some (r, d2) => do
        let d3 ← intDec d2
        subLoopS sub (if r ≠ Err.success then Err.malformedOption else st1) d3 os
    else subLoopS sub st d os

/-- source/core/validation/validate_structure.c:189-216 `validate_structure`, with the counter `d` before the call. `none` when
    the calls are nested deeper than `fuel`. -/
def validateStructureS (W : World) (tables : List (List Opt)) : (fuel : Nat) → Option Nat → Int → Out (Option (Int × Int))
  | 0, _, _ => .ok none
  | fuel + 1, t, d => do
    let os ← (match t with
      | none => .ub .nullDeref
      | some k =>
        match tables[k]? with
        | some os => .ok os
        | none => .ub .nullDeref : Out (List Opt))
    let st := if validatePlacement os ≠ Err.success then Err.malformedOption else Err.success
    let st := if validateNaming os ≠ Err.success then Err.malformedOption else st
    let f ← validateTypeFormat W os
    let st := if f ≠ Err.success then Err.malformedOption else st
    subLoopS (validateStructureS W tables fuel) st d os

/-! ## The buffers -/

/-- The string in a memory object, as `%s` and `getenv` read it. -/
def readStr : Mem → Out Str
  | [] => .ub .outOfBounds
  | b :: r => if b = 0 then .ok [] else do
    let s ← readStr r
    .ok (b :: s)

/-- `snprintf(buf, size, ...)` for a text `s`: as much as fits, then NUL. -/
def snprintfS (size : Nat) (buf : Mem) (s : Str) : Out Mem := cCopy buf 0 (s.take (size - 1) ++ [0])

/-- source/core/parsing/load_env_vars.c:60-61, help_formatter.c:155-156: the loop over the buffer. -/
def upperLoop : Mem → Out Mem
  | [] => .ub .outOfBounds
  | b :: r =>
    if b = 0 then .ok (b :: r) else do
      let m ← upperLoop r
      .ok ((if b = 45 then 95 else toUpper b) :: m)

/-- What `get_env_var_name` returns: NULL, `option->env_name` or the address of its buffer. -/
inductive NamePtr where
  | null
  | own (n : Str)
  | buffer
  deriving DecidableEq

/-- source/core/parsing/load_env_vars.c:27-66 `get_env_var_name` and source/display/help/help_formatter.c:122-161
    `get_env_var_name_for_display`, which are the same text, with the static `full_name`. -/
def getEnvVarNameS (envPrefix : Option Str) (o : Opt) (buf : Mem) : Out (NamePtr × Mem) := do
  let pre := envPrefix.getD []
  let needsUnderscore : Bool := decide (pre.length > 0) && pre.getLast? != some 95
  match o.envName with
  | some n =>
    if o.flags.has .noEnvPrefix then .ok (.own n, buf)
    else if envPrefix.isSome && strncmpEq pre.length n pre then .ok (.own n, buf)
    else do
      let b ← snprintfS 128 buf (if needsUnderscore then pre ++ [95] ++ n else pre ++ n)
      .ok (.buffer, b)
  | none =>
    if o.flags.has .autoEnv then do
      let name := (o.name.orElse fun _ => o.lname).getD []
      let b ← snprintfS 128 buf
        (if o.flags.has .noEnvPrefix then name else if needsUnderscore then pre ++ [95] ++ name else pre ++ name)
      let b ← upperLoop b
      .ok (.buffer, b)
    else .ok (.null, buf)

/-- The text the pointer leads to, while the buffer is `buf`. -/
def NamePtr.text (p : NamePtr) (buf : Mem) : Out (Option Str) :=
  match p with
  | .null => .ok none
  | .own n => .ok (some n)
  | .buffer => do
    let s ← readStr buf
    .ok (some s)

/-- source/core/parsing/load_env_vars.c:71-98, one round of the loop of `load_env`. -/
def loadEnvStepS (W : World) (env : Env) (a : Argus) (p : Ptr) (buf : Mem) : Out ((Int × Argus) × Mem) := do
  let o ← a.getOpt p
  if o.type = .group ∨ o.type = .subcommand then .ok ((Err.success, a), buf)
  else if o.isSet ∧ o.flags.has .envOverride = false then .ok ((Err.success, a), buf)
  else do
    let q ← getEnvVarNameS a.envPrefix o buf
    match ← q.1.text q.2 with
    | none => .ok ((Err.success, a), q.2)
    | some n =>
      match env n with
      | none => .ok ((Err.success, a), q.2)
      | some v => do
        let r ← execCallbacks W a p (some v)
        if r.1 ≠ Err.success then
          if o.isSet then do
            let o1 ← r.2.getOpt p
            .ok ((r.1, r.2.setOpt p { o1 with isSet := true, value := restoreValue o o1 }), q.2)
          else .ok (r, q.2)
        else .ok (r, q.2)

/-- source/core/parsing/load_env_vars.c:70-99, `n` rounds of the loop of `load_env`. -/
def loadEnvLoopS (W : World) (env : Env) (k : Nat) : (n i : Nat) → Argus → Mem → Out ((Int × Argus) × Mem)
  | 0, _, a, buf => .ok ((Err.success, a), buf)
  | n + 1, i, a, buf => do
    let r ← loadEnvStepS W env a ⟨k, i⟩ buf
    if r.1.1 ≠ Err.success then .ok r else loadEnvLoopS W env k n (i + 1) r.1.2 r.2

/-- source/core/parsing/load_env_vars.c:68-101 `load_env`. -/
def loadEnvTableS (W : World) (env : Env) (a : Argus) (k : Nat) (buf : Mem) : Out ((Int × Argus) × Mem) := do
  let os ← a.table (some k)
  loadEnvLoopS W env k os.length 0 a buf

/-- source/core/parsing/load_env_vars.c:117-124, the loop over the subcommand stack. -/
def loadEnvStackS (W : World) (env : Env) : Argus → Mem → List Ptr → Out ((Int × Argus) × Mem)
  | a, buf, [] => .ok ((Err.success, a), buf)
  | a, buf, p :: ps => do
    let cmd ← a.getOpt p
    match cmd.subOptions with
    | none => loadEnvStackS W env a buf ps
    | some k => do
      let r ← loadEnvTableS W env a k buf
      if r.1.1 ≠ Err.success then .ok r else loadEnvStackS W env r.1.2 r.2 ps

/-- source/core/parsing/load_env_vars.c:111-126 `load_env_vars`. -/
def loadEnvVarsS (W : World) (env : Env) (a : Argus) (buf : Mem) : Out ((Int × Argus) × Mem) := do
  let r ← loadEnvTableS W env a a.root buf
  if r.1.1 ≠ Err.success then .ok r else loadEnvStackS W env r.1.2 r.2 r.1.2.stack

/-- source/api/argus_parse.c:21-50 `argus_parse`. -/
def argusParseS (W : World) (env : Env) (a : Argus) (args : List Str) (buf : Mem) : Out ((ParseEnd × Argus) × Mem) := do
  let r ← parseArgs W a (some a.root) args
  let a1 := { r.2 with errorCode := r.1 }
  if r.1 = Err.shouldExit then do
    let a2 ← argusFree a1
    .ok ((.exited, a2), buf)
  else if r.1 ≠ Err.success then do
    let a2 ← argusFree ((a1.emit (.usage none)).emit .tryHelp)
    .ok ((.returned r.1, a2), buf)
  else do
    let e ← loadEnvVarsS W env a1 buf
    if e.1.1 ≠ Err.success then do
      let a2 ← argusFree e.1.2
      .ok ((.returned e.1.1, a2), e.2)
    else do
      let v ← postValidation W e.1.2
      if v.1 ≠ Err.success then do
        let a2 ← argusFree v.2
        .ok ((.returned v.1, a2), e.2)
      else .ok ((.returned v.1, v.2), e.2)

/-- source/display/help/help_formatter.c:351-368 `append_env_info`. -/
def appendEnvS (envPrefix : Option Str) (o : Opt) (description : Str) (buf : Mem) : Out (Str × Mem) := do
  let q ← getEnvVarNameS envPrefix o buf
  match ← q.1.text q.2 with
  | none => .ok (description, q.2)
  | some e =>
    if description.getLast? = some 41 then
      .ok (appendTo description.dropLast (snprintf 256 (c!", env: " ++ e ++ c!")")), q.2)
    else .ok (appendTo description (snprintf 256 (c!" (env: " ++ e ++ c!")")), q.2)

/-- source/display/help/help_formatter.c:53-62 `get_collection_format`: what comes before and after `%s`. -/
def collectionFormat (vt : ValueType) : Option (Str × Str) :=
  if vt.isVariadic then some ([], c!"...")
  else if vt.isArray then some ([], c!",...")
  else if vt.isMap then some (c!"KEY=", c!",...")
  else none

/-- source/display/help/help_formatter.c:64-70 `format_collection_hint` with the static `buffer`, and 230-231: its result
    is printed. -/
def printHintS (vt : ValueType) (hint : Str) (buf : Mem) : Out (Str × Mem) :=
  match collectionFormat vt with
  | some f => do
    let b ← snprintfS 64 buf (f.1 ++ hint ++ f.2)
    let s ← readStr b
    .ok (c!" <" ++ s ++ c!">", b)
  | none => .ok (c!" <" ++ hint ++ c!">", buf)

/-- source/display/help/help_formatter.c:211-239 `print_option_name`, after the indentation. -/
def optionNameS (F : Fmt) (cfg : HelperConfig) (o : Opt) (buf : Mem) : Out (Str × Mem) := do
  let s :=
    (if o.sname ≠ 0 then [45, o.sname] ++ (if o.lname.isSome then c!", " else []) else []) ++
    (match o.lname with
     | some l => c!"--" ++ l
     | none => [])
  if o.valueType ≠ .flag then do
    let h ← printHintS o.valueType (smartHint F cfg o) buf
    .ok (s ++ h.1, h.2)
  else .ok (s, buf)

/-! ## Calls one after another -/

/-- The static variables: validate_structure.c:192, load_env_vars.c:29, help_formatter.c:124 and 66. -/
structure Statics where
  depth : Int
  fullName : Mem
  shownName : Mem
  hint : Mem

/-- Static variables are zero when the program starts. -/
def Statics.start : Statics := ⟨0, List.replicate 128 0, List.replicate 128 0, List.replicate 64 0⟩

/-- A call that uses a static variable. -/
inductive StaticCall where
  /-- `validate_structure` for the first table (argus_init.c:27) -/
  | validate (W : World) (fuel : Nat) (tables : List (List Opt))
  /-- `argus_parse` -/
  | parse (W : World) (env : Env) (a : Argus) (args : List Str)
  /-- `append_env_info` -/
  | envInfo (envPrefix : Option Str) (o : Opt) (description : Str)
  /-- `print_option_name` -/
  | optionName (F : Fmt) (cfg : HelperConfig) (o : Opt)

/-- What such a call gives. -/
inductive StaticAnswer where
  | status (st : Int)
  | parsed (r : ParseEnd × Argus)
  | text (s : Str)

/-- One call; `none` when it does not end within its fuel. -/
def callS (s : Statics) : StaticCall → Out (Option (StaticAnswer × Statics))
  | .validate W fuel tables => do
    match ← validateStructureS W tables fuel (some 0) s.depth with
    | none => .ok none
    | some r => .ok (some (.status r.1, { s with depth := r.2 }))
  | .parse W env a args => do
    let r ← argusParseS W env a args s.fullName
    .ok (some (.parsed r.1, { s with fullName := r.2 }))
  | .envInfo ep o d => do
    let r ← appendEnvS ep o d s.shownName
    .ok (some (.text r.1, { s with shownName := r.2 }))
  | .optionName F cfg o => do
    let r ← optionNameS F cfg o s.hint
    .ok (some (.text r.1, { s with hint := r.2 }))

/-- Calls one after another, in one process. -/
def callsS : Statics → List StaticCall → Out (Option (List StaticAnswer))
  | _, [] => .ok (some [])
  | s, c :: cs => do
    match ← callS s c with
    | none => .ok none
    | some r => do
      match ← callsS r.2 cs with
      | none => .ok none
      | some as => .ok (some (r.1 :: as))

end Argus
