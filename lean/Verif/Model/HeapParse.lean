import Verif.Model.Heap
import Verif.Model.Parse
import Verif.Spec.Meaning
import Verif.Spec.Heap

/-!
# A whole parse in memory

`Verif.Model.Heap` follows the handlers of one array, map or variadic option into memory. Here all options of a program share
one memory: `argus_parse` and `argus_free` with every `malloc`, `realloc` and `free` the handlers make.

Simplified: messages are not recorded here (they are in `Verif.Model.Parse`). Reading the command line allocates nothing, so
only what it makes the parser do, `Argus.asks`, is carried out; `parseArgs_run` proves that `parse_args` does just that.
-/

set_option autoImplicit false

namespace Argus

/-- A program in memory: its definitions and state, where the value of an array or map lies instead of the value, and the
    heap; includes/argus/types.h:118-141, 243-286. -/
structure MemArgus where
  a : Argus
  ptr : Ptr → Option Nat
  heap : Heap

/-- An entry, with the address in its `value.as_ptr`. -/
def MemArgus.opt (c : MemArgus) (p : Ptr) : Out HOpt := do
  let o ← c.a.getOpt p
  .ok ⟨o, c.ptr p⟩

/-- Write an entry. -/
def MemArgus.put (c : MemArgus) (p : Ptr) (ho : HOpt) (h : Heap) : MemArgus :=
  { a := c.a.setOpt p ho.o, ptr := fun q => if q = p then ho.ptr else c.ptr q, heap := h }

/-- `option->handler(argus, option, arg)`, execute_callbacks.c:36. The array, map and variadic handlers use memory and
    read their text; the others (source/handlers/{flag,bool,string,int,float,help,version}_handler.c) allocate nothing. -/
def callHandlerH (W : World) (A : Allocator) (a : Argus) (hd : Handler) (ho : HOpt) (h : Heap) (arg : Option Str) : Out MRes :=
  if hd.isCollection then
    match arg with
    | none => .ub .nullDeref
    | some t => runHandlerH W A hd ho h t
  else do
    let r ← runHandler W a hd ho.o arg
    .ok (r.1, ⟨r.2.1, ho.ptr⟩, h)

/-- source/core/parsing/execute_callbacks.c:15-47 `execute_callbacks`. -/
def execCallbacksH (W : World) (A : Allocator) (c : MemArgus) (p : Ptr) (arg : Option Str) : Out (Int × MemArgus) := do
  let ho ← c.opt p
  match ho.o.handler with
  | none => .ok (Err.invalidHandler, c)
  | some hd => do
    let pre ← runPreAll W c.a arg (ho.o.validators.getD [])
    if pre.1 ≠ Err.success then .ok (pre.1, c)
    else do
      let r ← callHandlerH W A c.a hd ho c.heap arg
      if r.1 ≠ Err.success then .ok (r.1, c.put p r.2.1 r.2.2)
      else
        let ho1 : HOpt := ⟨r.2.1.o.markSet, r.2.1.ptr⟩
        .ok (if ho1.o.flags.has .exit then Err.shouldExit else Err.success, c.put p ho1 r.2.2)

/-- What the command line asks for, in order, up to the first error: source/core/parsing/parse_args.c:45-109 and
    option_handle_*.c. -/
def runH (W : World) (A : Allocator) : MemArgus → List Act → Out (Int × MemArgus)
  | c, [] => .ok (Err.success, c)
  | c, .give p text :: rest => do
    let r ← execCallbacksH W A c p text
    if r.1 ≠ Err.success then .ok r else runH W A r.2 rest
  | c, .enter p :: rest => do
    let e ← enterSub c.a p
    runH W A { c with a := e.2 } rest
  | c, .fail code :: _ => .ok (code, c)
  | _, .noTable :: _ => .ub .nullDeref

/-- source/core/parsing/load_env_vars.c:71-98, one round of the loop of `load_env`. The whole union `option->value`, and
    with it the address, is written back after a failure (lines 94-95). -/
def loadEnvStepH (W : World) (A : Allocator) (env : Env) (c : MemArgus) (p : Ptr) : Out (Int × MemArgus) := do
  let ho ← c.opt p
  if ho.o.type = .group ∨ ho.o.type = .subcommand then .ok (Err.success, c)
  else if ho.o.isSet ∧ ho.o.flags.has .envOverride = false then .ok (Err.success, c)
  else
    match envVarName c.a.envPrefix ho.o with
    | none => .ok (Err.success, c)
    | some n =>
      match env n with
      | none => .ok (Err.success, c)
      | some v => do
        let r ← execCallbacksH W A c p (some v)
        if r.1 ≠ Err.success then
          if ho.o.isSet then do
            let h1 ← r.2.opt p
            .ok (r.1, r.2.put p ⟨{ h1.o with isSet := true, value := ho.o.value }, ho.ptr⟩ r.2.heap)
          else .ok r
        else .ok r

/-- source/core/parsing/load_env_vars.c:70-99, `n` rounds from entry `i` of table `k`. -/
def loadEnvLoopH (W : World) (A : Allocator) (env : Env) (k : Nat) : (n i : Nat) → MemArgus → Out (Int × MemArgus)
  | 0, _, c => .ok (Err.success, c)
  | n + 1, i, c => do
    let r ← loadEnvStepH W A env c ⟨k, i⟩
    if r.1 ≠ Err.success then .ok r else loadEnvLoopH W A env k n (i + 1) r.2

/-- source/core/parsing/load_env_vars.c:68-101 `load_env`. -/
def loadEnvTableH (W : World) (A : Allocator) (env : Env) (c : MemArgus) (k : Nat) : Out (Int × MemArgus) := do
  let os ← c.a.table (some k)
  loadEnvLoopH W A env k os.length 0 c

/-- source/core/parsing/load_env_vars.c:117-124. -/
def loadEnvStackH (W : World) (A : Allocator) (env : Env) : MemArgus → List Ptr → Out (Int × MemArgus)
  | c, [] => .ok (Err.success, c)
  | c, p :: ps => do
    let cmd ← c.a.getOpt p
    match cmd.subOptions with
    | none => loadEnvStackH W A env c ps
    | some k => do
      let r ← loadEnvTableH W A env c k
      if r.1 ≠ Err.success then .ok r else loadEnvStackH W A env r.2 ps

/-- source/core/parsing/load_env_vars.c:111-126 `load_env_vars`. -/
def loadEnvVarsH (W : World) (A : Allocator) (env : Env) (c : MemArgus) : Out (Int × MemArgus) := do
  let r ← loadEnvTableH W A env c c.a.root
  if r.1 ≠ Err.success then .ok r else loadEnvStackH W A env r.2 r.2.a.stack

/-- An element of an array. -/
def seenWord : List Word → Word
  | w :: _ => w
  | [] => .undef

/-- An element of a map. -/
def seenPair : List Word → Str × Word
  | .ptr k :: w :: _ => (k, w)
  | _ => ([], .undef)

/-- The option as a validator finds it that follows its address. -/
def HOpt.seen (ho : HOpt) (h : Heap) : Opt :=
  match ho.o.handler with
  | none => ho.o
  | some hd =>
    if hd.isCollection then
      match ho.ptr with
      | none => { ho.o with value := .null }
      | some _ =>
        match ho.words h with
        | .ub _ => { ho.o with value := .dangling }
        | .ok ws =>
          { ho.o with value := if ho.o.valueType.mapKind.isSome then .map (ws.map seenPair) else .arr (ws.map seenWord) }
    else ho.o

/-- All options as validators find them. -/
def MemArgus.seen (c : MemArgus) : Argus :=
  { c.a with tables := c.a.tables.mapIdx (fun k os => os.mapIdx (fun i o => HOpt.seen ⟨o, c.ptr ⟨k, i⟩⟩ c.heap)) }

/-- source/api/argus_free.c:15-19 `free_options`, `n` rounds from entry `i` of table `k`. -/
def freeLoopH (k : Nat) : (n i : Nat) → MemArgus → Out MemArgus
  | 0, _, c => .ok c
  | n + 1, i, c => do
    let ho ← c.opt ⟨k, i⟩
    let r ← freeOptionH ho c.heap
    freeLoopH k n (i + 1) (c.put ⟨k, i⟩ r.1 r.2)

/-- source/api/argus_free.c:15-19 `free_options`. -/
def freeTableH (c : MemArgus) (t : Option Nat) : Out MemArgus := do
  let os ← c.a.table t
  match t with
  | none => .ok c
  | some k => freeLoopH k os.length 0 c

/-- source/api/argus_free.c:24-28. -/
def freeStackH : MemArgus → List Ptr → Out MemArgus
  | c, [] => .ok c
  | c, p :: ps => do
    let cmd ← c.a.getOpt p
    let c1 ← freeTableH c cmd.subOptions
    freeStackH c1 ps

/-- source/api/argus_free.c:21-29 `argus_free`. -/
def argusFreeH (c : MemArgus) : Out MemArgus := do
  let c1 ← freeTableH c (some c.a.root)
  freeStackH c1 c1.a.stack

/-- source/api/argus_parse.c:21-50 `argus_parse`. -/
def argusParseH (W : World) (A : Allocator) (env : Env) (c : MemArgus) (args : List Str) : Out (ParseEnd × MemArgus) := do
  let r ← runH W A c (c.a.asks args)
  if r.1 = Err.shouldExit then do
    let c2 ← argusFreeH r.2
    .ok (.exited, c2)
  else if r.1 ≠ Err.success then do
    let c2 ← argusFreeH r.2
    .ok (.returned r.1, c2)
  else do
    let e ← loadEnvVarsH W A env r.2
    if e.1 ≠ Err.success then do
      let c2 ← argusFreeH e.2
      .ok (.returned e.1, c2)
    else do
      let v ← postValidation W e.2.seen
      if v.1 ≠ Err.success then do
        let c2 ← argusFreeH e.2
        .ok (.returned v.1, c2)
      else .ok (.returned v.1, e.2)

/-- The program before `argus_parse`: no value lies in memory. -/
def MemArgus.start (a : Argus) (h : Heap) : MemArgus := ⟨a, fun _ => none, h⟩

end Argus
