import Verif.Model.Buffer

/-!
# Redirection of output streams, source/utils/stream.c

The descriptor table, the pipes and the buffers of stdio are modelled; what the system decides (which free
descriptors it hands out, which calls fail, how much a `read` returns, which allocations fail) are parameters. What is
written to other files than pipes is not recorded. The branch for Windows is not modelled.
-/

set_option autoImplicit false

namespace Argus

/-- What a descriptor refers to: a file opened elsewhere, or an end of a pipe made by `stream_redirect`. -/
inductive File where
  | other (id : Nat)
  | pipeR (id : Nat)
  | pipeW (id : Nat)
  deriving DecidableEq, Repr

/-- source/utils/stream.c:38-44 `stream_info_t`. The fields `fd` and `pipe_fds[1]` are never read. -/
structure StreamInfo where
  active : Bool := false
  readEnd : Nat := 0
  backup : Nat := 0
  deriving DecidableEq, Repr

/-- The process: descriptors, contents of the pipes, number of pipes made, output stdio has not yet written (by
    descriptor), and the static variable `streams` (stream.c:46). -/
structure Proc where
  fds : Nat → Option File
  pipes : Nat → Str := fun _ => []
  nextPipe : Nat := 0
  buffered : Nat → Str := fun _ => []
  slots : Nat → StreamInfo := fun _ => {}

/-- Change of one place. -/
def upd {α : Type} (f : Nat → α) (i : Nat) (v : α) : Nat → α := fun j => if j = i then v else f j

/-- includes/argus/internal/stream.h:34-43 `stream_result_t`. -/
abbrev streamInvalidFd : Int := -1
abbrev streamAlreadyActive : Int := -2
abbrev streamPipeFailed : Int := -3
abbrev streamDupFailed : Int := -4

/-- source/utils/stream.c:48-51 `is_valid_fd`. -/
def isValidFd (fd : Int) : Bool := fd == 1 || fd == 2 || fd == 0

/-! ## System calls -/

/-- `close(n)`. -/
def Proc.close (p : Proc) (n : Nat) : Proc := { p with fds := upd p.fds n none }

/-- `pipe(fds)`: read end, write end and the process afterwards. The system chooses two free descriptors; `none` and
    descriptors that are not free stand for failure. -/
def Proc.pipe (p : Proc) (choice : Option (Nat × Nat)) : Option (Nat × Nat × Proc) :=
  match choice with
  | none => none
  | some (r, w) =>
    if r ≠ w ∧ p.fds r = none ∧ p.fds w = none then
      some (r, w, { p with
        fds := upd (upd p.fds r (some (.pipeR p.nextPipe))) w (some (.pipeW p.nextPipe))
        pipes := upd p.pipes p.nextPipe []
        nextPipe := p.nextPipe + 1 })
    else none

/-- `dup(fd)`: the new descriptor, chosen by the system among the free ones. -/
def Proc.dup (p : Proc) (fd : Nat) (choice : Option Nat) : Option (Nat × Proc) :=
  match choice with
  | none => none
  | some b =>
    if p.fds fd ≠ none ∧ p.fds b = none then some (b, { p with fds := upd p.fds b (p.fds fd) }) else none

/-- `dup2(a, fd)`; `succeeds` is false if the system lets it fail. -/
def Proc.dup2 (p : Proc) (a fd : Nat) (succeeds : Bool) : Option Proc :=
  if succeeds = true ∧ p.fds a ≠ none then some { p with fds := upd p.fds fd (p.fds a) } else none

/-- `write(fd, s, ...)` of all of `s`, with pipes that hold `cap` bytes. A write to a full pipe waits for a reader;
    here only this process reads, so it waits for ever: `none`. -/
def Proc.write (cap : Nat) (p : Proc) (fd : Nat) (s : Str) : Option Proc :=
  match p.fds fd with
  | some (.pipeW q) =>
    if (p.pipes q).length + s.length > cap then none else some { p with pipes := upd p.pipes q (p.pipes q ++ s) }
  | _ => some p

/-- `fflush` of the stream on `fd`. -/
def Proc.flush (cap : Nat) (p : Proc) (fd : Nat) : Option Proc :=
  (p.write cap fd (p.buffered fd)).map fun p1 => { p1 with buffered := upd p1.buffered fd [] }

/-- Printing `s` to the stream on `fd` with stdio, which writes the first `k` bytes of what it holds at once. -/
def Proc.print (cap : Nat) (p : Proc) (fd : Nat) (s : Str) (k : Nat) : Option Proc :=
  (p.write cap fd ((p.buffered fd ++ s).take k)).map fun p1 =>
    { p1 with buffered := upd p1.buffered fd ((p.buffered fd ++ s).drop k) }

/-! ## stream.c -/

/-- What the system decides during one call of `stream_redirect`. -/
structure RedirectOs where
  pipe : Option (Nat × Nat)
  dup : Option Nat
  dup2 : Bool

/-- source/utils/stream.c:53-90 `stream_redirect`. The read end is made non-blocking. -/
def streamRedirect (c : RedirectOs) (p : Proc) (fd : Int) : Int × Proc :=
  if isValidFd fd = false then (streamInvalidFd, p)
  else if (p.slots fd.toNat).active = true then (streamAlreadyActive, p)
  else
    match p.pipe c.pipe with
    | none => (streamPipeFailed, p)
    | some (r, w, p1) =>
      match p1.dup fd.toNat c.dup with
      | none => (streamDupFailed, (p1.close r).close w)
      | some (b, p2) =>
        match p2.dup2 w fd.toNat c.dup2 with
        | none => (streamDupFailed, ((p2.close b).close r).close w)
        | some p3 =>
          let p4 := p3.close w
          (0, { p4 with slots := upd p4.slots fd.toNat { active := true, readEnd := r, backup := b } })

/-- The `fflush` at the start of `stream_read` and `stream_restore`, stream.c:101-104, 160-163. -/
def Proc.flushFor (cap : Nat) (p : Proc) (fd : Nat) : Option Proc :=
  if fd = 1 then p.flush cap 1 else if fd = 2 then p.flush cap 2 else some p

/-- What the system decides during one call of `stream_read`: how many bytes the reads return, whether the
    allocations succeed, and the contents of fresh memory. -/
structure ReadOs where
  chunk : Nat → Nat
  alloc : Nat → Bool
  shrink : Bool
  junk : Nat → Byte

/-- `read(pipe, buffer, 4096)` from a pipe holding `s`: at least one byte if there is one. -/
def readChunk (k : Nat) (s : Str) : Str := s.take (max 1 (min k 4096))

/-- `realloc` to `n` bytes. -/
def reallocTo (junk : Nat → Byte) (m : Mem) (n : Nat) : Mem :=
  m.take n ++ (List.range (n - m.length)).map junk

/-- source/utils/stream.c:115-116: the inner loop; `need` rounds are enough (`growTo_ge`). -/
def growTo (need : Nat) : (fuel cap : Nat) → Nat
  | 0, cap => cap
  | fuel + 1, cap => if need > cap then growTo need fuel (cap * 2) else cap

/-- source/utils/stream.c:112-127, the loop of `stream_read`, with the pipe holding `s`; `i` counts the rounds.
    The result is what is left in the pipe, and the buffer (`none` is NULL) with the number of bytes in it; the outer
    `none` is a failed allocation. Sizes do not overflow. -/
def readLoop (os : ReadOs) : (fuel i : Nat) → (s : Str) → (result : Option Mem) → (total cap : Nat) →
    Out (Str × Option (Option Mem × Nat))
  | 0, _, s, result, total, _ => .ok (s, some (result, total))
  | fuel + 1, i, s, result, total, cap =>
    if s = [] then .ok (s, some (result, total))
    else
      let n := (readChunk (os.chunk i) s).length
      let grow := decide (total + n + 1 > cap)
      let cap1 := if grow then growTo (total + n + 1) (total + n + 1) (if cap = 0 then 4096 else cap * 2) else cap
      if grow ∧ os.alloc i = false then .ok (s.drop n, none)
      else
        match (if grow then some (reallocTo os.junk (result.getD []) cap1) else result) with
        | none => .ub .nullDeref
        | some m => do
          let m1 ← cMemcpy m total n (readChunk (os.chunk i) s)
          readLoop os fuel (i + 1) (s.drop n) (some m1) (total + n) cap1

/-- source/utils/stream.c:129-147: the end of `stream_read`. -/
def readEnd (os : ReadOs) (result : Option Mem) (total : Nat) : Out (Option Mem) :=
  if total = 0 then .ok none
  else
    match result with
    | none => .ub .nullDeref
    | some m => do
      let m1 ← Mem.write m total 0
      .ok (some (if os.shrink then reallocTo os.junk m1 (total + 1) else m1))

/-- source/utils/stream.c:92-148 `stream_read`: the block returned (`none` is NULL). The outer `none` is a call that
    never returns. A pipe whose reads all returned something is empty after as many reads as it had bytes. -/
def streamRead (cap : Nat) (os : ReadOs) (p : Proc) (fd : Int) : Out (Option (Option Mem × Proc)) :=
  if isValidFd fd = false then .ok (some (none, p))
  else if (p.slots fd.toNat).active = false then .ok (some (none, p))
  else
    match p.flushFor cap fd.toNat with
    | none => .ok none
    | some p1 =>
      match p1.fds (p1.slots fd.toNat).readEnd with
      | some (.pipeR q) => do
        let r ← readLoop os (p1.pipes q).length 0 (p1.pipes q) none 0 0
        let p2 := { p1 with pipes := upd p1.pipes q r.1 }
        match r.2 with
        | none => .ok (some (none, p2))
        | some (result, total) => do
          let m ← readEnd os result total
          .ok (some (m, p2))
      | _ => .ok (some (none, p1))

/-- stream.c:165-168: everything left in the pipe is read. -/
def Proc.drain (p : Proc) (n : Nat) : Proc :=
  match p.fds n with
  | some (.pipeR q) => { p with pipes := upd p.pipes q [] }
  | _ => p

/-- source/utils/stream.c:150-178 `stream_restore`; `dup2` tells whether the system lets `dup2` succeed, its result is
    not looked at. `none` is a call that never returns. -/
def streamRestore (cap : Nat) (dup2 : Bool) (p : Proc) (fd : Int) : Option Proc :=
  if isValidFd fd = false then some p
  else if (p.slots fd.toNat).active = false then some p
  else
    (p.flushFor cap fd.toNat).map fun p1 =>
      let info := p1.slots fd.toNat
      let p2 := p1.drain info.readEnd
      let p3 := (p2.dup2 info.backup fd.toNat dup2).getD p2
      let p4 := (p3.close info.backup).close info.readEnd
      { p4 with slots := upd p4.slots fd.toNat {} }

/-- source/utils/stream.c:180-186 `stream_is_active`. -/
def streamIsActive (p : Proc) (fd : Int) : Bool := isValidFd fd && (p.slots fd.toNat).active

/-- stream.c:191-195: one round of the loop of `stream_cleanup_all`. -/
def cleanupStep (cap : Nat) (p : Proc) (i : Nat) : Option Proc :=
  if (p.slots i).active then streamRestore cap true p (if i = 0 then 1 else 2) else some p

/-- source/utils/stream.c:188-197 `stream_cleanup_all`, with `dup2` succeeding. -/
def streamCleanupAll (cap : Nat) (p : Proc) : Option Proc := do
  let p0 ← cleanupStep cap p 0
  let p1 ← cleanupStep cap p0 1
  cleanupStep cap p1 2

end Argus
