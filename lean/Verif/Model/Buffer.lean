import Verif.Model.Types

/-!
# Bounded string helpers, includes/argus/internal/cross_platform.h

Memory objects are lists of bytes; every read and write is checked against the size of the object. Source and
destination do not overlap. `safe_strdup` is the library's `strdup`. The branch for MSVC (lines 19-58) calls the
library's `*_s` functions and is not modelled.
-/

set_option autoImplicit false

namespace Argus

/-- A memory object. -/
abbrev Mem := List Byte

/-- `m[i] = b`. -/
def Mem.write (m : Mem) (i : Nat) (b : Byte) : Out Mem :=
  if i < m.length then .ok (m.set i b) else .ub .outOfBounds

/-- Sum and difference of `size_t`. -/
def sizeAdd (a b : Nat) : Nat := (a + b) % 2 ^ 64
def sizeSub (a b : Nat) : Nat := (a + 2 ^ 64 - b) % 2 ^ 64

/-- `strlen`: reads up to the first NUL. -/
def cStrlen : Mem → Out Nat
  | [] => .ub .outOfBounds
  | b :: r => if b = 0 then .ok 0 else do
    let n ← cStrlen r
    .ok (n + 1)

/-- The copying of `strcpy` and `strcat`: `dest[i], dest[i + 1], ...` from `src`, up to and including NUL. -/
def cCopy (dest : Mem) (i : Nat) : Mem → Out Mem
  | [] => .ub .outOfBounds
  | b :: r => do
    let d ← dest.write i b
    if b = 0 then .ok d else cCopy d (i + 1) r

/-- `n` NUL bytes from `dest[i]`. -/
def cFill (dest : Mem) (i : Nat) : Nat → Out Mem
  | 0 => .ok dest
  | n + 1 => do
    let d ← dest.write i 0
    cFill d (i + 1) n

/-- The copying of `strncpy`: `n` bytes from `dest[i]`, filled up with NUL after the end of `src`. -/
def cCopyN (dest : Mem) (i : Nat) : Nat → Mem → Out Mem
  | 0, _ => .ok dest
  | _ + 1, [] => .ub .outOfBounds
  | n + 1, b :: r =>
    if b = 0 then cFill dest i (n + 1)
    else do
      let d ← dest.write i b
      cCopyN d (i + 1) n r

/-- The copying of `strncat`: at most `n` bytes from `dest[i]`, then NUL. -/
def cAppendN (dest : Mem) (i : Nat) : Nat → Mem → Out Mem
  | 0, _ => dest.write i 0
  | _ + 1, [] => .ub .outOfBounds
  | n + 1, b :: r =>
    if b = 0 then dest.write i 0
    else do
      let d ← dest.write i b
      cAppendN d (i + 1) n r

/-- `memcpy(dest + i, src, n)`. -/
def cMemcpy (dest : Mem) (i : Nat) : Nat → Mem → Out Mem
  | 0, _ => .ok dest
  | _ + 1, [] => .ub .outOfBounds
  | n + 1, b :: r => do
    let d ← dest.write i b
    cMemcpy d (i + 1) n r

/-- includes/argus/internal/cross_platform.h:64-74 `safe_strcpy`; `none` is a NULL argument. The result tells
    whether `dest` (and not NULL) is returned, and the destination afterwards. -/
def safeStrcpy (dest : Option Mem) (size : Nat) (src : Option Mem) : Out (Bool × Option Mem) :=
  match dest, src with
  | some d, some s =>
    if size = 0 then .ok (false, some d)
    else do
      let n ← cStrlen s
      if n ≥ size then .ok (false, some d)
      else do
        let d1 ← cCopy d 0 s
        .ok (true, some d1)
  | _, _ => .ok (false, dest)

/-- includes/argus/internal/cross_platform.h:76-86 `safe_strncpy`. -/
def safeStrncpy (dest : Option Mem) (size : Nat) (src : Option Mem) (count : Nat) : Out (Bool × Option Mem) :=
  match dest, src with
  | some d, some s =>
    if size = 0 then .ok (false, some d)
    else do
      let len := if count < size - 1 then count else size - 1
      let d1 ← cCopyN d 0 len s
      let d2 ← d1.write len 0
      .ok (true, some d2)
  | _, _ => .ok (false, dest)

/-- includes/argus/internal/cross_platform.h:88-100 `safe_strcat`. -/
def safeStrcat (dest : Option Mem) (size : Nat) (src : Option Mem) : Out (Bool × Option Mem) :=
  match dest, src with
  | some d, some s =>
    if size = 0 then .ok (false, some d)
    else do
      let dl ← cStrlen d
      let sl ← cStrlen s
      if sizeAdd dl sl ≥ size then .ok (false, some d)
      else do
        let d1 ← cCopy d dl s
        .ok (true, some d1)
  | _, _ => .ok (false, dest)

/-- includes/argus/internal/cross_platform.h:108: the room left, without the terminator. -/
def catRoom (size dl : Nat) : Nat := sizeSub (sizeSub size dl) 1

/-- includes/argus/internal/cross_platform.h:110-116: the rest of `safe_strncat`. -/
def strncatRest (d : Mem) (dl available count : Nat) (s : Mem) : Out (Bool × Option Mem) :=
  if available = 0 then .ok (false, some d)
  else do
    let d1 ← cAppendN d dl (if count < available then count else available) s
    .ok (true, some d1)

/-- includes/argus/internal/cross_platform.h:102-117 `safe_strncat`. -/
def safeStrncat (dest : Option Mem) (size : Nat) (src : Option Mem) (count : Nat) : Out (Bool × Option Mem) :=
  match dest, src with
  | some d, some s =>
    if size = 0 then .ok (false, some d)
    else do
      let dl ← cStrlen d
      strncatRest d dl (catRoom size dl) count s
  | _, _ => .ok (false, dest)

/-- includes/argus/internal/cross_platform.h:125-127: the loop of `safe_strndup`. -/
def dupLen : Nat → Mem → Out Nat
  | 0, _ => .ok 0
  | _ + 1, [] => .ub .outOfBounds
  | n + 1, b :: r => if b = 0 then .ok 0 else do
    let k ← dupLen n r
    .ok (k + 1)

/-- An allocator: for a number of bytes, a block with arbitrary contents, or NULL. -/
abbrev Malloc := Nat → Option Mem

/-- includes/argus/internal/cross_platform.h:119-137 `safe_strndup`. -/
def safeStrndup (malloc : Malloc) (s : Mem) (n : Nat) : Out (Option Mem) := do
  let len ← dupLen n s
  match malloc (sizeAdd len 1) with
  | none => .ok none
  | some m => do
    let m1 ← cMemcpy m 0 len s
    let m2 ← m1.write len 0
    .ok (some m2)

/-- source/core/parsing/option_handle_long.c:22-27: the buffer `option_name` for an argument stored in memory. -/
def optionNameBuffer (arg : Str) : Out (Bool × Option Mem) :=
  safeStrncpy (some (List.replicate 64 0)) 64 (some (arg ++ [0]))
    (match strchrSplit 61 arg with
     | some (n, _) => n.length
     | none => 63)

/-! ## Choice lists, source/callbacks/validators/choices_validator.c:87-140 -/

/-- The choices of a validator, as the macros V_CHOICE_* of options.h:115-138 make them. -/
inductive Choices where
  | strings (cs : List Str)
  | ints (cs : List Int)
  | floats (cs : List F64)

/-- choices_validator.c:93-108: the length of the result, `w` is the length reserved for one choice. -/
def choicesLength {α : Type} (w : α → Nat) : Nat → List α → Nat
  | acc, [] => acc
  | acc, x :: xs =>
    choicesLength w (if xs.isEmpty then sizeAdd acc (w x) else sizeAdd (sizeAdd acc (w x)) 1) xs

/-- choices_validator.c:116-137: the writing loop, `f` is the text appended for one choice. -/
def choicesWrite {α : Type} (f : α → Str) (size : Nat) : Option Mem → List α → Out (Option Mem)
  | m, [] => .ok m
  | m, x :: xs => do
    let r ← safeStrcat m size (some (f x ++ [0]))
    if xs.isEmpty then choicesWrite f size r.2 xs
    else do
      let r2 ← safeStrcat r.2 size (some (c!"|" ++ [0]))
      choicesWrite f size r2.2 xs

/-- choices_validator.c:112-139: writing into the block allocated. -/
def choicesFill {α : Type} (f : α → Str) (size : Nat) (cs : List α) : Option Mem → Out (Option Mem)
  | none => .ok none
  | some m => do
    let m1 ← m.write 0 0
    choicesWrite f size (some m1) cs

/-- choices_validator.c:92-139: allocation and writing for the length computed. -/
def choicesText {α : Type} (malloc : Malloc) (w : α → Nat) (f : α → Str) (cs : List α) : Out (Option Mem) :=
  choicesFill f (sizeAdd (choicesLength w 0 cs) 1) cs (malloc (sizeAdd (choicesLength w 0 cs) 1))

/-- source/callbacks/validators/choices_validator.c:87-140 `format_choices_validator`; `fmt` is `%.2g`, and
    `item` has 32 bytes. -/
def formatChoices (malloc : Malloc) (fmt : F64 → Str) : Choices → Out (Option Mem)
  | .strings cs => choicesText malloc List.length id cs
  | .ints cs => choicesText malloc (fun _ => 20) (fun n => (showInt n).take 31) cs
  | .floats cs => choicesText malloc (fun _ => 20) (fun x => (fmt x).take 31) cs

end Argus
