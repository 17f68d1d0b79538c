import Verif.Model.Handlers
import Verif.Model.Stream

/-!
# Memory: the handlers of arrays and maps with every block they allocate

The other modules keep the values of an option as plain lists. Here an array or a map is a block of memory holding
addresses of further blocks, an allocation may fail, `realloc` may move a block, and a block is live until it is freed.
Every `malloc`, `calloc`, `realloc`, `strdup`, `strndup` and `free` of the handlers appears. An address is never given out
twice, so an access to a released block is always noticed.
-/

set_option autoImplicit false

namespace Argus

/-- An 8-byte cell in memory: data, or the address of a block. -/
inductive Cell where
  | data (w : Word)
  | addr (a : Nat)
  deriving DecidableEq, Repr

/-- One element of a block of values: `[value]` for an `argus_value_t`, `[key, value]` for an `argus_pair_t`. `[]` has not
    been written. -/
abbrev Row := List Cell

/-- Contents of a block. -/
inductive Blk where
  /-- a string -/
  | text (s : Str)
  /-- the `char **` of `split` -/
  | words (l : List Cell)
  /-- the values of an option, as many as the block has room for -/
  | rows (l : List Row)
  /-- the `bool *` of `make_map_values_unique` -/
  | marks (n : Nat)
  deriving DecidableEq, Repr

/-- The heap: the blocks allocated and not yet released, the next unused address and the number of calls so far. -/
structure Heap where
  live : Nat → Option Blk
  next : Nat
  calls : Nat

/-- What the allocator decides at each call. -/
structure Allocator where
  /-- `malloc` succeeds -/
  malloc : Nat → Bool
  /-- `realloc` succeeds -/
  realloc : Nat → Bool
  /-- `realloc` moves the block -/
  moves : Nat → Bool

/-- `malloc`, `calloc`, `strdup`, `strndup`: the address of a new block with contents `b`, or NULL. -/
def Heap.malloc (A : Allocator) (h : Heap) (b : Blk) : Option Nat × Heap :=
  if A.malloc h.calls then (some h.next, ⟨upd h.live h.next (some b), h.next + 1, h.calls + 1⟩)
  else (none, { h with calls := h.calls + 1 })

/-- `free`. -/
def Heap.free (h : Heap) : Cell → Out Heap
  | .data w => if w = .null then .ok h else .ub .badFree
  | .addr a =>
    match h.live a with
    | none => .ub .badFree
    | some _ => .ok { h with live := upd h.live a none }

/-- A pointer that may be NULL as a cell. -/
def Cell.ofPtr : Option Nat → Cell
  | none => .data .null
  | some a => .addr a

/-- `realloc` of a block of values to `n` elements. -/
def Heap.reallocRows (A : Allocator) (h : Heap) (a n : Nat) : Out (Option Nat × Heap) :=
  match h.live a with
  | some (.rows l) =>
    if A.realloc h.calls = false then .ok (none, { h with calls := h.calls + 1 })
    else if A.moves h.calls then
      .ok (some h.next, ⟨upd (upd h.live a none) h.next (some (.rows (l.take n ++ List.replicate (n - l.length) []))),
        h.next + 1, h.calls + 1⟩)
    else
      .ok (some a, { h with
        live := upd h.live a (some (.rows (l.take n ++ List.replicate (n - l.length) [])))
        calls := h.calls + 1 })
  | _ => .ub .badFree

/-- The value of a cell, an address being that of a string. -/
def Cell.word (h : Heap) : Cell → Out Word
  | .data w => .ok w
  | .addr a =>
    match h.live a with
    | some (.text s) => .ok (.ptr s)
    | _ => .ub .outOfBounds

/-- Cell `i` of an element, read as a value of kind `k`. -/
def Row.read (h : Heap) (k : CellKind) (i : Nat) (r : Row) : Out Word :=
  match r[i]? with
  | none => .ub .uninit
  | some c => do
    let w ← c.word h
    if k.readable w then .ok w else .ub .uninit

/-- Cell `i` of several elements. -/
def readRows (h : Heap) (k : CellKind) (i : Nat) : List Row → Out (List (Row × Word))
  | [] => .ok []
  | r :: rs => do
    let w ← r.read h k i
    let ws ← readRows h k i rs
    .ok ((r, w) :: ws)

/-- An option: its fields, of which `value` is not used, and the pointer `value.as_array` or `value.as_map`. -/
structure HOpt where
  o : Opt
  ptr : Option Nat

/-- The elements in the block of an option. -/
def HOpt.block (ho : HOpt) (h : Heap) : Out (Nat × List Row) :=
  match ho.ptr with
  | none => .ub .nullDeref
  | some a =>
    match h.live a with
    | some (.rows l) => .ok (a, l)
    | _ => .ub .outOfBounds

/-- The first `value_count` elements. -/
def HOpt.rows (ho : HOpt) (h : Heap) : Out (Nat × List Row × List Row) := do
  let b ← ho.block h
  if b.2.length < ho.o.valueCount then .ub .outOfBounds
  else .ok (b.1, b.2.take ho.o.valueCount, b.2.drop ho.o.valueCount)

/-- source/utils/multi_values.c:447-466 `adjust_array_size` and 468-487 `adjust_map_size`. -/
def adjustH (A : Allocator) (ho : HOpt) (h : Heap) : Out (HOpt × Heap) :=
  match ho.ptr with
  | none =>
    match h.malloc A (.rows (List.replicate initialCapacity [])) with
    | (some a, h1) => .ok (⟨{ ho.o with valueCapacity := initialCapacity }, some a⟩, h1)
    | (none, h1) => .ok (⟨{ ho.o with valueCapacity := 0 }, none⟩, h1)
  | some a =>
    if ho.o.valueCount ≥ ho.o.valueCapacity then do
      match ← h.reallocRows A a (ho.o.valueCapacity * 2) with
      | (some b, h1) => .ok (⟨{ ho.o with valueCapacity := ho.o.valueCapacity * 2 }, some b⟩, h1)
      | (none, h1) => .ok (ho, h1)
    else .ok (ho, h)

/-- `option->value.as_array[option->value_count] = row; option->value_count++`, also for a map. -/
def storeH (ho : HOpt) (h : Heap) (r : Row) : Out (HOpt × Heap) := do
  let b ← ho.block h
  if ho.o.valueCount < b.2.length then
    .ok ({ ho with o := { ho.o with valueCount := ho.o.valueCount + 1 } },
      { h with live := upd h.live b.1 (some (.rows (b.2.set ho.o.valueCount r))) })
  else .ub .outOfBounds

/-! ## Flags, source/utils/multi_values.c -/

/-- The first `value_count` elements are replaced. -/
def HOpt.setRows (h : Heap) (a : Nat) (l : List Row) : Heap := { h with live := upd h.live a (some (.rows l)) }

/-- multi_values.c:119-138 and 225-258: `qsort` by cell `i`. -/
def sortRows (W : World) (h : Heap) (k : CellKind) (i : Nat) (l : List Row) : Out (List Row) := do
  let ws ← readRows h k i l
  .ok ((if ws.length ≤ 1 then ws else W.qsort (fun a b => k.cmp a.2 b.2) ws).map (·.1))

/-- multi_values.c:154-159, 178-186, 205-211, the inner loop of `make_*_array_unique`. -/
def anyDup (h : Heap) (k : CellKind) (c : Row) : List Row → Out Bool
  | [] => .ok false
  | r :: rs => do
    let a ← c.read h k 0
    let b ← r.read h k 0
    if k.dup a b then .ok true else anyDup h k c rs

/-- multi_values.c:151-163, 175-191, 202-216, the loop of `make_*_array_unique`, with the elements before `unique_count`
    and those from `i` on. A duplicate string is released. -/
def uniqueArrH (k : CellKind) : (kept : List Row) → List Row → Heap → Out (List Row × Heap)
  | kept, [], h => .ok (kept, h)
  | kept, c :: cs, h => do
    let d ← anyDup h k c kept
    if d then do
      let h1 ← if k = .string then h.free (c.headD (.data .undef)) else .ok h
      uniqueArrH k kept cs h1
    else uniqueArrH k (kept ++ [c]) cs h

/-- multi_values.c:346-375: sorting of an array. -/
def sortedH (W : World) (k : CellKind) (ho : HOpt) (h : Heap) : Out Heap :=
  if ho.o.flags.has .sorted then do
    let b ← ho.rows h
    let l ← sortRows W h k 0 b.2.1
    .ok (HOpt.setRows h b.1 (l ++ b.2.2))
  else .ok h

/-- multi_values.c:377-399: removal of duplicates from an array. What is behind the new count stays there. -/
def uniqueH (k : CellKind) (ho : HOpt) (h : Heap) : Out (HOpt × Heap) :=
  if ho.o.flags.has .unique then do
    let b ← ho.rows h
    match b.2.1 with
    | [] => .ok (ho, h)
    | c :: cs => do
      let r ← uniqueArrH k [c] cs h
      .ok ({ ho with o := { ho.o with valueCount := r.1.length } },
        HOpt.setRows r.2 b.1 (r.1 ++ (b.2.1 ++ b.2.2).drop r.1.length))
  else .ok (ho, h)

/-- source/utils/multi_values.c:346-400 `apply_array_flags`. -/
def arrayFlagsH (W : World) (ho : HOpt) (h : Heap) : Out (HOpt × Heap) :=
  if ho.o.valueCount ≤ 1 then .ok (ho, h)
  else
    match ho.o.valueType.arrayKind with
    | none => .ok (ho, h)
    | some k => do
      let h1 ← sortedH W k ho h
      uniqueH k ho h1

/-- multi_values.c:276-319: the loops that mark duplicates; the marks of the elements from `i` on. -/
def markFrom {α : Type} (dup : α → α → Bool) : (n : Nat) → List (α × Bool) → List (α × Bool)
  | 0, l => l
  | _ + 1, [] => []
  | n + 1, (x, b) :: r =>
    (x, b) :: markFrom dup n (if b then r else r.map fun y => (y.1, y.2 || dup x y.1))

/-- multi_values.c:322-336: the unmarked elements move together, the marked ones are released. -/
def compactH (isStr : Bool) : List (Row × Bool) → Heap → Out (List Row × Heap)
  | [], h => .ok ([], h)
  | (r, b) :: rs, h =>
    if b = false then do
      let x ← compactH isStr rs h
      .ok (r :: x.1, x.2)
    else do
      let h1 ← h.free (r.headD (.data .undef))
      let h2 ← if isStr then h1.free ((r[1]?).getD (.data .undef)) else .ok h1
      compactH isStr rs h2

/-- source/utils/multi_values.c:264-340 `make_map_values_unique` for a known type of values, and the assignment to
    `value_count`. -/
def uniquePairsH (A : Allocator) (k : CellKind) (ho : HOpt) (h : Heap) : Out (HOpt × Heap) := do
  let b ← ho.rows h
  match h.malloc A (.marks ho.o.valueCount) with
  | (none, h1) => .ok (ho, h1)
  | (some m, h1) => do
    let ws ← readRows h1 k 1 b.2.1
    let marked := markFrom (fun x y => k.dup x.2 y.2) ws.length (ws.map fun x => (x, false))
    let r ← compactH (k = .string) (marked.map fun x => (x.1.1, x.2)) h1
    let h2 ← r.2.free (.addr m)
    .ok ({ ho with o := { ho.o with valueCount := r.1.length } },
      HOpt.setRows h2 b.1 (r.1 ++ (b.2.1 ++ b.2.2).drop r.1.length))

/-- source/utils/multi_values.c:419-444: sorting of a map. -/
def mapSortH (W : World) (ho : HOpt) (h : Heap) : Out Heap :=
  if ho.o.flags.has .sortedKey then do
    let b ← ho.rows h
    let l ← sortRows W h .string 0 b.2.1
    .ok (HOpt.setRows h b.1 (l ++ b.2.2))
  else if ho.o.flags.has .sortedValue then
    match ho.o.valueType.mapKind with
    | none => .ok h
    | some k => do
      let b ← ho.rows h
      let l ← sortRows W h k 1 b.2.1
      .ok (HOpt.setRows h b.1 (l ++ b.2.2))
  else .ok h

/-- source/utils/multi_values.c:414-417: `make_map_values_unique` when asked for. -/
def mapUniqueH (A : Allocator) (ho : HOpt) (h : Heap) : Out (HOpt × Heap) :=
  match ho.o.flags.has .uniqueValue, ho.o.valueType.mapKind with
  | true, some k => uniquePairsH A k ho h
  | _, _ => .ok (ho, h)

/-- source/utils/multi_values.c:406-445 `apply_map_flags`, for the types of maps. -/
def mapFlagsH (W : World) (A : Allocator) (ho : HOpt) (h : Heap) : Out (HOpt × Heap) :=
  if ho.o.valueCount ≤ 1 then .ok (ho, h)
  else do
    let x ← mapUniqueH A ho h
    let h1 ← mapSortH W x.1 x.2
    .ok (x.1, h1)

/-! ## split, source/utils/strings.c -/

/-- strings.c:72-77 `cleanup_split`: the words before `i`. -/
def cleanupSplit : List Nat → Heap → Out Heap
  | [], h => .ok h
  | a :: as, h => do
    let h1 ← h.free (.addr a)
    cleanupSplit as h1

/-- strings.c:94-105: the loop of `split` over the words still to be copied, `done` being the copies so far.
    `none`: an allocation failed. -/
def splitLoopH (A : Allocator) : (ws : List Str) → (done : List Nat) → Heap → Out (Option (List Nat) × Heap)
  | [], done, h => .ok (some done, h)
  | w :: ws, done, h =>
    match h.malloc A (.text w) with
    | (some a, h1) => splitLoopH A ws (done ++ [a]) h1
    | (none, h1) => do
      let h2 ← cleanupSplit done h1
      .ok (none, h2)

/-- source/utils/strings.c:85-108 `split`, given the words; the addresses are written into the block at the end. -/
def splitH (A : Allocator) (ws : List Str) (h : Heap) : Out (Option Nat × Heap) :=
  match h.malloc A (.words []) with
  | (none, h1) => .ok (none, h1)
  | (some p, h1) => do
    match ← splitLoopH A ws [] h1 with
    | (none, h2) => do
      let h3 ← h2.free (.addr p)
      .ok (none, h3)
    | (some as, h2) =>
      .ok (some p, { h2 with live := upd h2.live p (some (.words (as.map .addr ++ [.data .null]))) })

/-- `split[i]`. -/
def wordAt (h : Heap) (p i : Nat) : Out Cell :=
  match h.live p with
  | some (.words l) =>
    match l[i]? with
    | some c => .ok c
    | none => .ub .outOfBounds
  | _ => .ub .outOfBounds

/-- strings.c:112-113: the loop of `free_split`; `fuel` rounds at most. -/
def freeSplitLoop (p : Nat) : (fuel i : Nat) → Heap → Out Heap
  | 0, _, _ => .ub .outOfBounds
  | fuel + 1, i, h => do
    let c ← wordAt h p i
    if c = .data .null then .ok h
    else do
      let h1 ← h.free c
      freeSplitLoop p fuel (i + 1) h1

/-- source/utils/strings.c:110-115 `free_split`; `n` is more than the number of words. -/
def freeSplitH (p n : Nat) (h : Heap) : Out Heap := do
  let h1 ← freeSplitLoop p n 0 h
  h1.free (.addr p)

/-! ## Handlers, source/callbacks/handlers -/

/-- Result of a handler: status, option, heap. -/
abbrev MRes := Int × HOpt × Heap

/-- array_string_handler.c:21-34 `set_value`, variadic_string_handler.c:21-34 `set_string_value`. -/
def setStringH (A : Allocator) (ho : HOpt) (h : Heap) (s : Str) : Out MRes := do
  let x ← adjustH A ho h
  if x.1.o.valueCapacity = 0 then .ok (Err.memory, x)
  else
    match x.2.malloc A (.text s) with
    | (none, h2) => .ok (Err.memory, x.1, h2)
    | (some a, h2) => do
      let y ← storeH x.1 h2 [.addr a]
      .ok (Err.success, y)

/-- array_int_handler.c:90-94, `n` rounds of the loop of `add_range_values` from `i` on. -/
def addRangeLoopH (A : Allocator) : (n : Nat) → (i : Int) → HOpt → Heap → Out (HOpt × Heap)
  | 0, _, ho, h => .ok (ho, h)
  | n + 1, i, ho, h => do
    let x ← adjustH A ho h
    let y ← storeH x.1 x.2 [.data (.low (BitVec.ofInt 32 i))]
    addRangeLoopH A n (i + 1) y.1 y.2

/-- array_int_handler.c:100-111 `set_value`, with `add_range_values`. -/
def setIntH (A : Allocator) (ho : HOpt) (h : Heap) (s : Str) : Out MRes :=
  match parseIntRange s with
  | none => .ok (Err.invalidFormat, ho, h)
  | some r => do
    let x ← addRangeLoopH A (r.2 - r.1 + 1).toNat r.1 ho h
    if r.2 = intMax then .ub .intOverflow else .ok (Err.success, x)

/-- array_float_handler.c:18-23 `set_value`. -/
def setFloatH (W : World) (A : Allocator) (ho : HOpt) (h : Heap) (s : Str) : Out MRes := do
  let x ← adjustH A ho h
  let y ← storeH x.1 x.2 [.data (.bits (W.strtof s))]
  .ok (Err.success, y)

/-- variadic_int_handler.c:20-35 `set_int_value`, variadic_float_handler.c:19-34 `set_float_value`. -/
def setNumH (A : Allocator) (conv : Str → Option Word) (ho : HOpt) (h : Heap) (s : Str) : Out MRes := do
  let x ← adjustH A ho h
  if x.1.o.valueCapacity = 0 then .ok (Err.memory, x)
  else
    match conv s with
    | none => .ok (Err.invalidValue, x)
    | some w => do
      let y ← storeH x.1 x.2 [.data w]
      .ok (Err.success, y)

/-- source/utils/multi_values.c:489-496 `map_find_key`, over the elements from `i` on. -/
def findKeyH (h : Heap) (key : Str) : (i : Nat) → List Row → Out (Option Nat)
  | _, [] => .ok none
  | i, r :: rs => do
    let w ← r.read h .string 0
    if w.strD = some key then .ok (some i) else findKeyH h key (i + 1) rs

/-- Cell 1 of element `i` is replaced. -/
def setValueAt (l : List Row) (i : Nat) (c : Cell) : List Row := l.modify i fun r => r.set 1 c

/-- The call of `map_find_key`, source/utils/multi_values.c:489-496. -/
def lookupH (ho : HOpt) (h : Heap) (key : Str) : Out (Option Nat) :=
  if ho.o.valueCount = 0 then .ok none else do
    let b ← ho.rows h
    findKeyH h key 0 b.2.1

/-- The new cell of the value at a known key. -/
def newValue (upd' : Word → Cell) : Cell → Cell
  | .data w => upd' w
  | .addr _ => upd' .undef

/-- The old value of a known key is replaced, and released if it is a string, e.g. map_string_handler.c:52-55. -/
def replaceValueH (isStr : Bool) (ho : HOpt) (h : Heap) (i : Nat) (upd' : Word → Cell) : Out (HOpt × Heap) := do
  let b ← ho.block h
  let h1 ← if isStr then h.free ((((b.2[i]?).getD [])[1]?).getD (.data .undef)) else .ok h
  .ok (ho, HOpt.setRows h1 b.1 (setValueAt b.2 i (newValue upd' ((((b.2[i]?).getD [])[1]?).getD (.data .undef)))))

/-- An element is added, e.g. map_string_handler.c:57-63. -/
def addPairH (A : Allocator) (ho : HOpt) (h : Heap) (ka : Nat) (fresh : Cell) : Out (HOpt × Heap) := do
  let x ← adjustH A ho h
  storeH x.1 x.2 [.addr ka, fresh]

/-- The end of `set_kv_pair`, e.g. map_string_handler.c:49-64, with the key at address `ka` and the new value. -/
def putPairH (A : Allocator) (isStr : Bool) (ho : HOpt) (h : Heap) (key : Str) (ka : Nat) (upd' : Word → Cell)
    (fresh : Cell) : Out (HOpt × Heap) := do
  match ← lookupH ho h key with
  | some i => replaceValueH isStr ho h i upd'
  | none => addPairH A ho h ka fresh

/-- map_int_handler.c:25-71, map_float_handler.c:24-70, map_bool_handler.c:62-107 `set_kv_pair`. When the key cannot be
    copied, the message is printed with `%s` of NULL. -/
def setKvNumH (A : Allocator) (conv : Str → Option MapStore) (ho : HOpt) (h : Heap) (pair : Str) : Out MRes :=
  match strchrSplit 61 pair with
  | none => .ok (Err.invalidFormat, ho, h)
  | some (key, value) =>
    match h.malloc A (.text key) with
    | (none, _) => .ub .nullDeref
    | (some ka, h1) =>
      match conv value with
      | none => .ok (Err.invalidValue, ho, h1)
      | some st => do
        let x ← putPairH A false ho h1 key ka (fun w => .data (st.upd w)) (.data st.fresh)
        .ok (Err.success, x)

/-- map_string_handler.c:24-67 `set_kv_pair`. -/
def setKvStringH (A : Allocator) (ho : HOpt) (h : Heap) (pair : Str) : Out MRes :=
  match strchrSplit 61 pair with
  | none => .ok (Err.invalidFormat, ho, h)
  | some (key, value) =>
    match h.malloc A (.text key) with
    | (none, _) => .ub .nullDeref
    | (some ka, h1) =>
      match h1.malloc A (.text value) with
      | (none, _) => .ub .nullDeref
      | (some va, h2) => do
        let x ← putPairH A true ho h2 key ka (fun _ => .addr va) (.addr va)
        .ok (Err.success, x)

/-- The loop over the words, e.g. array_string_handler.c:46-52; `fuel` rounds at most. -/
def setAllH (f : HOpt → Heap → Str → Out MRes) (p : Nat) : (fuel i : Nat) → HOpt → Heap → Out MRes
  | 0, _, _, _ => .ub .outOfBounds
  | fuel + 1, i, ho, h => do
    let c ← wordAt h p i
    if c = .data .null then .ok (Err.success, ho, h)
    else do
      match (← c.word h).strD with
      | none => .ub .nullDeref
      | some s => do
        let r ← f ho h s
        if r.1 ≠ Err.success then .ok r else setAllH f p fuel (i + 1) r.2.1 r.2.2

/-- E.g. array_string_handler.c:40-59: split at commas if there is one and store every part. -/
def storePartsH (A : Allocator) (f : HOpt → Heap → Str → Out MRes) (ho : HOpt) (h : Heap) (value : Str) : Out MRes :=
  if value.contains 44 then do
    match ← splitH A (split value [44]) h with
    | (none, h1) => .ok (Err.memory, ho, h1)
    | (some p, h1) => do
      let r ← setAllH f p ((split value [44]).length + 1) 0 ho h1
      let h2 ← freeSplitH p ((split value [44]).length + 1) r.2.2
      .ok (r.1, r.2.1, h2)
  else f ho h value

/-- The common shape of the handlers, e.g. array_string_handler.c:36-62. -/
def collectH (store : HOpt → Heap → Str → Out MRes) (flags : HOpt → Heap → Out (HOpt × Heap)) (ho : HOpt) (h : Heap)
    (value : Str) : Out MRes := do
  let r ← store ho h value
  if r.1 ≠ Err.success then .ok r
  else do
    let x ← flags r.2.1 r.2.2
    .ok (Err.success, ⟨{ x.1.o with isAllocated := true }, x.1.ptr⟩, x.2)

/-- One occurrence of an array, variadic or map option. Other handlers allocate nothing. -/
def runHandlerH (W : World) (A : Allocator) (hd : Handler) (ho : HOpt) (h : Heap) (value : Str) : Out MRes :=
  match hd with
  | .arrayString => collectH (storePartsH A (setStringH A)) (arrayFlagsH W) ho h value
  | .arrayInt => collectH (storePartsH A (setIntH A)) (arrayFlagsH W) ho h value
  | .arrayFloat => collectH (storePartsH A (setFloatH W A)) (arrayFlagsH W) ho h value
  | .variadicString => collectH (setStringH A) (arrayFlagsH W) ho h value
  | .variadicInt => collectH (setNumH A variadicIntConv) (arrayFlagsH W) ho h value
  | .variadicFloat => collectH (setNumH A (variadicFloatConv W)) (arrayFlagsH W) ho h value
  | .mapString => collectH (storePartsH A (setKvStringH A)) (mapFlagsH W A) ho h value
  | .mapInt => collectH (storePartsH A (setKvNumH A mapIntConv)) (mapFlagsH W A) ho h value
  | .mapFloat => collectH (storePartsH A (setKvNumH A (mapFloatConv W))) (mapFlagsH W A) ho h value
  | .mapBool => collectH (storePartsH A (setKvNumH A mapBoolConv)) (mapFlagsH W A) ho h value
  | _ => .ok (Err.success, ho, h)

/-- Release of the first `n` cells of every element. -/
def freeRows (n : Nat) : List Row → Heap → Out Heap
  | [], h => .ok h
  | r :: rs, h => do
    let h1 ← h.free (r.headD (.data .undef))
    let h2 ← if n = 2 then h1.free ((r[1]?).getD (.data .undef)) else .ok h1
    freeRows n rs h2

/-- The free handlers: array_string_handler.c:65-71, variadic_string_handler.c:49-55, map_string_handler.c:109-119,
    map_int_handler.c:112-121, map_float_handler.c:111-120, map_bool_handler.c:149-158, default_free.c:15-19. -/
def runFreeH (fh : Option FreeHandler) (ho : HOpt) (h : Heap) : Out Heap :=
  match fh with
  | none | some .default => h.free (.ofPtr ho.ptr)
  | some .arrayString | some .variadicString =>
    if ho.o.valueCount = 0 then h.free (.ofPtr ho.ptr)
    else do
      let b ← ho.rows h
      let h1 ← freeRows 1 b.2.1 h
      h1.free (.ofPtr ho.ptr)
  | some .mapInt | some .mapFloat | some .mapBool =>
    match ho.ptr with
    | none => .ok h
    | some a => do
      let b ← ho.rows h
      let h1 ← freeRows 1 b.2.1 h
      h1.free (.addr a)
  | some .mapString =>
    match ho.ptr with
    | none => .ok h
    | some a => do
      let b ← ho.rows h
      let h1 ← freeRows 2 b.2.1 h
      h1.free (.addr a)
  | some (.custom _) => .ok h

/-- source/utils/value_utils.c:17-28 `free_option_value`. -/
def freeOptionH (ho : HOpt) (h : Heap) : Out (HOpt × Heap) :=
  if ho.o.isAllocated = false then .ok (ho, h)
  else do
    let h1 ← runFreeH ho.o.freeHandler ho h
    .ok (⟨{ ho.o with isAllocated := false }, none⟩, h1)

end Argus
