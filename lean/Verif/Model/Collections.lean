import Verif.Model.Types

/-!
# Arrays and maps of values, source/utils/multi_values.c

Allocation succeeds here; failing allocation is the subject of `Verif.Model.Heap`.
The comparison functions are total functions on cells; every use is guarded by a check that all
cells hold a value of the compared kind, and reading any other cell is undefined behaviour.
-/

set_option autoImplicit false

namespace Argus

/-- `as_int` of a readable cell. -/
def Word.intD (w : Word) : Int := match w.asInt with | .ok i => i | .ub _ => 0
/-- `as_float` of a readable cell. -/
def Word.floatD (w : Word) : F64 := match w.asFloat with | .ok x => x | .ub _ => 0
/-- `as_bool` of a readable cell. -/
def Word.boolD (w : Word) : Bool := match w.asBool with | .ok b => b | .ub _ => false
/-- `as_string` of a readable cell; `none` is NULL. -/
def Word.strD (w : Word) : Option Str := match w.asString with | .ok s => s | .ub _ => none

/-- source/utils/multi_values.c:20-30 `compare_int_values` (also 70-80). -/
def cmpInt (a b : Word) : Int :=
  if a.intD < b.intD then -1 else if b.intD < a.intD then 1 else 0

/-- source/utils/multi_values.c:32-43 `compare_string_values` (also 82-93). -/
def cmpString (a b : Word) : Int :=
  match a.strD with
  | none => -1
  | some s =>
    match b.strD with
    | none => 1
    | some t => strcmp s t

/-- source/utils/multi_values.c:45-55 `compare_float_values` (also 95-105). -/
def cmpFloat (a b : Word) : Int :=
  if F64.lt a.floatD b.floatD then -1 else if F64.lt b.floatD a.floatD then 1 else 0

/-- source/utils/multi_values.c:107-113 `compare_map_bool_values`. -/
def cmpBool (a b : Word) : Int := (if a.boolD then 1 else 0) - (if b.boolD then 1 else 0)

/-- source/utils/multi_values.c:57-68 `compare_map_keys`; keys in a map are never NULL. -/
def cmpKey (a b : Str × Word) : Int := strcmp a.1 b.1

/-- Kind of the values in a collection. -/
inductive CellKind where
  | int | string | float | bool
  deriving DecidableEq, Repr

/-- A cell can be read as a value of the given kind. -/
def CellKind.readable : CellKind → Word → Bool
  | int, w => w.asInt.isOk
  | string, w => w.asString.isOk
  | float, w => w.asFloat.isOk
  | bool, w => w.asBool.isOk

/-- The comparison function used for a kind of values. -/
def CellKind.cmp : CellKind → Word → Word → Int
  | int => cmpInt
  | string => cmpString
  | float => cmpFloat
  | bool => cmpBool

/-- The duplicate test of source/utils/multi_values.c:155, 179-180, 207 (arrays) and 287-314
    (maps). -/
def CellKind.dup : CellKind → Word → Word → Bool
  | int, a, b => a.intD == b.intD
  | string, a, b =>
    match a.strD, b.strD with
    | some s, some t => s == t
    | _, _ => false
  | float, a, b => F64.near a.floatD b.floatD
  | bool, a, b => a.boolD == b.boolD

/-- source/utils/multi_values.c:119-138 `sort_*_array`. -/
def sortCells (W : World) (k : CellKind) (cells : List Word) : List Word :=
  if cells.length ≤ 1 then cells else W.qsort k.cmp cells

/-- source/utils/multi_values.c:151-163, the loop of `make_*_array_unique`; `kept` are the
    cells `[0, unique_count)`. Cells behind the new count are forgotten: they are never read. -/
def uniqueLoop {α : Type} (dup : α → α → Bool) : (kept : List α) → List α → List α
  | kept, [] => kept
  | kept, c :: cs =>
    if kept.any (fun k => dup c k) then uniqueLoop dup kept cs
    else uniqueLoop dup (kept ++ [c]) cs

/-- source/utils/multi_values.c:144-219 `make_*_array_unique`. -/
def uniqueCells (k : CellKind) (cells : List Word) : List Word :=
  match cells with
  | [] => []
  | c :: cs => uniqueLoop k.dup [c] cs

/-- source/utils/multi_values.c:225-258 `sort_map_by_keys`, `sort_map_by_*_values`. -/
def sortPairs (W : World) (cmp : Str × Word → Str × Word → Int) (cells : List (Str × Word)) :
    List (Str × Word) :=
  if cells.length ≤ 1 then cells else W.qsort cmp cells

/-- source/utils/multi_values.c:264-340 `make_map_values_unique`. The C code first marks, for each
    unmarked entry, the later entries equal to it, then compacts the unmarked ones; an entry ends up
    marked iff an earlier unmarked one equals it, which is what one pass with the list of kept
    entries computes. -/
def uniquePairs (k : CellKind) (cells : List (Str × Word)) : List (Str × Word) :=
  uniqueLoop (fun new old => k.dup old.2 new.2) [] cells

/-- source/utils/multi_values.c:353-371 and 378-396: the kind of an array's cells. -/
def ValueType.arrayKind : ValueType → Option CellKind
  | .arrayInt | .variadicInt => some .int
  | .arrayString | .variadicString => some .string
  | .arrayFloat | .variadicFloat => some .float
  | _ => Option.none

/-- source/utils/multi_values.c:287-314 and 424-443: the kind of a map's values. -/
def ValueType.mapKind : ValueType → Option CellKind
  | .mapInt => some .int
  | .mapString => some .string
  | .mapFloat => some .float
  | .mapBool => some .bool
  | _ => Option.none

/-- The types `make_map_values_unique` also knows, source/utils/multi_values.c:287-314. -/
def ValueType.uniqueKind : ValueType → Option CellKind
  | .int | .mapInt => some .int
  | .string | .mapString => some .string
  | .float | .mapFloat => some .float
  | .bool | .mapBool => some .bool
  | _ => Option.none

/-- The first `count` cells of the array an option points to, all readable as `k`. -/
def Opt.arrayCells (o : Opt) (k : CellKind) : Out (List Word) :=
  match o.value with
  | .arr cells =>
    if cells.length < o.valueCount then .ub .uninit
    else if (cells.take o.valueCount).all k.readable then .ok (cells.take o.valueCount)
    else .ub .uninit
  | .word w => if w = .null then .ub .nullDeref else .ub .badCallback
  | .map _ => .ub .badCallback
  | .dangling => .ub .badFree

/-- source/utils/multi_values.c:352-375: sorting of an array of cells of kind `k`. -/
def applySorted (W : World) (k : CellKind) (o : Opt) : Out Opt :=
  if o.flags.has .sorted then do
    let cells ← o.arrayCells k
    .ok { o with value := .arr (sortCells W k cells) }
  else .ok o

/-- source/utils/multi_values.c:377-399: removal of duplicates. -/
def applyUnique (k : CellKind) (o : Opt) : Out Opt :=
  if o.flags.has .unique then do
    let cells ← o.arrayCells k
    .ok { o with value := .arr (uniqueCells k cells), valueCount := (uniqueCells k cells).length }
  else .ok o

/-- source/utils/multi_values.c:346-400 `apply_array_flags`. -/
def applyArrayFlags (W : World) (o : Opt) : Out Opt :=
  if o.valueCount ≤ 1 then .ok o
  else
    match o.valueType.arrayKind with
    | none => .ok o
    | some k => do
      let o1 ← applySorted W k o
      applyUnique k o1

/-- The first `count` entries of the map an option points to. -/
def Opt.mapCells (o : Opt) : Out (List (Str × Word)) :=
  match o.value with
  | .map cells =>
    if cells.length < o.valueCount then .ub .uninit
    else .ok (cells.take o.valueCount)
  | .word w => if w = .null then .ub .nullDeref else .ub .badCallback
  | .arr _ => .ub .badCallback
  | .dangling => .ub .badFree

/-- source/utils/multi_values.c:414-417: `make_map_values_unique` when asked for. -/
def applyUniqueValue (o : Opt) : Out Opt :=
  if o.flags.has .uniqueValue then do
    let cells ← o.mapCells
    match o.valueType.uniqueKind with
    | none => .ok { o with value := .map cells }
    | some k =>
      if cells.all (fun c => k.readable c.2) then
        .ok { o with value := .map (uniquePairs k cells), valueCount := (uniquePairs k cells).length }
      else .ub .uninit
  else .ok o

/-- source/utils/multi_values.c:419-444: sorting by key, else by value. -/
def applyMapSort (W : World) (o : Opt) : Out Opt :=
  if o.flags.has .sortedKey then do
    let cells ← o.mapCells
    .ok { o with value := .map (sortPairs W cmpKey cells) }
  else if o.flags.has .sortedValue then
    match o.valueType.mapKind with
    | none => .ok o
    | some k => do
      let cells ← o.mapCells
      if cells.all (fun c => k.readable c.2) then
        .ok { o with value := .map (sortPairs W (fun a b => k.cmp a.2 b.2) cells) }
      else .ub .uninit
  else .ok o

/-- source/utils/multi_values.c:406-445 `apply_map_flags`. -/
def applyMapFlags (W : World) (o : Opt) : Out Opt :=
  if o.valueCount ≤ 1 then .ok o
  else do
    let o1 ← applyUniqueValue o
    applyMapSort W o1

/-- includes/argus/types.h:290. -/
def initialCapacity : Nat := 8

/-- source/utils/multi_values.c:447-466 `adjust_array_size`. A pointer that no handler of this
    library obtained from `malloc` (a `DEFAULT` value) may not be passed to `realloc` nor written
    through. -/
def adjustArray (o : Opt) : Out Opt :=
  match o.value with
  | .word w =>
    if w = .null then .ok { o with value := .arr [], valueCapacity := initialCapacity }
    else .ub .badFree
  | .arr cells =>
    if o.valueCount ≥ o.valueCapacity then
      .ok { o with value := .arr cells, valueCapacity := o.valueCapacity * 2 }
    else .ok o
  | .map _ => .ub .badCallback
  | .dangling => .ub .badFree

/-- source/utils/multi_values.c:468-487 `adjust_map_size`. -/
def adjustMap (o : Opt) : Out Opt :=
  match o.value with
  | .word w =>
    if w = .null then .ok { o with value := .map [], valueCapacity := initialCapacity }
    else .ub .badFree
  | .map cells =>
    if o.valueCount ≥ o.valueCapacity then
      .ok { o with value := .map cells, valueCapacity := o.valueCapacity * 2 }
    else .ok o
  | .arr _ => .ub .badCallback
  | .dangling => .ub .badFree

/-- `array[i] = w` in a block of `cap` cells of which `cells` have been written. -/
def writeCell (cap : Nat) (cells : List Word) (i : Nat) (w : Word) : Out (List Word) :=
  if cap ≤ i then .ub .outOfBounds
  else if i < cells.length then .ok (cells.set i w)
  else .ok (cells ++ List.replicate (i - cells.length) .undef ++ [w])

/-- `option->value.as_array[option->value_count] = w; option->value_count++`. -/
def storeCell (o : Opt) (w : Word) : Out Opt :=
  match o.value with
  | .arr cells => do
    let cells' ← writeCell o.valueCapacity cells o.valueCount w
    pure { o with value := .arr cells', valueCount := o.valueCount + 1 }
  | _ => .ub .badFree

/-- `adjust_array_size(option)` and then `storeCell`. -/
def pushCell (o : Opt) (w : Word) : Out Opt := do
  let o1 ← adjustArray o
  storeCell o1 w

/-- source/utils/multi_values.c:489-496 `map_find_key`. -/
def mapFindKey (o : Opt) (key : Str) : Out (Option Nat) :=
  if o.valueCount = 0 then .ok none
  else do
    let cells ← o.mapCells
    pure (cells.findIdx? (fun c => c.1 == key))

/-- The tail of every `set_kv_pair`: update the entry of an existing key with `upd`, or append a new
    entry holding `fresh`; e.g. source/callbacks/handlers/map_int_handler.c:55-70. -/
def setPair (o : Opt) (key : Str) (upd : Word → Word) (fresh : Word) : Out Opt := do
  match ← mapFindKey o key with
  | some i =>
    match o.value with
    | .map cells => pure { o with value := .map (cells.modify i (fun c => (c.1, upd c.2))) }
    | _ => .ub .badCallback
  | none => do
    let o1 ← adjustMap o
    match o1.value with
    | .map cells =>
      if o1.valueCapacity ≤ o1.valueCount then .ub .outOfBounds
      else if cells.length < o1.valueCount then .ub .uninit
      else
        pure { o1 with
          value := .map (cells.take o1.valueCount ++ [(key, fresh)])
          valueCount := o1.valueCount + 1 }
    | _ => .ub .badFree

end Argus
