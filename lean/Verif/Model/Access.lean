import Verif.Model.Parse

/-!
# Value access, source/api/argus_value_access.c, and argus_strerror, source/core/error.c
-/

set_option autoImplicit false

namespace Argus

/-- `*option` of a looked-up option. -/
def Argus.lookup (a : Argus) (path : Str) : Out (Option Opt) := do
  match ← a.findPath path with
  | none => .ok none
  | some p => do
    let o ← a.getOpt p
    .ok (some o)

/-- source/api/argus_value_access.c:16-25 `argus_get`. -/
def argusGet (a : Argus) (path : Str) : Out (Val × Argus) := do
  match ← a.lookup path with
  | none => .ok (.null, { a with errorCode := Err.noValue })
  | some o => .ok (o.value, { a with errorCode := 0 })

/-- source/api/argus_value_access.c:27-33 `argus_is_set`. -/
def argusIsSet (a : Argus) (path : Str) : Out (Bool × Argus) := do
  match ← a.lookup path with
  | none => .ok (false, a)
  | some o => .ok (o.isSet, a)

/-- source/api/argus_value_access.c:35-41 `argus_count`. -/
def argusCount (a : Argus) (path : Str) : Out (Nat × Argus) := do
  match ← a.lookup path with
  | none => .ok (0, a)
  | some o => .ok (o.valueCount, a)

/-- `array[i]` through the value of an option. -/
def readArray (v : Val) (cap i : Nat) : Out Word :=
  match v with
  | .arr cells =>
    match cells[i]? with
    | some w => .ok w
    | none => if i < cap then .ok .undef else .ub .outOfBounds
  | .word w => if w = .null then .ub .nullDeref else .ub .badCallback
  | .map _ => .ub .badCallback
  | .dangling => .ub .badFree

/-- `map[i]` through the value of an option. -/
def readMap (v : Val) (i : Nat) : Out (Str × Word) :=
  match v with
  | .map cells =>
    match cells[i]? with
    | some c => .ok c
    | none => .ub .uninit
  | .word w => if w = .null then .ub .nullDeref else .ub .badCallback
  | .arr _ => .ub .badCallback
  | .dangling => .ub .badFree

/-- source/api/argus_value_access.c:43-67 `argus_array_get`. -/
def argusArrayGet (a : Argus) (path : Str) (index : Nat) : Out (Word × Argus) := do
  match ← a.lookup path with
  | none => .ok (.null, { a with errorCode := Err.noValue })
  | some o =>
    if !(o.valueType.isArray || o.valueType.isVariadic) then
      .ok (.null, { a with errorCode := Err.invalidType })
    else if o.valueCount ≤ index then .ok (.null, { a with errorCode := Err.invalidIndex })
    else do
      let w ← readArray o.value o.valueCapacity index
      .ok (w, { a with errorCode := 0 })

/-- source/api/argus_value_access.c:86-90, `n` rounds of the search loop of `argus_map_get` from
    entry `i` on. -/
def mapSearch (v : Val) (key : Str) : (n i : Nat) → Out (Option Word)
  | 0, _ => .ok none
  | n + 1, i => do
    let c ← readMap v i
    if strcmp c.1 key = 0 then .ok (some c.2) else mapSearch v key n (i + 1)

/-- source/api/argus_value_access.c:69-95 `argus_map_get`. -/
def argusMapGet (a : Argus) (path key : Str) : Out (Word × Argus) := do
  match ← a.lookup path with
  | none => .ok (.null, { a with errorCode := Err.noValue })
  | some o =>
    if !o.valueType.isMap then .ok (.null, { a with errorCode := Err.invalidType })
    else do
      match ← mapSearch o.value key o.valueCount 0 with
      | some w => .ok (w, { a with errorCode := 0 })
      | none => .ok (.null, { a with errorCode := Err.invalidKey })

/-- includes/argus/types.h:154-160 `argus_array_it_t`. The block behind `_array` is not changed while
    the iterator is in use, so the iterator holds its contents. -/
structure ArrayIt where
  array : Val := .null
  cap : Nat := 0
  count : Nat := 0
  position : Nat := 0
  value : Word := .null
  deriving DecidableEq

/-- source/api/argus_value_access.c:97-109 `argus_array_it`. -/
def argusArrayIt (a : Argus) (path : Str) : Out (ArrayIt × Argus) := do
  match ← a.lookup path with
  | none => .ok ({}, a)
  | some o =>
    if !(o.valueType.isArray || o.valueType.isVariadic) then .ok ({}, a)
    else .ok ({ array := o.value, cap := o.valueCapacity, count := o.valueCount }, a)

/-- source/api/argus_value_access.c:111-118 `argus_array_next`. -/
def argusArrayNext (it : ArrayIt) : Out (Bool × ArrayIt) :=
  if it.count ≤ it.position then .ok (false, it)
  else do
    let w ← readArray it.array it.cap it.position
    .ok (true, { it with value := w, position := it.position + 1 })

/-- source/api/argus_value_access.c:120-124 `argus_array_reset`. -/
def argusArrayReset (it : ArrayIt) : ArrayIt := { it with position := 0 }

/-- includes/argus/types.h:165-172 `argus_map_it_t`. -/
structure MapIt where
  map : Val := .null
  count : Nat := 0
  position : Nat := 0
  key : Option Str := none
  value : Word := .null
  deriving DecidableEq

/-- source/api/argus_value_access.c:126-138 `argus_map_it`. -/
def argusMapIt (a : Argus) (path : Str) : Out (MapIt × Argus) := do
  match ← a.lookup path with
  | none => .ok ({}, a)
  | some o =>
    if !o.valueType.isMap then .ok ({}, a)
    else .ok ({ map := o.value, count := o.valueCount }, a)

/-- source/api/argus_value_access.c:140-151 `argus_map_next`. -/
def argusMapNext (it : MapIt) : Out (Bool × MapIt) :=
  if it.count ≤ it.position then .ok (false, it)
  else do
    let c ← readMap it.map it.position
    .ok (true, { it with key := some c.1, value := c.2, position := it.position + 1 })

/-- source/api/argus_value_access.c:153-157 `argus_map_reset`. -/
def argusMapReset (it : MapIt) : MapIt := { it with position := 0 }

/-- source/core/error.c:12-62 `argus_strerror`. -/
def strerror (code : Int) : Str :=
  match code with
  | 0 => c!"Success"
  | 1 => c!"Should exit"
  | 3 => c!"Duplicate option"
  | 4 => c!"Invalid handler"
  | 5 => c!"Invalid default value"
  | 6 => c!"Invalid group"
  | 7 => c!"Invalid dependency"
  | 8 => c!"Invalid flag"
  | 9 => c!"Invalid position"
  | 12 => c!"Invalid argument"
  | 13 => c!"Missing value"
  | 14 => c!"Missing required option"
  | 15 => c!"Conflicting options"
  | 16 => c!"Invalid format"
  | 17 => c!"Exclusive group"
  | 18 => c!"Invalid choice"
  | 19 => c!"Invalid range"
  | 21 => c!"No command"
  | 29 => c!"Invalid value"
  | 10 => c!"Malformed option"
  | 11 => c!"Missing help option"
  | 30 => c!"Error stack overflow"
  | _ => c!"Unknown error"

end Argus
