import Verif.Model.Lookup
import Verif.Model.Collections

/-!
# Handlers, source/callbacks/handlers

A handler returns its status, the option it was given with the fields it wrote, and the messages it
printed.
-/

set_option autoImplicit false

namespace Argus

/-- Result of a handler: status, the written option, messages in order. -/
abbrev HRes := Int × Opt × List Event

/-- Conversion of an integer to `int`. -/
def wrap32 (v : Int) : Int := (BitVec.ofInt 32 v).toInt

/-- source/callbacks/handlers/array_int_handler.c:37-49 `search_range_separator` with the
    separators `-` and `:`; `prev` is the byte before the current position. The result is the text
    after the separator. -/
def searchSep (prev : Option Byte) : Str → Option Str
  | [] => none
  | c :: r =>
    if (c == 45 || c == 58) && prev.any isDigit && r.head?.any (fun d => isDigit d || d == 45) then
      some r
    else searchSep (some c) r

/-- source/callbacks/handlers/array_int_handler.c:59-83 `parse_int_range`. `strtol` yields a 64-bit
    `long`, stored to an `int`. -/
def parseIntRange (value : Str) : Option (Int × Int) :=
  match searchSep none value with
  | some r =>
    let s := wrap32 (strtoll value).1
    let e := wrap32 (strtoll r).1
    some (min s e, max s e)
  | none =>
    let p := strtoll value
    if p.2 ≠ [] then none
    else some (wrap32 p.1, wrap32 p.1)

/-- source/callbacks/handlers/array_int_handler.c:90-94, `n` rounds of the loop of
    `add_range_values` from `i` on. -/
def addRangeLoop : (n : Nat) → (i : Int) → Opt → Out Opt
  | 0, _, o => .ok o
  | n + 1, i, o => do
    let o1 ← pushCell o (.low (BitVec.ofInt 32 i))
    addRangeLoop n (i + 1) o1

/-- source/callbacks/handlers/array_int_handler.c:88-95 `add_range_values`. The last `i++` overflows
    when the range ends at `INT_MAX`. -/
def addRange (o : Opt) (r : Int × Int) : Out Opt := do
  let o1 ← addRangeLoop (r.2 - r.1 + 1).toNat r.1 o
  if r.2 = intMax then .ub .intOverflow else .ok o1

/-- source/callbacks/handlers/array_int_handler.c:100-111 `set_value`. -/
def setValueInt (o : Opt) (value : Str) : Out HRes :=
  match parseIntRange value with
  | none => .ok (Err.invalidFormat, o, [.error Err.invalidFormat])
  | some r => do
    let o1 ← addRange o r
    .ok (Err.success, o1, [])

/-- source/callbacks/handlers/array_string_handler.c:21-34 `set_value`, and
    variadic_string_handler.c:21-34 `set_string_value`. -/
def setValueString (o : Opt) (value : Str) : Out HRes := do
  let o1 ← pushCell o (.ptr value)
  .ok (Err.success, o1, [])

/-- source/callbacks/handlers/array_float_handler.c:18-23 `set_value`. -/
def setValueFloat (W : World) (o : Opt) (value : Str) : Out HRes := do
  let o1 ← pushCell o (.bits (W.strtof value))
  .ok (Err.success, o1, [])

/-- The loop over the split values, e.g. array_int_handler.c:129-135: stop at the first failure. -/
def setAll (f : Opt → Str → Out HRes) : Opt → List Str → Out HRes
  | o, [] => .ok (Err.success, o, [])
  | o, v :: vs => do
    let r ← f o v
    if r.1 ≠ Err.success then .ok r
    else do
      let r2 ← setAll f r.2.1 vs
      .ok (r2.1, r2.2.1, r.2.2 ++ r2.2.2)

/-- E.g. array_int_handler.c:124-140: split at commas if there is one and store every part. -/
def storeParts (f : Opt → Str → Out HRes) (o : Opt) (value : Str) : Out HRes :=
  if value.contains 44 then setAll f o (split value [44]) else f o value

/-- The common shape of the array and map handlers, array_string_handler.c:36-63, array_int_handler.c:120-147,
    array_float_handler.c:25-44, map_string_handler.c:75-104, map_int_handler.c:78-107,
    map_float_handler.c:77-106, map_bool_handler.c:115-144: store every part, then apply the flags and set
    `is_allocated`. -/
def collect (f : Opt → Str → Out HRes) (flags : Opt → Out Opt) (o : Opt) (arg : Option Str) :
    Out HRes :=
  match arg with
  | none => .ub .nullDeref
  | some value => do
    let r ← storeParts f o value
    if r.1 ≠ Err.success then .ok r
    else do
      let o2 ← flags r.2.1
      .ok (Err.success, { o2 with isAllocated := true }, r.2.2)

/-- A map value: what to do with the existing cell of a key, and what to put into a fresh cell. -/
structure MapStore where
  upd : Word → Word
  fresh : Word

/-- source/callbacks/handlers/map_string_handler.c:41-62: the value is stored as a string. -/
def mapStringConv (value : Str) : Option MapStore :=
  some ⟨fun _ => .ptr value, .ptr value⟩

/-- source/callbacks/handlers/map_int_handler.c:44-66. -/
def mapIntConv (value : Str) : Option MapStore :=
  let p := strtoll value
  if value = [] ∨ p.2 ≠ [] then none
  else some ⟨fun _ => .ofInt64 p.1, .ofInt64 p.1⟩

/-- source/callbacks/handlers/map_float_handler.c:43-65. -/
def mapFloatConv (W : World) (value : Str) : Option MapStore :=
  let p := W.strtod value
  if value = [] ∨ p.2 ≠ value.length then none
  else some ⟨fun _ => .bits p.1, .bits p.1⟩

/-- source/callbacks/handlers/map_bool_handler.c:81-104. -/
def mapBoolConv (value : Str) : Option MapStore :=
  match stringToBool value with
  | none => none
  | some b => some ⟨Word.setBool b, .lowBool b⟩

/-- `set_kv_pair` of the four map handlers, e.g.
    source/callbacks/handlers/map_int_handler.c:25-71. -/
def setKvPair (conv : Str → Option MapStore) (o : Opt) (pair : Str) : Out HRes :=
  match strchrSplit 61 pair with
  | none => .ok (Err.invalidFormat, o, [.error Err.invalidFormat])
  | some (key, value) =>
    match conv value with
    | none => .ok (Err.invalidValue, o, [.error Err.invalidValue])
    | some st => do
      let o1 ← setPair o key st.upd st.fresh
      .ok (Err.success, o1, [])

/-- The common shape of the variadic handlers,
    source/callbacks/handlers/variadic_string_handler.c:36-47,
    variadic_int_handler.c:37-50, variadic_float_handler.c:36-49: room for a cell is made before the value
    is parsed. `conv` is the parsed cell. -/
def variadicNum (W : World) (conv : Str → Option Word) (o : Opt) (arg : Option Str) : Out HRes := do
  let o1 ← adjustArray o
  match arg with
  | none => .ub .nullDeref
  | some value =>
    match conv value with
    | none => .ok (Err.invalidValue, o1, [.error Err.invalidValue])
    | some w => do
      let o2 ← storeCell o1 w
      let o3 ← applyArrayFlags W o2
      .ok (Err.success, { o3 with isAllocated := true }, [])

/-- source/callbacks/handlers/variadic_int_handler.c:26-32. -/
def variadicIntConv (value : Str) : Option Word :=
  let p := strtoll value
  if p.2 ≠ [] ∨ p.2 = value then none else some (.ofInt64 p.1)

/-- source/callbacks/handlers/variadic_float_handler.c:25-31. -/
def variadicFloatConv (W : World) (value : Str) : Option Word :=
  let p := W.strtod value
  if p.2 ≠ value.length ∨ p.2 = 0 then none else some (.bits p.1)

/-- Store to `option->value.as_bool`: the lowest byte of the value word. -/
def Opt.setBool (o : Opt) (b : Bool) : Opt :=
  match o.value with
  | .word w => { o with value := .word (w.setBool b) }
  | _ => { o with value := .word (.lowBool b) }

/-- source/callbacks/handlers/bool_handler.c:44-61 `bool_handler`. -/
def boolHandler (o : Opt) (arg : Option Str) : Out HRes :=
  match arg with
  | none => .ok (Err.invalidArgument, o, [.error Err.invalidArgument])
  | some s =>
    match stringToBool s with
    | none => .ok (Err.invalidArgument, o, [.error Err.invalidArgument])
    | some b => .ok (Err.success, o.setBool b, [])

/-- A string pointer argument as a cell. -/
def Word.ofArg : Option Str → Word
  | some s => .ptr s
  | none => .null

/-- Call of `option->handler`. -/
def runHandler (W : World) (a : Argus) (h : Handler) (o : Opt) (arg : Option Str) : Out HRes :=
  match h with
  -- flag_handler.c:14-20
  | .flag => .ok (Err.success, o.setBool true, [])
  | .bool => boolHandler o arg
  -- string_handler.c:14-19
  | .string => .ok (Err.success, { o with value := .word (.ofArg arg) }, [])
  -- int_handler.c:16-21
  | .int =>
    match arg with
    | none => .ub .nullDeref
    | some s => .ok (Err.success, { o with value := .word (.ofInt64 (strtoll s).1) }, [])
  -- float_handler.c:17-22
  | .float =>
    match arg with
    | none => .ub .nullDeref
    | some s => .ok (Err.success, { o with value := .word (.bits (W.strtof s)) }, [])
  -- help_handler.c:15-25
  | .help => do
    let t ← a.activeOptions
    .ok (Err.success, o, [.usage t, .help t])
  -- version_handler.c:15-22
  | .version => .ok (Err.success, o, [.version])
  | .arrayString => collect setValueString (applyArrayFlags W) o arg
  | .arrayInt => collect setValueInt (applyArrayFlags W) o arg
  | .arrayFloat => collect (setValueFloat W) (applyArrayFlags W) o arg
  | .mapString => collect (setKvPair mapStringConv) (applyMapFlags W) o arg
  | .mapInt => collect (setKvPair mapIntConv) (applyMapFlags W) o arg
  | .mapFloat => collect (setKvPair (mapFloatConv W)) (applyMapFlags W) o arg
  | .mapBool => collect (setKvPair mapBoolConv) (applyMapFlags W) o arg
  -- variadic_string_handler.c:36-47
  | .variadicString => variadicNum W (fun s => some (.ptr s)) o arg
  | .variadicInt => variadicNum W variadicIntConv o arg
  | .variadicFloat => variadicNum W (variadicFloatConv W) o arg
  -- a user handler
  | .custom id =>
    let r := W.handler id o arg
    .ok (r.status,
      { o with
        value := r.value
        isAllocated := r.isAllocated
        valueCount := r.valueCount
        valueCapacity := r.valueCapacity },
      r.reported.toList.map .error)

/-- `free` of every string of an array, the loops of array_string_handler.c:67-68 and
    variadic_string_handler.c:51-52. -/
def freeStrings (cells : List Word) : Out Unit :=
  if cells.all (fun w => w.asString.isOk) then .ok () else .ub .badFree

/-- Call of `option->free_handler`, or `free(option->value.as_ptr)` without one,
    value_utils.c:22-25; default_free.c:15-19, array_string_handler.c:65-71,
    variadic_string_handler.c:49-55, map_*_handler.c. What is released is tracked in
    `Verif.Model.Heap`; here only whether the accesses are defined. -/
def runFree (h : Option FreeHandler) (o : Opt) : Out Unit :=
  match h with
  | none | some .default =>
    match o.value with
    | .word w => if w.asString.isOk then .ok () else .ub .badFree
    | .arr _ | .map _ => .ok ()
    | .dangling => .ub .badFree
  | some .arrayString | some .variadicString =>
    match o.value with
    | .arr cells =>
      if cells.length < o.valueCount then .ub .uninit
      else freeStrings (cells.take o.valueCount)
    | .word w =>
      if w = .null then if o.valueCount = 0 then .ok () else .ub .nullDeref
      else .ub .badFree
    | .map _ => .ub .badCallback
    | .dangling => .ub .badFree
  | some .mapString | some .mapInt | some .mapFloat | some .mapBool =>
    match o.value with
    | .map cells => if cells.length < o.valueCount then .ub .uninit else .ok ()
    | .word w => if w = .null then .ok () else .ub .badFree
    | .arr _ => .ub .badCallback
    | .dangling => .ub .badFree
  | some (.custom _) => .ok ()

/-- source/utils/value_utils.c:17-28 `free_option_value`. -/
def freeOptionValue (o : Opt) : Out Opt :=
  if o.isAllocated = false then .ok o
  else do
    runFree o.freeHandler o
    .ok { o with isAllocated := false, value := .null }

end Argus
