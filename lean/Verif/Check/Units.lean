import Verif.Check.Setup
import Verif.Model.Structure
import Verif.Model.Values
import Verif.Model.Heap

/-!
# The tests of single functions

/repo/tests/integration/test_parsing.c, test_validation.c and /repo/tests/unit. Calls with a NULL name, which the model's
functions cannot be given, are left out, and so is what only asks for the absence of a crash in a printing function.
-/

set_option autoImplicit false

namespace Argus.Tests

/-! ## tests/integration/test_parsing.c -/

def parsing : Argus := init
  [[ helpOption, (optFlag 118 (some c!"verbose")).helped, (optString 111 (some c!"output")).helped,
     (optInt 99 (some c!"count")).helped, (posString c!"input").helped ]]

def cmdOptions : List Opt :=
  [ helpOption, (optFlag 118 (some c!"verbose")).helped, (subcommand c!"sub" 1).helped ]

def cmdParsing : Argus := init [cmdOptions, [ helpOption, (optFlag 100 (some c!"debug")).helped ]]

def ambiguous : List Opt :=
  [ helpOption, (subcommand c!"start" 1).helped, (subcommand c!"status" 1).helped, (subcommand c!"stop" 1).helped ]

def removes : List Opt := [ helpOption, (subcommand c!"remove" 1).helped, (subcommand c!"remove-all" 1).helped ]

/-- A call succeeds, nothing is reported, and the state is as expected. -/
def works (x : Out (Int × Argus)) (ws : List Want) : Bool :=
  match x with
  | .ok (st, a) => st == Err.success && a.errorCode == 0 && ws.all (Want.holds a)
  | .ub _ => false

/-- A call fails with an error. -/
def fails (x : Out (Int × Argus)) : Bool :=
  match x with
  | .ok (st, _) => st != Err.success
  | .ub _ => false

/-- Status, state, and whether the next argument was used. -/
def worksWith (x : Out OptRes) (used : Bool) (ws : List Want) : Bool :=
  match x with
  | .ok r => r.status == Err.success && r.used == used && r.argus.errorCode == 0 && ws.all (Want.holds r.argus)
  | .ub _ => false

-- handle_long_option, handle_short_option, handle_positional
example : worksWith (handleLong world parsing (some 0) c!"output=test.txt" []) false
    [.set c!"output" true, .get c!"output" (.str c!"test.txt")] = true := by decide +kernel
example : worksWith (handleShort world (some 0) [c!"test.txt"] parsing c!"o") true
    [.set c!"output" true, .get c!"output" (.str c!"test.txt")] = true := by decide +kernel
example : works (handlePositional world parsing (some 0) c!"input.txt" 0)
    [.set c!"input" true, .get c!"input" (.str c!"input.txt")] = true := by decide +kernel
example : fails (handlePositional world parsing (some 0) c!"extra.txt" 1) = true := by decide +kernel
-- find_subcommand, find_subcommand_ambiguous, find_subcommand_remove_ambiguity
example : findSub cmdOptions c!"sub" = (Err.success, some 2) ∧ findSub cmdOptions c!"nonexistent" = (Err.success, none) := by
  decide +kernel
example : findSub ambiguous c!"start" = (Err.success, some 1) ∧
    (findSub ambiguous c!"sta").1 = Err.ambiguousSubcommand ∧ findSub ambiguous c!"sto" = (Err.success, some 3) := by
  decide +kernel
example : findSub removes c!"remove" = (Err.success, some 1) ∧
    (findSub removes c!"rem").1 = Err.ambiguousSubcommand := by decide +kernel
example : findSub removes c!"remove-all" = (Err.success, some 2) := by decide +kernel
-- handle_subcommand
example : (match (do
    let e ← enterSub cmdParsing ⟨0, 2⟩
    parseArgs world e.2 e.1 [c!"-d"] : Out (Int × Argus)) with
    | .ok (st, a) => st == 0 && a.errorCode == 0 && a.stack == [⟨0, 2⟩] && (Want.set c!"sub.debug" true).holds a
    | .ub _ => false) = true := by decide +kernel
-- parse_args_basic, parse_args_long_options, parse_args_end_options
example : works (parseArgs world parsing (some 0) [c!"-v", c!"-o", c!"output.txt", c!"input.txt"])
    [.set c!"verbose" true, .get c!"verbose" (.bool true), .set c!"output" true, .get c!"output" (.str c!"output.txt"),
     .set c!"input" true, .get c!"input" (.str c!"input.txt")] = true := by decide +kernel
example : works (parseArgs world parsing (some 0) [c!"--verbose", c!"--output=output.txt", c!"input.txt"])
    [.set c!"verbose" true, .set c!"output" true, .get c!"output" (.str c!"output.txt"), .set c!"input" true] = true := by
  decide +kernel
example : works (parseArgs world parsing (some 0) [c!"-v", c!"--", c!"-o"])
    [.set c!"verbose" true, .set c!"output" false, .set c!"input" true, .get c!"input" (.str c!"-o")] = true := by
  decide +kernel

/-! ## tests/integration/test_validation.c, tests/unit/test_core/test_debug_mode.c -/

def validTable : List Opt :=
  [ helpOption, (optFlag 118 (some c!"verbose")).helped, (optString 111 (some c!"output")).helped,
    (posString c!"input").helped ]

/-- A plain option, as the tests write it. -/
def plain (type : OptType) : Opt :=
  { type, name := some c!"test", help := some c!"help", valueType := .string, handler := some .string }

def structureOf (os : List Opt) : Out (Option Int) := validateStructure world [os, validTable] 5 0 (some 0)

-- validate_valid_option, validate_invalid_option, validate_option_without_help
example : gives (validateOption world validTable { plain .option with sname := 116, lname := some c!"test" }) 0 = true := by
  decide +kernel
example : gives (validateOption world validTable (plain .option)) 0 = false := by decide +kernel
example : gives (validateOption world validTable { plain .option with sname := 116, lname := some c!"test", help := none }) 0
    = false := by decide +kernel
-- validate_valid_positional, validate_invalid_positional, and without help
example : gives (validatePositional world { plain .positional with flags := Flags.ofList [.required] }) 0 = true := by
  decide +kernel
example : gives (validatePositional world { plain .positional with flags := Flags.ofList [.required], name := none }) 0 =
    false := by decide +kernel
example : gives (validatePositional world { plain .positional with flags := Flags.ofList [.required], help := none }) 0 =
    false := by decide +kernel
-- validate_valid_group
example : validateGroup { type := .group, name := some c!"test_group", help := some c!"help" } = 0 := by decide +kernel
-- validate_valid_subcommand, validate_invalid_subcommand, and without help
example : validateSubcommand (subcommand c!"test_cmd" 0).helped = 0 ∧
    validateSubcommand { (subcommand c!"test_cmd" 0).helped with subOptions := none } ≠ 0 ∧
    validateSubcommand (subcommand c!"test_cmd" 0) ≠ 0 := by decide +kernel
-- validate_valid_structure, validate_invalid_structure, validate_duplicate_options, validate_mixed_subcommand_positional
example : gives (structureOf validTable) (some 0) = true := by decide +kernel
example : gives (structureOf [(optFlag 118 (some c!"verbose")).helped, (optString 111 (some c!"output")).helped]) (some 0) =
    false := by decide +kernel
example : gives (structureOf [helpOption, (optFlag 118 (some c!"verbose")).helped, (optString 118 (some c!"verbose")).helped])
    (some 0) = false := by decide +kernel
example : gives (structureOf [helpOption, (subcommand c!"cmd" 1).helped, (posString c!"input").helped]) (some 0) = false := by
  decide +kernel
-- validate_valid_variadic_structure, validate_multiple_variadic, validate_variadic_not_last,
-- validate_optional_mixed_variadic, validate_valid_variadic_positional
example : gives (structureOf [helpOption, (posString c!"cmd").helped, (posManyString c!"files").helped]) (some 0) = true := by
  decide +kernel
example : gives (structureOf [helpOption, (posManyString c!"files1").helped, (posManyString c!"files2").helped]) (some 0) =
    false := by decide +kernel
example : gives (structureOf [helpOption, (posManyString c!"files").helped, (posString c!"output").helped]) (some 0) = false := by
  decide +kernel
example : gives (structureOf [helpOption, (posString c!"input").helped.optional, (posManyString c!"files").helped]) (some 0) =
    false := by decide +kernel
example : gives (validatePositional world (posManyString c!"files").helped) 0 = true := by decide +kernel
-- perform_validation: the process exits with a failure
example : gives (argusInitValidate world 5
    [[(optFlag 118 (some c!"verbose")).helped, (optString 111 (some c!"output")).helped, posString c!"input"]]
    c!"test_program" (some c!"1.0.0")) (some none) = true := by decide +kernel
-- skip_validation
example : (init [[(optFlag 118 (some c!"verbose")).helped, (optString 111 (some c!"output")).helped, posString c!"input"]]).errorCode
    = 0 := by decide +kernel

/-! ## tests/unit/test_smart_hint.c -/

/-- No float is printed. -/
def noFmt : Fmt := ⟨fun _ => [], fun _ => [], fun _ => none⟩

def hinted (vs : Option (List Validator)) (hint : Option Str) : Opt :=
  { type := .option, name := some c!"test", sname := 116, lname := some c!"test", valueType := .string, validators := vs,
    hint, help := some c!"Test option" }

-- hint_override_priority, short_validator_in_hint
example : smartHint noFmt {} (hinted (some [vRange 1 100]) (some c!"CUSTOM_HINT")) = c!"CUSTOM_HINT" := by decide +kernel
example : smartHint noFmt {} (hinted (some [vRange 1 100]) none) = c!"1-100" := by decide +kernel
-- long_validator_fallback
example : smartHint noFmt ⟨0, 0, 0, 0, false⟩ (hinted (some [vChoiceStr [c!"very-long-option-name",
    c!"another-very-long-option", c!"third-extremely-long-choice"]]) none) = c!"STR" := by decide +kernel
-- no_validators_fallback, multiple_validators_fallback
example : smartHint noFmt ⟨0, 0, 0, 0, false⟩ (hinted none none) = c!"STR" := by decide +kernel
example : smartHint noFmt ⟨0, 0, 0, 0, false⟩
    (hinted (some [vLength 8 64, vRegex (some c!"^[a-zA-Z0-9]+$") (some c!"alphanumeric")]) none) = c!"STR" := by decide +kernel
-- short_hint_detection
example : isShortHint {} c!"1-100" = true ∧ isShortHint {} c!"debug|info|warn" = true ∧ isShortHint {} c!"8-64" = true ∧
    isShortHint {} c!"very long hint with spaces" = false ∧
    isShortHint {} c!"very-very-very-long-hint-without-spaces-but-too-long" = false ∧
    isShortHint {} c!"hint with spaces" = false := by decide +kernel
-- single_validator_detection
example : (validatorHint noFmt {} (hinted (some [vRange 1 100]) none)).isSome = true ∧
    validatorHint noFmt {} (hinted (some [vRange 1 100, vLength 8 64]) none) = none ∧
    validatorHint noFmt {} (hinted none none) = none := by decide +kernel

/-! ## tests/unit/test_callbacks/test_handlers.c -/

/-- test_handlers.c:13-24 `setup_handler`. -/
def handled (vt : ValueType) : Opt :=
  { type := .option, name := some c!"test_option", sname := 116, lname := some c!"test", valueType := vt }

/-- Several calls of a handler: the statuses and the option afterwards. -/
def calls (h : Handler) : Opt → List (Option Str) → Out (List Int × Opt)
  | o, [] => .ok ([], o)
  | o, x :: xs => do
    let r ← runHandler world (init []) h o x
    let t ← calls h r.2.1 xs
    .ok (r.1 :: t.1, t.2)

/-- Statuses, and what the option's cell or its cells look like. -/
def after (x : Out (List Int × Opt)) (sts : List Int) (vs : List View) : Bool :=
  match x with
  | .ok (l, o) => l == sts && (match o.value with
    | .word w => allSeen [w] vs
    | .arr cells => o.valueCount == vs.length && allSeen (cells.take o.valueCount) vs
    | _ => false)
  | .ub _ => false

-- flag_handler
example : after (calls .flag (handled .flag) [none, none]) [0, 0] [.bool true] = true := by decide +kernel
-- bool_handler
example : ∀ s ∈ [c!"true", c!"1", c!"yes", c!"on"],
    after (calls .bool (handled .bool) [some s]) [0] [.bool true] = true := by decide +kernel
example : ∀ s ∈ [c!"false", c!"0", c!"no", c!"off"],
    after (calls .bool (handled .bool) [some c!"on", some s]) [0, 0] [.bool false] = true := by decide +kernel
example : after (calls .bool (handled .bool) [some c!"off", some c!"invalid"]) [0, Err.invalidArgument] [.bool false] = true := by
  decide +kernel
example : after (calls .bool (handled .bool) [some c!"off", none]) [0, Err.invalidArgument] [.bool false] = true := by
  decide +kernel
-- string_handler, int_handler, float_handler
example : after (calls .string (handled .string) [some c!"test_string"]) [0] [.str c!"test_string"] = true := by decide +kernel
example : after (calls .int (handled .int) [some c!"42"]) [0] [.int 42] = true := by decide +kernel
example : after (calls .int (handled .int) [some c!"42", some c!"-100"]) [0, 0] [.int (-100)] = true := by decide +kernel
example : after (calls .float (handled .float) [some c!"3.14159"]) [0] [.float (single c!"3.14159")] = true := by decide +kernel
example : after (calls .float (handled .float) [some c!"-2.718"]) [0] [.float (single c!"-2.718")] = true := by decide +kernel
-- array_string_handler
example : after (calls .arrayString (handled .arrayString) [some c!"one,two,three"]) [0]
    [.str c!"one", .str c!"two", .str c!"three"] = true := by decide +kernel
-- variadic_string_handler, variadic_int_handler, variadic_float_handler
example : after (calls .variadicString (handled .variadicString) [some c!"file1.txt", some c!"file2.txt", some c!"file3.txt"])
    [0, 0, 0] [.str c!"file1.txt", .str c!"file2.txt", .str c!"file3.txt"] = true := by decide +kernel
example : after (calls .variadicInt (handled .variadicInt) [some c!"10", some c!"20", some c!"-30", some c!"not_a_number"])
    [0, 0, 0, Err.invalidValue] [.int 10, .int 20, .int (-30)] = true := by decide +kernel
example : after (calls .variadicFloat (handled .variadicFloat) [some c!"3.14", some c!"2.71", some c!"-1.41", some c!"not_a_float"])
    [0, 0, 0, Err.invalidValue] [.float (double c!"3.14"), .float (double c!"2.71"), .float (double c!"-1.41")] = true := by
  decide +kernel
-- free_variadic_string_handler
example : (runFree (some .variadicString) { handled .variadicString with
    value := .arr [.ptr c!"test1.txt", .ptr c!"test2.txt"], valueCount := 2 }).isOk = true := by decide +kernel

/-! ## tests/unit/test_callbacks/test_validators.c -/

/-- An option with this cell. -/
def valued (w : Word) : Opt := { type := .option, value := .word w }

/-- A validator passes without a message, or fails with one. -/
def passes (x : Out VRes) : Bool := gives x (0, none)

def rejects (x : Out VRes) : Bool :=
  match x with
  | .ok (st, m) => st != 0 && m.isSome
  | .ub _ => false

def inRange (mn mx n : Int) : Out VRes := rangeValidator (valued (.ofInt64 n)) mn mx

def ofLength (mn mx : Int) (s : Option Str) : Out VRes := lengthValidator (valued (Word.ofArg s)) mn mx

def counted (mn mx : Int) (n : Nat) : Out VRes := .ok (countValidator { type := .option, valueCount := n } mn mx)

-- range_validator_valid, _invalid, _equal_bounds, _negative_values
example : ∀ n ∈ [1, 50, 100], passes (inRange 1 100 n) = true := by decide +kernel
example : ∀ n ∈ [0, 101], rejects (inRange 1 100 n) = true := by decide +kernel
example : passes (inRange 42 42 42) = true ∧ rejects (inRange 42 42 41) = true ∧ rejects (inRange 42 42 43) = true := by
  decide +kernel
example : ∀ n ∈ [-100, -50, -1], passes (inRange (-100) (-1) n) = true := by decide +kernel
example : ∀ n ∈ [-101, 0], rejects (inRange (-100) (-1) n) = true := by decide +kernel
-- regex_validator_basic, _email, _null_cases
example : ∀ s ∈ [c!"123", c!"0"], passes (.ok (regexValidator world (some s) (some digits))) = true := by decide +kernel
example : ∀ s ∈ [c!"abc", c!"123abc", []], rejects (.ok (regexValidator world (some s) (some digits))) = true := by
  decide +kernel
example : ∀ s ∈ [c!"test@example.com", c!"user.name+tag@example.co.uk"],
    passes (.ok (regexValidator world (some s) (some email))) = true := by decide +kernel
example : ∀ s ∈ [c!"test", c!"test@", c!"test@example"],
    rejects (.ok (regexValidator world (some s) (some email))) = true := by decide +kernel
example : rejects (.ok (regexValidator world (some c!"test") none)) = true ∧
    rejects (.ok (regexValidator world none (some c!"^\\w+$"))) = true := by decide +kernel
-- length_validator_valid, _invalid, _edge_cases
example : ∀ s ∈ [c!"abc", c!"abcdef", c!"abcdefghij"], passes (ofLength 3 10 (some s)) = true := by decide +kernel
example : ∀ s ∈ [c!"ab", c!"abcdefghijk"], rejects (ofLength 3 10 (some s)) = true := by decide +kernel
example : passes (ofLength 0 10 (some [])) = true ∧ rejects (ofLength 0 10 none) = true ∧
    passes (ofLength 5 5 (some c!"12345")) = true := by decide +kernel
-- count_validator_valid, _invalid, _zero_allowed
example : ∀ n ∈ [1, 3, 5], passes (counted 1 5 n) = true := by decide +kernel
example : ∀ n ∈ [0, 6], rejects (counted 1 5 n) = true := by decide +kernel
example : passes (counted 0 3 0) = true ∧ passes (counted 2 2 2) = true ∧ rejects (counted 2 2 1) = true := by decide +kernel

/-! ## tests/unit/test_utils/test_multi_values.c -/

/-- The capacity after a call. -/
def capacity (x : Out Opt) : Nat := match x with | .ok o => o.valueCapacity | .ub _ => 0

-- adjust_array_size, adjust_map_size
example : capacity (adjustArray (handled .arrayInt)) = initialCapacity ∧
    capacity (do let o ← adjustArray (handled .arrayInt); adjustArray { o with valueCount := o.valueCapacity }) =
      initialCapacity * 2 := by decide +kernel
example : capacity (adjustMap (handled .mapString)) = initialCapacity ∧
    capacity (do let o ← adjustMap (handled .mapString); adjustMap { o with valueCount := o.valueCapacity }) =
      initialCapacity * 2 := by decide +kernel

def ints (l : List Int) : List Word := l.map Word.ofInt64

-- sort_int_array, sort_string_array
example : sortCells world .int (ints [42, 10, 30, 20, 50]) = ints [10, 20, 30, 42, 50] := by decide +kernel
example : sortCells world .string [.ptr c!"delta", .ptr c!"alpha", .ptr c!"charlie", .ptr c!"bravo"] =
    [.ptr c!"alpha", .ptr c!"bravo", .ptr c!"charlie", .ptr c!"delta"] := by decide +kernel
-- make_int_array_unique
example : uniqueCells .int (ints [10, 20, 10, 30, 20, 40]) = ints [10, 20, 30, 40] := by decide +kernel

/-- The array of the test for the flags. -/
def flagged (fs : List Flag) : Opt :=
  { handled .arrayInt with
    value := .arr (ints [30, 10, 20, 10, 30, 20]), valueCount := 6, valueCapacity := 6, flags := Flags.ofList fs }

def cellsOf (x : Out Opt) : Out (List Word) := do
  let o ← x
  match o.value with
  | .arr cells => .ok (cells.take o.valueCount)
  | _ => .ub .badCallback

-- apply_array_flags
example : gives (cellsOf (applyArrayFlags world (flagged [.sorted]))) (ints [10, 10, 20, 20, 30, 30]) = true := by decide +kernel
example : gives (cellsOf (applyArrayFlags world (flagged [.unique]))) (ints [30, 10, 20]) = true := by decide +kernel
example : gives (cellsOf (applyArrayFlags world (flagged [.sorted, .unique]))) (ints [10, 20, 30]) = true := by decide +kernel

def threeKeys : Opt :=
  { handled .mapString with
    value := .map [(c!"key1", .ptr c!"value1"), (c!"key2", .ptr c!"value2"), (c!"key3", .ptr c!"value3")]
    valueCount := 3, valueCapacity := 3 }

-- map_find_key
example : gives (mapFindKey threeKeys c!"key1") (some 0) = true ∧ gives (mapFindKey threeKeys c!"key2") (some 1) = true ∧
    gives (mapFindKey threeKeys c!"key3") (some 2) = true ∧ gives (mapFindKey threeKeys c!"nonexistent") none = true := by
  decide +kernel
-- sort_map_by_keys
example : sortPairs world cmpKey [(c!"charlie", .ptr c!"value3"), (c!"alpha", .ptr c!"value1"), (c!"bravo", .ptr c!"value2")] =
    [(c!"alpha", .ptr c!"value1"), (c!"bravo", .ptr c!"value2"), (c!"charlie", .ptr c!"value3")] := by decide +kernel

/-! ## tests/unit/test_utils/test_option_lookup.c -/

def lookups : List Opt :=
  [ (optFlag 118 (some c!"verbose")).helped, (optString 111 (some c!"output")).helped, (optString 115 none).helped,
    (optFlag 0 (some c!"long-only")).helped, (posString c!"input").helped, (posString c!"output").helped,
    (posInt c!"count").helped.optional ]

-- find_option_by_name
example : findName lookups c!"verbose" = some 0 ∧ findName lookups c!"nonexistent" = none ∧
    findName lookups c!"input" = some 4 ∧ findName lookups c!"s" = some 2 ∧ findName lookups c!"long-only" = some 3 := by
  decide +kernel
-- find_option_by_sname
example : findSname lookups 118 = some 0 ∧ findSname lookups 120 = none ∧ findSname lookups 115 = some 2 := by decide +kernel
-- find_option_by_lname
example : findLname lookups c!"verbose" = some 0 ∧ findLname lookups c!"nonexistent" = none ∧
    findLname lookups c!"long-only" = some 3 := by decide +kernel
-- find_positional
example : findPositional lookups 0 = some 4 ∧ findPositional lookups 1 = some 5 ∧ findPositional lookups 2 = some 6 ∧
    findPositional lookups 3 = none := by decide +kernel

/-! ## tests/unit/test_utils/test_strings.c -/

-- starts_with_valid, starts_with_invalid
example : startsWith c!"pre" c!"prefix" = some c!"fix" ∧ startsWith [] c!"text" = some c!"text" ∧
    startsWith c!"a" c!"abc" = some c!"bc" ∧ startsWith c!"Pre" c!"prefix" = none ∧
    startsWith c!"Pre" c!"Prefix" = some c!"fix" := by decide +kernel
example : startsWith c!"abc" c!"def" = none ∧ startsWith c!"long_prefix" c!"short" = none ∧ startsWith c!"abc" c!"ab" = none ∧
    startsWith c!"abc" c!"abx" = none := by decide +kernel
-- split_basic, split_edge_cases, split_multiple_separators
example : split c!"one,two,three" c!"," = [c!"one", c!"two", c!"three"] ∧ split [] c!"," = [] ∧
    split c!"one,,three" c!"," = [c!"one", c!"three"] ∧ split c!",one,two" c!"," = [c!"one", c!"two"] ∧
    split c!"one,two," c!"," = [c!"one", c!"two"] ∧ split c!"a:b;c:d" c!":;" = [c!"a", c!"b", c!"c", c!"d"] := by
  decide +kernel

/-! ## tests/unit/test_utils/test_value_utils.c -/

/-- The sign of a comparison. -/
def sign (x : Out Int) : Option Int := match x with | .ok n => some n.sign | .ub _ => none

def ofBool (b : Bool) : Word := .bits (if b then 1 else 0)

-- compare_values
example : sign (cmpValue .int (.ofInt64 42) (.ofInt64 42)) = some 0 ∧
    sign (cmpValue .int (.ofInt64 42) (.ofInt64 100)) = some (-1) ∧
    sign (cmpValue .int (.ofInt64 100) (.ofInt64 42)) = some 1 := by decide +kernel
example : sign (cmpValue .string (.ptr c!"abc") (.ptr c!"abc")) = some 0 ∧
    sign (cmpValue .string (.ptr c!"abc") (.ptr c!"def")) = some (-1) ∧
    sign (cmpValue .string (.ptr c!"def") (.ptr c!"abc")) = some 1 ∧
    sign (cmpValue .string (.ptr []) (.ptr c!"abc")) = some (-1) ∧
    sign (cmpValue .string .null (.ptr c!"abc")) = some (-1) := by decide +kernel
example : sign (cmpValue .bool (ofBool true) (ofBool true)) = some 0 ∧
    sign (cmpValue .bool (ofBool false) (ofBool true)) = some (-1) ∧
    sign (cmpValue .bool (ofBool true) (ofBool false)) = some 1 := by decide +kernel
example : sign (cmpValue .float (.bits (double c!"3.14")) (.bits (double c!"3.14"))) = some 0 ∧
    sign (cmpValue .float (.bits (double c!"2.71")) (.bits (double c!"3.14"))) = some (-1) ∧
    sign (cmpValue .float (.bits (double c!"3.14")) (.bits (double c!"2.71"))) = some 1 := by decide +kernel

def tens : ChoiceArray := .ints [10, 20, 30, 40, 50]

-- choices_to_value
example : seen (choicesToValue .int tens 5 2) (.int 30) = true ∧ seen (choicesToValue .int tens 5 0) (.int 10) = true ∧
    seen (choicesToValue .int tens 5 10) .zero = true ∧ seen (choicesToValue .int tens 5 (2 ^ 64 - 1)) .zero = true := by
  decide +kernel
example : seen (choicesToValue .string (.strings [some c!"one", some c!"two", some c!"three"]) 3 1) (.str c!"two") = true := by
  decide +kernel
example : seen (choicesToValue .float (.floats [0x3ff199999999999a#64, 0x400199999999999a#64, 0x400a666666666666#64]) 3 2)
    (.float 0x400a666666666666#64) = true := by decide +kernel
-- free_option_value
example : (freeOptionValue (valued (.ofInt64 42))).isOk = true := by decide +kernel
example : (match freeOptionValue { valued (.ptr c!"test") with isAllocated := true, freeHandler := some (.custom 1) } with
    | .ok o => o.isAllocated
    | .ub _ => true) = false := by decide +kernel

end Argus.Tests
