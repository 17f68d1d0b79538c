import Verif.Model.Parse
import Verif.Model.Statics

/-!
# Walking over tables of options

A table of options is an array that ends with an entry of type `TYPE_NONE` (includes/argus/options.h:141-145); lists of names and of
validators end with NULL (options.h:83-88). The other modules take such an array as the list of its entries. Here it is the
memory from the first entry on, `none` being the end mark, and every access and every `++i` is checked.
-/

set_option autoImplicit false

namespace Argus

/-- `options[i]`. -/
def tableEntry {α : Type} (memory : List (Option α)) (i : Int) : Out (Option α) :=
  if i < 0 then .ub .outOfBounds
  else
    match memory[i.toNat]? with
    | some e => .ok e
    | none => .ub .outOfBounds

/-- `for (int i = 0; options[i].type != TYPE_NONE; ++i) body`, from `i` on: the body returns a result or goes on with the new
    values of its variables. This is the loop of option_lookup.c:20, 30, 41, 53, parse_args.c:23, load_env_vars.c:70,
    post_parse_validation.c:70, validate_structure.c:29, 109, 161,
    201, usage_display.c:17, 38, command_display.c:48, 94, 114, 133,
    151 and help_organizer.c:80; that of
    validate_structure.c:89 begins at `i + 1`. `none` when `fuel` rounds are not enough. -/
def walkTable {α σ ρ : Type} (memory : List (Option α)) (body : σ → Int → α → Out (σ ⊕ ρ)) :
    (fuel : Nat) → (i : Int) → σ → Out (Option (σ ⊕ ρ))
  | 0, _, _ => .ok none
  | fuel + 1, i, s => do
    match ← tableEntry memory i with
    | none => .ok (some (.inl s))
    | some e =>
      match ← body s i e with
      | .inr r => .ok (some (.inr r))
      | .inl s1 => do
        let i1 ← intInc i
        walkTable memory body fuel i1 s1

/-- What a lookup returns: the entry found, or NULL. -/
def found {σ : Type} (x : Out (Option (σ ⊕ Int))) : Out (Option (Option Int)) := do
  match ← x with
  | none => .ok none
  | some (.inl _) => .ok (some none)
  | some (.inr i) => .ok (some (some i))

/-- source/utils/option_lookup.c:16-26 `find_option_by_lname`. -/
def findLnameAt (memory : List (Option Opt)) (fuel : Nat) (lname : Str) : Out (Option (Option Int)) :=
  found (walkTable memory (fun (_ : Unit) i o =>
    if o.type == .option && o.lname == some lname then .ok (.inr i) else .ok (.inl ())) fuel 0 ())

/-- source/utils/option_lookup.c:28-35 `find_option_by_sname`. -/
def findSnameAt (memory : List (Option Opt)) (fuel : Nat) (sname : Byte) : Out (Option (Option Int)) :=
  found (walkTable memory (fun (_ : Unit) i o =>
    if o.type == .option && o.sname == sname then .ok (.inr i) else .ok (.inl ())) fuel 0 ())

/-- source/utils/option_lookup.c:51-59 `find_option_by_name`. -/
def findNameAt (memory : List (Option Opt)) (fuel : Nat) (name : Str) : Out (Option (Option Int)) :=
  found (walkTable memory (fun (_ : Unit) i o => if o.name == some name then .ok (.inr i) else .ok (.inl ())) fuel 0 ())

/-- source/utils/option_lookup.c:37-49 `find_positional`; the variable is `pos_index`. Its `++` is not checked: it is at
    most `i`, whose `++` is. -/
def findPositionalAt (memory : List (Option Opt)) (fuel : Nat) (position : Nat) : Out (Option (Option Int)) :=
  found (walkTable memory (fun (pos : Nat) i o =>
    if o.type == .positional then
      if o.valueType.isVariadic || pos == position then .ok (.inr i) else .ok (.inl (pos + 1))
    else .ok (.inl pos)) fuel 0 0)

/-- source/core/parsing/parse_args.c:23-38, the body of the loop of `find_subcommand`; the variable is `subcommand`. -/
def findSubBody (name : Str) (sub : Option Int) (i : Int) (o : Opt) : Out (Option Int ⊕ (Int × Option Int)) :=
  match o.type, o.name with
  | .subcommand, some n =>
    if (startsWith name n).isSome then
      if sub.isSome then .ok (.inr (Err.ambiguousSubcommand, none))
      else if strcmp name n = 0 then .ok (.inr (Err.success, some i))
      else .ok (.inl (some i))
    else .ok (.inl sub)
  | _, _ => .ok (.inl sub)

/-- source/core/parsing/parse_args.c:18-43 `find_subcommand`. The result is the status and what `*result` points to. -/
def findSubAt (memory : List (Option Opt)) (fuel : Nat) (name : Str) : Out (Option (Int × Option Int)) := do
  match ← walkTable memory (findSubBody name) fuel 0 none with
  | none => .ok none
  | some (.inl sub) => .ok (some (Err.success, sub))
  | some (.inr r) => .ok (some r)

/-! ## The checks after the parse, source/core/parsing/post_parse_validation.c

The lists `require`, `conflict` and `validators` end with NULL and are memory too. Running out of `fuel` is `none`. -/

/-- post_parse_validation.c:20-28, the body of the loop of `validate_required`, with the lookup in the memory of the table. -/
def requiredBody (memory : List (Option Opt)) (fuel : Nat) (_ : Unit) (_ : Int) (n : Str) : Out (Unit ⊕ Option VRes) := do
  match ← findNameAt memory fuel n with
  | none => .ok (.inr none)
  | some none => .ok (.inl ())
  | some (some k) =>
    match ← tableEntry memory k with
    | some r => if r.isSet then .ok (.inl ()) else .ok (.inr (some (.fail Err.missingRequired)))
    | none => .ok (.inr (some (.fail Err.missingRequired)))

/-- post_parse_validation.c:36-43, the body of the loop of `validate_conflicts`. -/
def conflictBody (memory : List (Option Opt)) (fuel : Nat) (_ : Unit) (_ : Int) (n : Str) : Out (Unit ⊕ Option VRes) := do
  match ← findNameAt memory fuel n with
  | none => .ok (.inr none)
  | some none => .ok (.inl ())
  | some (some k) =>
    match ← tableEntry memory k with
    | some r => if r.isSet then .ok (.inr (some (.fail Err.conflictingOptions))) else .ok (.inl ())
    | none => .ok (.inl ())

/-- `if (option->require) { for … } return ARGUS_SUCCESS`, post_parse_validation.c:19-30 and 35-45: `names` is `none` for NULL. -/
def checkNamesAt (body : Unit → Int → Str → Out (Unit ⊕ Option VRes)) (fuel : Nat) (names : Option (List (Option Str))) :
    Out (Option VRes) := do
  match names with
  | none => .ok (some .pass)
  | some l =>
    match ← walkTable l body fuel 0 () with
    | none => .ok none
    | some (.inl _) => .ok (some .pass)
    | some (.inr r) => .ok r

/-- post_parse_validation.c:53-60, the body of the loop of `call_validators`; the variable is the codes of the messages printed
    so far. -/
def validatorBody (W : World) (o : Opt) (codes : List Int) (_ : Int) (v : Validator) : Out (List Int ⊕ (Int × List Int)) :=
  if v.order = .post then do
    let r ← runPost W v.kind o
    if r.1 ≠ Err.success then .ok (.inr (r.1, codes ++ r.2.toList)) else .ok (.inl (codes ++ r.2.toList))
  else .ok (.inl codes)

/-- post_parse_validation.c:48-62 `call_validators`. The index is a `size_t` in the code; here its `++` is checked as that of an
    `int`, which is stricter. -/
def callValidatorsAt (W : World) (o : Opt) (fuel : Nat) (validators : Option (List (Option Validator))) :
    Out (Option (Int × List Int)) := do
  match validators with
  | none => .ok (some (Err.success, []))
  | some l =>
    match ← walkTable l (validatorBody W o) fuel 0 [] with
    | none => .ok none
    | some (.inl codes) => .ok (some (Err.success, codes))
    | some (.inr r) => .ok (some r)

/-- Where the lists of an option are in memory. -/
structure ListsAt where
  require : Opt → Option (List (Option Str))
  conflict : Opt → Option (List (Option Str))
  validators : Opt → Option (List (Option Validator))

/-- post_parse_validation.c:70-111, the body of the loop of `validate_options_set`; the variables are
    `current_group_is_exclusive`, `first_set_option_name` and the codes of the messages printed so far. -/
def validateBody (W : World) (memory : List (Option Opt)) (L : ListsAt) (fuel : Nat) (s : Bool × Option Str × List Int) (_ : Int)
    (o : Opt) : Out ((Bool × Option Str × List Int) ⊕ Option (Int × List Int)) :=
  if o.type = .group then .ok (.inl (o.flags.has .exclusive, none, s.2.2))
  else if o.type = .positional ∧ o.flags.has .required ∧ o.isSet = false then
    .ok (.inr (some (Err.missingRequired, s.2.2 ++ [Err.missingRequired])))
  else if o.isSet then
    if s.1 ∧ s.2.1.isSome then .ok (.inr (some (Err.exclusiveGroup, s.2.2 ++ [Err.exclusiveGroup])))
    else do
      match ← callValidatorsAt W o fuel (L.validators o) with
      | none => .ok (.inr none)
      | some r =>
        if r.1 ≠ Err.success then .ok (.inr (some (r.1, s.2.2 ++ r.2)))
        else
          match ← checkNamesAt (requiredBody memory fuel) fuel (L.require o) with
          | none => .ok (.inr none)
          | some q =>
            if q.1 ≠ Err.success then .ok (.inr (some (q.1, s.2.2 ++ (r.2 ++ q.2.toList))))
            else
              match ← checkNamesAt (conflictBody memory fuel) fuel (L.conflict o) with
              | none => .ok (.inr none)
              | some c =>
                if c.1 ≠ Err.success then .ok (.inr (some (c.1, s.2.2 ++ (r.2 ++ c.2.toList))))
                else .ok (.inl (s.1, if s.1 then o.name else s.2.1, s.2.2 ++ r.2))
  else .ok (.inl s)

/-- post_parse_validation.c:64-114 `validate_options_set`. -/
def validateSetAt (W : World) (memory : List (Option Opt)) (L : ListsAt) (fuel : Nat) : Out (Option (Int × List Int)) := do
  match ← walkTable memory (validateBody W memory L fuel) fuel 0 (false, none, []) with
  | none => .ok none
  | some (.inl s) => .ok (some (Err.success, s.2.2))
  | some (.inr r) => .ok r

end Argus
