import Verif.Model.Complaints
import Verif.Spec.Structure

/-!
# What is wrong with a definition

One rule per message of source/core/validation: the entry it is about, and the text. `L i` is where entry `i` is written.
-/

set_option autoImplicit false

namespace Argus

/-- Entry `i` is in the wrong place. -/
inductive Misplaced (os : List Opt) : Nat → Str → Prop
  /-- a second required POSITIONAL_MANY -/
  | manyTwice {i j : Nat} {o p : Opt} : os[i]? = some o → o.RequiredMany → j < i → os[j]? = some p → p.RequiredMany →
      Misplaced os i c!"Only one POSITIONAL_MANY argument is allowed"
  /-- a single required positional after a required POSITIONAL_MANY -/
  | afterMany {i j : Nat} {o p : Opt} : os[i]? = some o → o.RequiredPos → o.valueType.isVariadic = false → j < i →
      os[j]? = some p → p.RequiredMany →
      Misplaced os i c!"POSITIONAL argument must be placed before POSITIONAL_MANY argument"
  /-- up to this entry, there is an optional positional and a required POSITIONAL_MANY -/
  | mixed {i j k : Nat} {p q : Opt} : i < os.length → j ≤ i → os[j]? = some p → p.OptionalPos → k ≤ i → os[k]? = some q →
      q.RequiredMany → Misplaced os i c!"Cannot mix optional positional and POSITIONAL_MANY arguments"
  /-- an option after a subcommand -/
  | optionLate {i j : Nat} {o p : Opt} : os[i]? = some o → o.type = .option → j < i → os[j]? = some p →
      p.type = .subcommand → Misplaced os i c!"Options should be placed at the top level, before any subcommands"
  /-- up to this entry, there is a subcommand and a single required positional -/
  | beside {i j k : Nat} {p q : Opt} : i < os.length → j ≤ i → os[j]? = some p → p.type = .subcommand → k ≤ i →
      os[k]? = some q → q.RequiredPos → q.valueType.isVariadic = false →
      Misplaced os i c!"Cannot mix subcommands and positional arguments at the same level"
  /-- a required positional after an optional one -/
  | requiredLate {i j : Nat} {o p : Opt} : os[i]? = some o → o.RequiredPos → j < i → os[j]? = some p → p.OptionalPos →
      Misplaced os i c!"Required positional must be before all optional positional arguments"
  /-- no help option: said of the first entry -/
  | noHelp : (¬ ∃ o ∈ os, o.type = .option ∧ o.name = some c!"help") → Misplaced os 0 c!"Help option is missing"

/-- Entry `i` has a bad name. -/
inductive Misnamed (L : Nat → Site) (os : List Opt) : Nat → Str → Prop
  | unnamed {i : Nat} {o : Opt} : os[i]? = some o → o.type ≠ .group → o.name = none ∨ o.name = some [] →
      Misnamed L os i c!"Option name cannot be empty"
  | space {i : Nat} {o : Opt} : os[i]? = some o → o.sname = 32 → Misnamed L os i c!"Short name cannot be a space character"
  | hyphen {i : Nat} {o : Opt} : os[i]? = some o → o.sname = 45 → Misnamed L os i c!"Short name cannot be a hyphen"
  | shortTwice {i j : Nat} {o p : Opt} : os[i]? = some o → o.sname ≠ 0 → j < i → os[j]? = some p → p.sname = o.sname →
      Misnamed L os i (c!"Short name '" ++ [o.sname] ++ c!"' is already used")
  | longHyphen {i : Nat} {o : Opt} {s : Str} : os[i]? = some o → o.lname = some (45 :: s) →
      Misnamed L os i c!"Long name cannot start with a hyphen"
  | longSpace {i : Nat} {o : Opt} {s : Str} : os[i]? = some o → o.lname = some s → 32 ∈ s →
      Misnamed L os i c!"Long name cannot contain spaces"
  | longDot {i : Nat} {o : Opt} {s : Str} : os[i]? = some o → o.lname = some s → 46 ∈ s →
      Misnamed L os i c!"Long name cannot contain dots"
  | longEmpty {i : Nat} {o : Opt} : os[i]? = some o → o.lname = some [] → Misnamed L os i c!"Long name cannot be empty"
  /-- the long name is the name of the later entry `j` -/
  | nameClash {i j : Nat} {o p : Opt} {s : Str} : os[i]? = some o → o.lname = some s → i < j → os[j]? = some p →
      p.name = some s → Misnamed L os i (c!"Name conflict with option line: " ++ showInt (L j).line)
  /-- the long name is the long name of the later entry `j` -/
  | longClash {i j : Nat} {o p : Opt} {s : Str} : os[i]? = some o → o.lname = some s → i < j → os[j]? = some p →
      p.lname = some s → Misnamed L os i (c!"Long name conflict with option line: " ++ showInt (L j).line)

/-- Validator `v` is run on the default value of `o`. -/
def Opt.Runs (o : Opt) (v : Validator) : Prop := v.order = .post ∨ (v.order = .pre ∧ o.valueType = .string)

/-- Validator `v`, run on the default value of `o`, gives `r`. -/
def Opt.Tries (W : World) (o : Opt) (v : Validator) (r : VRes) : Prop :=
  (v.order = .post ∧ runPost W v.kind o = .ok r) ∨
  (v.order = .pre ∧ o.valueType = .string ∧ ∃ s, o.defaultValue.asString = .ok s ∧ runPre W v.kind s = .ok r)

/-- Validator `v` is run on the default value of `o` and does not accept it. -/
def Opt.Rejects (W : World) (o : Opt) (v : Validator) : Prop := ∃ r, o.Tries W v r ∧ r.1 ≠ Err.success

/-- Validator `v` has the messages `ms` about the default value of `o`. -/
def Opt.Says (W : World) (M : Wording) (o : Opt) (v : Validator) (ms : List Message) : Prop :=
  (v.order = .post ∧ postMessages W M v.kind o = .ok ms) ∨
  (v.order = .pre ∧ o.valueType = .string ∧ ∃ s, o.defaultValue.asString = .ok s ∧ preMessages W M v.kind s = .ok ms) ∨
  (¬ o.Runs v ∧ ms = [])

/-- An option or a positional is ill defined. -/
inductive Defective (W : World) (M : Wording) (prog : Str) (o : Opt) : Str → Prop
  | flagDefault : o.haveDefault = true → o.valueType = .flag →
      Defective W M prog o c!"Option type flag cannot have a default value"
  /-- `w` does not accept the default value; it is `v` or comes before `v`; the text is that of `v` -/
  | badDefault {vs1 vs2 : List Validator} {v w : Validator} {ms : List Message} : o.haveDefault = true → o.valueType ≠ .flag →
      o.validators = some (vs1 ++ v :: vs2) → w ∈ vs1 ++ [v] → o.Rejects W w → o.Says W M v ms →
      Defective W M prog o (c!"Default value does not pass validations: \n\t    " ++
        (ms.map fun m => prog ++ c!": " ++ m.2 ++ c!"\n").flatten)

/-- Entry `o` of the table `os` is not what an entry of its type must be. -/
inductive Malformed (W : World) (M : Wording) (prog : Str) (os : List Opt) (o : Opt) : Str → Prop
  | optName : o.type = .option → o.sname = 0 → o.lname = none →
      Malformed W M prog os o c!"Option must have a short name or a long name"
  | optHelp : o.type = .option → o.help = none → Malformed W M prog os o c!"Option must have a help message"
  | optHandler : o.type = .option → o.handler = none → Malformed W M prog os o c!"Option must have a handler"
  | optDefault {t : Str} : o.type = .option → Defective W M prog o t → Malformed W M prog os o t
  | both {rs cs : List Str} {n : Str} : o.type = .option → o.require = some rs → o.conflict = some cs → n ∈ rs → n ∈ cs →
      Malformed W M prog os o (c!"Option cannot require and conflict with the same option: '" ++ n ++ c!"'")
  | unknownRequire {rs : List Str} {n : Str} : o.type = .option → o.require = some rs → n ∈ rs → (∀ p ∈ os, p.name ≠ some n) →
      Malformed W M prog os o (c!"Required option not found '" ++ n ++ c!"' in options")
  | unknownConflict {cs : List Str} {n : Str} : o.type = .option → o.conflict = some cs → n ∈ cs → (∀ p ∈ os, p.name ≠ some n) →
      Malformed W M prog os o (c!"Conflicting option not found '" ++ n ++ c!"' in options")
  | posName : o.type = .positional → o.name = none → Malformed W M prog os o c!"Positional must have a name"
  | posHelp : o.type = .positional → o.help = none → Malformed W M prog os o c!"Positional must have a help message"
  | posManyFlags : o.type = .positional → o.valueType.isVariadic = true →
      ¬ o.flags.Within [.sorted, .unique, .deprecated, .experimental, .required] →
      Malformed W M prog os o c!"Invalid flags for POSITIONAL_MANY argument"
  | posFlags : o.type = .positional → ¬ o.flags.Within [.required] → Malformed W M prog os o c!"Invalid flags for positional"
  | posHandler : o.type = .positional → o.handler = none → Malformed W M prog os o c!"Positional must have a handler"
  | posRequired : o.type = .positional → o.flags.has .required = true → o.haveDefault = true →
      Malformed W M prog os o c!"Positional cannot be required and have a default value"
  | posDefault {t : Str} : o.type = .positional → Defective W M prog o t → Malformed W M prog os o t
  | posDepends : o.type = .positional → o.require ≠ none ∨ o.conflict ≠ none →
      Malformed W M prog os o c!"Positional cannot have dependencies"
  | groupFlags : o.type = .group → ¬ o.flags.Within [.exclusive] → Malformed W M prog os o c!"Group have Invalid flags"
  | subName : o.type = .subcommand → o.name = none → Malformed W M prog os o c!"Subcommand must have a name"
  | subHelp : o.type = .subcommand → o.help = none → Malformed W M prog os o c!"Subcommand must have a help message"
  | subTable : o.type = .subcommand → o.subOptions = none → Malformed W M prog os o c!"Subcommand must have options"
  | subFlags : o.type = .subcommand → ¬ o.flags.Within [.hidden, .advanced, .deprecated, .experimental] →
      Malformed W M prog os o c!"Invalid flags for subcommand"
  | subHandler : o.type = .subcommand → o.handler ≠ none → Malformed W M prog os o c!"Subcommand cannot have a handler"
  | subDepends : o.type = .subcommand → o.require ≠ none ∨ o.conflict ≠ none →
      Malformed W M prog os o c!"Subcommand cannot have dependencies"
  | subDefault : o.type = .subcommand → o.haveDefault = true → Malformed W M prog os o c!"Subcommand cannot have a default value"
  | subValidators : o.type = .subcommand → o.validators ≠ none → Malformed W M prog os o c!"Subcommand cannot have validators"

/-- `t` is wrong with entry `i` of the table `os`. -/
def Faulty (W : World) (M : Wording) (prog : Str) (L : Nat → Site) (os : List Opt) (i : Nat) (t : Str) : Prop :=
  Misplaced os i t ∨ Misnamed L os i t ∨ ∃ o, os[i]? = some o ∧ Malformed W M prog os o t

/-- Table `k` belongs to the definition and is `d` subcommands below the root. -/
inductive ReachesAt (tables : List (List Opt)) (root : Nat) : Nat → Nat → Prop
  | root : ReachesAt tables root root 0
  | sub {k k' d : Nat} {os : List Opt} {o : Opt} : ReachesAt tables root k d → tables[k]? = some os → o ∈ os →
      o.type = .subcommand → o.subOptions = some k' → ReachesAt tables root k' (d + 1)

/-- Entry `i` of table `k` is a subcommand nested deeper than eight levels. -/
def TooDeep (tables : List (List Opt)) (root k i : Nat) : Prop :=
  ∃ d os o, ReachesAt tables root k d ∧ tables[k]? = some os ∧ os[i]? = some o ∧ o.type = .subcommand ∧
    o.subOptions ≠ none ∧ 8 ≤ d

/-- The messages about a default value can be printed: each validator that is run is defined on it, and from the first that does
    not accept it on, each has something to say. -/
def Opt.Explained (W : World) (M : Wording) (o : Opt) : Prop :=
  o.haveDefault = true → o.valueType ≠ .flag → ∀ vs1 v vs2, o.validators = some (vs1 ++ v :: vs2) →
    (o.Runs v → ∃ r, o.Tries W v r) ∧ ∃ ms, o.Says W M v ms ∧ ((∃ w ∈ vs1 ++ [v], o.Rejects W w) → ms ≠ [])

/-- How an entry is called in a message; `none` is the end of the table. -/
inductive Titled : Option Opt → Str → Prop
  | ends : Titled none c!"Unknown [ unnamed ]"
  | optionUnnamed {o : Opt} : o.type = .option → o.name = none → Titled (some o) c!"Option [ unnamed ]"
  | optionBoth {o : Opt} {l : Str} : o.type = .option → o.name ≠ none → o.lname = some l → o.sname ≠ 0 →
      Titled (some o) (c!"Option [ --" ++ l ++ c!" -" ++ [o.sname] ++ c!" ]")
  | optionLong {o : Opt} {l : Str} : o.type = .option → o.name ≠ none → o.lname = some l → o.sname = 0 →
      Titled (some o) (c!"Option [ --" ++ l ++ c!" ]")
  | optionShort {o : Opt} : o.type = .option → o.name ≠ none → o.lname = none → o.sname ≠ 0 →
      Titled (some o) (c!"Option [  -" ++ [o.sname] ++ c!" ]")
  | optionNone {o : Opt} : o.type = .option → o.name ≠ none → o.lname = none → o.sname = 0 → Titled (some o) c!"Option [  ]"
  | groupUnnamed {o : Opt} : o.type = .group → o.name = none → Titled (some o) c!"Group [ unnamed ]"
  | group {o : Opt} {n : Str} : o.type = .group → o.name = some n → Titled (some o) (c!"Group [ " ++ n ++ c!" ]")
  | positionalUnnamed {o : Opt} : o.type = .positional → o.name = none → Titled (some o) c!"Positional [ unnamed ]"
  | positional {o : Opt} {n : Str} : o.type = .positional → o.name = some n →
      Titled (some o) (c!"Positional [ " ++ n ++ c!" ]")
  | subcommandUnnamed {o : Opt} : o.type = .subcommand → o.name = none → Titled (some o) c!"Subcommand [ unnamed ]"
  | subcommand {o : Opt} {n : Str} : o.type = .subcommand → o.name = some n →
      Titled (some o) (c!"Subcommand [ " ++ n ++ c!" ]")

/-- `t` is to be said about entry `i` of table `k` of a definition. -/
def Objection (W : World) (M : Wording) (prog : Str) (L : Nat → Nat → Site) (tables : List (List Opt)) (k i : Nat) (t : Str) :
    Prop :=
  (Reaches tables 0 k ∧ ∃ os, tables[k]? = some os ∧ Faulty W M prog (L k) os i t) ∨
  (TooDeep tables 0 k i ∧ t = c!"Subcommand depth exceeds maximum allowed (8)")

/-- A definition whose validators are defined on the default values they are run on, and are those of the library. -/
def Opt.Checkable (W : World) (o : Opt) : Prop :=
  o.haveDefault = true → ∀ v ∈ o.validators.getD [],
    (∀ id, v.kind ≠ .custom id) ∧ (o.Runs v → ∃ r, o.Tries W v r)

end Argus
