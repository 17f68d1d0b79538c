import Verif.Model.Types

/-!
# The constraints a table declares

What validators, `REQUIRE`, `CONFLICT`, FLAG_REQUIRED on positionals and exclusive groups ask of a table,
without reference to how they are checked.
-/

set_option autoImplicit false

namespace Argus

/-- The option's value, read as `as_int`, is `n`. -/
def Opt.ReadsInt (o : Opt) (n : Int) : Prop := ∃ w, o.value = .word w ∧ w.asInt = .ok n

/-- The option's value, read as `as_int64`, is `n`. -/
def Opt.ReadsInt64 (o : Opt) (n : Int) : Prop := ∃ w, o.value = .word w ∧ w.asInt64 = .ok n

/-- The option's value, read as `as_float`, is `x`. -/
def Opt.ReadsFloat (o : Opt) (x : F64) : Prop := ∃ w, o.value = .word w ∧ w.asFloat = .ok x

/-- The option's value is the string `s`. -/
def Opt.ReadsString (o : Opt) (s : Str) : Prop := o.value = .word (.ptr s)

/-- What the option must satisfy to pass a validator that looks at parsed values. -/
def Meets (W : World) (o : Opt) : VKind → Prop
  | .range mn mx => ∃ n, o.ReadsInt n ∧ mn ≤ n ∧ n ≤ mx
  | .length mn mx => ∃ s, o.ReadsString s ∧ 0 ≤ mn ∧ mn ≤ s.length ∧ (s.length : Int) ≤ mx
  | .count mn mx => 0 ≤ mn ∧ mn ≤ o.valueCount ∧ (o.valueCount : Int) ≤ mx
  | .choiceStr cs => ∃ s, o.ReadsString s ∧ s ∈ cs
  | .choiceInt cs => ∃ n, o.ReadsInt n ∧ n ∈ cs
  | .choiceFloat cs => ∃ x, o.ReadsFloat x ∧ ∃ c ∈ cs, F64.eq x c = true
  | .regex _ _ => False
  | .custom id => (W.postValidator id o).1 = Err.success

/-- What a text must satisfy to pass a validator that looks at texts. -/
def MeetsText (W : World) (x : Option Str) : VKind → Prop
  | .regex p _ => W.regexAvailable = true ∧ ∃ q, p = some q ∧ W.regex q x = .isMatch
  | .custom id => (W.preValidator id x).1 = Err.success
  | _ => False

/-- The entry a name in `REQUIRE` or `CONFLICT` refers to: the first one of that name. -/
def Refers (os : List Opt) (n : Str) (r : Opt) : Prop :=
  ∃ pre post, os = pre ++ r :: post ∧ r.name = some n ∧ ∀ x ∈ pre, x.name ≠ some n

/-- `mid` are the entries of a group of `os` that starts at the entry `g`. -/
def GroupAt (os : List Opt) (g : Opt) (mid : List Opt) : Prop :=
  g.type = .group ∧ (∀ x ∈ mid, x.type ≠ .group) ∧ ∃ pre post, os = pre ++ g :: (mid ++ post)

/-- Everything the table declares holds of its present values. -/
structure LevelOk (W : World) (os : List Opt) : Prop where
  /-- required positionals are set -/
  positionals : ∀ o ∈ os, o.type = .positional → o.flags.has .required = true → o.isSet = true
  /-- set options pass their validators -/
  validators : ∀ o ∈ os, o.type ≠ .group → o.isSet = true → ∀ v ∈ o.validators.getD [],
    v.order = .post → Meets W o v.kind
  /-- what they require is set -/
  requires : ∀ o ∈ os, o.type ≠ .group → o.isSet = true → ∀ n ∈ o.require.getD [],
    ∀ r, Refers os n r → r.isSet = true
  /-- what they conflict with is not set -/
  conflicts : ∀ o ∈ os, o.type ≠ .group → o.isSet = true → ∀ n ∈ o.conflict.getD [],
    ∀ r, Refers os n r → r.isSet = false
  /-- no two options of an exclusive group are set -/
  exclusive : ∀ g mid, GroupAt os g mid → g.flags.has .exclusive = true →
    (mid.filter (·.isSet)).length ≤ 1

/-- The definition macros give every option, positional and subcommand a name. -/
def AllNamed (os : List Opt) : Prop := ∀ o ∈ os, o.type ≠ .group → o.name ≠ none

/-- Table `k` belongs to the selected path of `a`: it is the root table or that of a subcommand on the
    stack. -/
def Argus.OnPath (a : Argus) (k : Nat) : Prop :=
  k = a.root ∨ ∃ q ∈ a.stack, ∃ cmd, a.getOpt q = .ok cmd ∧ cmd.subOptions = some k

/-- The status with which a validator rejects an option that does not meet it. -/
def RejectStatus (W : World) (o : Opt) : VKind → Int → Prop
  | .range _ _, st => st = Err.invalidRange
  | .count _ _, st => st = Err.invalidRange
  | .length _ _, st => st = Err.invalidRange ∨ (st = Err.invalidValue ∧ o.value = .word .null)
  | .choiceStr _, st => st = Err.invalidChoice
  | .choiceInt _, st => st = Err.invalidChoice
  | .choiceFloat _, st => st = Err.invalidChoice
  | .regex _ _, _ => False
  | .custom id, st => st = (W.postValidator id o).1

/-- Why a table may be refused, with the status that says so. -/
inductive Refusal (W : World) (os : List Opt) : Int → Prop where
  | missingPositional (o : Opt) : o ∈ os → o.type = .positional → o.flags.has .required = true →
      o.isSet = false → Refusal W os Err.missingRequired
  | validator (o : Opt) (v : Validator) (st : Int) : o ∈ os → o.type ≠ .group → o.isSet = true →
      v ∈ o.validators.getD [] → v.order = .post → ¬ Meets W o v.kind → RejectStatus W o v.kind st →
      Refusal W os st
  | requirement (o r : Opt) (n : Str) : o ∈ os → o.type ≠ .group → o.isSet = true →
      n ∈ o.require.getD [] → Refers os n r → r.isSet = false → Refusal W os Err.missingRequired
  | conflict (o r : Opt) (n : Str) : o ∈ os → o.type ≠ .group → o.isSet = true →
      n ∈ o.conflict.getD [] → Refers os n r → r.isSet = true → Refusal W os Err.conflictingOptions
  | exclusive (g : Opt) (mid : List Opt) : GroupAt os g mid → g.flags.has .exclusive = true →
      2 ≤ (mid.filter (·.isSet)).length → Refusal W os Err.exclusiveGroup

end Argus
