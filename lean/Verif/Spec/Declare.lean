import Verif.Spec.Meaning

/-!
# Declaring further options

A program is extended by writing further entries at the end of one of its options arrays.
-/

set_option autoImplicit false

namespace Argus

/-- The program with the entries `new` added at the end of options array number `k`. -/
def Argus.declare (a : Argus) (k : Nat) (new : List Opt) : Argus :=
  { a with tables := a.tables.modify k (· ++ new) }

/-- An entry as the declaration macros for options, groups and subcommands leave it when no default is given: neither
    set nor holding memory. -/
structure Opt.Idle (o : Opt) : Prop where
  kind : o.type ≠ .positional
  unset : o.isSet = false
  free : o.isAllocated = false

/-- The environment has no variable for the entry. -/
def NoVariable (env : Env) (envPrefix : Option Str) (o : Opt) : Prop :=
  ∀ n, envVarName envPrefix o = some n → env n = none

/-- The argument does not spell a name of the entry: it is not `--name` or `--name=value` with its long name and it is
    not a cluster with its short name. -/
def Unspelled (o : Opt) (arg : Str) : Prop :=
  match argKind arg with
  | .long name _ => o.lname ≠ some name
  | .short cluster => o.sname ∉ cluster
  | _ => True

instance (o : Opt) (arg : Str) : Decidable (Unspelled o arg) := by
  unfold Unspelled; split <;> infer_instance

/-- The argument does not select the entry as a subcommand: it does not begin its name. -/
def Uncalled (o : Opt) (arg : Str) : Prop :=
  o.type = .subcommand → ∀ n, o.name = some n → ¬ arg <+: n

/-- What the other entries of the array require is not the name of a new entry, unless an old entry already has that
    name. -/
def RequiresOld (os new : List Opt) : Prop :=
  ∀ o ∈ os, ∀ n ∈ o.require.getD [], (∃ x ∈ os, x.name = some n) ∨ ∀ x ∈ new, x.name ≠ some n

instance (os new : List Opt) : Decidable (RequiresOld os new) := by
  unfold RequiresOld; infer_instance

end Argus
