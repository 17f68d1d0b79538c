import Verif.Spec.EnvLine

/-!
# The advice to ask for help
-/

set_option autoImplicit false

namespace Argus

/-- No subcommand has a name that begins with a dash. -/
def NoDashCommands (tables : List (List Opt)) : Prop :=
  ∀ os ∈ tables, ∀ o ∈ os, o.type = .subcommand → ∀ n, o.name = some n → n.head? ≠ some 45

/-- The table has the option `--help` as HELP_OPTION declares it. -/
def OffersHelp (os : List Opt) : Prop :=
  ∃ l o r, os = l ++ o :: r ∧ (∀ x ∈ l, x.type = .option → x.lname ≠ some c!"help") ∧ o.type = .option ∧
    o.lname = some c!"help" ∧ o.valueType = .flag ∧ o.handler = some .help ∧ o.flags.has .exit = true ∧
    ∀ v ∈ o.validators.getD [], v.order = .post

/-- A program as it is declared: every table offers help, every subcommand has a table, and nothing is allocated. -/
structure Argus.Helpful (a : Argus) : Prop where
  dashes : NoDashCommands a.tables
  help : ∀ os ∈ a.tables, OffersHelp os
  root : a.root < a.tables.length
  subs : ∀ os ∈ a.tables, ∀ o ∈ os, o.type = .subcommand → ∃ k, o.subOptions = some k ∧ k < a.tables.length
  unallocated : ∀ os ∈ a.tables, ∀ o ∈ os, o.isAllocated = false

/-- The advice, for a program and the names of commands. -/
def advice (prog : Str) (names : List Str) : Str :=
  c!"\n\nTry '" ++ prog ++ names.flatMap (fun n => c!" " ++ n) ++ c!" --help' for more information.\n"

end Argus
