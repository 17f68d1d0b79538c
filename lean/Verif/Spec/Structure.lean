import Verif.Model.Structure
import Verif.Model.Define
import Verif.Spec.Depth

/-!
# Well-formed definitions
-/

set_option autoImplicit false

namespace Argus

/-- Table `k` belongs to the definition: it is the root or the table of a subcommand of one that does. -/
inductive Reaches (tables : List (List Opt)) (root : Nat) : Nat → Prop
  | root : Reaches tables root root
  | sub {k k' : Nat} {os : List Opt} {o : Opt} : Reaches tables root k → tables[k]? = some os → o ∈ os →
      o.type = .subcommand → o.subOptions = some k' → Reaches tables root k'

/-- A positional that need not be given. -/
def Opt.OptionalPos (o : Opt) : Prop := o.type = .positional ∧ o.flags.has .required = false
/-- A positional that must be given. -/
def Opt.RequiredPos (o : Opt) : Prop := o.type = .positional ∧ o.flags.has .required = true
/-- A POSITIONAL_MANY that must be given. -/
def Opt.RequiredMany (o : Opt) : Prop := o.RequiredPos ∧ o.valueType.isVariadic = true

/-- Only the listed flags are set. -/
def Flags.Within (fs : Flags) (l : List Flag) : Prop := ∀ i, fs.getLsbD i = true → ∃ f ∈ l, i = f.bit

/-- A default value passes the validators that apply to it, and flags have none. -/
def Opt.DefaultOk (W : World) (o : Opt) : Prop :=
  o.haveDefault = true → o.valueType ≠ .flag ∧ ∀ v ∈ o.validators.getD [],
    (v.order = .post → ∃ m, runPost W v.kind o = .ok (Err.success, m)) ∧
    (v.order = .pre → o.valueType = .string →
      ∃ s m, o.defaultValue.asString = .ok s ∧ runPre W v.kind s = .ok (Err.success, m))

/-- The entries of one level are well formed. -/
structure LevelFormed (W : World) (os : List Opt) : Prop where
  /-- there is a help option -/
  helpOption : ∃ o ∈ os, o.type = .option ∧ o.name = some c!"help"
  /-- everything but a group has a name -/
  named : ∀ o ∈ os, o.type ≠ .group → ∃ c s, o.name = some (c :: s)
  /-- short names are neither space nor hyphen -/
  shortForm : ∀ o ∈ os, o.sname ≠ 32 ∧ o.sname ≠ 45
  /-- short names are distinct -/
  shortDistinct : os.Pairwise fun x y => x.sname ≠ 0 → x.sname ≠ y.sname
  /-- long names are not empty, do not begin with a hyphen, and contain no space or dot -/
  longForm : ∀ o ∈ os, ∀ l, o.lname = some l → l ≠ [] ∧ l.head? ≠ some 45 ∧ 32 ∉ l ∧ 46 ∉ l
  /-- a long name is no name of a later entry -/
  longDistinct : os.Pairwise fun x y => ∀ l, x.lname = some l → y.name ≠ some l ∧ y.lname ≠ some l
  /-- required positionals precede optional ones -/
  requiredFirst : os.Pairwise fun x y => x.OptionalPos → ¬ y.RequiredPos
  /-- a required POSITIONAL_MANY is the last positional that is required -/
  manyLast : os.Pairwise fun x y => x.RequiredMany → ¬ y.RequiredPos
  /-- ... and there is no optional one beside it -/
  manyAlone : ∀ x ∈ os, x.RequiredMany → ∀ y ∈ os, ¬ y.OptionalPos
  /-- options precede subcommands -/
  optionsFirst : os.Pairwise fun x y => x.type = .subcommand → y.type ≠ .option
  /-- no single required positional beside a subcommand -/
  notBoth : ∀ x ∈ os, x.type = .subcommand → ∀ y ∈ os, y.RequiredPos → y.valueType.isVariadic = true
  /-- options -/
  option : ∀ o ∈ os, o.type = .option →
    (o.sname ≠ 0 ∨ o.lname ≠ none) ∧ o.help ≠ none ∧ o.handler ≠ none ∧ o.DefaultOk W
  /-- names in REQUIRE and CONFLICT exist, and none is in both -/
  dependency : ∀ o ∈ os, o.type = .option →
    (∀ n ∈ o.require.getD [], (∃ p ∈ os, p.name = some n) ∧ n ∉ o.conflict.getD []) ∧
    (∀ n ∈ o.conflict.getD [], ∃ p ∈ os, p.name = some n)
  /-- positionals -/
  positional : ∀ o ∈ os, o.type = .positional →
    o.help ≠ none ∧ o.handler ≠ none ∧ o.flags.Within [.required] ∧
    ¬ (o.flags.has .required = true ∧ o.haveDefault = true) ∧ o.DefaultOk W ∧ o.require = none ∧ o.conflict = none
  /-- groups -/
  group : ∀ o ∈ os, o.type = .group → o.flags.Within [.exclusive]
  /-- subcommands -/
  subcommand : ∀ o ∈ os, o.type = .subcommand →
    o.help ≠ none ∧ o.subOptions ≠ none ∧ o.handler = none ∧
    o.flags.Within [.hidden, .advanced, .deprecated, .experimental] ∧
    o.require = none ∧ o.conflict = none ∧ o.haveDefault = false ∧ o.validators = none

/-- A definition is well formed: every level is, and subcommands are nested at most eight deep. -/
structure WellFormed (W : World) (tables : List (List Opt)) (root : Nat) : Prop where
  level : ∀ k, Reaches tables root k → ∃ os, tables[k]? = some os ∧ LevelFormed W os
  depth : DepthAtMost tables (some root) 8

/-- `o` with a help text. -/
def Opt.withHelp (o : Opt) (h : Str) : Opt := { o with help := some h }

/-- A definition for the examples: `run` has the options of table 1. -/
def Sample.checked : List (List Opt) :=
  [ [ helpOption,
      (optFlag 118 (some c!"verbose")).withHelp c!"be chatty",
      { ((optInt 112 (some c!"port")).withHelp c!"port").withDefault (.ofInt64 80) with
        validators := some [vRange 1 65535], conflict := some [c!"verbose"] },
      (Argus.subcommand c!"run" 1 (some 7)).withHelp c!"run it" ],
    [ helpOption,
      (posString c!"file").withHelp c!"input",
      { (posInt c!"count").withHelp c!"how many" with flags := 0 } ] ]

end Argus
