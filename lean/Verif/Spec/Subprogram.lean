import Verif.Spec.FirstFault

/-!
# A subcommand as a program of its own
-/

set_option autoImplicit false

namespace Argus

/-- The program that has the options of table `k`: what the command with this table would be by itself. -/
def Argus.standAlone (a : Argus) (k : Nat) : Argus := { a with root := k, stack := [] }

/-- After the arguments `pre`, the argument `c` calls the command at `p`, which has the options of table `k`. -/
structure CallsCommand (a : Argus) (pre : List Str) (c : Str) (p : Ptr) (k : Nat) : Prop where
  fresh : a.stack = []
  before : ∀ x ∈ a.asks pre, x ≠ .noTable ∧ ∀ d, x ≠ .fail d
  calls : a.asks (pre ++ [c]) = a.asks pre ++ [.enter p]
  table : tableBelow a.tables p = some k

/-- The tables of the program and of the commands on the way to this one. -/
def Argus.outside (a : Argus) (pre : List Str) : List Nat := pathTables a (entered (a.asks pre))

/-- The tables of this command and of those that `post` calls below it. -/
def Argus.inside (a : Argus) (k : Nat) (post : List Str) : List Nat :=
  pathTables (a.standAlone k) (entered ((a.standAlone k).asks post))

/-- No command contains itself: the tables on the way and those inside are different. -/
def Apart (a : Argus) (pre : List Str) (k : Nat) (post : List Str) : Prop := ∀ j ∈ a.outside pre, j ∉ a.inside k post

end Argus
