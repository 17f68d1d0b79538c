import Verif.Spec.Meaning

/-!
# Programs that differ only in commands that are not called
-/

set_option autoImplicit false

namespace Argus

/-- The options arrays a command line has to do with: that of the program and those of the subcommands it selects. -/
def Concerns (a : Argus) (args : List Str) (k : Nat) : Prop :=
  k = a.root ∨ ∃ p o, Act.enter p ∈ a.asks args ∧ a.getOpt p = .ok o ∧ o.subOptions = some k

/-- Two programs are the same but for the options arrays outside of `K`. There may be more or fewer of those. -/
structure SameWithin (K : Nat → Prop) (a b : Argus) : Prop where
  tables : ∀ k, K k → b.tables[k]? = a.tables[k]?
  rest : { b with tables := a.tables } = a

end Argus
