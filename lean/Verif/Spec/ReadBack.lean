import Verif.Spec.Final
import Verif.Spec.Access

/-!
# Reading back what was given
-/

set_option autoImplicit false

namespace Argus

/-- Names of commands are not empty and contain no dot. -/
def PlainCommands (tables : List (List Opt)) : Prop :=
  ∀ os ∈ tables, ∀ o ∈ os, o.type = .subcommand → ∀ n, o.name = some n → n ≠ [] ∧ (46 : Byte) ∉ n

/-- Some path refers to the entry at `p`. -/
def Argus.HasPath (a : Argus) (p : Ptr) : Prop := ∃ path, a.findPath path = .ok (some p)

/-- No earlier entry of its table has the name `n` of the entry at `p`. -/
def FirstOfName (tables : List (List Opt)) (p : Ptr) (n : Str) : Prop :=
  ∃ pre o post, tables[p.tbl]? = some (pre ++ o :: post) ∧ pre.length = p.idx ∧ o.name = some n ∧
    ∀ x ∈ pre, x.name ≠ some n

end Argus
