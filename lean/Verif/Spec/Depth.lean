import Verif.Spec.History

/-!
# Nesting of subcommands
-/

set_option autoImplicit false

namespace Argus

/-- The subcommands selected, in order. -/
def entered (acts : List Act) : List Ptr :=
  acts.filterMap (fun
    | .enter p => some p
    | _ => none)

/-- A chain of nested subcommands from table `t` inwards: each entry is a subcommand of the table the
    previous one leads to. -/
def SubChain (tables : List (List Opt)) : Option Nat → List Ptr → Prop
  | _, [] => True
  | t, p :: ps => t = some p.tbl ∧ ∃ os o, tables[p.tbl]? = some os ∧ os[p.idx]? = some o ∧
      o.type = .subcommand ∧ SubChain tables o.subOptions ps

/-- Subcommands below table `t` are nested at most `n` deep. -/
def DepthAtMost (tables : List (List Opt)) (t : Option Nat) (n : Nat) : Prop :=
  ∀ ps, SubChain tables t ps → ps.length ≤ n

/-- The words `ns` select the chain of subcommands `ps` one after the other: none begins with a dash,
    and each is the full name of its subcommand and begins no earlier subcommand of the table. -/
def NamesChain (tables : List (List Opt)) : Option Nat → List Ptr → List Str → Prop
  | _, [], [] => True
  | t, p :: ps, n :: ns => t = some p.tbl ∧ ∃ os o, tables[p.tbl]? = some os ∧ os[p.idx]? = some o ∧
      o.type = .subcommand ∧ o.name = some n ∧ n.head? ≠ some 45 ∧
      (∀ (j : Nat) (o' : Opt) (n' : Str), os[j]? = some o' → o'.type = .subcommand → o'.name = some n' →
        n <+: n' → p.idx ≤ j) ∧ NamesChain tables o.subOptions ps ns
  | _, _, _ => False

end Argus
