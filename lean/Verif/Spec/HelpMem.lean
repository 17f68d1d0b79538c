import Verif.Model.HelpMem

/-! # Complete and incomplete help -/

set_option autoImplicit false

namespace Argus

/-- Nothing is live at an address not yet given out. -/
def HMem.Sound (m : HMem) : Prop := ∀ x, m.next ≤ x → m.live x = none

/-- The number of entries listed. -/
def HelpData.count (d : HelpData) : Nat :=
  d.positionals.length + (d.groups.map (fun g => g.2.length)).sum + d.ungrouped.length + d.subcommands.length

/-- `d` has the groups of `D`, and every list of `d` is the one of `D` with some entries left out. -/
structure HelpData.Within (d D : HelpData) : Prop where
  positionals : d.positionals.Sublist D.positionals
  ungrouped : d.ungrouped.Sublist D.ungrouped
  subcommands : d.subcommands.Sublist D.subcommands
  titles : d.groups.map (·.1) = D.groups.map (·.1)
  entries : ∀ (k : Nat) (e E : Str × List Nat), d.groups[k]? = some e → D.groups[k]? = some E → e.2.Sublist E.2

/-- How many of the calls from `c` to before `c'` the allocator refuses. -/
def refused (A : Nat → Bool) (c c' : Nat) : Nat := (List.range' c (c' - c)).countP fun n => !A n

end Argus
