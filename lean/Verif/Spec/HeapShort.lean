import Verif.Model.HeapParse
import Verif.Spec.Safe

/-!
# A parse that lacks memory
-/

set_option autoImplicit false

namespace Argus

/-- All arrays, maps and variadic options are string arrays or variadic ones. -/
def Argus.ChecksMemory (a : Argus) : Prop :=
  ∀ os ∈ a.tables, ∀ o ∈ os, ∀ hd, o.handler = some hd → hd.isCollection = true →
    hd ∈ [Handler.arrayString, .variadicString, .variadicInt, .variadicFloat]

/-- Only the blocks `B` are in use, or these and what one option holds, which its free handler would give back. -/
def GivenBack (B : Nat → Option Blk) (c : MemArgus) : Prop :=
  c.heap.live = B ∨ ∃ q ho fh h', c.opt q = .ok ho ∧ ho.ptr ≠ none ∧ ho.o.freeHandler = some fh ∧
    runFreeH (some fh) ho c.heap = .ok h' ∧ h'.live = B

end Argus
