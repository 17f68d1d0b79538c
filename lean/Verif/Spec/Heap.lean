import Verif.Model.Heap
import Verif.Spec.Maps
import Verif.Spec.Safe
import Verif.Model.Parse

/-!
# The life of an array or map option in memory
-/

set_option autoImplicit false

namespace Argus

/-- The allocator never fails to enlarge a block. -/
def Allocator.Grows (A : Allocator) : Prop := ∀ i, A.realloc i = true

/-- The allocator never fails. -/
def Allocator.Never (A : Allocator) : Prop := ∀ i, A.malloc i = true ∧ A.realloc i = true

/-- Besides the blocks of `b`, which are unchanged, there are copies of the strings `ks` in new blocks. -/
def Left (ks : List Str) (b b' : Nat → Option Blk) : Prop :=
  ∃ xs : List (Nat × Str), xs.map Prod.snd = ks ∧ (xs.map Prod.fst).Nodup ∧
    (∀ x ∈ xs, b x.1 = none ∧ b' x.1 = some (.text x.2)) ∧ ∀ y, y ∉ xs.map Prod.fst → b' y = b y

/-- Addresses not given out yet are not in use. -/
def Heap.Sound (h : Heap) : Prop := ∀ x, h.next ≤ x → h.live x = none

/-- An array, map or variadic option as declared, nothing stored in it. -/
structure HOpt.Unused (ho : HOpt) (hd : Handler) : Prop where
  handler : ho.o.handler = some hd
  collection : hd.isCollection = true
  proper : ho.o.Proper
  ptr : ho.ptr = none

/-- source/core/parsing/execute_callbacks.c:40-42, after a handler has succeeded. -/
def HOpt.mark (ho : HOpt) : HOpt := ⟨ho.o.markSet, ho.ptr⟩

/-- Occurrences one after the other, up to the first that fails. -/
def giveAllH (W : World) (A : Allocator) (hd : Handler) : HOpt → Heap → List Str → Out MRes
  | ho, h, [] => .ok (Err.success, ho, h)
  | ho, h, t :: ts => do
    let r ← runHandlerH W A hd ho h t
    if r.1 ≠ Err.success then .ok r else giveAllH W A hd r.2.1.mark r.2.2 ts

/-- The same in the model without memory. -/
def giveAllV (W : World) (hd : Handler) : Opt → List Str → Out (Int × Opt)
  | o, [] => .ok (Err.success, o)
  | o, t :: ts => do
    let r ← runHandler W { tables := [[]] } hd o (some t)
    if r.1 ≠ Err.success then .ok (r.1, r.2.1) else giveAllV W hd r.2.1.markSet ts

/-- The cells of an element, strings read from memory. -/
def readCells (h : Heap) : Row → Out (List Word)
  | [] => .ok []
  | c :: cs => do
    let w ← c.word h
    let ws ← readCells h cs
    .ok (w :: ws)

/-- All elements. -/
def readAllRows (h : Heap) : List Row → Out (List (List Word))
  | [] => .ok []
  | r :: rs => do
    let w ← readCells h r
    let ws ← readAllRows h rs
    .ok (w :: ws)

/-- The first `value_count` elements of the option, read from memory. -/
def HOpt.words (ho : HOpt) (h : Heap) : Out (List (List Word)) := do
  let b ← ho.rows h
  readAllRows h b.2.1

/-- Memory holds the value of the model without memory. -/
def HOpt.Reads (ho : HOpt) (h : Heap) : Val → Prop
  | .arr cs => ho.ptr ≠ none ∧ ho.words h = .ok (cs.map fun w => [w])
  | .map es => ho.ptr ≠ none ∧ ho.words h = .ok (es.map fun e => [.ptr e.1, e.2])
  | .word w => w = .null ∧ ho.ptr = none
  | .dangling => False

/-- The keys among the pieces `key=value` of a text whose copies `set_kv_pair` loses: those already present, and that of
    a value that is none. -/
inductive LostKeys (W : World) (vt : ValueType) : (present pieces lost : List Str) → Prop
  | done (present : List Str) : LostKeys W vt present [] []
  | noEquals (present : List Str) (s : Str) (ss : List Str) : (61 : Byte) ∉ s → LostKeys W vt present (s :: ss) []
  | badValue (present : List Str) (k v : Str) (ss : List Str) : (61 : Byte) ∉ k → (¬ ∃ x, TextValue W vt v x) →
      LostKeys W vt present ((k ++ c!"=" ++ v) :: ss) [k]
  | known (present : List Str) (k v : Str) (x : MVal) (ss lost : List Str) : (61 : Byte) ∉ k → TextValue W vt v x → k ∈ present →
      LostKeys W vt present ss lost → LostKeys W vt present ((k ++ c!"=" ++ v) :: ss) (k :: lost)
  | new (present : List Str) (k v : Str) (x : MVal) (ss lost : List Str) : (61 : Byte) ∉ k → TextValue W vt v x → k ∉ present →
      LostKeys W vt (present ++ [k]) ss lost → LostKeys W vt present ((k ++ c!"=" ++ v) :: ss) lost

/-- The keys an option holds. -/
def Opt.keys (o : Opt) : List Str :=
  match o.value with
  | .map es => es.map Prod.fst
  | _ => []

/-- The keys lost by the occurrences of a map option, up to the first that fails: those of each occurrence, given the keys
    the option holds by then. -/
inductive LostByAll (W : World) (hd : Handler) (vt : ValueType) : Opt → List Str → List Str → Prop
  | none (o : Opt) : LostByAll W hd vt o [] []
  | fails (o o' : Opt) (st : Int) (ev : List Event) (t : Str) (ts lost : List Str) : st ≠ Err.success →
      runHandler W { tables := [[]] } hd o (some t) = .ok (st, o', ev) → LostKeys W vt o.keys (pieces t) lost →
      LostByAll W hd vt o (t :: ts) lost
  | more (o o' : Opt) (ev : List Event) (t : Str) (ts lost later : List Str) :
      runHandler W { tables := [[]] } hd o (some t) = .ok (Err.success, o', ev) → LostKeys W vt o.keys (pieces t) lost →
      LostByAll W hd vt o'.markSet ts later → LostByAll W hd vt o (t :: ts) (lost ++ later)

end Argus
