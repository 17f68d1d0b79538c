import Verif.Model.Display
import Verif.Model.Stream

/-!
# Memory: the lists built by `display_help`, source/display/help/help_organizer.c

Model/Display keeps the help as plain lists. Here every `option_entry_t` and `group_info_t` is a node in memory reached through
pointers, an allocation may fail, and a node is live until it is freed. An address is never given out twice, so an access to a
released node is always noticed. `Out (Option α)` is undefined behaviour, a loop that never ends (`none`), or a result. A loop
over nodes is cut off after as many rounds as there are addresses, because by then it has come back to a node.
-/

set_option autoImplicit false

namespace Argus

/-- includes/argus/internal/help.h:22-36 `option_entry_t` and `group_info_t`. An option is its index in the table. -/
inductive HNode where
  | entry (option : Nat) (next : Option Nat)
  | group (name : Str) (options next : Option Nat)
  deriving DecidableEq, Repr

/-- Memory: the nodes allocated and not yet released, the next unused address and the number of calls so far. -/
structure HMem where
  live : Nat → Option HNode
  next : Nat
  calls : Nat

/-- includes/argus/internal/help.h:41-47 `help_data_t`: four pointers, NULL at first (help_display.c:26). -/
structure HelpRoots where
  positionals : Option Nat := none
  groups : Option Nat := none
  ungrouped : Option Nat := none
  subcommands : Option Nat := none
  deriving DecidableEq, Repr

/-- One computation after another. -/
def Ends.bind {α β : Type} (x : Out (Option α)) (f : α → Out (Option β)) : Out (Option β) :=
  match x with
  | .ub u => .ub u
  | .ok none => .ok none
  | .ok (some a) => f a

/-- `malloc` of a node, together with the assignments to its fields that follow it; `A` says which calls succeed. -/
def HMem.malloc (A : Nat → Bool) (m : HMem) (n : HNode) : Option Nat × HMem :=
  if A m.calls then (some m.next, ⟨upd m.live m.next (some n), m.next + 1, m.calls + 1⟩)
  else (none, { m with calls := m.calls + 1 })

/-- `free` of a node. -/
def HMem.free (m : HMem) (a : Nat) : Out HMem :=
  match m.live a with
  | none => .ub .badFree
  | some _ => .ok { m with live := upd m.live a none }

/-- The pointers that `add_option_to_list` may be given the address of. -/
inductive Slot where
  | positionals
  | ungrouped
  | subcommands
  | options (g : Nat)
  deriving DecidableEq, Repr

/-- Reading `*list`. -/
def Slot.read (r : HelpRoots) (m : HMem) : Slot → Out (Option Nat)
  | .positionals => .ok r.positionals
  | .ungrouped => .ok r.ungrouped
  | .subcommands => .ok r.subcommands
  | .options g =>
    match m.live g with
    | some (.group _ o _) => .ok o
    | _ => .ub .outOfBounds

/-- Writing `*list`. -/
def Slot.write (r : HelpRoots) (m : HMem) (p : Option Nat) : Slot → Out (HelpRoots × HMem)
  | .positionals => .ok ({ r with positionals := p }, m)
  | .ungrouped => .ok ({ r with ungrouped := p }, m)
  | .subcommands => .ok ({ r with subcommands := p }, m)
  | .options g =>
    match m.live g with
    | some (.group n _ nx) => .ok (r, { m with live := upd m.live g (some (.group n p nx)) })
    | _ => .ub .outOfBounds

/-- source/display/help/help_organizer.c:39-41: the last entry of a list. -/
def lastEntry (m : HMem) : Nat → Nat → Out (Option Nat)
  | 0, _ => .ok none
  | f + 1, a =>
    match m.live a with
    | some (.entry _ none) => .ok (some a)
    | some (.entry _ (some b)) => lastEntry m f b
    | _ => .ub .outOfBounds

/-- help_organizer.c:42 `current->next = entry`. -/
def linkEntry (m : HMem) (a b : Nat) : Out HMem :=
  match m.live a with
  | some (.entry i _) => .ok { m with live := upd m.live a (some (.entry i (some b))) }
  | _ => .ub .outOfBounds

/-- source/display/help/help_organizer.c:19-44 `create_option_entry` and `add_option_to_list`. -/
def addOption (A : Nat → Bool) (r : HelpRoots) (m : HMem) (s : Slot) (i : Nat) : Out (Option (HelpRoots × HMem)) :=
  match m.malloc A (.entry i none) with
  | (none, m1) => .ok (some (r, m1))
  | (some a, m1) =>
    match s.read r m1 with
    | .ub u => .ub u
    | .ok none => (s.write r m1 (some a)).bind fun x => .ok (some x)
    | .ok (some p) =>
      Ends.bind (lastEntry m1 m1.next p) fun l => (linkEntry m1 l a).bind fun m2 => .ok (some (r, m2))

/-- source/display/help/help_organizer.c:48-53: the search of `find_or_create_group`. The inner `Option` is the pointer. -/
def searchGroup (m : HMem) (name : Str) : Nat → Option Nat → Out (Option (Option Nat))
  | _, none => .ok (some none)
  | 0, some _ => .ok none
  | f + 1, some a =>
    match m.live a with
    | some (.group n _ nx) => if strcmp n name = 0 then .ok (some (some a)) else searchGroup m name f nx
    | _ => .ub .outOfBounds

/-- help_organizer.c:66-68: the last group. -/
def lastGroup (m : HMem) : Nat → Nat → Out (Option Nat)
  | 0, _ => .ok none
  | f + 1, a =>
    match m.live a with
    | some (.group _ _ none) => .ok (some a)
    | some (.group _ _ (some b)) => lastGroup m f b
    | _ => .ub .outOfBounds

/-- help_organizer.c:69 `current->next = group`. -/
def linkGroup (m : HMem) (a b : Nat) : Out HMem :=
  match m.live a with
  | some (.group n o _) => .ok { m with live := upd m.live a (some (.group n o (some b))) }
  | _ => .ub .outOfBounds

/-- source/display/help/help_organizer.c:46-73 `find_or_create_group`: the group, NULL if there is no memory for it. -/
def findOrCreateGroupM (A : Nat → Bool) (r : HelpRoots) (m : HMem) (name : Str) :
    Out (Option (Option Nat × HelpRoots × HMem)) :=
  Ends.bind (searchGroup m name m.next r.groups) fun
    | some g => .ok (some (some g, r, m))
    | none =>
      match m.malloc A (.group name none none) with
      | (none, m1) => .ok (some (none, r, m1))
      | (some g, m1) =>
        match r.groups with
        | none => .ok (some (some g, { r with groups := some g }, m1))
        | some p => Ends.bind (lastGroup m1 m1.next p) fun l =>
            (linkGroup m1 l g).bind fun m2 => .ok (some (some g, r, m2))

/-- State of the loop of `organize_options`: `*data`, memory, `current_group` and `group`. -/
structure OrgMem where
  roots : HelpRoots := {}
  mem : HMem
  current : Option Str := none
  group : Option Nat := none

/-- Adding to one of the lists of `data`. -/
def OrgMem.add (A : Nat → Bool) (s : OrgMem) (sl : Slot) (i : Nat) : Out (Option OrgMem) :=
  Ends.bind (addOption A s.roots s.mem sl i) fun x => .ok (some { s with roots := x.1, mem := x.2 })

/-- help_organizer.c:93-99: a visible option. `&group->options` is undefined when `group` is NULL. -/
def organizeOptionM (A : Nat → Bool) (s : OrgMem) (i : Nat) : Out (Option OrgMem) :=
  match s.current with
  | none => s.add A .ungrouped i
  | some name =>
    match s.group with
    | some g => s.add A (.options g) i
    | none => Ends.bind (findOrCreateGroupM A s.roots s.mem name) fun
      | (some g, r, m) => OrgMem.add A { s with roots := r, mem := m, group := some g } (.options g) i
      | (none, _, _) => .ub .nullDeref

/-- help_organizer.c:80-112: one round of the loop. -/
def organizeStepM (A : Nat → Bool) (s : OrgMem) (i : Nat) (o : Opt) : Out (Option OrgMem) :=
  match o.type with
  | .group => .ok (some { s with current := o.name, group := none })
  | .option => if o.flags.has .hidden then .ok (some s) else organizeOptionM A s i
  | .positional => s.add A .positionals i
  | .subcommand => s.add A .subcommands i

/-- help_organizer.c:80-112: the loop from entry `i`. -/
def organizeLoopM (A : Nat → Bool) : Nat → List Opt → OrgMem → Out (Option OrgMem)
  | _, [], s => .ok (some s)
  | i, o :: os, s => Ends.bind (organizeStepM A s i o) fun s1 => organizeLoopM A (i + 1) os s1

/-- source/display/help/help_organizer.c:75-113 `organize_options` on data that is all NULL. -/
def organizeM (A : Nat → Bool) (os : List Opt) (m : HMem) : Out (Option (HelpRoots × HMem)) :=
  Ends.bind (organizeLoopM A 0 os { mem := m }) fun s => .ok (some (s.roots, s.mem))

/-- The walk over a list of entries, help_renderer.c:81-106. -/
def readEntries (m : HMem) : Nat → Option Nat → Out (Option (List Nat))
  | _, none => .ok (some [])
  | 0, some _ => .ok none
  | f + 1, some a =>
    match m.live a with
    | some (.entry i nx) => Ends.bind (readEntries m f nx) fun r => .ok (some (i :: r))
    | _ => .ub .outOfBounds

/-- The walk over the groups, help_renderer.c:116-122. -/
def readGroups (m : HMem) : Nat → Option Nat → Out (Option (List (Str × List Nat)))
  | _, none => .ok (some [])
  | 0, some _ => .ok none
  | f + 1, some a =>
    match m.live a with
    | some (.group n o nx) =>
      Ends.bind (readEntries m m.next o) fun l => Ends.bind (readGroups m f nx) fun r => .ok (some ((n, l) :: r))
    | _ => .ub .outOfBounds

/-- What help_renderer.c:108-140 finds in the lists. -/
def readHelp (r : HelpRoots) (m : HMem) : Out (Option HelpData) :=
  Ends.bind (readEntries m m.next r.positionals) fun ps =>
  Ends.bind (readGroups m m.next r.groups) fun gs =>
  Ends.bind (readEntries m m.next r.ungrouped) fun us =>
  Ends.bind (readEntries m m.next r.subcommands) fun cs => .ok (some ⟨ps, gs, us, cs⟩)

/-- Releasing a list of entries, help_organizer.c:119-124, 131-136, 138-143, 145-150. -/
def freeEntries : Nat → Option Nat → HMem → Out (Option HMem)
  | _, none, m => .ok (some m)
  | 0, some _, _ => .ok none
  | f + 1, some a, m =>
    match m.live a with
    | some (.entry _ nx) => (m.free a).bind fun m1 => freeEntries f nx m1
    | _ => .ub .outOfBounds

/-- Releasing the groups, help_organizer.c:117-129. -/
def freeGroups : Nat → Option Nat → HMem → Out (Option HMem)
  | _, none, m => .ok (some m)
  | 0, some _, _ => .ok none
  | f + 1, some a, m =>
    match m.live a with
    | some (.group _ o _) =>
      Ends.bind (freeEntries m.next o m) fun m1 =>
        match m1.live a with
        | some (.group _ _ nx) => (m1.free a).bind fun m2 => freeGroups f nx m2
        | _ => .ub .outOfBounds
    | _ => .ub .outOfBounds

/-- source/display/help/help_organizer.c:115-151 `free_help_data`. -/
def freeHelp (r : HelpRoots) (m : HMem) : Out (Option HMem) :=
  Ends.bind (freeGroups m.next r.groups m) fun m1 =>
  Ends.bind (freeEntries m1.next r.ungrouped m1) fun m2 =>
  Ends.bind (freeEntries m2.next r.positionals m2) fun m3 =>
  freeEntries m3.next r.subcommands m3

/-- source/display/help_display.c:24-35 `display_help` for the active options, with its memory: the text printed and what is
    left in memory. The text is the one of Model/Display for the lists found in memory. -/
def displayHelpM (F : Fmt) (a : Argus) (A : Nat → Bool) (m : HMem) : Out (Option (Str × HMem)) := do
  let t ← a.activeOptions
  let os ← a.table t
  Ends.bind (organizeM A os m) fun x =>
    Ends.bind (readHelp x.1 x.2) fun d =>
      Ends.bind (helpSections F a os d) fun s =>
        Ends.bind (freeHelp x.1 x.2) fun m1 => .ok (some (s ++ c!"\n", m1))

end Argus
