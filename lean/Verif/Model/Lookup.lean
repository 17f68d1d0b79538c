import Verif.Model.Types

/-!
# Option lookup, source/utils/option_lookup.c
-/

set_option autoImplicit false

namespace Argus

/-- source/utils/option_lookup.c:16-26 `find_option_by_lname`: index of the entry. -/
def findLname (os : List Opt) (lname : Str) : Option Nat :=
  os.findIdx? (fun o => o.type == .option && o.lname == some lname)

/-- source/utils/option_lookup.c:28-35 `find_option_by_sname`. -/
def findSname (os : List Opt) (sname : Byte) : Option Nat :=
  os.findIdx? (fun o => o.type == .option && o.sname == sname)

/-- source/utils/option_lookup.c:37-49 `find_positional`, the loop from entry `i` on with the
    number `pos` of positionals passed so far. -/
def findPositionalFrom (position : Nat) : (i pos : Nat) → List Opt → Option Nat
  | _, _, [] => none
  | i, pos, o :: os =>
    if o.type == .positional then
      if o.valueType.isVariadic || pos == position then some i
      else findPositionalFrom position (i + 1) (pos + 1) os
    else findPositionalFrom position (i + 1) pos os

/-- source/utils/option_lookup.c:37-49 `find_positional`. -/
def findPositional (os : List Opt) (position : Nat) : Option Nat :=
  findPositionalFrom position 0 0 os

/-- source/utils/option_lookup.c:51-59 `find_option_by_name`. -/
def findName (os : List Opt) (name : Str) : Option Nat :=
  os.findIdx? (fun o => o.name == some name)

/-- `find_option_by_name` through an options pointer. -/
def Argus.findNameIn (a : Argus) (t : Option Nat) (name : Str) : Out (Option Ptr) := do
  let os ← a.table t
  match t, findName os name with
  | some k, some i => .ok (some ⟨k, i⟩)
  | _, _ => .ok none

/-- source/utils/option_lookup.c:61-69 `get_active_options`. -/
def Argus.activeOptions (a : Argus) : Out (Option Nat) :=
  match a.stack.getLast? with
  | some p => do
    let o ← a.getOpt p
    .ok o.subOptions
  | none => .ok (some a.root)

/-- source/utils/option_lookup.c:71-86 `find_from_relative_path`; `levels` are the entries of the
    subcommand stack, innermost first. -/
def Argus.findRelative (a : Argus) (name : Str) : List Ptr → Out (Option Ptr)
  | [] => a.findNameIn (some a.root) name
  | p :: ps => do
    let cmd ← a.getOpt p
    match ← a.findNameIn cmd.subOptions name with
    | some q => .ok (some q)
    | none => a.findRelative name ps

/-- source/utils/option_lookup.c:88-97 `count_components`: the number of dots. -/
def countComponents (path : Str) : Nat := path.countP (· == 46)

/-- source/utils/option_lookup.c:117-133, the loop of `find_option_by_active_path` for `n`
    remaining components over the remaining stack entries. -/
def Argus.findComponents (a : Argus) : (n : Nat) → (component : Str) → (options : Option Nat) →
    List Ptr → Out (Option Ptr)
  | 0, component, options, _ => a.findNameIn options component
  | n + 1, component, options, stack =>
    match strchrSplit 46 component with
    | none => a.findNameIn options component
    | some (comp, rest) =>
      match stack with
      | [] => .ub .outOfBounds
      | p :: ps => do
        let cmd ← a.getOpt p
        match cmd.name with
        | none => .ub .nullDeref
        | some cname =>
          if strncmpEq comp.length component cname then
            a.findComponents n rest cmd.subOptions ps
          else .ok none

/-- source/utils/option_lookup.c:99-134 `find_option_by_active_path` for a non-NULL path. -/
def Argus.findPath (a : Argus) (path : Str) : Out (Option Ptr) :=
  if path.contains 46 then
    if path.head? = some 46 then a.findNameIn (some a.root) path.tail
    else if countComponents path > a.stack.length then .ok none
    else a.findComponents (countComponents path) path (some a.root) a.stack
  else a.findRelative path a.stack.reverse

end Argus
