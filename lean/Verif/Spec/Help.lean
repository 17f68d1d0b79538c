import Verif.Model.Types

/-! # Where an entry of a table belongs in the help -/

set_option autoImplicit false

namespace Argus

/-- The sections of a help text. -/
inductive Section where
  | arguments
  | group (title : Str)
  | options
  | commands
  deriving DecidableEq, Repr

/-- The group in force at position `i`: the name of the last group entry before it. A group entry without a name ends
    the group before it. -/
def groupAt (os : List Opt) (i : Nat) : Option Str :=
  match (os.take i).reverse.find? (fun o => o.type == .group) with
  | some o => o.name
  | none => none

/-- The section an entry belongs to. Hidden options and group entries belong to none. -/
def sectionOf (os : List Opt) (i : Nat) : Option Section :=
  match os[i]? with
  | none => none
  | some o =>
    match o.type with
    | .group => none
    | .positional => some .arguments
    | .subcommand => some .commands
    | .option =>
      if o.flags.has .hidden then none
      else
        match groupAt os i with
        | some title => some (.group title)
        | none => some .options

/-- The entries of a section, in the order of their declaration. -/
def entriesOf (os : List Opt) (s : Section) : List Nat :=
  (List.range os.length).filter (fun i => sectionOf os i = some s)

/-- The title of a group section. -/
def Section.title? : Section → Option Str
  | .group t => some t
  | _ => none

/-- The titles of the groups that have entries, each once, in the order of their first entries. -/
def groupTitles (os : List Opt) : List Str :=
  ((List.range os.length).filterMap (fun i => (sectionOf os i).bind Section.title?)).eraseDups

end Argus
