import Verif.Model.Types

/-! # The commands a program offers -/

set_option autoImplicit false

namespace Argus

/-- The entries of the table with number `k`. -/
def Argus.entries (a : Argus) (k : Option Nat) : List Opt :=
  match k with
  | none => []
  | some k => a.tables[k]?.getD []

/-- A command that can be executed: a subcommand with an action. -/
def Opt.executable (o : Opt) : Bool := o.type == .subcommand && o.action.isSome

/-- The executable commands below table `k` down to `depth` levels, with the words to type for them and their help. -/
def Argus.executables (a : Argus) : (depth : Nat) → (path : Str) → (k : Option Nat) → List (Str × Option Str)
  | 0, _, _ => []
  | depth + 1, path, k => (a.entries k).flatMap (fun o =>
      if o.type == .subcommand then
        (if o.action.isSome then [(path ++ [32] ++ o.name.getD [], o.help)] else []) ++
          a.executables depth (path ++ [32] ++ o.name.getD []) o.subOptions
      else [])

/-- The executable commands of the first two levels as far as the buffers hold them: 511 bytes of a path, and for the
    second level 511 bytes of the path above and 1023 in all. -/
def Argus.overview (a : Argus) : List (Str × Option Str) :=
  (a.entries (some a.root)).flatMap (fun o =>
    if o.type == .subcommand then
      (if o.action.isSome then [((a.programName ++ [32] ++ o.name.getD []).take 511, o.help)] else []) ++
        ((a.entries o.subOptions).filter Opt.executable).map (fun s =>
          (((a.programName ++ [32] ++ o.name.getD []).take 511 ++ [32] ++ s.name.getD []).take 1023, s.help))
    else [])

/-- A path cut to 511 bytes. -/
def cutPath (c : Str × Option Str) : Str × Option Str := (c.1.take 511, c.2)

/-- One line of a list of commands: two spaces, the words to type, padding up to `column` (at least two spaces if there
    is no room), and the help. -/
def listLine (column : Nat) (c : Str × Option Str) : Str :=
  [32, 32] ++ c.1 ++ List.replicate (if c.1.length + 2 < column then column - (c.1.length + 2) else 2) 32 ++
  (match c.2 with
   | some h => c!"- " ++ h
   | none => []) ++ [10]

/-- Blocks of lines with an empty line between them. -/
def inBlocks : List (List Str) → Str
  | [] => []
  | [b] => b.flatten
  | b :: bs => b.flatten ++ [10] ++ inBlocks bs

/-- Every subcommand below table `k`, down to `depth` levels, each followed by those below it. -/
def Argus.below (a : Argus) : (depth : Nat) → (path : Str) → (k : Option Nat) → List (Str × Option Str)
  | 0, _, _ => []
  | depth + 1, path, k => (a.entries k).flatMap (fun o =>
      if o.type == .subcommand then
        (path ++ [32] ++ o.name.getD [], o.help) :: a.below depth (path ++ [32] ++ o.name.getD []) o.subOptions
      else [])

/-- A positional in the usage line: in angle brackets if required, else in square brackets, with dots if it takes
    several values. -/
def bracketed (o : Opt) : Str :=
  let body := o.name.getD [] ++ (if o.valueType.isVariadic then c!"..." else [])
  if o.flags.has .required then c!"<" ++ body ++ c!">" else c!"[" ++ body ++ c!"]"

end Argus
