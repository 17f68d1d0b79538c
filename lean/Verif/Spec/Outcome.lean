import Verif.Spec.Depth
import Verif.Spec.History
import Verif.Spec.Constraints

/-!
# The outcome of a parse, option by option

What the options hold after a successful parse, told for each option from its own texts, without the order in
which things happen to different options.
-/

set_option autoImplicit false

namespace Argus

/-- The entry at a place of the tables. -/
def placeAt (tables : List (List Opt)) (p : Ptr) : Option Opt := (tables[p.tbl]?).bind (·[p.idx]?)

/-- The table of options a subcommand leads to. -/
def tableBelow (tables : List (List Opt)) (p : Ptr) : Option Nat := (placeAt tables p).bind (·.subOptions)

/-- A text does for an option, and parsing goes on: the validators of texts are met, the option does not end the
    program, and the handler makes `o'` of it. -/
structure TakesText (W : World) (x : Option Str) (o o' : Opt) : Prop where
  validators : ∀ v ∈ o.validators.getD [], v.order = .pre → MeetsText W x v.kind
  goesOn : o.flags.has .exit = false
  handled : o.give W x = some o'

/-- An option is looked up in the environment: there is nothing for it, or its variable has a text that it takes. -/
inductive LooksUp (W : World) (env : Env) (envPrefix : Option Str) (o : Opt) : Opt → Prop where
  | idle : EnvIdle env envPrefix o → LooksUp W env envPrefix o o
  | read (n v : Str) (o' : Opt) : o.type = .option ∨ o.type = .positional →
      o.isSet = false ∨ o.flags.has .envOverride = true → envVarName envPrefix o = some n → env n = some v →
      TakesText W (some v) o o' → LooksUp W env envPrefix o o'

/-- One change after the other. -/
def Through : List (Opt → Opt → Prop) → Opt → Opt → Prop
  | [], o, o' => o' = o
  | r :: rs, o, o' => ∃ o1, r o o1 ∧ Through rs o1 o'

/-- What a thing asked for does to the entry at `p`. -/
def Act.change (W : World) (p : Ptr) : Act → Option (Opt → Opt → Prop)
  | .give q x => if q = p then some (TakesText W x) else none
  | .enter q => if q = p then some (fun o o' => o' = { o with isSet := true }) else none
  | _ => none

/-- The tables of a command path, the main one first. -/
def pathTables (a : Argus) (path : List Ptr) : List Nat := a.root :: path.filterMap (tableBelow a.tables)

/-- The command line and the environment are accepted, and leave the tables `T` and the command path `path`:
    * everything on the line can be read,
    * it enters subcommands at most eight levels deep,
    * each entry goes through what the line asks of it and, if its table is on the path, through the environment,
    * the tables on the path exist and what they declare holds of the result. -/
structure Accepted (W : World) (env : Env) (a : Argus) (args : List Str) (T : List (List Opt)) (path : List Ptr) :
    Prop where
  readable : ∀ x ∈ a.asks args, x ≠ .noTable ∧ ∀ c, x ≠ .fail c
  selected : path = a.stack ++ entered (a.asks args)
  depth : entered (a.asks args) = [] ∨ path.length ≤ 8
  sizes : T.map List.length = a.tables.map List.length
  entries : ∀ p o, placeAt a.tables p = some o → ∃ o', placeAt T p = some o' ∧
    Through ((a.asks args).filterMap (Act.change W p) ++
      List.replicate ((pathTables a path).count p.tbl) (LooksUp W env a.envPrefix)) o o'
  root : ∃ os, T[a.root]? = some os ∧ LevelOk W os
  levels : ∀ p ∈ path, ∃ k os, tableBelow a.tables p = some k ∧ T[k]? = some os ∧ LevelOk W os

/-- Help options end the program, as OPTION_HELP declares them. -/
def HelpExits (T : List (List Opt)) : Prop :=
  ∀ p o, placeAt T p = some o → o.handler = some .help → o.flags.has .exit = true

end Argus
