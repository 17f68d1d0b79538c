import Verif.Spec.Reword
import Verif.Spec.Explicit

/-!
# Programs with other names

`NamedOtherwise N a b`: the program `b` is `a` with other names for its options, groups, positionals and subcommands, other
environment variables and other texts.
-/

set_option autoImplicit false

namespace Argus

/-- What goes with a change of names: the new name of each name, and the environments and prefixes of the two programs. -/
structure Naming where
  name : Str → Str
  env : Env
  env' : Env
  envPrefix : Option Str
  envPrefix' : Option Str

/-- Different names stay different. -/
def Naming.Distinct (N : Naming) : Prop := ∀ x y, N.name x = N.name y → x = y

/-- `o'` is `o` with another name, another short and long name, and other texts. The lists of required and conflicting options
    follow the names, and the variable of `o'` says what that of `o` says. -/
structure Renamed (N : Naming) (o o' : Opt) : Prop where
  same : { o' with help := o.help, hint := o.hint, flags := o.flags, name := o.name, sname := o.sname, lname := o.lname,
                   envName := o.envName, require := o.require, conflict := o.conflict } = o
  flags : ∀ f : Flag, ¬ f.isForDisplay → o'.flags.has f = o.flags.has f
  name : o'.name = o.name.map N.name
  require : o'.require = o.require.map (·.map N.name)
  conflict : o'.conflict = o.conflict.map (·.map N.name)
  says : (envVarName N.envPrefix' o').bind N.env' = (envVarName N.envPrefix o).bind N.env

/-- The programs `a` and `b` differ in names and in what they show only. -/
structure NamedOtherwise (N : Naming) (a b : Argus) : Prop where
  sizes : b.tables.map List.length = a.tables.map List.length
  entries : ∀ p o, placeAt a.tables p = some o → ∃ o', placeAt b.tables p = some o' ∧ Renamed N o o'
  rest : { b with tables := a.tables, programName := a.programName, version := a.version, description := a.description,
                  helper := a.helper, envPrefix := a.envPrefix } = a
  envPrefix : a.envPrefix = N.envPrefix
  envPrefix' : b.envPrefix = N.envPrefix'

/-- The user's handlers and validators do not look at names and texts. -/
structure MindsNoNames (N : Naming) (W : World) : Prop where
  handler : ∀ id o o' x, Renamed N o o' → W.handler id o' x = W.handler id o x
  validator : ∀ id o o', Renamed N o o' → W.postValidator id o' = W.postValidator id o

/-- Everything can be called by its full name: options by their long names, subcommands by theirs. -/
structure AllCalled (tables : List (List Opt)) : Prop where
  long : LongNamed tables
  plain : PlainSubs tables
  subs : ∀ os ∈ tables, ∀ (i : Nat) (o : Opt), os[i]? = some o → o.type = .subcommand →
    ∃ name, o.name = some name ∧ MeantSub os name i o

/-- No text for a positional begins the name of a subcommand of the same table. -/
def FreeWords (tables : List (List Opt)) (acts : List Act) : Prop :=
  ∀ (p : Ptr) (x : Str) (os : List Opt) (o : Opt), .give p (some x) ∈ acts → tables[p.tbl]? = some os → os[p.idx]? = some o →
    o.type = .positional → ∀ o' ∈ os, ¬ BeginsSub x o'

end Argus
