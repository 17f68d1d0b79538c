import Verif.Spec.Outcome
import Verif.Spec.Maps
import Verif.Spec.Ranges
import Verif.Spec.Fields
import Verif.Spec.Numeral

/-!
# The first fault

Why a parse stops, and with which status: the first thing on the line that cannot be read or is refused, else the first
variable of the environment that is refused, else the first entry of the tables whose constraints do not hold. The order
of all these is part of the specification.
-/

set_option autoImplicit false

namespace Argus

/-- A validator of texts refuses the text `x` with this status. -/
inductive RefusesText (W : World) (x : Option Str) : VKind → Int → Prop
  | noRegex (p hint : Option Str) : W.regexAvailable = false → RefusesText W x (.regex p hint) Err.invalidValue
  | noPattern (hint : Option Str) : RefusesText W x (.regex none hint) Err.invalidValue
  | noMatch (p : Str) (hint : Option Str) : W.regex p x = .noMatch → RefusesText W x (.regex (some p) hint) Err.invalidValue
  | broken (p : Str) (hint : Option Str) : W.regexAvailable = true → W.regex p x = .compileError ∨ W.regex p x = .otherError →
      RefusesText W x (.regex (some p) hint) Err.invalidFormat
  | custom (id : Nat) : (W.preValidator id x).1 ≠ Err.success → RefusesText W x (.custom id) (W.preValidator id x).1

/-- The type of the values of a map, by its handler. -/
def Handler.mapType : Handler → Option ValueType
  | .mapString => some .mapString
  | .mapInt => some .mapInt
  | .mapFloat => some .mapFloat
  | .mapBool => some .mapBool
  | _ => none

/-- A text that an int array takes: a range, a number, or nothing. -/
def TakesInts (p : Str) : Prop := ∃ lo hi, RangeText p lo hi

/-- A text that a map takes: a key and a value of its type. -/
def TakesPair (W : World) (vt : ValueType) (p : Str) : Prop :=
  ∃ key value y, p = key ++ c!"=" ++ value ∧ (61 : Byte) ∉ key ∧ TextValue W vt value y

/-- The handler of option `o` refuses the text `x` with this status. Of the pieces of a text the first bad one counts. -/
inductive HandlerRefuses (W : World) (x : Option Str) (o : Opt) : Int → Prop
  | bool : o.handler = some .bool → (∀ t, x = some t → ¬ MeansTrue t ∧ ¬ MeansFalse t) →
      HandlerRefuses W x o Err.invalidArgument
  | ints (t p : Str) (before after : List Str) : o.handler = some .arrayInt → x = some t → pieces t = before ++ p :: after →
      (∀ q ∈ before, TakesInts q) → ¬ TakesInts p → HandlerRefuses W x o Err.invalidFormat
  | noPair (h : Handler) (vt : ValueType) (t p : Str) (before after : List Str) : o.handler = some h → h.mapType = some vt →
      x = some t → pieces t = before ++ p :: after → (∀ q ∈ before, TakesPair W vt q) → (61 : Byte) ∉ p →
      HandlerRefuses W x o Err.invalidFormat
  | badValue (h : Handler) (vt : ValueType) (t p : Str) (before after : List Str) : o.handler = some h → h.mapType = some vt →
      x = some t → pieces t = before ++ p :: after → (∀ q ∈ before, TakesPair W vt q) → (61 : Byte) ∈ p → ¬ TakesPair W vt p →
      HandlerRefuses W x o Err.invalidValue
  | variadicInt (t : Str) : o.handler = some .variadicInt → x = some t → (∀ n, ¬ IsNumeral t n) →
      HandlerRefuses W x o Err.invalidValue
  | variadicFloat (t : Str) : o.handler = some .variadicFloat → x = some t → (t = [] ∨ (W.strtod t).2 ≠ t.length) →
      HandlerRefuses W x o Err.invalidValue
  | custom (id : Nat) : o.handler = some (.custom id) → (W.handler id o x).status ≠ Err.success →
      HandlerRefuses W x o (W.handler id o x).status

/-- Giving option `o` the text `x` stops the parse with this status: the option refuses it, or ends the program. The
    validators come before the handler, in the order they are declared in. -/
inductive StopsAt (W : World) (x : Option Str) (o : Opt) : Int → Prop
  | noHandler : o.handler = none → StopsAt W x o Err.invalidHandler
  | validator (before after : List Validator) (v : Validator) (st : Int) : o.handler ≠ none →
      o.validators.getD [] = before ++ v :: after → (∀ w ∈ before, w.order = .pre → MeetsText W x w.kind) → v.order = .pre →
      RefusesText W x v.kind st → StopsAt W x o st
  | handler (st : Int) : (∀ v ∈ o.validators.getD [], v.order = .pre → MeetsText W x v.kind) → HandlerRefuses W x o st →
      StopsAt W x o st
  | exit (o' : Opt) : (∀ v ∈ o.validators.getD [], v.order = .pre → MeetsText W x v.kind) → o.give W x = some o' →
      o.flags.has .exit = true → StopsAt W x o Err.shouldExit

/-- The command line stops the parse with this status: all that comes before on the line is carried out, the next thing
    cannot be read or is not taken. -/
structure LineStops (W : World) (a : Argus) (args : List Str) (st : Int) (done : List Act) (act : Act) (rest : List Act) : Prop where
  split : a.asks args = done ++ act :: rest
  readable : ∀ x ∈ done, x ≠ .noTable ∧ ∀ c, x ≠ .fail c
  depth : entered done = [] ∨ (a.stack ++ entered done).length ≤ 8
  taken : ∀ p o, placeAt a.tables p = some o → ∃ o', Through (done.filterMap (Act.change W p)) o o'
  stops : act = .fail st ∨ ∃ p x o o', act = .give p x ∧ placeAt a.tables p = some o ∧
    Through (done.filterMap (Act.change W p)) o o' ∧ StopsAt W x o' st

/-- The entries of the tables `ks` in the order in which they are looked up in the environment. -/
def lookups (T : List (List Opt)) (ks : List Nat) : List Ptr :=
  ks.flatMap (fun k => (List.range ((T[k]?.map List.length).getD 0)).map (fun i => ⟨k, i⟩))

/-- The whole line is carried out, and leads to this command path. -/
structure LineDone (W : World) (a : Argus) (args : List Str) (path : List Ptr) : Prop where
  readable : ∀ x ∈ a.asks args, x ≠ .noTable ∧ ∀ c, x ≠ .fail c
  selected : path = a.stack ++ entered (a.asks args)
  depth : entered (a.asks args) = [] ∨ path.length ≤ 8

/-- The environment stops the parse with this status: the line and all variables of options before `p` are taken, that of
    the option at `p` is not. -/
structure EnvStops (W : World) (env : Env) (a : Argus) (args : List Str) (st : Int) (path before after : List Ptr) (p : Ptr) :
    Prop where
  line : LineDone W a args path
  split : lookups a.tables (pathTables a path) = before ++ p :: after
  taken : ∀ q o, placeAt a.tables q = some o → ∃ o',
    Through ((a.asks args).filterMap (Act.change W q) ++ List.replicate (before.count q) (LooksUp W env a.envPrefix)) o o'
  stops : ∃ o o' n v, placeAt a.tables p = some o ∧
    Through ((a.asks args).filterMap (Act.change W p) ++ List.replicate (before.count p) (LooksUp W env a.envPrefix)) o o' ∧
    (o'.type = .option ∨ o'.type = .positional) ∧ (o'.isSet = false ∨ o'.flags.has .envOverride = true) ∧
    envVarName a.envPrefix o' = some n ∧ env n = some v ∧ StopsAt W (some v) o' st

/-- A validator of values refuses what the option holds, with this status. -/
inductive RefusesValue (W : World) (o : Opt) (k : VKind) : Int → Prop
  | range (mn mx : Int) : k = .range mn mx → RefusesValue W o k Err.invalidRange
  | count (mn mx : Int) : k = .count mn mx → RefusesValue W o k Err.invalidRange
  | length (mn mx : Int) : k = .length mn mx → o.value ≠ .word .null → RefusesValue W o k Err.invalidRange
  | noString (mn mx : Int) : k = .length mn mx → o.value = .word .null → RefusesValue W o k Err.invalidValue
  | choiceStr (cs : List Str) : k = .choiceStr cs → RefusesValue W o k Err.invalidChoice
  | choiceInt (cs : List Int) : k = .choiceInt cs → RefusesValue W o k Err.invalidChoice
  | choiceFloat (cs : List F64) : k = .choiceFloat cs → RefusesValue W o k Err.invalidChoice
  | custom (id : Nat) : k = .custom id → RefusesValue W o k (W.postValidator id o).1

/-- Another entry of the same exclusive group is set before: `pre` are the entries before in the table. -/
def Crowded (pre : List Opt) : Prop :=
  ∃ front g mid, pre = front ++ g :: mid ∧ g.type = .group ∧ g.flags.has .exclusive = true ∧ (∀ x ∈ mid, x.type ≠ .group) ∧
    ∃ x ∈ mid, x.isSet = true

/-- All that the entry `o` of table `os` declares holds; `pre` are the entries before it. -/
structure EntryFine (W : World) (os pre : List Opt) (o : Opt) : Prop where
  positional : o.type = .positional → o.flags.has .required = true → o.isSet = true
  alone : o.type ≠ .group → o.isSet = true → ¬ Crowded pre
  validators : o.type ≠ .group → o.isSet = true → ∀ v ∈ o.validators.getD [], v.order = .post → Meets W o v.kind
  requires : o.type ≠ .group → o.isSet = true → ∀ n ∈ o.require.getD [], ∀ r, Refers os n r → r.isSet = true
  conflicts : o.type ≠ .group → o.isSet = true → ∀ n ∈ o.conflict.getD [], ∀ r, Refers os n r → r.isSet = false

/-- What is wrong with the entry `o` of table `os`, and the status that says so; `pre` are the entries before it. -/
inductive EntryFault (W : World) (os pre : List Opt) (o : Opt) : Int → Prop
  | missing : o.type = .positional → o.flags.has .required = true → o.isSet = false → EntryFault W os pre o Err.missingRequired
  | crowded : o.type ≠ .group → o.isSet = true → Crowded pre → EntryFault W os pre o Err.exclusiveGroup
  | validator (before after : List Validator) (v : Validator) (st : Int) : o.type ≠ .group → o.isSet = true → ¬ Crowded pre →
      o.validators.getD [] = before ++ v :: after → (∀ w ∈ before, w.order = .post → Meets W o w.kind) → v.order = .post →
      ¬ Meets W o v.kind → RefusesValue W o v.kind st → EntryFault W os pre o st
  | requirement (n : Str) (r : Opt) : o.type ≠ .group → o.isSet = true → ¬ Crowded pre →
      (∀ v ∈ o.validators.getD [], v.order = .post → Meets W o v.kind) → n ∈ o.require.getD [] → Refers os n r → r.isSet = false →
      EntryFault W os pre o Err.missingRequired
  | conflict (n : Str) (r : Opt) : o.type ≠ .group → o.isSet = true → ¬ Crowded pre →
      (∀ v ∈ o.validators.getD [], v.order = .post → Meets W o v.kind) →
      (∀ n ∈ o.require.getD [], ∀ r, Refers os n r → r.isSet = true) → n ∈ o.conflict.getD [] → Refers os n r → r.isSet = true →
      EntryFault W os pre o Err.conflictingOptions

/-- The first entry of the table that has a fault, with its status. -/
def TableStops (W : World) (os : List Opt) (st : Int) : Prop :=
  ∃ pre o post, os = pre ++ o :: post ∧ (∀ p q r, pre = p ++ q :: r → EntryFine W os p q) ∧ EntryFault W os pre o st

/-- The line and the environment are taken, and lead to the tables `T` and the command path `path`. -/
structure Taken (W : World) (env : Env) (a : Argus) (args : List Str) (T : List (List Opt)) (path : List Ptr) : Prop where
  line : LineDone W a args path
  sizes : T.map List.length = a.tables.map List.length
  entries : ∀ p o, placeAt a.tables p = some o → ∃ o', placeAt T p = some o' ∧
    Through ((a.asks args).filterMap (Act.change W p) ++
      List.replicate ((pathTables a path).count p.tbl) (LooksUp W env a.envPrefix)) o o'

/-- The declarations stop the parse with this status: line and environment are taken, the levels of commands before are
    in order, that of table `k` is not. -/
structure LevelStops (W : World) (env : Env) (a : Argus) (args : List Str) (st : Int) (T : List (List Opt)) (path : List Ptr)
    (before after : List Nat) (k : Nat) : Prop where
  taken : Taken W env a args T path
  split : pathTables a path = before ++ k :: after
  fine : ∀ j ∈ before, ∃ os, T[j]? = some os ∧ LevelOk W os
  stops : ∃ os, T[k]? = some os ∧ TableStops W os st

/-- Why a parse that does not succeed ends as it does: with the first fault of the line, else of the environment, else of
    the declarations. A line that asks for the end of the program ends it. -/
inductive FirstFault (W : World) (env : Env) (a : Argus) (args : List Str) : ParseEnd → Prop
  | exit (done rest : List Act) (act : Act) : LineStops W a args Err.shouldExit done act rest → FirstFault W env a args .exited
  | line (st : Int) (done rest : List Act) (act : Act) : st ≠ Err.shouldExit → LineStops W a args st done act rest →
      FirstFault W env a args (.returned st)
  | env (st : Int) (path before after : List Ptr) (p : Ptr) : EnvStops W env a args st path before after p →
      FirstFault W env a args (.returned st)
  | level (st : Int) (T : List (List Opt)) (path : List Ptr) (before after : List Nat) (k : Nat) :
      LevelStops W env a args st T path before after k → FirstFault W env a args (.returned st)

end Argus
