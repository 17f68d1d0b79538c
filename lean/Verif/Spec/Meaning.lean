import Verif.Spec.Prefix

/-!
# The meaning of a command line

`meaning tables ...` reads a command line against the declared options, without running anything:
the result is the list of things the command line asks for, in order. `run` carries them out.
Only names, types and flags of the options matter for `meaning`, never their values.
-/

set_option autoImplicit false

namespace Argus

/-- One thing asked for by a command line. -/
inductive Act where
  /-- hand a text to an option (`none` for a flag) -/
  | give (p : Ptr) (text : Option Str)
  /-- select a subcommand -/
  | enter (p : Ptr)
  /-- an error at this point of the line -/
  | fail (code : Int)
  /-- the options array of the level is missing -/
  | noTable
  deriving DecidableEq, Repr

/-- Index of the option with a long name. -/
def longIdx (os : List Opt) (name : Str) : Option Nat :=
  os.findIdx? (fun o => decide (o.type = .option ∧ o.lname = some name))

/-- Index of the option with a short name. -/
def shortIdx (os : List Opt) (c : Byte) : Option Nat :=
  os.findIdx? (fun o => decide (o.type = .option ∧ o.sname = c))

/-- The subcommands of a table whose name begins with `arg`, with their indices. -/
def subMatches (os : List Opt) (arg : Str) : List (Opt × Nat) :=
  os.zipIdx.filter (fun x => x.1.type = .subcommand ∧ x.1.name.any (fun n => arg.isPrefixOf n))

/-- Option number `i` of a table is a flag. -/
def isFlagAt (os : List Opt) (i : Nat) : Bool := os[i]?.any (fun o => o.valueType = .flag)

/-- An argument at a positional place. -/
def posActs (t : Nat) (os : List Opt) (pos : Nat) (arg : Str) : List Act :=
  match slotAt os pos with
  | some (_, i) => [.give ⟨t, i⟩ (some arg)]
  | none => [.fail Err.invalidArgument]

/-- The argument `--name` or `--name=value`; `next` is the following argument. The second component
    tells whether `next` was used. -/
def longActs (t : Nat) (os : List Opt) (name : Str) (value next : Option Str) : List Act × Bool :=
  match longIdx os name with
  | none => ([.fail Err.invalidArgument], false)
  | some i =>
    if isFlagAt os i then ([.give ⟨t, i⟩ none], false)
    else
      match value, next with
      | some v, _ => ([.give ⟨t, i⟩ (some v)], false)
      | none, some v => ([.give ⟨t, i⟩ (some v)], true)
      | none, none => ([.fail Err.missingValue], false)

/-- A cluster of short options. -/
def shortActs (t : Nat) (os : List Opt) (next : Option Str) : Str → List Act × Bool
  | [] => ([], false)
  | c :: cs =>
    match shortIdx os c with
    | none => ([.fail Err.invalidArgument], false)
    | some i =>
      if isFlagAt os i then
        (.give ⟨t, i⟩ none :: (shortActs t os next cs).1, (shortActs t os next cs).2)
      else
        match cs, next with
        | _ :: _, _ => ([.give ⟨t, i⟩ (some cs)], false)
        | [], some v => ([.give ⟨t, i⟩ (some v)], true)
        | [], none => ([.fail Err.missingValue], false)

/-- The kinds of arguments. -/
inductive ArgKind where
  /-- `--` -/
  | dashes
  /-- `--name` or `--name=value` -/
  | long (name : Str) (value : Option Str)
  /-- `-abc` (also a lone `-`) -/
  | short (cluster : Str)
  /-- anything else -/
  | word
  deriving DecidableEq

/-- Spelling decides the kind of an argument. Long names count up to 63 bytes. -/
def argKind : Str → ArgKind
  | 45 :: 45 :: [] => .dashes
  | 45 :: 45 :: r =>
    if (61 : Byte) ∈ r then
      .long ((r.takeWhile (· != 61)).take 63) (some ((r.dropWhile (· != 61)).drop 1))
    else .long (r.take 63) none
  | 45 :: r => .short r
  | _ => .word

/-- The cluster begins like a number, and the next positional is an int or a float. -/
def negNumber (os : List Opt) (pos : Nat) (cluster : Str) : Bool :=
  looksNumeric cluster &&
    (slotAt os pos).any (fun x => decide (x.1.valueType = .int ∨ x.1.valueType = .float))

/-- A word that begins some subcommand name selects the subcommand, unless several begin with it
    and the first of them is not spelled out in full. -/
def subChoice (os : List Opt) (arg : Str) : Option (Except Int (Opt × Nat)) :=
  match subMatches os arg with
  | [] => none
  | [x] => some (.ok x)
  | x :: _ => if x.1.name = some arg then some (.ok x) else some (.error Err.ambiguousSubcommand)

/-- The meaning of the arguments: `t` is the table in force, `pos` the number of positional arguments
    seen at this level, `only` tells whether `--` was seen, `skip` whether the first argument has
    already been used as a value. A lone `-` asks for nothing. -/
def meaning (tables : List (List Opt)) : (t : Option Nat) → (pos : Nat) → (only skip : Bool) →
    List Str → List Act
  | _, _, _, _, [] => []
  | t, pos, only, true, _ :: rest => meaning tables t pos only false rest
  | t, pos, only, false, arg :: rest =>
    if argKind arg = .dashes then meaning tables t pos true false rest
    else if argKind arg = .short [] ∧ only = false then meaning tables t pos only false rest
    else
      match t, t.bind (fun k => tables[k]?) with
      | some k, some os =>
        if only then posActs k os pos arg ++ meaning tables t (pos + 1) true false rest
        else
          match argKind arg with
          | .dashes => []
          | .long name value =>
            (longActs k os name value rest.head?).1 ++
              meaning tables t pos false (longActs k os name value rest.head?).2 rest
          | .short cluster =>
            if negNumber os pos cluster then
              posActs k os pos arg ++ meaning tables t (pos + 1) false false rest
            else
              (shortActs k os rest.head? cluster).1 ++
                meaning tables t pos false (shortActs k os rest.head? cluster).2 rest
          | .word =>
            match subChoice os arg with
            | some (.ok x) => .enter ⟨k, x.2⟩ :: meaning tables x.1.subOptions 0 false false rest
            | some (.error c) => [.fail c]
            | none => posActs k os pos arg ++ meaning tables t (pos + 1) false false rest
      | _, _ => [.noTable]

/-- The meaning of a whole command line. -/
def Argus.asks (a : Argus) (args : List Str) : List Act :=
  meaning a.tables (some a.root) 0 false false args

/-- Carry out what was asked for, up to the first failure. -/
def run (W : World) : Argus → List Act → Out (Int × Argus)
  | a, [] => .ok (Err.success, a)
  | a, .give p text :: rest => do
    let r ← execCallbacks W a p text
    if r.1 ≠ Err.success then .ok r else run W r.2 rest
  | a, .enter p :: rest => do
    let e ← enterSub a p
    run W e.2 rest
  | a, .fail code :: _ => .ok (code, a.report code)
  | _, .noTable :: _ => .ub .nullDeref

end Argus
