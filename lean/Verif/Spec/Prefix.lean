import Verif.Model.Parse

/-!
# The state of the parser in the middle of a command line

`Reach W a pre s` says that reading the arguments `pre` raised no error, requested no exit, and left
the parser in state `s`, ready for the next argument.
-/

set_option autoImplicit false

namespace Argus

/-- State of the loop of `parse_args` between two arguments. -/
structure PState where
  /-- the option table in force -/
  t : Option Nat
  /-- the context -/
  a : Argus
  /-- number of positional arguments seen at this level -/
  pos : Nat
  /-- `--` was seen -/
  only : Bool
  /-- the next argument has already been taken as a value -/
  skip : Bool
  deriving DecidableEq

/-- The state in which `argus_parse` starts. -/
def PState.start (a : Argus) : PState := ⟨some a.root, a, 0, false, false⟩

/-- Parse all remaining arguments from a state. -/
def PState.finish (W : World) (s : PState) (args : List Str) : Out (Int × Argus) :=
  parseLoop W s.t s.a s.pos s.only s.skip args

/-- The state after the given arguments; `none` if they end the parse. -/
def runPrefix (W : World) : PState → List Str → Option PState
  | s, [] => some s
  | s, arg :: rest =>
    if s.skip then runPrefix W { s with skip := false } rest
    else
      match parseStep W s.t s.a s.pos s.only arg rest with
      | .ok (.next a pos only used) => runPrefix W ⟨s.t, a, pos, only, used⟩ rest
      | .ok (.enter t a) => runPrefix W ⟨t, a, 0, false, false⟩ rest
      | _ => none

/-- Reading `pre` from the start leads to state `s`. -/
def Reach (W : World) (a : Argus) (pre : List Str) (s : PState) : Prop :=
  runPrefix W (.start a) pre = some s

/-- The declared positionals of a table, in order. -/
def positionals (os : List Opt) : List Opt := os.filter (fun o => o.type = .positional)

/-- Which of the declared positionals receives the `k`-th positional argument: the first variadic one
    among the first `k + 1`, otherwise the `k`-th. -/
def slotBy {α : Type} (variadic : α → Bool) (ps : List α) (k : Nat) : Option α :=
  match (ps.take (k + 1)).find? variadic with
  | some o => some o
  | none => ps[k]?

/-- The declared positional that receives the `k`-th positional argument. -/
def slotOf (ps : List Opt) (k : Nat) : Option Opt := slotBy (fun o => o.valueType.isVariadic) ps k

/-- The same with the index of the positional in its table. -/
def slotAt (os : List Opt) (k : Nat) : Option (Opt × Nat) :=
  slotBy (fun x => x.1.valueType.isVariadic)
    (os.zipIdx.filter (fun x => x.1.type = .positional)) k

/-- Deliver the given texts to the positional slots of table `k`, the first one to slot number
    `pos`: each slot's handler is run with its text, and the first failure ends the parse. A text
    without a slot is an invalid argument. -/
def deliver (W : World) (k : Nat) : Argus → (pos : Nat) → List Str → Out (Int × Argus)
  | a, _, [] => .ok (Err.success, a)
  | a, pos, v :: vs => do
    let os ← a.table (some k)
    match slotAt os pos with
    | none => .ok (Err.invalidArgument, a.report Err.invalidArgument)
    | some (_, i) => do
      let r ← execCallbacks W a ⟨k, i⟩ (some v)
      if r.1 ≠ Err.success then .ok r else deliver W k r.2 (pos + 1) vs

/-- A positional that just stores its text. -/
structure PlainString (o : Opt) : Prop where
  handler : o.handler = some .string
  valueType : o.valueType = .string
  validators : o.validators = none
  exit : o.flags.has .exit = false

instance (o : Opt) : Decidable (PlainString o) :=
  decidable_of_iff (o.handler = some .string ∧ o.valueType = .string ∧ o.validators = none ∧
      o.flags.has .exit = false)
    ⟨fun h => ⟨h.1, h.2.1, h.2.2.1, h.2.2.2⟩, fun h => ⟨h.1, h.2, h.3, h.4⟩⟩

/-- The first option of a table with the given long name. -/
def byLong (os : List Opt) (name : Str) : Option Opt :=
  os.find? (fun o => o.type = .option ∧ o.lname = some name)

/-- The first option of a table with the given short name. -/
def byShort (os : List Opt) (c : Byte) : Option Opt :=
  os.find? (fun o => o.type = .option ∧ o.sname = c)

/-- `o'` is `o`, perhaps with its allocated value dropped. -/
def FreedOpt (o o' : Opt) : Prop :=
  o' = o ∨ (o.isAllocated = true ∧ o' = { o with isAllocated := false, value := .null })

/-- A dash followed by a digit, or by a point and a digit. -/
def DashNumber (x : Str) : Prop := ∃ d r, isDigit d = true ∧ (x = 45 :: d :: r ∨ x = 45 :: 46 :: d :: r)

/-- The slot for the `n`-th positional argument is an int or a float. -/
def NumericSlot (os : List Opt) (n : Nat) : Prop :=
  ∃ o i, slotAt os n = some (o, i) ∧ (o.valueType = .int ∨ o.valueType = .float)

/-- `n` positional arguments have been read since the start or since the last subcommand. Neither options nor their
    values nor `--` count. -/
inductive SlotCount (W : World) (a : Argus) : List Str → Nat → Prop
  | start : SlotCount W a [] 0
  | dashes {pre : List Str} {n : Nat} {s : PState} : SlotCount W a pre n → Reach W a pre s →
      SlotCount W a (pre ++ [c!"--"]) n
  | afterDashes {pre : List Str} {n : Nat} {s : PState} {x : Str} : SlotCount W a pre n → Reach W a pre s → s.only = true →
      x ≠ c!"--" → SlotCount W a (pre ++ [x]) (n + 1)
  | option {pre : List Str} {n : Nat} {s s' : PState} {x : Str} : SlotCount W a pre n → Reach W a pre s → s.only = false →
      x ≠ c!"--" → x.head? = some 45 → (∀ os, s.a.table s.t = .ok os → DashNumber x → ¬ NumericSlot os n) →
      Reach W a (pre ++ [x]) s' → SlotCount W a (pre ++ [x]) n
  | optionWithValue {pre : List Str} {n : Nat} {s s' : PState} {x v : Str} : SlotCount W a pre n → Reach W a pre s →
      s.only = false → x ≠ c!"--" → x.head? = some 45 →
      (∀ os, s.a.table s.t = .ok os → DashNumber x → ¬ NumericSlot os n) →
      (∀ s', ¬ Reach W a (pre ++ [x]) s') → Reach W a (pre ++ [x, v]) s' → SlotCount W a (pre ++ [x, v]) n
  | number {pre : List Str} {n : Nat} {s : PState} {x : Str} {os : List Opt} : SlotCount W a pre n → Reach W a pre s →
      s.only = false → s.a.table s.t = .ok os → DashNumber x → NumericSlot os n → SlotCount W a (pre ++ [x]) (n + 1)
  | subcommand {pre : List Str} {n : Nat} {s : PState} {x m : Str} {os : List Opt} {o : Opt} : SlotCount W a pre n →
      Reach W a pre s → s.only = false → x.head? ≠ some 45 → s.a.table s.t = .ok os → o ∈ os → o.type = .subcommand →
      o.name = some m → x <+: m → SlotCount W a (pre ++ [x]) 0
  | positional {pre : List Str} {n : Nat} {s : PState} {x : Str} {os : List Opt} : SlotCount W a pre n → Reach W a pre s →
      s.only = false → x.head? ≠ some 45 → s.a.table s.t = .ok os →
      (∀ o ∈ os, o.type = .subcommand → ∀ m, o.name = some m → ¬ x <+: m) → SlotCount W a (pre ++ [x]) (n + 1)

end Argus
