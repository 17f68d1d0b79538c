import Verif.Spec.Outcome

/-!
# Calls of the program's own callbacks

Which handlers and validators of the program a parse may call, and with which texts.
-/

set_option autoImplicit false

namespace Argus

/-- The same platform with other callbacks of the program. -/
def World.withCallbacks (W : World) (f : Nat → Opt → Option Str → CustomResult) (g : Nat → Option Str → Int × Option Int)
    (h : Nat → Opt → Int × Option Int) (c : Nat → Argus → Int) : World :=
  { W with handler := f, preValidator := g, postValidator := h, action := c }

/-- The tables of the commands that the line selects. -/
def Argus.selects (a : Argus) (args : List Str) : List Nat := pathTables a (a.stack ++ entered (a.asks args))

/-- The entry at `p` is given the text `x` by its variable: its command is selected, the variable exists, and the entry is
    not set in a way that comes before the variable. -/
def VariableGives (env : Env) (a : Argus) (args : List Str) (p : Ptr) (x : Option Str) : Prop :=
  p.tbl ∈ a.selects args ∧ ∃ o n v, placeAt a.tables p = some o ∧ (o.type = .option ∨ o.type = .positional) ∧
    (o.flags.has .envOverride = true ∨ o.isSet = false ∧ ∀ y, Act.give p y ∉ a.asks args) ∧
    envVarName a.envPrefix o = some n ∧ env n = some v ∧ x = some v

/-- The entry at `p` is given the text `x`, on the line or by its variable. -/
def IsGiven (env : Env) (a : Argus) (args : List Str) (p : Ptr) (x : Option Str) : Prop :=
  Act.give p x ∈ a.asks args ∨ VariableGives env a args p x

/-- The entry at `p` is set when the parse is over: it was set before, it is given a text, or it is a command that is
    selected. -/
def BecomesSet (env : Env) (a : Argus) (args : List Str) (p : Ptr) : Prop :=
  (∃ o, placeAt a.tables p = some o ∧ o.isSet = true) ∨ (∃ x, IsGiven env a args p x) ∨ Act.enter p ∈ a.asks args

/-- `o'` is the entry declared as `o`, with whatever value. -/
def DeclaredAs (o o' : Opt) : Prop :=
  o' = { o with value := o'.value, isAllocated := o'.isAllocated, valueCount := o'.valueCount,
                valueCapacity := o'.valueCapacity, isSet := o'.isSet }

/-- For the text `x`, the callbacks `f` and `g` do for the entry declared as `o` what those of `W` do. -/
structure SameFor (W : World) (f : Nat → Opt → Option Str → CustomResult) (g : Nat → Option Str → Int × Option Int) (o : Opt)
    (x : Option Str) : Prop where
  handler : ∀ id, o.handler = some (.custom id) → ∀ o', DeclaredAs o o' → f id o' x = W.handler id o' x
  validators : ∀ v ∈ o.validators.getD [], v.order = .pre → ∀ id, v.kind = .custom id → g id x = W.preValidator id x

/-- Other callbacks that do the same wherever they are called for. -/
structure SameWhereCalled (W : World) (f : Nat → Opt → Option Str → CustomResult) (g : Nat → Option Str → Int × Option Int)
    (h : Nat → Opt → Int × Option Int) (env : Env) (a : Argus) (args : List Str) : Prop where
  texts : ∀ p x o, IsGiven env a args p x → placeAt a.tables p = some o → SameFor W f g o x
  values : ∀ p o, BecomesSet env a args p → p.tbl ∈ a.selects args → placeAt a.tables p = some o → o.type ≠ .group →
    ∀ v ∈ o.validators.getD [], v.order = .post → ∀ id, v.kind = .custom id → ∀ o', DeclaredAs o o' → o'.isSet = true →
      h id o' = W.postValidator id o'

end Argus
