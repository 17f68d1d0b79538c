import Verif.Spec.Outcome

/-!
# Programs with fewer constraints

`Relaxed o o'`: the entry `o'` is declared like `o`, apart from validators, `REQUIRE` and `CONFLICT` entries,
FLAG_REQUIRED and FLAG_EXCLUSIVE that are left out.
-/

set_option autoImplicit false

namespace Argus

/-- `o'` is `o` with some constraints left out; in all else they are the same. -/
structure Relaxed (o o' : Opt) : Prop where
  same : { o' with validators := o.validators, require := o.require, conflict := o.conflict, flags := o.flags } = o
  validators : ∀ v ∈ o'.validators.getD [], v ∈ o.validators.getD []
  requires : ∀ n ∈ o'.require.getD [], n ∈ o.require.getD []
  conflicts : ∀ n ∈ o'.conflict.getD [], n ∈ o.conflict.getD []
  required : o'.flags.has .required = true → o.flags.has .required = true
  exclusive : o'.flags.has .exclusive = true → o.flags.has .exclusive = true
  flags : ∀ f, f ≠ .required → f ≠ .exclusive → o'.flags.has f = o.flags.has f

/-- The same tables, with some constraints left out. -/
def RelaxedTables (T T' : List (List Opt)) : Prop :=
  T'.map List.length = T.map List.length ∧
    ∀ p o, placeAt T p = some o → ∃ o', placeAt T' p = some o' ∧ Relaxed o o'

/-- The user's handlers and validators do not look at the constraints of the option they are called for. -/
structure MindsValues (W : World) : Prop where
  handler : ∀ id o o' x, Relaxed o o' → W.handler id o' x = W.handler id o x
  validator : ∀ id o o', Relaxed o o' → (W.postValidator id o').1 = (W.postValidator id o).1

/-- The validators of texts have been kept. -/
def KeepsTextChecks (o o' : Opt) : Prop :=
  ∀ v ∈ o.validators.getD [], v.order = .pre → v ∈ o'.validators.getD []

/-- An entry without validators, `REQUIRE` and `CONFLICT`. -/
def Opt.unconstrained (o : Opt) : Opt := { o with validators := none, require := none, conflict := none }

end Argus
