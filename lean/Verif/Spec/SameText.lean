import Verif.Spec.Unread
import Verif.Spec.Numeral
import Verif.Spec.Ranges
import Verif.Spec.Fields
import Verif.Spec.Scalar

/-!
# Texts that mean the same

`SameText W h s s'`: to an option with handler `h` the texts `s` and `s'` are two ways of writing the same value.
-/

set_option autoImplicit false

namespace Argus

/-- Two texts for the same truth value. -/
def SameTruth (s s' : Str) : Prop := (MeansTrue s ∧ MeansTrue s') ∨ (MeansFalse s ∧ MeansFalse s')

/-- Two texts that `strtod` reads to the end, as the same number. -/
def SameDouble (W : World) (s s' : Str) : Prop :=
  (W.strtod s).2 = s.length ∧ s ≠ [] ∧ (W.strtod s').2 = s'.length ∧ s' ≠ [] ∧ (W.strtod s').1 = (W.strtod s).1

/-- The values of two map entries. -/
def SameEntry (W : World) : Handler → Str → Str → Prop
  | .mapInt, v, v' => ∃ n, IsNumeral v n ∧ IsNumeral v' n
  | .mapFloat, v, v' => SameDouble W v v'
  | .mapBool, v, v' => SameTruth v v'
  | _, _, _ => False

/-- One part of a list that stands for another: the same, a number that `strtof` reads as the same, or the same key with the same
    value. -/
inductive SamePart (W : World) : Handler → Str → Str → Prop
  | same (h : Handler) (s : Str) : SamePart W h s s
  | float (s s' : Str) : W.strtof s' = W.strtof s → SamePart W .arrayFloat s s'
  | entry (h : Handler) (k v v' : Str) : (61 : Byte) ∉ k → SameEntry W h v v' → SamePart W h (k ++ [61] ++ v) (k ++ [61] ++ v')

/-- The integers a text gives to an int array: those of its parts, each a number or a range, none of which ends at INT_MAX. -/
def IntsOf (s : Str) (l : List Int) : Prop :=
  ∃ qs : List (Str × Int × Int), pieces s = qs.map Prod.fst ∧ (∀ q ∈ qs, RangeText q.1 q.2.1 q.2.2 ∧ q.2.2 ≠ intMax) ∧
    l = qs.flatMap (fun q => fromTo q.2.1 q.2.2)

/-- Handlers that take a comma list. -/
def Handler.TakesList (h : Handler) : Prop :=
  h = .arrayString ∨ h = .arrayInt ∨ h = .arrayFloat ∨ h = .mapString ∨ h = .mapInt ∨ h = .mapFloat ∨ h = .mapBool

/-- Two texts are the same value to a handler. -/
inductive SameText (W : World) : Handler → Str → Str → Prop
  | same (h : Handler) (s : Str) : SameText W h s s
  | unread (h : Handler) (s s' : Str) : h = .flag ∨ h = .help ∨ h = .version → SameText W h s s'
  | number (s s' : Str) (n : Int) (r r' : Str) : NumeralThen s n r → NumeralThen s' n r' → SameText W .int s s'
  | noNumber (s s' : Str) : (∀ n r, ¬ NumeralThen s n r) → (∀ n r, ¬ NumeralThen s' n r) → SameText W .int s s'
  | whole (s s' : Str) (n : Int) : IsNumeral s n → IsNumeral s' n → SameText W .variadicInt s s'
  | float (s s' : Str) : W.strtof s' = W.strtof s → SameText W .float s s'
  | double (s s' : Str) : SameDouble W s s' → SameText W .variadicFloat s s'
  | truth (s s' : Str) : SameTruth s s' → SameText W .bool s s'
  | ints (s s' : Str) (l : List Int) : IntsOf s l → IntsOf s' l → SameText W .arrayInt s s'
  | list (h : Handler) (s s' : Str) : h.TakesList → Alongside (SamePart W h) (pieces s) (pieces s') → SameText W h s s'

/-- What is given to an option, if anything: the same, or two texts for the same value if no validator looks at the text. -/
def SameGift (W : World) (o : Opt) (x x' : Option Str) : Prop :=
  x' = x ∨ ((∀ v ∈ o.validators.getD [], v.order = .post) ∧
    ∃ h s s', o.handler = some h ∧ x = some s ∧ x' = some s' ∧ SameText W h s s')

/-- Two wishes ask for the same, but for how values are written. -/
abbrev SameAsk (W : World) (tables : List (List Opt)) : Act → Act → Prop := AskBy (SameGift W) tables

/-- In two environments the variables of a program say the same, but for how values are written. -/
def SameEnv (W : World) (a : Argus) (env env' : Env) : Prop :=
  ∀ p o n, placeAt a.tables p = some o → envVarName a.envPrefix o = some n → SameGift W o (env n) (env' n)

end Argus
