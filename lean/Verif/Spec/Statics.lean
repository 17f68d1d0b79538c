import Verif.Model.Statics

/-! # What it means that static variables carry nothing over -/

set_option autoImplicit false

namespace Argus

/-- A text of the program, which ends at its first NUL, has no NUL before. -/
def NoNul (s : Option Str) : Prop := ∀ t, s = some t → (0 : Byte) ∉ t

/-- The names of an option are strings. -/
structure Opt.StringNames (o : Opt) : Prop where
  envName : NoNul o.envName
  name : NoNul o.name
  lname : NoNul o.lname

/-- All names of a program, and its prefix, are strings. -/
structure Argus.StringNames (a : Argus) : Prop where
  envPrefix : NoNul a.envPrefix
  options : ∀ os ∈ a.tables, ∀ o ∈ os, o.StringNames

/-- The arrays have the sizes of their declarations. Nothing is said about what they hold. -/
structure Statics.Sized (s : Statics) : Prop where
  fullName : s.fullName.length = 128
  shownName : s.shownName.length = 128
  hint : s.hint.length = 64

/-- The texts of a call are strings, and validation nests less deep than an `int` counts. -/
def StaticCall.Proper : StaticCall → Prop
  | .validate _ fuel _ => fuel < 2147483648
  | .parse _ _ a _ => a.StringNames
  | .envInfo ep o _ => NoNul ep ∧ o.StringNames
  | .optionName F cfg o => (0 : Byte) ∉ smartHint F cfg o

/-- What a call gives by itself: in a model without static variables. -/
def StaticCall.alone : StaticCall → Out (Option StaticAnswer)
  | .validate W fuel tables => do
    match ← validateStructure W tables fuel 0 (some 0) with
    | none => .ok none
    | some st => .ok (some (.status st))
  | .parse W env a args => do
    let r ← argusParse W env a args
    .ok (some (.parsed r))
  | .envInfo ep o d => .ok (some (.text (appendEnv ep o d)))
  | .optionName F cfg o => .ok (some (.text (Argus.optionName F cfg o)))

/-- What calls give when each is made by itself. -/
def eachAlone : List StaticCall → Out (Option (List StaticAnswer))
  | [] => .ok (some [])
  | c :: cs => do
    match ← c.alone with
    | none => .ok none
    | some a => do
      match ← eachAlone cs with
      | none => .ok none
      | some as => .ok (some (a :: as))

end Argus
