import Verif.Spec.Meaning

/-!
# The history of one option

What a command line asks of a single option, and what an option looks like after it.
-/

set_option autoImplicit false

namespace Argus

/-- The acts that concern option `p`. -/
def actsOn (p : Ptr) (acts : List Act) : List Act :=
  acts.filter (fun
    | .give q _ => q = p
    | .enter q => q = p
    | _ => false)

/-- The texts handed to option `p`, in order. -/
def textsOf (p : Ptr) (acts : List Act) : List (Option Str) :=
  acts.filterMap (fun
    | .give q x => if q = p then some x else none
    | _ => none)

/-- The option after its handler has succeeded on a text; `none` if it fails. Handlers use the rest
    of the context only for what they print. -/
def Opt.give (W : World) (o : Opt) (x : Option Str) : Option Opt :=
  match o.handler with
  | none => none
  | some h =>
    match runHandler W { tables := [] } h o x with
    | .ok r => if r.1 = Err.success then some r.2.1.markSet else none
    | .ub _ => none

/-- The option after its handler has succeeded on several texts in turn. -/
def Opt.giveAll (W : World) : Opt → List (Option Str) → Option Opt
  | o, [] => some o
  | o, x :: xs => (o.give W x).bind (fun o1 => Opt.giveAll W o1 xs)

/-- The environment has nothing for the option: it is not a value option, or already set and not to be
    overridden, or no variable is consulted, or the variable is not set. -/
def EnvIdle (env : Env) (envPrefix : Option Str) (o : Opt) : Prop :=
  o.type = .group ∨ o.type = .subcommand ∨ (o.isSet = true ∧ o.flags.has .envOverride = false) ∨
    ∀ n, envVarName envPrefix o = some n → env n = none

end Argus
