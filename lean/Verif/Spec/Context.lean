import Verif.Spec.Outcome
import Verif.Spec.Sample
import Verif.Model.Access
import Verif.Model.Context

/-!
# What validators see
-/

set_option autoImplicit false

namespace Argus

/-- The same platform and callbacks, but for the validators called after parsing. -/
def World.withPost (W : World) (f : Nat → Opt → VRes) : World := { W with postValidator := f }

/-- The same platform and callbacks, with user validators that are shown `b` in place of `argus`. -/
def World.seeing (W : World) (V : Overview) (b : Argus) : World := W.withPost (fun id o => V id b o)

/-- `argus` with the options as in `T` and the subcommands `path` selected. -/
def Argus.holding (a : Argus) (T : List (List Opt)) (path : List Ptr) : Argus := { a with tables := T, stack := path }

namespace Sample

/-- The validator of docs/docs/advanced/custom-validators.md:160-176: the value is greater than that of the option `min`. -/
def aboveMin (b : Argus) (o : Opt) : VRes :=
  match argusGet b c!"min" with
  | .ok (.word m, _) =>
    match o.value with
    | .word w => if m.intD < w.intD then (Err.success, none) else (Err.invalidValue, some Err.invalidValue)
    | _ => (Err.invalidValue, none)
  | _ => (Err.invalidValue, none)

/-- The user validators of the program below. -/
def overview : Overview := fun _ b o => aboveMin b o

/-- The documented program with a subcommand that has an option `min` as well. -/
def bounds : Argus := argusInit
  [ [ helpOption, { optInt 109 (some c!"min") with envName := some c!"MIN" },
      { optInt 77 (some c!"max") with validators := some [⟨.custom 0, .post, true⟩] },
      subcommand c!"run" 1 (some 1) ],
    [ helpOption, optInt 109 (some c!"min") ] ] c!"bounds" none

end Sample

end Argus
