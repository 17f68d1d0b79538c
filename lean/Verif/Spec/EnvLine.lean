import Verif.Spec.Outcome
import Verif.Spec.Depth

/-!
# A variable in place of an option: notions
-/

set_option autoImplicit false

namespace Argus

/-- The environment with the variable `n` set to `v`. -/
def Env.with (env : Env) (n v : Str) : Env := fun m => if m = n then some v else env m

/-- No entry but the one at `p` reads the variable `n`. -/
def OnlyReader (a : Argus) (p : Ptr) (n : Str) : Prop :=
  ∀ q o, placeAt a.tables q = some o → o.type = .option ∨ o.type = .positional →
    envVarName a.envPrefix o = some n → q = p

/-- The table in force after the subcommands `ps`, from table `t` on. -/
def chainEnd (tables : List (List Opt)) : Option Nat → List Ptr → Option Nat
  | t, [] => t
  | _, p :: ps => chainEnd tables (tableBelow tables p) ps

end Argus
