import Verif.Spec.Depth
import Verif.Spec.History

/-! # Specification: everything an option is handed by a parse -/

set_option autoImplicit false

namespace Argus

/-- The tables a command line uses, the root first, then those of the subcommands it names. (The subcommands of an
    earlier parse are still on the stack.) -/
def Argus.tablesUsed (a : Argus) (args : List Str) : List Nat :=
  a.root :: (a.stack ++ entered (a.asks args)).filterMap (fun q => (a.getOpt q).toOption.bind (·.subOptions))

/-- What the environment hands to an option, declared as `o`, whose table is used `visits` times, and which the
    command line has given something (`given`) or not: with FLAG_ENV_OVERRIDE its variable each time, else its variable
    once, provided that the option has neither a default nor anything from the command line. -/
def envGives (env : Env) (ep : Option Str) (o : Opt) (given : Bool) (visits : Nat) : List (Option Str) :=
  match (envVarName ep o).bind env with
  | none => []
  | some v =>
    if o.type = .group ∨ o.type = .subcommand then []
    else if o.flags.has .envOverride then List.replicate visits (some v)
    else if o.isSet ∨ given ∨ visits = 0 then []
    else [some v]

/-- Everything a parse hands to option `p`, declared as `o`: the texts of the command line in order, then those of the
    environment. -/
def allTexts (env : Env) (a : Argus) (args : List Str) (p : Ptr) (o : Opt) : List (Option Str) :=
  textsOf p (a.asks args) ++
    envGives env a.envPrefix o (!(textsOf p (a.asks args)).isEmpty) ((a.tablesUsed args).count p.tbl)

/-- A successful parse gives the option at `p`, initially `o`, the texts `ts` (at least one), from the command line or
    the environment. -/
structure GivenTexts (W : World) (env : Env) (a : Argus) (args : List Str) (a' : Argus) (p : Ptr) (o : Opt)
    (ts : List Str) : Prop where
  ok : argusParse W env a args = .ok (.returned Err.success, a')
  opt : a.getOpt p = .ok o
  kind : o.type ≠ .subcommand
  texts : allTexts env a args p o = ts.map some
  given : ts ≠ []

end Argus
