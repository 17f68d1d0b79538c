import Verif.Model.Messages

/-!
# Messages: declarations that can be named
-/

set_option autoImplicit false

namespace Argus

/-- The codes of the error messages among the events, in order. -/
def errorCodes : List Event → List Int
  | [] => []
  | .error c :: es => c :: errorCodes es
  | _ :: es => errorCodes es

/-- Every entry that a message may name has a name, and every subcommand has a help text. A group that is not exclusive is
    never named. -/
structure Argus.Named (a : Argus) : Prop where
  names : ∀ os ∈ a.tables, ∀ o ∈ os, o.type ≠ .group ∨ o.flags.has .exclusive = true → o.name ≠ none
  helps : ∀ os ∈ a.tables, ∀ o ∈ os, o.type = .subcommand → o.help ≠ none

/-- The selected subcommands exist and have names. -/
def Argus.StackNamed (a : Argus) : Prop := ∀ p ∈ a.stack, ∃ o, a.getOpt p = .ok o ∧ o.name ≠ none

/-- PCRE2 does not answer "no match" for a NULL subject: `pcre2_match` returns `PCRE2_ERROR_NULL`. -/
def World.NullRefused (W : World) : Prop := W.regexAvailable = true → ∀ p, W.regex p none ≠ .noMatch

end Argus
