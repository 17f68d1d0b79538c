import Verif.Model.Types

/-! # Texts that the functions of `<ctype.h>` accept -/

set_option autoImplicit false

namespace Argus

/-- A byte for which `isdigit((char)c)` is defined with a signed `char`: up to 127, or 255, which is `EOF`. -/
def PlainByte (c : Byte) : Prop := c < 128 ∨ c = 255

/-- A text of such bytes, such as every ASCII text. -/
def PlainText (s : Str) : Prop := ∀ c ∈ s, PlainByte c

/-- Of an argument `-x...` or `-.x...`, the byte `x` is such a byte. -/
def DashPlain (arg : Str) : Prop :=
  (∀ c r, arg = 45 :: c :: r → PlainByte c) ∧ ∀ c r, arg = 45 :: 46 :: c :: r → PlainByte c

/-- The handlers that classify the bytes of their text: of booleans, of integer arrays and of maps of booleans. -/
def Handler.Classifies (h : Handler) : Prop := h = .bool ∨ h = .arrayInt ∨ h = .mapBool

/-- No option of the program has such a handler. -/
def Argus.Classless (a : Argus) : Prop := ∀ os ∈ a.tables, ∀ o ∈ os, ∀ h, o.handler = some h → ¬ h.Classifies

/-- The names from which variables are made (AUTO_ENV) are plain. -/
structure Argus.PlainNames (a : Argus) : Prop where
  envPrefix : ∀ s, a.envPrefix = some s → PlainText s
  names : ∀ os ∈ a.tables, ∀ o ∈ os, o.envName = none → o.flags.has .autoEnv = true →
    (∀ s, o.name = some s → PlainText s) ∧ ∀ s, o.lname = some s → PlainText s

/-- Nothing that is classified in a parse is outside the range: `char` is unsigned; or names and dash arguments are plain, and so
    are all texts, unless no option classifies its text. -/
def CtypeSafe (sgn : Bool) (env : Str → Option Str) (a : Argus) (args : List Str) : Prop :=
  sgn = false ∨ (a.PlainNames ∧ (∀ x ∈ args, DashPlain x) ∧
    (a.Classless ∨ ((∀ x ∈ args, PlainText x) ∧ ∀ n v, env n = some v → PlainText v)))

end Argus
