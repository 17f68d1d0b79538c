import Verif.Model.HeapParse
import Verif.Spec.Safe
import Verif.Spec.Maps

/-!
# What memory holds after a parse
-/

set_option autoImplicit false

namespace Argus

/-- A program in memory has the same entries and the same path of subcommands. What an array or map option points to is its
    value; every other option is the same and points to nothing. -/
structure MemArgus.Holds (c : MemArgus) (a : Argus) : Prop where
  stack : c.a.stack = a.stack
  tables : c.a.tables.map List.length = a.tables.map List.length
  each : ∀ q o, a.getOpt q = .ok o → ∃ ho, c.opt q = .ok ho ∧ { ho.o with value := o.value } = o ∧
    if ∃ h, o.handler = some h ∧ h.isCollection = true then ho.Reads c.heap o.value else ho.o = o ∧ ho.ptr = none

/-- `k` is the key of a piece of a text meant for a map option. -/
def Argus.WrittenKey (a : Argus) (args : List Str) (env : Env) (k : Str) : Prop :=
  ∃ q o t v, a.getOpt q = .ok o ∧ IsMapOption o o.valueType ∧ some t ∈ a.textsFor args env q o ∧ (61 : Byte) ∉ k ∧
    k ++ c!"=" ++ v ∈ pieces t

/-- For every map, the texts it gets — from the command line, or from the environment if the command line has none —
    stand for pairs with different keys. -/
def Argus.DifferentKeys (W : World) (a : Argus) (args : List Str) (env : Env) : Prop :=
  ∀ q o, a.getOpt q = .ok o → IsMapOption o o.valueType → ∃ ts pss,
    (if textsOf q (a.asks args) = [] then ((envVarName a.envPrefix o).bind env).toList.map some
      else textsOf q (a.asks args)) = ts.map some ∧
    OccurrencePairs W o.valueType ts pss ∧ (pss.flatten.map Prod.fst).Nodup

end Argus
