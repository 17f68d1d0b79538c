import Verif.Spec.Safe

/-!
# Platforms that differ in their `qsort`

The C standard leaves to the library how `qsort` arranges elements that compare equal, and what it does with a
comparison function that is no order.
-/

set_option autoImplicit false

namespace Argus

/-- Two platforms that agree in everything but `qsort`. Both of them sort as the standard asks for (that is part of
    `World`). -/
structure OtherSort (W V : World) : Prop where
  strtof : V.strtof = W.strtof
  strtod : V.strtod = W.strtod
  regexAvailable : V.regexAvailable = W.regexAvailable
  regex : V.regex = W.regex
  handler : V.handler = W.handler
  preValidator : V.preValidator = W.preValidator
  postValidator : V.postValidator = W.postValidator
  action : V.action = W.action

/-- The declaration of an option leaves nothing to `qsort`:
    * strings, and ints that are stored as `int`, are always settled;
    * variadic ints are stored with 64 bits and compared with 32, doubles may be NaN or zeros of either sign; they are settled
      if they are not sorted;
    * maps are settled if they are sorted by key or not sorted, and, but for doubles, if no two entries have the same
      value. -/
def Opt.OrderSettled (o : Opt) : Prop :=
  match o.handler with
  | some .variadicInt | some .arrayFloat | some .variadicFloat => o.flags.has .sorted = false
  | some .mapString | some .mapInt | some .mapBool =>
    o.flags.has .sortedKey = true ∨ o.flags.has .sortedValue = false ∨ o.flags.has .uniqueValue = true
  | some .mapFloat => o.flags.has .sortedKey = true ∨ o.flags.has .sortedValue = false
  | _ => True

/-- An entry as the macros make it, as far as sorting is concerned: the value type is that of the handler, and an array or a
    map begins empty. -/
structure Opt.Unsorted (o : Opt) : Prop where
  type : ∀ h, o.handler = some h → h.isCollection = true → ∃ fh, h.Goes o.valueType fh
  empty : ∀ h, o.handler = some h → h.isCollection = true → o.value = .null

end Argus
