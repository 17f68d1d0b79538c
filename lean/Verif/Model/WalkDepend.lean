import Verif.Model.Walk
import Verif.Model.Structure

/-!
# The checks of the names an option requires or conflicts with, on memory, source/core/validation/validate_arguments.c
-/

set_option autoImplicit false

namespace Argus

/-- `if (list != NULL) { for (int i = 0; list[i] != NULL; ++i) … }` with the variable `status`, validate_arguments.c:68-77 and
    79-88. Running out of `fuel` is `none`. -/
def statusLoopAt (body : Int → Int → Str → Out (Int ⊕ Unit)) (fuel : Nat) (names : Option (List (Option Str))) (st : Int) :
    Out (Option Int) := do
  match names with
  | none => .ok (some st)
  | some l =>
    match ← walkTable l body fuel 0 st with
    | some (.inl s) => .ok (some s)
    | _ => .ok none

/-- validate_arguments.c:57-64, the inner loop for the required name `r`. -/
def sharedInner (r : Str) (st : Int) (_ : Int) (c : Str) : Out (Int ⊕ Unit) :=
  .ok (.inl (check (strcmp r c == 0) Err.invalidDependency st))

/-- validate_arguments.c:56-65, the body of the outer loop over the required names. -/
def sharedBody (conflict : List (Option Str)) (fuel : Nat) (st : Int) (_ : Int) (r : Str) : Out (Int ⊕ Unit) := do
  match ← walkTable conflict (sharedInner r) fuel 0 st with
  | some (.inl s) => .ok (.inl s)
  | _ => .ok (.inr ())

/-- validate_arguments.c:69-76 and 80-87, the bodies of the loops that look the names up in the memory of the table. -/
def knownBody (memory : List (Option Opt)) (fuel : Nat) (st : Int) (_ : Int) (n : Str) : Out (Int ⊕ Unit) := do
  match ← findNameAt memory fuel n with
  | none => .ok (.inr ())
  | some k => .ok (.inl (check k.isNone Err.invalidDependency st))

/-- validate_arguments.c:55-66. -/
def sharedAt (fuel : Nat) (require conflict : Option (List (Option Str))) : Out (Option Int) :=
  match conflict with
  | none => .ok (some Err.success)
  | some c => statusLoopAt (sharedBody c fuel) fuel require Err.success

/-- validate_arguments.c:51-91 `validate_dependencies`; `require` and `conflict` are the memory of the lists, `none` for NULL. -/
def validateDependenciesAt (memory : List (Option Opt)) (fuel : Nat) (require conflict : Option (List (Option Str))) :
    Out (Option Int) := do
  match ← sharedAt fuel require conflict with
  | none => .ok none
  | some st =>
    match ← statusLoopAt (knownBody memory fuel) fuel require st with
    | none => .ok none
    | some st => statusLoopAt (knownBody memory fuel) fuel conflict st

end Argus
