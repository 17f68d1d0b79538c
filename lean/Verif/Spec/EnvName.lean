import Verif.Model.Bytes

/-!
# Names of environment variables
-/

set_option autoImplicit false

namespace Argus

/-- A prefix with exactly one underscore after it; no underscore if there is no prefix. -/
def underscored (pre : Str) : Str :=
  if pre = [] ∨ pre.getLast? = some 95 then pre else pre ++ c!"_"

/-- Letters to upper case, hyphens to underscores. -/
def envCase (s : Str) : Str :=
  s.map (fun c => if c = 45 then 95 else if 97 ≤ c ∧ c ≤ 122 then c - 32 else c)

end Argus
