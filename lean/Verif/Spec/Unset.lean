import Verif.Spec.Outcome

/-!
# A program with other constraints on one entry
-/

set_option autoImplicit false

namespace Argus

/-- The tables with the entry at `p` replaced by what `f` makes of it. -/
def amend (T : List (List Opt)) (p : Ptr) (f : Opt → Opt) : List (List Opt) :=
  T.modify p.tbl (fun os => os.modify p.idx f)

/-- The entry with other validators, requirements and conflicts. -/
def Opt.constrained (vs : Option (List Validator)) (rq cf : Option (List Str)) (o : Opt) : Opt :=
  { o with validators := vs, require := rq, conflict := cf }

/-- The program with other validators, requirements and conflicts on the entry at `p`. -/
def Argus.constrain (a : Argus) (p : Ptr) (vs : Option (List Validator)) (rq cf : Option (List Str)) : Argus :=
  { a with tables := amend a.tables p (Opt.constrained vs rq cf) }

end Argus
