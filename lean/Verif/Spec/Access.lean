import Verif.Model.Access
import Verif.Spec.Collect

/-!
# Paths, queries and iterators
-/

set_option autoImplicit false

namespace Argus

/-! ## Paths -/

/-- The selected subcommands, outermost first: their names and the tables of their options. -/
def LevelsOf (a : Argus) : List Ptr → List (Str × Nat) → Prop
  | [], [] => True
  | q :: qs, (n, k) :: lv =>
    (∃ cmd os, a.getOpt q = .ok cmd ∧ cmd.name = some n ∧ cmd.subOptions = some k ∧
      a.tables[k]? = some os) ∧ LevelsOf a qs lv
  | _, _ => False

/-- `p` is the first entry named `n` in table `k`. -/
def NameAt (a : Argus) (k : Nat) (n : Str) (p : Ptr) : Prop :=
  p.tbl = k ∧ ∃ pre o post, a.tables[k]? = some (pre ++ o :: post) ∧ pre.length = p.idx ∧
    o.name = some n ∧ ∀ x ∈ pre, x.name ≠ some n

/-- Table `k` has no entry named `n`. -/
def NoName (a : Argus) (k : Nat) (n : Str) : Prop :=
  ∃ os, a.tables[k]? = some os ∧ ∀ x ∈ os, x.name ≠ some n

/-- The components `cs` lead along the selected subcommands from table `k` to the last table: each component
    stands in relation `R` to the name of its subcommand. -/
inductive Leads (R : Str → Str → Prop) : (cs : List Str) → (lv : List (Str × Nat)) → Nat → Nat → Prop
  | done (lv : List (Str × Nat)) (k : Nat) : Leads R [] lv k k
  | step (c : Str) (cs : List Str) (n : Str) (k' : Nat) (lv : List (Str × Nat)) (k k'' : Nat) :
      R c n → Leads R cs lv k' k'' → Leads R (c :: cs) ((n, k') :: lv) k k''

/-- A path: components, each followed by a dot, and a name. -/
def pathText (cs : List Str) (n : Str) : Str := (cs.flatMap (· ++ c!".")) ++ n

/-! ## Queries -/

/-- The value queries of the interface. -/
inductive Query where
  | get (path : Str)
  | isSet (path : Str)
  | count (path : Str)
  | arrayGet (path : Str) (i : Nat)
  | mapGet (path key : Str)
  | arrayIt (path : Str)
  | mapIt (path : Str)

/-- What they answer. -/
inductive Answer where
  | val (v : Val)
  | bool (b : Bool)
  | nat (n : Nat)
  | word (w : Word)
  | arrayIt (it : ArrayIt)
  | mapIt (it : MapIt)

/-- A query, and the context after it. -/
def Query.ask (q : Query) (a : Argus) : Out (Answer × Argus) :=
  match q with
  | .get path => (argusGet a path).bind (fun r => .ok (.val r.1, r.2))
  | .isSet path => (argusIsSet a path).bind (fun r => .ok (.bool r.1, r.2))
  | .count path => (argusCount a path).bind (fun r => .ok (.nat r.1, r.2))
  | .arrayGet path i => (argusArrayGet a path i).bind (fun r => .ok (.word r.1, r.2))
  | .mapGet path key => (argusMapGet a path key).bind (fun r => .ok (.word r.1, r.2))
  | .arrayIt path => (argusArrayIt a path).bind (fun r => .ok (.arrayIt r.1, r.2))
  | .mapIt path => (argusMapIt a path).bind (fun r => .ok (.mapIt r.1, r.2))

/-- Several queries in a row: the context after them. -/
def askAll (a : Argus) : List Query → Out Argus
  | [] => .ok a
  | q :: qs => (q.ask a).bind (fun r => askAll r.2 qs)

/-! ## Iterators -/

/-- What a user does with an iterator. -/
inductive ItOp where
  | next
  | reset
  deriving DecidableEq

/-- The values an array iterator yields; `none` for a `next` that returns false. -/
def ArrayIt.play : ArrayIt → List ItOp → Out (List (Option Word))
  | _, [] => .ok []
  | it, .reset :: ops => ArrayIt.play (argusArrayReset it) ops
  | it, .next :: ops => do
    let r ← argusArrayNext it
    let rest ← ArrayIt.play r.2 ops
    .ok ((if r.1 then some r.2.value else none) :: rest)

/-- The entries a map iterator yields. -/
def MapIt.play : MapIt → List ItOp → Out (List (Option (Option Str × Word)))
  | _, [] => .ok []
  | it, .reset :: ops => MapIt.play (argusMapReset it) ops
  | it, .next :: ops => do
    let r ← argusMapNext it
    let rest ← MapIt.play r.2 ops
    .ok ((if r.1 then some (r.2.key, r.2.value) else none) :: rest)

/-- What stepping through a list should yield: the elements in order, then `none` for ever, from the start
    again after each reset. `done` is the number of elements taken since the last reset. -/
def walk {α : Type} (xs : List α) : (done : Nat) → List ItOp → List (Option α)
  | _, [] => []
  | _, .reset :: ops => walk xs 0 ops
  | d, .next :: ops => xs[d]? :: walk xs (d + 1) ops

end Argus
