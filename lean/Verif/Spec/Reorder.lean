import Verif.Spec.Outcome

/-!
# Programs that declare the same in another order

`Reordered T T'`: the options arrays `T'` come from `T` by exchanging neighbours, again and again. Group headers stay
where they are, and so do positionals and subcommands among themselves, since their order has a meaning.
-/

set_option autoImplicit false

namespace Argus

/-- Two neighbours of an options array whose order has no meaning: none is a group header, they are not both positionals
    and not both subcommands, and they have different names. -/
structure MayExchange (x y : Opt) : Prop where
  noGroup : x.type ≠ .group ∧ y.type ≠ .group
  positionals : ¬ (x.type = .positional ∧ y.type = .positional)
  subcommands : ¬ (x.type = .subcommand ∧ y.type = .subcommand)
  name : ∀ n, x.name = some n → y.name ≠ some n
  long : x.type = .option → y.type = .option → ∀ n, x.lname = some n → y.lname ≠ some n
  short : x.type = .option → y.type = .option → x.sname = y.sname → x.sname = 0

/-- The same declarations in another order. -/
inductive Reordered : List (List Opt) → List (List Opt) → Prop
  | same (T : List (List Opt)) : Reordered T T
  | exchange (T : List (List Opt)) (k : Nat) (pre post : List Opt) (x y : Opt) : T[k]? = some (pre ++ x :: y :: post) →
      MayExchange x y → Reordered T (T.set k (pre ++ y :: x :: post))
  | trans (T T' T'' : List (List Opt)) : Reordered T T' → Reordered T' T'' → Reordered T T''

end Argus
