import Verif.Spec.Maps
import Verif.Spec.Collect
import Verif.Spec.Outcome
import Verif.Model.Access

/-! # Values written as a command line -/

set_option autoImplicit false

namespace Argus

/-- What somebody wants an option to hold. -/
inductive Wanted where
  | text (s : Str)
  | number (n : Int)
  /-- the float that a text stands for -/
  | real (t : Str)
  | truth (b : Bool)
  | texts (ts : List Str)
  | numbers (ns : List Int)
  /-- keys, each with the text of its value and the value -/
  | entries (qs : List (Str × Str × MVal))

/-- The texts it is written in. -/
def Wanted.written : Wanted → List Str
  | .text s => [s]
  | .number n => [showInt n]
  | .real t => [t]
  | .truth b => [if b then c!"true" else c!"false"]
  | .texts ts => ts
  | .numbers ns => ns.map showInt
  | .entries qs => qs.map (fun q => q.1 ++ c!"=" ++ q.2.1)

/-- The option is of the right type, keeps its elements as they come, and the value is within the limits of what can be written:
    64-bit integers in int options, `int`s below INT_MAX in int arrays, no commas in the elements of arrays and maps, no `=`
    in keys, each key once, and at least one element. -/
def Wanted.Suits (W : World) (o : Opt) : Wanted → Prop
  | .text _ => o.handler = some .string
  | .number n => o.handler = some .int ∧ -9223372036854775808 ≤ n ∧ n ≤ 9223372036854775807
  | .real _ => o.handler = some .float
  | .truth _ => o.handler = some .bool
  | .texts ts => o.handler = some .arrayString ∧ o.valueType = .arrayString ∧ o.Fresh ∧
      o.flags.has .sorted = false ∧ o.flags.has .unique = false ∧ ts ≠ [] ∧ ∀ t ∈ ts, (44 : Byte) ∉ t
  | .numbers ns => o.handler = some .arrayInt ∧ o.valueType = .arrayInt ∧ o.Fresh ∧
      o.flags.has .sorted = false ∧ o.flags.has .unique = false ∧ ns ≠ [] ∧ ∀ n ∈ ns, -2147483648 ≤ n ∧ n < 2147483647
  | .entries qs => IsMapOption o o.valueType ∧ o.Fresh ∧ o.flags.has .uniqueValue = false ∧ qs ≠ [] ∧
      (qs.map Prod.fst).Nodup ∧
      ∀ q ∈ qs, (44 : Byte) ∉ q.1 ∧ (61 : Byte) ∉ q.1 ∧ (44 : Byte) ∉ q.2.1 ∧ TextValue W o.valueType q.2.1 q.2.2

/-- Reading under a path gives the value, through the interface of the library. -/
def Wanted.Read (W : World) (a : Argus) (path : Str) (vt : ValueType) : Wanted → Prop
  | .text s => argusGet a path = .ok (.word (.ptr s), { a with errorCode := Err.success })
  | .number n => ∃ w, argusGet a path = .ok (.word w, { a with errorCode := Err.success }) ∧ w.asInt64 = .ok n
  | .real t => argusGet a path = .ok (.word (.bits (W.strtof t)), { a with errorCode := Err.success })
  | .truth b => ∃ w, argusGet a path = .ok (.word w, { a with errorCode := Err.success }) ∧ w.asBool = .ok b
  | .texts ts => argusCount a path = .ok (ts.length, a) ∧ ∀ (i : Nat) (s : Str), ts[i]? = some s →
      ∃ w, argusArrayGet a path i = .ok (w, { a with errorCode := Err.success }) ∧ w.asString = .ok (some s)
  | .numbers ns => argusCount a path = .ok (ns.length, a) ∧ ∀ (i : Nat) (n : Int), ns[i]? = some n →
      ∃ w, argusArrayGet a path i = .ok (w, { a with errorCode := Err.success }) ∧ w.asInt = .ok n
  | .entries qs => argusCount a path = .ok (qs.length, a) ∧ ∀ q ∈ qs,
      ∃ w, argusMapGet a path q.1 = .ok (w, { a with errorCode := Err.success }) ∧ w.readAs vt = .ok q.2.2

/-- The arguments that say so: each value is attached to the long name of its option. -/
def writeSettings (settings : List (Str × Wanted)) : List Str :=
  settings.flatMap (fun s => s.2.written.map (fun t => c!"--" ++ s.1 ++ c!"=" ++ t))

/-- The table has an option that is called and read by this name, takes a value, and is not overridden by the environment. -/
structure Settable (os : List Opt) (name : Str) (i : Nat) (o : Opt) : Prop where
  split : ∃ l r, os = l ++ o :: r ∧ l.length = i ∧ (∀ x ∈ l, x.name ≠ some name) ∧
    ∀ x ∈ l, x.type = .option → x.lname ≠ some name
  isOption : o.type = .option
  long : o.lname = some name
  named : o.name = some name
  noEquals : (61 : Byte) ∉ name
  noDot : (46 : Byte) ∉ name
  short : name.length ≤ 63
  takesValue : o.valueType ≠ .flag
  stays : o.flags.has .envOverride = false

/-- An entry that makes no demands: no validators, nothing required or excluded, and nothing for it in the environment. -/
structure Undemanding (env : Env) (envPrefix : Option Str) (o : Opt) : Prop where
  validators : o.validators.getD [] = []
  require : o.require.getD [] = []
  conflict : o.conflict.getD [] = []
  optional : o.type = .positional → o.flags.has .required = false
  free : o.type = .group → o.flags.has .exclusive = false
  silent : ∀ n, envVarName envPrefix o = some n → env n = none

end Argus
