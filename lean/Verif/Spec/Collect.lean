import Verif.Model.Parse
import Verif.Spec.Fields
import Verif.Spec.Numeral

/-!
# Contents of array, variadic and map options
-/

set_option autoImplicit false

namespace Argus

/-- The option presents exactly these cells: `value_count` of them, behind `as_array`. -/
def Opt.Elements (o : Opt) (cells : List Word) : Prop :=
  o.value = .arr cells ∧ o.valueCount = cells.length

/-- The option presents these strings. -/
def Opt.Strings (o : Opt) (xs : List Str) : Prop :=
  ∃ cells, o.Elements cells ∧ cells.map Word.asString = xs.map (fun s => .ok (some s))

/-- The option presents these integers, read as `as_int`. -/
def Opt.Ints (o : Opt) (xs : List Int) : Prop :=
  ∃ cells, o.Elements cells ∧ cells.map Word.asInt = xs.map .ok

/-- The option presents these integers, read as `as_int64`. -/
def Opt.Int64s (o : Opt) (xs : List Int) : Prop :=
  ∃ cells, o.Elements cells ∧ cells.map Word.asInt64 = xs.map .ok

/-- The option presents these doubles. -/
def Opt.Floats (o : Opt) (xs : List F64) : Prop :=
  ∃ cells, o.Elements cells ∧ cells.map Word.asFloat = xs.map .ok

/-- The option presents exactly these entries behind `as_map`. -/
def Opt.Entries (o : Opt) (es : List (Str × Word)) : Prop :=
  o.value = .map es ∧ o.valueCount = es.length

/-- Nothing has been stored in the option: `{ 0 }`-initialised and without a default. -/
def Opt.Fresh (o : Opt) : Prop := o.value = .null ∧ o.valueCount = 0

/-- Several results or none. -/
def gather {α β : Type} (f : α → Option (List β)) : List α → Option (List β)
  | [] => some []
  | x :: xs =>
    match f x, gather f xs with
    | some a, some b => some (a ++ b)
    | _, _ => none

/-- A piece of an int array value: a number, or a range written with `-` or `:`. -/
inductive IntPiece where
  | one (n : Int)
  | range (a : Int) (colon : Bool) (b : Int)

/-- How it is written. -/
def IntPiece.text : IntPiece → Str
  | one n => showInt n
  | range a colon b => showInt a ++ (if colon then c!":" else c!"-") ++ showInt b

/-- The integers it stands for. -/
def IntPiece.ints : IntPiece → List Int
  | one n => [n]
  | range a _ b => (List.range ((max a b - min a b).toNat + 1)).map (fun (i : Nat) => min a b + (i : Int))

/-- Its numbers are of type `int`, and below `INT_MAX`. -/
def IntPiece.Fits : IntPiece → Prop
  | one n => intMin ≤ n ∧ n < intMax
  | range a _ b => intMin ≤ a ∧ a < intMax ∧ intMin ≤ b ∧ b < intMax

/-- What an option with flags `fl` shows after it was given certain values: with FLAG_SORTED ascending by
    `le`; with FLAG_UNIQUE without repetitions, otherwise a permutation; with neither exactly what was
    given; with FLAG_UNIQUE alone the first occurrences in order. -/
structure Arranged {α : Type} [DecidableEq α] (fl : Flags) (le : α → α → Prop) (given shown : List α) :
    Prop where
  mem : ∀ x, x ∈ shown ↔ x ∈ given
  plain : fl.has .sorted = false → fl.has .unique = false → shown = given
  perm : fl.has .unique = false → shown.Perm given
  sorted : fl.has .sorted = true → shown.Pairwise le
  nodup : fl.has .unique = true → shown.Nodup
  firsts : fl.has .unique = true → fl.has .sorted = false → shown = given.eraseDups

/-- The same for doubles, where FLAG_UNIQUE drops a value that differs from a kept one by less than
    0.0000001 (`F64.near`): nothing is invented; with FLAG_SORTED no later value is below an earlier one,
    unless a NaN was given; with FLAG_UNIQUE no two values are that near; with FLAG_UNIQUE alone every value
    is kept or near a kept one. -/
structure ArrangedFloats (fl : Flags) (given shown : List F64) : Prop where
  sub : ∀ x ∈ shown, x ∈ given
  plain : fl.has .sorted = false → fl.has .unique = false → shown = given
  perm : fl.has .unique = false → shown.Perm given
  sorted : fl.has .sorted = true → (∀ x ∈ given, F64.isNaN x = false) →
    shown.Pairwise (fun a b => F64.lt b a = false)
  apart : fl.has .unique = true → shown.Pairwise (fun a b => F64.near a b = false)
  cover : fl.has .unique = true → fl.has .sorted = false →
    ∀ x ∈ given, x ∈ shown ∨ ∃ y ∈ shown, F64.near x y = true

/-- An option that collects strings; `part` yields the strings a text stands for: its comma-separated
    pieces for an array option, itself for a variadic positional. -/
inductive CollectsStrings (o : Opt) : (part : Str → List Str) → Prop
  | array : o.handler = some .arrayString → o.valueType = .arrayString → CollectsStrings o pieces
  | variadic : o.handler = some .variadicString → o.valueType = .variadicString →
      CollectsStrings o (fun t => [t])

/-- An option that collects doubles from the texts `ts`, and the doubles they stand for. -/
inductive CollectsFloats (W : World) (o : Opt) (ts : List Str) : (xs : List F64) → Prop
  | array : o.handler = some .arrayFloat → o.valueType = .arrayFloat →
      CollectsFloats W o ts ((ts.flatMap pieces).map W.strtof)
  | variadic : o.handler = some .variadicFloat → o.valueType = .variadicFloat →
      (∀ t ∈ ts, t ≠ [] ∧ (W.strtod t).2 = t.length) →
      CollectsFloats W o ts (ts.map (fun t => (W.strtod t).1))

/-- An option that collects integers from the texts `ts`, and the integers they stand for: numbers and
    ranges below `INT_MAX` for an array option, numerals of type `int` for a variadic positional. -/
inductive CollectsInts (o : Opt) (ts : List Str) : (xs : List Int) → Prop
  | array (ps : List IntPiece) : o.handler = some .arrayInt → o.valueType = .arrayInt →
      ts.flatMap pieces = ps.map IntPiece.text → (∀ p ∈ ps, p.Fits) →
      CollectsInts o ts (ps.flatMap IntPiece.ints)
  | variadic (ns : List (Str × Int)) : o.handler = some .variadicInt → o.valueType = .variadicInt →
      ts = ns.map Prod.fst → (∀ n ∈ ns, IsNumeral n.1 n.2 ∧ intMin ≤ n.2 ∧ n.2 ≤ intMax) →
      CollectsInts o ts (ns.map Prod.snd)

/-- The first of the texts is not made of commas only. -/
def StartsWell (ts : List Str) : Prop := ∀ t ∈ ts.head?, pieces t ≠ []

/-- There is a range separator in the text: a `-` or `:` after a digit and before a digit or `-`. -/
def HasSeparator (v : Str) : Prop :=
  ∃ (l : Str) (d sep e : Byte) (r : Str), v = l ++ [d, sep, e] ++ r ∧ isDigit d = true ∧
    (sep = 45 ∨ sep = 58) ∧ (isDigit e = true ∨ e = 45)

/-- The handlers of arrays, maps and variadic positionals. -/
def Handler.isCollection : Handler → Bool
  | .arrayString | .arrayInt | .arrayFloat | .mapString | .mapInt | .mapFloat | .mapBool
  | .variadicString | .variadicInt | .variadicFloat => true
  | _ => false

end Argus
