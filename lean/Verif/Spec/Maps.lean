import Verif.Spec.Collect
import Verif.Spec.Scalar

/-!
# Contents of map options
-/

set_option autoImplicit false

namespace Argus

/-- A value in a map option. -/
inductive MVal where
  | str (s : Str)
  | int (n : Int)
  | float (x : F64)
  | bool (b : Bool)
  deriving DecidableEq

/-- The value a text stands for in a map option of the given type. -/
def TextValue (W : World) (vt : ValueType) (v : Str) (x : MVal) : Prop :=
  match vt with
  | .mapString => x = .str v
  | .mapInt => ∃ n, IsNumeral v n ∧ x = .int (max (-9223372036854775808) (min n 9223372036854775807))
  | .mapFloat => v ≠ [] ∧ (W.strtod v).2 = v.length ∧ x = .float (W.strtod v).1
  | .mapBool => MeansTrue v ∧ x = .bool true ∨ MeansFalse v ∧ x = .bool false
  | _ => False

/-- A cell read according to the type of the map. -/
def Word.readAs (vt : ValueType) (w : Word) : Out MVal :=
  match vt with
  | .mapString => w.asString.bind (fun | some s => .ok (.str s) | none => .ub .nullDeref)
  | .mapInt => w.asInt64.bind (fun n => .ok (.int n))
  | .mapFloat => w.asFloat.bind (fun x => .ok (.float x))
  | _ => w.asBool.bind (fun b => .ok (.bool b))

/-- The option presents exactly these entries, in this order. -/
def Opt.Pairs (o : Opt) (es : List (Str × MVal)) : Prop :=
  ∃ cells, o.Entries cells ∧
    cells.map (fun c => (c.1, c.2.readAs o.valueType)) = es.map (fun e => (e.1, Out.ok e.2))

/-- Writing an entry: the value of a present key is replaced in place, a new key is appended. -/
def put (es : List (Str × MVal)) (k : Str) (x : MVal) : List (Str × MVal) :=
  if k ∈ es.map Prod.fst then es.map (fun e => if e.1 = k then (k, x) else e) else es ++ [(k, x)]

/-- Writing several entries. -/
def puts (es : List (Str × MVal)) (ps : List (Str × MVal)) : List (Str × MVal) :=
  ps.foldl (fun es p => put es p.1 p.2) es

/-- The value last written for a key. -/
def lastFor (k : Str) (ps : List (Str × MVal)) : Option MVal :=
  (ps.reverse.find? (fun p => p.1 = k)).map Prod.snd

/-- Values that FLAG_UNIQUE_VALUE takes for the same: equal ones, and doubles less than 0.0000001 apart. -/
def MVal.same : MVal → MVal → Prop
  | .str s, .str t => s = t
  | .int m, .int n => m = n
  | .bool a, .bool b => a = b
  | .float x, .float y => F64.near x y = true
  | _, _ => False

/-- Ascending order of values. -/
def MVal.le : MVal → MVal → Prop
  | .str s, .str t => s ≤ t
  | .int m, .int n => m ≤ n
  | .bool a, .bool b => a = true → b = true
  | .float x, .float y => F64.lt y x = false
  | _, _ => False

/-- Values on which the comparisons of the library are right: ints of type `int`, doubles other than
    NaN. -/
def MVal.Tame : MVal → Prop
  | .int n => intMin ≤ n ∧ n ≤ intMax
  | .float x => F64.isNaN x = false
  | _ => True

/-- A map option of type `vt`. -/
inductive IsMapOption (o : Opt) : ValueType → Prop
  | string : o.handler = some .mapString → o.valueType = .mapString → IsMapOption o .mapString
  | int : o.handler = some .mapInt → o.valueType = .mapInt → IsMapOption o .mapInt
  | float : o.handler = some .mapFloat → o.valueType = .mapFloat → IsMapOption o .mapFloat
  | bool : o.handler = some .mapBool → o.valueType = .mapBool → IsMapOption o .mapBool

/-- The pieces of text stand for these pairs: each is written `key=value`, without `=` in the key. -/
def PairTexts (W : World) (vt : ValueType) (texts : List Str) (ps : List (Str × MVal)) : Prop :=
  ∃ qs : List (Str × Str × MVal), texts = qs.map (fun q => q.1 ++ c!"=" ++ q.2.1) ∧
    ps = qs.map (fun q => (q.1, q.2.2)) ∧ ∀ q ∈ qs, (61 : Byte) ∉ q.1 ∧ TextValue W vt q.2.1 q.2.2

/-- What an occurrence makes of the entries `m` (those shown before, with the new ones written): with
    FLAG_UNIQUE_VALUE only the first entry of each value is kept; then with FLAG_SORTED_KEY, or else
    FLAG_SORTED_VALUE, the entries are sorted. -/
structure MapArranged (fl : Flags) (m shown : List (Str × MVal)) : Prop where
  perm : fl.has .uniqueValue = false → shown.Perm m
  sub : ∀ e ∈ shown, e ∈ m
  plain : fl.has .uniqueValue = false → fl.has .sortedKey = false → fl.has .sortedValue = false → shown = m
  distinct : fl.has .uniqueValue = true → shown.Pairwise (fun a b => ¬ a.2.same b.2)
  first : fl.has .uniqueValue = true → ∀ (l r : List (Str × MVal)) (e : Str × MVal), m = l ++ e :: r →
    (∀ d ∈ l, ¬ e.2.same d.2) → e ∈ shown
  keyOrder : fl.has .sortedKey = true → shown.Pairwise (fun a b => a.1 ≤ b.1)
  valueOrder : fl.has .sortedKey = false → fl.has .sortedValue = true → shown.Pairwise (fun a b => a.2.le b.2)

/-- The entries after several occurrences in turn: each writes its pairs and then the flags are applied. -/
def MapRuns (fl : Flags) : List (Str × MVal) → List (List (Str × MVal)) → List (Str × MVal) → Prop
  | before, [], after => after = before
  | before, new :: later, after => ∃ m, MapArranged fl (puts before new) m ∧ MapRuns fl m later after

/-- The texts, one for each occurrence, stand for these pairs. -/
def OccurrencePairs (W : World) (vt : ValueType) : List Str → List (List (Str × MVal)) → Prop
  | [], pss => pss = []
  | t :: ts, pss => ∃ ps pss', pss = ps :: pss' ∧ PairTexts W vt (pieces t) ps ∧ OccurrencePairs W vt ts pss'

end Argus
