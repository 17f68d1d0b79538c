import Verif.Model.Display
import Verif.Spec.Buffer

/-!
# What the help should say about an option
-/

set_option autoImplicit false

namespace Argus

/-- An interval as text. -/
def interval (mn mx : Int) : Str := showInt mn ++ c!"-" ++ showInt mx

/-- A pattern in words: its hint, or the pattern itself if it is short, or just the word. -/
def patternWords : Option Str → Option Str → Str
  | _, some (c :: h) => c :: h
  | some (c :: p), _ => if p.length < 15 then c :: p else c!"pattern"
  | _, _ => c!"pattern"

/-- What a constraint allows, in words; `none` for user validators. `g2` prints a float. -/
def VKind.words (g2 : F64 → Str) : VKind → Option Str
  | .range mn mx => some (interval mn mx)
  | .length mn mx => some (interval mn mx ++ c!" chars")
  | .count mn mx => some (interval mn mx)
  | .choiceStr cs => some (bars cs)
  | .choiceInt cs => some (bars (cs.map showInt))
  | .choiceFloat cs => some (bars (cs.map g2))
  | .regex p h => some (patternWords p h)
  | .custom _ => none

/-- How a description mentions a constraint; nothing for user validators. -/
def VKind.note (g2 : F64 → Str) : VKind → Str
  | .range mn mx => c!" (range: " ++ interval mn mx ++ c!")"
  | .length mn mx => c!" (" ++ interval mn mx ++ c!" chars)"
  | .count mn mx => c!" (count: " ++ interval mn mx ++ c!")"
  | .choiceStr cs => c!" [" ++ bars cs ++ c!"]"
  | .choiceInt cs => c!" [" ++ bars (cs.map showInt) ++ c!"]"
  | .choiceFloat cs => c!" [" ++ bars (cs.map g2) ++ c!"]"
  | .regex p h => c!" (pattern: " ++ patternWords p h ++ c!")"
  | .custom _ => []

/-- The sizes up to which the words of a constraint fit into the buffers: 31 bytes for an interval, 255 for the whole
    note. -/
def VKind.Fits (g2 : F64 → Str) : VKind → Prop
  | .range mn mx => (interval mn mx).length ≤ 31
  | .length mn mx => (interval mn mx).length ≤ 25
  | .count mn mx => (interval mn mx).length ≤ 31
  | .choiceStr cs => (bars cs).length ≤ 252
  | .choiceInt cs => (bars (cs.map showInt)).length ≤ 252 ∧ ∀ n ∈ cs, -2 ^ 63 ≤ n ∧ n < 2 ^ 63
  | .choiceFloat cs => (bars (cs.map g2)).length ≤ 252 ∧ ∀ x ∈ cs, (g2 x).length ≤ 20
  | .regex _ h => (h.getD []).length ≤ 243
  | .custom _ => True

/-- A validator as the macros of options.h write it, with words that fit; user validators are not restricted. -/
def Validator.Fits (g2 : F64 → Str) (v : Validator) : Prop :=
  v.kind.Fits g2 ∧ ((∀ id, v.kind ≠ .custom id) → v.hasFormatter = true)

/-- The words of a validator; those of a user validator come from its formatter. -/
def Validator.words (F : Fmt) (v : Validator) : Option Str :=
  match v.kind with
  | .custom id => if v.hasFormatter then F.custom id else none
  | k => k.words F.g2

/-- The words of the only validator of an option stand in place of a hint: there is no hint, the words have at most
    the configured length, and no space unless spaces are allowed. -/
def Opt.WordsInName (F : Fmt) (cfg : HelperConfig) (o : Opt) (w : Str) : Prop :=
  o.hint = none ∧ (∃ v, o.validators = some [v] ∧ v.words F = some w) ∧
    w.length ≤ cfg.smartHintMaxLength ∧ (32 ∈ w → cfg.smartHintAllowSpaces = true)

/-- `s` is how a description should mention the default of an option. -/
inductive Opt.DefaultNote (f2 : F64 → Str) (o : Opt) : Str → Prop
  | none : o.haveDefault = false → DefaultNote f2 o []
  | flag : o.valueType = .flag → DefaultNote f2 o []
  | int (n : Int) : o.haveDefault = true → o.valueType = .int → o.defaultValue.asInt64 = .ok n →
      -2 ^ 31 ≤ n → n < 2 ^ 31 → DefaultNote f2 o (c!" (default: " ++ showInt n ++ c!")")
  | string (t : Str) : o.haveDefault = true → o.valueType = .string → o.defaultValue = .ptr t →
      t.length ≤ 113 → DefaultNote f2 o (c!" (default: \"" ++ t ++ c!"\")")
  | null : o.haveDefault = true → o.valueType = .string → o.defaultValue = .null → DefaultNote f2 o c!" (default: null)"
  | float (x : F64) : o.haveDefault = true → o.valueType = .float → o.defaultValue.asFloat = .ok x →
      (f2 x).length ≤ 115 → DefaultNote f2 o (c!" (default: " ++ f2 x ++ c!")")
  | bool (b : Bool) : o.haveDefault = true → o.valueType = .bool → o.defaultValue.asBool = .ok b →
      DefaultNote f2 o (c!" (default: " ++ (if b then c!"true" else c!"false") ++ c!")")

/-- A description with the name of a variable: within the last parenthesis, or in one of its own. -/
def withVariable (d : Str) : Option Str → Str
  | none => d
  | some e => if d.getLast? = some 41 then d.dropLast ++ c!", env: " ++ e ++ c!")" else d ++ c!" (env: " ++ e ++ c!")"

/-- The marks of an option. -/
def marks (f : Flags) : Str :=
  (if f.has .exit then c!" (exit)" else []) ++ (if f.has .required then c!" (required)" else []) ++
  (if f.has .deprecated then c!" (deprecated)" else []) ++ (if f.has .experimental then c!" (experimental)" else [])

/-- The placeholder for a value of each type. -/
def ValueType.placeholder : ValueType → Str
  | .int => c!"NUM"
  | .string => c!"STR"
  | .float => c!"FLOAT"
  | .bool => c!"BOOL"
  | .flag => c!"FLAG"
  | _ => c!"VALUE"

/-- `h` stands for the value of an option: the hint, else the words of the only constraint if they are short, else
    the placeholder of its type. -/
def Opt.StandsFor (F : Fmt) (cfg : HelperConfig) (o : Opt) (h : Str) : Prop :=
  o.hint = some h ∨ o.WordsInName F cfg h ∨
    (o.hint = none ∧ (∀ w, ¬ o.WordsInName F cfg w) ∧ h = o.valueType.placeholder)

/-- How many values may be given. -/
def ValueType.several (t : ValueType) (h : Str) : Str :=
  if t.isVariadic then h ++ c!"..."
  else if t.isArray then h ++ c!",..."
  else if t.isMap then c!"KEY=" ++ h ++ c!",..."
  else h

/-- The names of an option as they are typed. -/
def Opt.typed (o : Opt) : Str :=
  match o.sname, o.lname with
  | 0, none => []
  | 0, some l => c!"--" ++ l
  | s, none => [45, s]
  | s, some l => [45, s] ++ c!", --" ++ l

end Argus
