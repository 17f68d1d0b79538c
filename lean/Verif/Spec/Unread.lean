import Verif.Spec.Outcome
import Verif.Spec.Explicit

/-!
# Texts that are passed on unread

A string option, a list of strings or a string array that keeps its order, without validators other than V_COUNT: the parser has
no business with what the texts say. `ToldOtherwise T a b`: `b` is `a` with other such texts.
-/

set_option autoImplicit false

namespace Argus

/-- Item by item. -/
def Alongside {α : Type} (r : α → α → Prop) : List α → List α → Prop
  | [], [] => True
  | x :: xs, y :: ys => r x y ∧ Alongside r xs ys
  | _, _ => False

/-- The option as declared, without what a parse writes. -/
def Opt.declared (o : Opt) : Opt :=
  { o with value := .null, isAllocated := false, valueCount := 0, valueCapacity := 0, isSet := false }

/-- Other texts: which text may stand for which in an option, and two environments. -/
structure Telling where
  text : Opt → Str → Str → Prop
  env : Env
  env' : Env
  envPrefix : Option Str

/-- An option whose texts are kept and nothing else. -/
structure Opt.Unread (o : Opt) : Prop where
  handler : o.handler = some .string ∨
    ((o.handler = some .arrayString ∨ o.handler = some .variadicString) ∧ o.flags.has .sorted = false ∧ o.flags.has .unique = false)
  goesOn : o.flags.has .exit = false
  checks : ∀ v ∈ o.validators.getD [], v.order = .post ∧ ∃ mn mx, v.kind = .count mn mx

/-- The values in a text: an array takes the parts between commas. -/
def Opt.values (o : Opt) (s : Str) : List Str := if o.handler = some .arrayString ∧ s.contains 44 = true then split s [44] else [s]

/-- One text stands for another in an option. -/
structure Telling.Stands (T : Telling) (o : Opt) (s s' : Str) : Prop where
  list : o.handler = some .arrayString → s'.contains 44 = s.contains 44
  values : Alongside (T.text o.declared) (o.values s) (o.values s')

/-- What is given to an option, if anything: the same, or one text that stands for the other if the option does not read it. -/
def Telling.Given (T : Telling) (o : Opt) (x x' : Option Str) : Prop :=
  (¬ o.Unread ∧ x' = x) ∨ (o.Unread ∧ ((x = none ∧ x' = none) ∨ ∃ s s', x = some s ∧ x' = some s' ∧ T.Stands o s s'))

/-- Two cells hold the same, or two texts one of which stands for the other. -/
def ToldWord (r : Str → Str → Prop) : Word → Word → Prop
  | .ptr s, .ptr s' => r s s'
  | w, w' => w' = w

/-- Two values hold the same but for the texts. -/
def ToldVal (r : Str → Str → Prop) : Val → Val → Prop
  | .word w, .word w' => ToldWord r w w'
  | .arr cs, .arr cs' => Alongside (ToldWord r) cs cs'
  | v, v' => v' = v

/-- `o'` is `o`, holding other texts if it does not read them; and in the two environments its variable says the same, or texts
    that stand for each other. -/
structure Retold (T : Telling) (o o' : Opt) : Prop where
  same : { o' with value := o.value } = o
  value : (¬ o.Unread ∧ o'.value = o.value) ∨ (o.Unread ∧ ToldVal (T.text o.declared) o.value o'.value)
  says : T.Given o ((envVarName T.envPrefix o).bind T.env) ((envVarName T.envPrefix o).bind T.env')

/-- The programs `a` and `b` differ in such texts only. -/
structure ToldOtherwise (T : Telling) (a b : Argus) : Prop where
  sizes : b.tables.map List.length = a.tables.map List.length
  entries : ∀ p o, placeAt a.tables p = some o → ∃ o', placeAt b.tables p = some o' ∧ Retold T o o'
  rest : { b with tables := a.tables } = a
  envPrefix : a.envPrefix = T.envPrefix

/-- Two wishes ask for the same, but for such texts. -/
def Telling.Asks (T : Telling) (tables : List (List Opt)) : Act → Act → Prop
  | .give p x, .give q x' => q = p ∧ ∀ o, placeAt tables p = some o → T.Given o x x'
  | x, y => y = x

/-- Two wishes ask for the same, but for texts that stand in a relation. -/
def AskBy (G : Opt → Option Str → Option Str → Prop) (tables : List (List Opt)) : Act → Act → Prop
  | .give p x, .give q x' => q = p ∧ ∀ o, placeAt tables p = some o → G o x x'
  | x, y => y = x

/-- A text for a positional stays, or its new text is a word: it has no dash in front and begins the name of no subcommand of the
    table. -/
def StaysWord (tables : List (List Opt)) : Act → Act → Prop
  | .give p (some s), .give _ (some s') => s' = s ∨ ∀ os o, tables[p.tbl]? = some os → os[p.idx]? = some o → o.type = .positional →
      s'.head? ≠ some 45 ∧ ∀ o' ∈ os, ¬ BeginsSub s' o'
  | _, _ => True

end Argus
