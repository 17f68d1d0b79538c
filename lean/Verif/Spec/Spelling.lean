import Verif.Spec.Meaning

/-!
# How a command line is written

A grammar: `Written tables … args acts` says that the arguments `args` are a way to write the list of wishes `acts`. It is
the inverse of reading: it goes from what is wanted to the ways of writing it. The rules named `drop…` are the ways in which
something may stand on the line without being used; they are available only if `drop` holds.
-/

set_option autoImplicit false

namespace Argus

/-- `os[i]` is the first element of the table with the property. -/
def FirstWith (os : List Opt) (P : Opt → Prop) (i : Nat) (o : Opt) : Prop :=
  os[i]? = some o ∧ P o ∧ ∀ (j : Nat) (o' : Opt), j < i → os[j]? = some o' → ¬ P o'

/-- `os[i]` is the option called `--name`. -/
def CalledLong (os : List Opt) (name : Str) (i : Nat) (o : Opt) : Prop :=
  FirstWith os (fun o => o.type = .option ∧ o.lname = some name) i o

/-- `os[i]` is the option called `-c`. -/
def CalledShort (os : List Opt) (c : Byte) (i : Nat) (o : Opt) : Prop :=
  FirstWith os (fun o => o.type = .option ∧ o.sname = c) i o

/-- A subcommand whose name begins with `arg`. -/
def BeginsSub (arg : Str) (o : Opt) : Prop := o.type = .subcommand ∧ ∃ rest, o.name = some (arg ++ rest)

/-- `os[i]` is the subcommand meant by `arg`: the first whose name begins with it, and the only one unless `arg` is its
    name. -/
def MeantSub (os : List Opt) (arg : Str) (i : Nat) (o : Opt) : Prop :=
  FirstWith os (BeginsSub arg) i o ∧
    (o.name = some arg ∨ ∀ (j : Nat) (o' : Opt), os[j]? = some o' → BeginsSub arg o' → j = i)

/-- What may follow a dash in one argument, with the arguments it takes from the line, and what is wanted by it. -/
inductive Bundle (t : Nat) (os : List Opt) : Str → List Str → List Act → Prop
  | flag (c : Byte) (i : Nat) (o : Opt) : CalledShort os c i o → o.valueType = .flag →
      Bundle t os [c] [] [.give ⟨t, i⟩ none]
  | flags (c : Byte) (i : Nat) (o : Opt) (cs : Str) (extra : List Str) (acts : List Act) : CalledShort os c i o →
      o.valueType = .flag → Bundle t os cs extra acts → Bundle t os (c :: cs) extra (.give ⟨t, i⟩ none :: acts)
  | attached (c : Byte) (i : Nat) (o : Opt) (v : Str) : CalledShort os c i o → o.valueType ≠ .flag → v ≠ [] →
      Bundle t os (c :: v) [] [.give ⟨t, i⟩ (some v)]
  | separate (c : Byte) (i : Nat) (o : Opt) (v : Str) : CalledShort os c i o → o.valueType ≠ .flag →
      Bundle t os [c] [v] [.give ⟨t, i⟩ (some v)]

/-- An argument that begins with a dash and is to be taken as a number: a dash number where a number is expected. -/
def NumberHere (os : List Opt) (pos : Nat) (arg : Str) : Prop := DashNumber arg ∧ NumericSlot os pos

/-- The ways to write `acts`. `t` is the table of the level, `pos` the number of positional arguments before, `only` whether
    `--` has been written. -/
inductive Written (drop : Prop) (tables : List (List Opt)) :
    Option Nat → Nat → Bool → List Str → List Act → Prop
  | done (t : Option Nat) (pos : Nat) (only : Bool) : Written drop tables t pos only [] []
  /-- `--` -/
  | stop (t : Option Nat) (pos : Nat) (rest : List Str) (acts : List Act) :
      Written drop tables t pos true rest acts → Written drop tables t pos false (c!"--" :: rest) acts
  /-- `--name` -/
  | longFlag (t : Nat) (pos : Nat) (os : List Opt) (name : Str) (i : Nat) (o : Opt) (rest : List Str) (acts : List Act) :
      tables[t]? = some os → CalledLong os name i o → o.valueType = .flag → name ≠ [] → name.length ≤ 63 →
      (61 : Byte) ∉ name → Written drop tables (some t) pos false rest acts →
      Written drop tables (some t) pos false ((c!"--" ++ name) :: rest) (.give ⟨t, i⟩ none :: acts)
  /-- `--name=value` -/
  | longAttached (t : Nat) (pos : Nat) (os : List Opt) (name value : Str) (i : Nat) (o : Opt) (rest : List Str)
      (acts : List Act) :
      tables[t]? = some os → CalledLong os name i o → o.valueType ≠ .flag → name.length ≤ 63 → (61 : Byte) ∉ name →
      Written drop tables (some t) pos false rest acts →
      Written drop tables (some t) pos false ((c!"--" ++ name ++ c!"=" ++ value) :: rest)
        (.give ⟨t, i⟩ (some value) :: acts)
  /-- `--name value` -/
  | longSeparate (t : Nat) (pos : Nat) (os : List Opt) (name value : Str) (i : Nat) (o : Opt) (rest : List Str)
      (acts : List Act) :
      tables[t]? = some os → CalledLong os name i o → o.valueType ≠ .flag → name ≠ [] → name.length ≤ 63 →
      (61 : Byte) ∉ name → Written drop tables (some t) pos false rest acts →
      Written drop tables (some t) pos false ((c!"--" ++ name) :: value :: rest) (.give ⟨t, i⟩ (some value) :: acts)
  /-- `-abc`, `-abcvalue`, `-abc value` -/
  | short (t : Nat) (pos : Nat) (os : List Opt) (cluster : Str) (extra rest : List Str) (acts1 acts : List Act) :
      tables[t]? = some os → Bundle t os cluster extra acts1 → cluster.head? ≠ some 45 →
      ¬ NumberHere os pos (c!"-" ++ cluster) → Written drop tables (some t) pos false rest acts →
      Written drop tables (some t) pos false ((c!"-" ++ cluster) :: (extra ++ rest)) (acts1 ++ acts)
  /-- a subcommand -/
  | command (t : Nat) (pos : Nat) (os : List Opt) (arg : Str) (i : Nat) (o : Opt) (rest : List Str) (acts : List Act) :
      tables[t]? = some os → arg.head? ≠ some 45 → MeantSub os arg i o →
      Written drop tables o.subOptions 0 false rest acts →
      Written drop tables (some t) pos false (arg :: rest) (.enter ⟨t, i⟩ :: acts)
  /-- a positional argument that is a word -/
  | word (t : Nat) (pos : Nat) (os : List Opt) (arg : Str) (i : Nat) (o : Opt) (rest : List Str) (acts : List Act) :
      tables[t]? = some os → arg.head? ≠ some 45 → (∀ o' ∈ os, ¬ BeginsSub arg o') → slotAt os pos = some (o, i) →
      Written drop tables (some t) (pos + 1) false rest acts →
      Written drop tables (some t) pos false (arg :: rest) (.give ⟨t, i⟩ (some arg) :: acts)
  /-- a positional argument that is a negative number -/
  | number (t : Nat) (pos : Nat) (os : List Opt) (arg : Str) (i : Nat) (o : Opt) (rest : List Str) (acts : List Act) :
      tables[t]? = some os → NumberHere os pos arg → slotAt os pos = some (o, i) →
      Written drop tables (some t) (pos + 1) false rest acts →
      Written drop tables (some t) pos false (arg :: rest) (.give ⟨t, i⟩ (some arg) :: acts)
  /-- anything after `--` -/
  | after (t : Nat) (pos : Nat) (os : List Opt) (arg : Str) (i : Nat) (o : Opt) (rest : List Str) (acts : List Act) :
      tables[t]? = some os → arg ≠ c!"--" → slotAt os pos = some (o, i) →
      Written drop tables (some t) (pos + 1) true rest acts →
      Written drop tables (some t) pos true (arg :: rest) (.give ⟨t, i⟩ (some arg) :: acts)
  /-- a lone dash, not used -/
  | dropDash (t : Option Nat) (pos : Nat) (rest : List Str) (acts : List Act) : drop →
      Written drop tables t pos false rest acts → Written drop tables t pos false (c!"-" :: rest) acts
  /-- a second `--`, not used -/
  | dropStop (t : Option Nat) (pos : Nat) (rest : List Str) (acts : List Act) : drop →
      Written drop tables t pos true rest acts → Written drop tables t pos true (c!"--" :: rest) acts
  /-- the value of `--flag=value`, not used -/
  | dropValue (t : Nat) (pos : Nat) (os : List Opt) (name value : Str) (i : Nat) (o : Opt) (rest : List Str)
      (acts : List Act) : drop →
      tables[t]? = some os → CalledLong os name i o → o.valueType = .flag → name.length ≤ 63 → (61 : Byte) ∉ name →
      Written drop tables (some t) pos false rest acts →
      Written drop tables (some t) pos false ((c!"--" ++ name ++ c!"=" ++ value) :: rest) (.give ⟨t, i⟩ none :: acts)
  /-- the end of a name of more than 63 bytes, not used -/
  | dropName (t : Nat) (pos : Nat) (os : List Opt) (name tail text : Str) (i : Nat) (o : Opt) (rest : List Str)
      (acts : List Act) : drop →
      tables[t]? = some os → CalledLong os name i o → name.length = 63 → (61 : Byte) ∉ name → tail ≠ [] →
      (61 : Byte) ∉ tail →
      Written drop tables (some t) pos false ((c!"--" ++ name ++ text) :: rest) acts →
      (text = [] ∨ ∃ v, text = c!"=" ++ v) →
      Written drop tables (some t) pos false ((c!"--" ++ name ++ tail ++ text) :: rest) acts

end Argus
