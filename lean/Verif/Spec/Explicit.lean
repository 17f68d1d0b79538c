import Verif.Spec.Spelling

/-!
# Command lines that are spelled out

`Explicit tables … args acts`: the line writes `acts` in the plainest way. Options are called by their long names, values are
attached with `=`, subcommands have their full names, and each argument stands for one wish (apart from one `--`).
-/

set_option autoImplicit false

namespace Argus

/-- The spelled-out ways to write `acts`. The arguments are as for `Written`. -/
inductive Explicit (tables : List (List Opt)) : Option Nat → Nat → Bool → List Str → List Act → Prop
  | done (t : Option Nat) (pos : Nat) (only : Bool) : Explicit tables t pos only [] []
  /-- `--` -/
  | stop (t : Option Nat) (pos : Nat) (rest : List Str) (acts : List Act) :
      Explicit tables t pos true rest acts → Explicit tables t pos false (c!"--" :: rest) acts
  /-- `--name` -/
  | flag (t : Nat) (pos : Nat) (os : List Opt) (name : Str) (i : Nat) (o : Opt) (rest : List Str) (acts : List Act) :
      tables[t]? = some os → CalledLong os name i o → o.valueType = .flag → name ≠ [] → name.length ≤ 63 →
      (61 : Byte) ∉ name → Explicit tables (some t) pos false rest acts →
      Explicit tables (some t) pos false ((c!"--" ++ name) :: rest) (.give ⟨t, i⟩ none :: acts)
  /-- `--name=value` -/
  | value (t : Nat) (pos : Nat) (os : List Opt) (name value : Str) (i : Nat) (o : Opt) (rest : List Str) (acts : List Act) :
      tables[t]? = some os → CalledLong os name i o → o.valueType ≠ .flag → name ≠ [] → name.length ≤ 63 →
      (61 : Byte) ∉ name → Explicit tables (some t) pos false rest acts →
      Explicit tables (some t) pos false ((c!"--" ++ name ++ c!"=" ++ value) :: rest) (.give ⟨t, i⟩ (some value) :: acts)
  /-- the full name of a subcommand -/
  | command (t : Nat) (pos : Nat) (os : List Opt) (name : Str) (i : Nat) (o : Opt) (rest : List Str) (acts : List Act) :
      tables[t]? = some os → name.head? ≠ some 45 → o.name = some name → MeantSub os name i o →
      Explicit tables o.subOptions 0 false rest acts →
      Explicit tables (some t) pos false (name :: rest) (.enter ⟨t, i⟩ :: acts)
  /-- a positional argument that is a word -/
  | word (t : Nat) (pos : Nat) (os : List Opt) (arg : Str) (i : Nat) (o : Opt) (rest : List Str) (acts : List Act) :
      tables[t]? = some os → arg.head? ≠ some 45 → (∀ o' ∈ os, ¬ BeginsSub arg o') → slotAt os pos = some (o, i) →
      Explicit tables (some t) (pos + 1) false rest acts →
      Explicit tables (some t) pos false (arg :: rest) (.give ⟨t, i⟩ (some arg) :: acts)
  /-- a positional argument that is a negative number -/
  | number (t : Nat) (pos : Nat) (os : List Opt) (arg : Str) (i : Nat) (o : Opt) (rest : List Str) (acts : List Act) :
      tables[t]? = some os → NumberHere os pos arg → slotAt os pos = some (o, i) →
      Explicit tables (some t) (pos + 1) false rest acts →
      Explicit tables (some t) pos false (arg :: rest) (.give ⟨t, i⟩ (some arg) :: acts)
  /-- anything after `--` -/
  | after (t : Nat) (pos : Nat) (os : List Opt) (arg : Str) (i : Nat) (o : Opt) (rest : List Str) (acts : List Act) :
      tables[t]? = some os → arg ≠ c!"--" → slotAt os pos = some (o, i) →
      Explicit tables (some t) (pos + 1) true rest acts →
      Explicit tables (some t) pos true (arg :: rest) (.give ⟨t, i⟩ (some arg) :: acts)

/-- Every option has a long name by which it can be called: no other option before it has the name, and the name has at most 63
    bytes and no `=`. -/
def LongNamed (tables : List (List Opt)) : Prop :=
  ∀ os ∈ tables, ∀ (i : Nat) (o : Opt), os[i]? = some o → o.type = .option →
    ∃ name, CalledLong os name i o ∧ name ≠ [] ∧ name.length ≤ 63 ∧ (61 : Byte) ∉ name

/-- No subcommand has a name that begins with a dash. -/
def PlainSubs (tables : List (List Opt)) : Prop :=
  ∀ os ∈ tables, ∀ o ∈ os, o.type = .subcommand → ∀ name, o.name = some name → name.head? ≠ some 45

/-- The argument that spells out a wish: `--name` or `--name=text` for an option, the text itself for a positional, the name
    of a subcommand. -/
def Act.spelled (tables : List (List Opt)) : Act → Str
  | .give p text =>
    match (tables[p.tbl]?).bind (fun os => os[p.idx]?) with
    | some o =>
      if o.type = .option then
        match text with
        | none => c!"--" ++ o.lname.getD []
        | some v => c!"--" ++ o.lname.getD [] ++ c!"=" ++ v
      else text.getD []
    | none => []
  | .enter p => (((tables[p.tbl]?).bind (fun os => os[p.idx]?)).bind (fun o => o.name)).getD []
  | _ => []

end Argus
