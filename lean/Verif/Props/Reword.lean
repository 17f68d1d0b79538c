import Verif.Lemmas.RewordMessages
import Verif.Spec.Sample
import Verif.Props.Messages

/-!
# C80: help texts do not influence the parse

`ShownOtherwise a b`: the programs `a` and `b` differ in help texts, hints, display flags (hidden, advanced, deprecated,
experimental), program name, version, description and configuration of the help only.
-/

set_option autoImplicit false

namespace Argus

/-- **C80** Two programs that differ in what they show only behave the same on every command line and in every
    environment: same end, same kinds of messages, same subcommands and error code, and the options of both hold the
    same. -/
theorem C80_texts_do_not_matter (W : World) (env : Env) (a b : Argus) (args : List Str) (hw : MindsNoTexts W)
    (h : ShownOtherwise a b) (w : ParseEnd) (a' : Argus) (ha : argusParse W env a args = .ok (w, a')) :
    ∃ b', argusParse W env b args = .ok (w, b') ∧ b'.out = a'.out ∧ b'.stack = a'.stack ∧
      b'.errorCode = a'.errorCode ∧ b'.tables.map List.length = a'.tables.map List.length ∧
      ∀ p o, a'.getOpt p = .ok o → ∃ o', b'.getOpt p = .ok o' ∧ o'.value = o.value ∧ o'.isSet = o.isSet ∧
        o'.valueCount = o.valueCount ∧ Reworded o o' := by
  have key := shown_argusParse (env := env) hw h args
  rw [ha] at key
  cases hb : argusParse W env b args with
  | ub u => rw [hb] at key; exact key.elim
  | ok r =>
    rw [hb] at key
    obtain ⟨h1, h2⟩ := key
    simp only at h1 h2
    refine ⟨r.2, by rw [← h1], h2.out, h2.stack, h2.errorCode, h2.sizes, fun p o ho => ?_⟩
    rcases h2.getOpt p with ⟨x, x', h3, h4, h5⟩ | ⟨u, h3, _⟩
    · rw [ho] at h3; cases h3
      exact ⟨x', h4, h5.value, h5.isSet, h5.valueCount, h5⟩
    · rw [ho] at h3; cases h3

/-- **C80** Undefined behaviour does not depend on the texts, either. -/
theorem C80_texts_do_not_matter_ub (W : World) (env : Env) (a b : Argus) (args : List Str) (hw : MindsNoTexts W)
    (h : ShownOtherwise a b) (u : Ub) (ha : argusParse W env a args = .ub u) : argusParse W env b args = .ub u := by
  have key := shown_argusParse (env := env) hw h args
  rw [ha] at key
  cases hb : argusParse W env b args with
  | ub v => rw [hb] at key; rw [show u = v from key]
  | ok r => rw [hb] at key; exact key.elim

/-- **C80** After both parses `argus_get`, `argus_is_set` and `argus_count` give the same under every path. -/
theorem C80_same_answers (W : World) (env : Env) (a b : Argus) (args : List Str) (hw : MindsNoTexts W)
    (h : ShownOtherwise a b) (w w' : ParseEnd) (a' b' : Argus) (ha : argusParse W env a args = .ok (w, a'))
    (hb : argusParse W env b args = .ok (w', b')) (path key : Str) (i : Nat) :
    (do let r ← argusGet b' path; Out.ok r.1) = (do let r ← argusGet a' path; Out.ok r.1) ∧
    (do let r ← argusIsSet b' path; Out.ok r.1) = (do let r ← argusIsSet a' path; Out.ok r.1) ∧
    (do let r ← argusCount b' path; Out.ok r.1) = (do let r ← argusCount a' path; Out.ok r.1) ∧
    (do let r ← argusArrayGet b' path i; Out.ok r.1) = (do let r ← argusArrayGet a' path i; Out.ok r.1) ∧
    (do let r ← argusMapGet b' path key; Out.ok r.1) = (do let r ← argusMapGet a' path key; Out.ok r.1) := by
  have hk := shown_argusParse (env := env) hw h args
  rw [ha, hb] at hk
  have h2 : ShownOtherwise a' b' := hk.2
  unfold argusGet argusIsSet argusCount argusArrayGet argusMapGet
  rcases shown_lookup h2 path with ⟨u, e1, e2⟩ | ⟨e1, e2⟩ | ⟨o, o', e1, e2, hr⟩
  · rw [e1, e2]; exact ⟨rfl, rfl, rfl, rfl, rfl⟩
  · rw [e1, e2]; exact ⟨rfl, rfl, rfl, rfl, rfl⟩
  · rw [e1, e2]
    simp only [Out.ok_bind, hr.value, hr.isSet, hr.valueCount, hr.valueType, hr.valueCapacity]
    refine ⟨trivial, trivial, trivial, ?_, ?_⟩
    · split
      · rfl
      split
      · rfl
      · cases readArray o.value o.valueCapacity i <;> rfl
    · split
      · rfl
      · cases mapSearch o.value key o.valueCount 0 with
        | ub u => rfl
        | ok r => cases r <;> rfl

/-- Another wording for an entry: it is hidden and its texts are replaced. -/
def Opt.reword (o : Opt) : Opt :=
  { o with help := some c!"Ein Text", hint := none, flags := o.flags ||| Flags.ofList [.hidden] }

/-- The sample program in another language, under another name. -/
def Sample.translated : Argus :=
  { Sample.prog with
    tables := Sample.prog.tables.map (·.map Opt.reword), programName := c!"programm", version := some c!"1.1" }

theorem sample_translated : ShownOtherwise Sample.prog Sample.translated := by
  refine ⟨by decide, fun p o ho => ?_, rfl⟩
  obtain ⟨os, h1, h2⟩ := Option.bind_eq_some_iff.1 ho
  have h3 : (Sample.prog.tables.map (·.map Opt.reword))[p.tbl]? = some (os.map Opt.reword) := by simp [h1]
  refine ⟨o.reword, by simp [placeAt, Sample.translated, h1, h2], rfl, fun f hf => ?_⟩
  have key : (Flags.ofList [.hidden]).has f = false := by
    cases f <;> first | decide | exact absurd (by simp [Flag.isForDisplay]) hf
  show (o.flags ||| Flags.ofList [.hidden]).getLsbD f.bit = o.flags.getLsbD f.bit
  rw [BitVec.getLsbD_or, show (Flags.ofList [.hidden]).getLsbD f.bit = false from key, Bool.or_false]

theorem sample_mindsNoTexts : MindsNoTexts Sample.world := by
  refine ⟨fun id o o' x h => ?_, fun id o o' h => rfl⟩
  show (⟨Err.success, o'.value, o'.isAllocated, o'.valueCount, o'.valueCapacity, none⟩ : CustomResult) = _
  rw [h.value, h.isAllocated, h.valueCount, h.valueCapacity]
  rfl

/-- Both programs accept `--num 5 file` and refuse `--num x`. -/
example : Sample.translated ≠ Sample.prog ∧
    (argusParse Sample.world Sample.noEnv Sample.prog [c!"--num", c!"5", c!"file"]).toOption.map (·.1) =
      some (.returned Err.success) ∧
    (argusParse Sample.world Sample.noEnv Sample.translated [c!"--num", c!"5", c!"file"]).toOption.map (·.1) =
      some (.returned Err.success) ∧
    (argusParse Sample.world Sample.noEnv Sample.translated [c!"--num", c!"x"]).toOption.map (fun r => (r.1, r.2.out)) =
      (argusParse Sample.world Sample.noEnv Sample.prog [c!"--num", c!"x"]).toOption.map (fun r => (r.1, r.2.out)) :=
  ⟨fun h => absurd (congrArg Argus.programName h) (by decide), by decide +kernel, by decide +kernel, by decide +kernel⟩

/-- **C80** The messages are the same word for word, and so are the cases in which one is undefined, if the help texts of
    subcommands are the same (an ambiguous abbreviation quotes them, `C80_command_texts_quoted`). -/
theorem C80_same_messages (W : World) (M : Wording) (env : Env) (a b : Argus) (args : List Str) (hw : MindsNoTexts W)
    (hm : WordsNoTexts M) (h : ShownOtherwise a b) (hc : SameCommandTexts a b) :
    (do let r ← parseMessages W M env b args; Out.ok r.1) = (do let r ← parseMessages W M env a args; Out.ok r.1) := by
  have key := shown_parseMessages hw hm (env := env) h hc args
  cases ha : parseMessages W M env a args with
  | ub u =>
    cases hb : parseMessages W M env b args with
    | ub v => rw [ha, hb] at key; rw [show u = v from key]
    | ok s => rw [ha, hb] at key; exact key.elim
  | ok r =>
    cases hb : parseMessages W M env b args with
    | ub v => rw [ha, hb] at key; exact key.elim
    | ok s => rw [ha, hb] at key; simp only [Out.ok_bind, key.1]

/-- **C80** What `argus_parse` prints to stderr is the same byte for byte if the name of the program is, too. -/
theorem C80_same_stderr (W : World) (M : Wording) (env : Env) (a b : Argus) (args : List Str) (hw : MindsNoTexts W)
    (hm : WordsNoTexts M) (h : ShownOtherwise a b) (hc : SameCommandTexts a b) (hp : b.programName = a.programName) :
    parseStderr W M env b args = parseStderr W M env a args := by
  have key := shown_parseMessages hw hm (env := env) h hc args
  unfold parseStderr
  cases ha : parseMessages W M env a args with
  | ub u =>
    cases hb : parseMessages W M env b args with
    | ub v => rw [ha, hb] at key; rw [show u = v from key]; rfl
    | ok s => rw [ha, hb] at key; exact key.elim
  | ok r =>
    cases hb : parseMessages W M env b args with
    | ub v => rw [ha, hb] at key; exact key.elim
    | ok s => rw [ha, hb] at key; simp only [Out.ok_bind, key.1, key.2 hp, hp]

/-- The sample program with other texts for everything but its subcommands. -/
def Sample.retold : Argus :=
  { Sample.prog with tables := Sample.prog.tables.map (·.map fun o => if o.type = .subcommand then o else o.reword) }

/-- It prints the same, for instance on `--port 0`. -/
example : Sample.retold ≠ Sample.prog ∧ SameCommandTexts Sample.prog Sample.retold ∧
    parseStderr Sample.world Sample.words Sample.noEnv Sample.retold [c!"--port", c!"0"] =
      .ok c!"prog: Value 0 is out of range 1-65535\n" := by
  refine ⟨?_, ?_, by decide +kernel⟩
  · intro h
    have := congrArg (fun a : Argus => (a.tables[0]?.bind (fun os => os[1]?)).bind (fun o => o.help)) h
    revert this; decide
  · intro p o o' ho ho' ht
    obtain ⟨os, h1, h2⟩ := Option.bind_eq_some_iff.1 ho
    have h3 : (Sample.prog.tables.map (·.map fun o => if o.type = .subcommand then o else o.reword))[p.tbl]? =
        some (os.map fun o => if o.type = .subcommand then o else o.reword) := by simp [h1]
    simp only [placeAt, Sample.retold, h3, Option.bind_some, List.getElem?_map, h2, Option.map_some, ht, if_true,
      Option.some.injEq] at ho'
    rw [← ho']

/-- **C80** The texts of subcommands are quoted: on `ad` the sample program prints NULL, its translation does not. -/
theorem C80_command_texts_quoted :
    ShownOtherwise Sample.prog Sample.translated ∧
    parseMessages Sample.world Sample.words Sample.noEnv Sample.prog [c!"ad"] = .ub .nullDeref ∧
    (do let r ← parseMessages Sample.world Sample.words Sample.noEnv Sample.translated [c!"ad"]; Out.ok r.1) =
      .ok [(Err.ambiguousSubcommand, c!"'ad' is ambigous and could match:\n  'add' - Ein Text\n  'admin' - Ein Text")] :=
  ⟨sample_translated, by decide +kernel, by decide +kernel⟩

end Argus
