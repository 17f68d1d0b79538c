import Verif.Lemmas.ComplaintsRun
import Verif.Lemmas.BlameCheck
import Verif.Props.Structure
import Verif.Props.Messages

/-!
# C74: a refused definition is explained
-/

set_option autoImplicit false

namespace Argus

/-! ## What is said -/

/-- **C74** The complaints about a definition are exactly those that Spec/Complaints asks for: each says what is wrong, of the
    entry that is wrong, and nothing that is wrong is left out. (Partial: as far as the messages are defined, see
    `C74_defined_partial`. Some are said of an entry that is not to blame, see `C74_innocent`.) -/
theorem C74_complaints_partial (W : World) (M : Wording) (prog : Str) (L : Nat → Nat → Site) (tables : List (List Opt))
    (fuel : Nat) (cs : List (Nat × Complaint)) (h : structureComplaints W M prog L tables fuel 0 (some 0) = .ok (some cs))
    (k i : Nat) (t : Str) : (k, i, t) ∈ cs ↔ Objection W M prog L tables k i t := by
  rw [structureComplaints_mem h]
  unfold Objection TooDeep
  constructor
  · rintro ⟨d, os, h1, h2, h3 | ⟨o, h3, h4, h5, h6, rfl⟩⟩
    · exact .inl ⟨h1.reaches, os, h2, h3⟩
    · exact .inr ⟨⟨d, os, o, h1, h2, h3, h4, h5, by omega⟩, rfl⟩
  · rintro (⟨h1, os, h2, h3⟩ | ⟨⟨d, os, o, h1, h2, h3, h4, h5, h6⟩, rfl⟩)
    · obtain ⟨d, hd⟩ := h1.at
      exact ⟨d, os, hd, h2, .inl h3⟩
    · exact ⟨d, os, h1, h2, .inr ⟨o, h3, h4, h5, by omega, rfl⟩⟩

theorem entryWord_titled (x : Option Opt) : Titled x (typeWord (x.map (·.type)) ++ entryWord x ++ c!" ]") := by
  cases x with
  | none => exact .ends
  | some o =>
    unfold entryWord
    cases hn : o.name with
    | none =>
      simp only [Option.map_some, hn]
      cases ht : o.type with
      | option => exact .optionUnnamed ht hn
      | group => exact .groupUnnamed ht hn
      | positional => exact .positionalUnnamed ht hn
      | subcommand => exact .subcommandUnnamed ht hn
    | some n =>
      simp only [Option.map_some, hn]
      cases ht : o.type with
      | option =>
        have hne : o.name ≠ none := by rw [hn]; simp
        rw [if_pos rfl]
        cases hl : o.lname with
        | none =>
          by_cases hs : o.sname = 0
          · rw [if_neg (by simp [hs])]
            exact .optionNone ht hne hl hs
          · rw [if_pos hs]
            exact .optionShort ht hne hl hs
        | some l =>
          by_cases hs : o.sname = 0
          · rw [if_neg (by simp [hs])]
            have h1 := Titled.optionLong ht hne hl hs
            simpa [typeWord] using h1
          · rw [if_pos hs]
            have h1 := Titled.optionBoth ht hne hl hs
            simpa [typeWord] using h1
      | group => exact .group ht hn
      | positional => exact .positional ht hn
      | subcommand => exact .subcommand ht hn

/-- **C74** What is printed is one paragraph for each complaint: where the entry is written, what it is called, and the text. -/
theorem C74_printed_partial (W : World) (M : Wording) (prog : Str) (L : Nat → Nat → Site) (tables : List (List Opt))
    (fuel : Nat) (text : Str) (h : initStderr W M L fuel tables prog = .ok (some text)) :
    ∃ ps : List Str, text = ps.flatten ∧
      (∀ p ∈ ps, ∃ k i t os title, Objection W M prog L tables k i t ∧ tables[k]? = some os ∧ Titled os[i]? title ∧
        p = (L k i).file ++ c!":" ++ showInt (L k i).line ++ c!" -> " ++ title ++ c!":\n\t" ++ t ++ c!"\n") ∧
      ∀ k i t, Objection W M prog L tables k i t → ∃ os title, tables[k]? = some os ∧ Titled os[i]? title ∧
        (L k i).file ++ c!":" ++ showInt (L k i).line ++ c!" -> " ++ title ++ c!":\n\t" ++ t ++ c!"\n" ∈ ps := by
  unfold initStderr at h
  obtain ⟨cs, h1, h2⟩ := Ends.bind_eq_some h
  simp only [Out.ok.injEq, Option.some.injEq] at h2
  have hm := C74_complaints_partial W M prog L tables fuel cs h1
  have htab : ∀ {k i : Nat} {t : Str}, Objection W M prog L tables k i t → ∃ os, tables[k]? = some os := by
    rintro k i t (⟨_, os, g, _⟩ | ⟨⟨_, os, _, _, g, _⟩, _⟩) <;> exact ⟨os, g⟩
  have hline : ∀ (k i : Nat) (t : Str) (os : List Opt), complaintLine (L k) os (i, t) = (L k i).file ++ c!":" ++
      showInt (L k i).line ++ c!" -> " ++ (typeWord (os[i]?.map (·.type)) ++ entryWord os[i]? ++ c!" ]") ++ c!":\n\t" ++ t ++
      c!"\n" := by
    intro k i t os
    simp [complaintLine]
  refine ⟨_, h2.symm, ?_, ?_⟩
  · intro p hp
    obtain ⟨⟨k, i, t⟩, hc, rfl⟩ := List.mem_map.1 hp
    have ho := (hm k i t).1 hc
    obtain ⟨os, hos⟩ := htab ho
    refine ⟨k, i, t, os, _, ho, hos, entryWord_titled _, ?_⟩
    simp only [hos, Option.getD_some]
    exact hline k i t os
  · intro k i t ho
    obtain ⟨os, hos⟩ := htab ho
    refine ⟨os, _, hos, entryWord_titled _, ?_⟩
    rw [← hline]
    refine List.mem_map.2 ⟨(k, i, t), (hm k i t).2 ho, ?_⟩
    simp [hos]

/-! ## When it is said -/

/-- **C74** A definition is refused iff something is said about it. -/
theorem C74_refused_partial (W : World) (M : Wording) (prog : Str) (L : Nat → Nat → Site) (tables : List (List Opt))
    (fuel : Nat) (version : Option Str) (cs : List (Nat × Complaint))
    (h : structureComplaints W M prog L tables fuel 0 (some 0) = .ok (some cs)) :
    ∃ r, argusInitValidate W fuel tables prog version = .ok (some r) ∧ (r = none ↔ cs ≠ []) := by
  obtain ⟨st, h1, h2⟩ := structureComplaints_status h
  unfold argusInitValidate
  rw [h1, Out.ok_bind]
  simp only
  by_cases hs : st ≠ Err.success
  · rw [if_pos hs]
    exact ⟨none, rfl, ⟨fun _ he => hs (h2.2 he), fun _ => rfl⟩⟩
  · rw [if_neg hs]
    simp only [ne_eq, Decidable.not_not] at hs
    exact ⟨_, rfl, ⟨fun he => by simp at he, fun he => absurd (h2.1 hs) he⟩⟩

/-- **C74** Nothing is printed iff the definition is well formed. -/
theorem C74_silent_iff_well_formed_partial (W : World) (M : Wording) (prog : Str) (L : Nat → Nat → Site)
    (tables : List (List Opt)) (fuel : Nat) (text : Str) (h : initStderr W M L fuel tables prog = .ok (some text)) :
    text = [] ↔ WellFormed W tables 0 := by
  unfold initStderr at h
  obtain ⟨cs, h1, h2⟩ := Ends.bind_eq_some h
  simp only [Out.ok.injEq, Option.some.injEq] at h2
  obtain ⟨r, h3, h4⟩ := C74_refused_partial W M prog L tables fuel none cs h1
  have ht : text = [] ↔ cs = [] := by
    rw [← h2]
    cases cs with
    | nil => simp
    | cons c cs => simp [complaintLine]
  rw [ht, ← C40_accepts_exactly_well_formed W tables prog none]
  constructor
  · intro hc
    cases r with
    | none => exact absurd hc (h4.1 rfl)
    | some a => exact ⟨fuel, a, h3⟩
  · rintro hw
    have hw2 := (C40_accepts_exactly_well_formed W tables prog none).1 hw
    refine Decidable.byContradiction fun hc => ?_
    obtain ⟨c, cs', rfl⟩ := List.exists_cons_of_ne_nil hc
    have hr := h4.2 hc
    subst hr
    have h5 : validateStructure W tables 9 0 (some 0) = .ok (some Err.success) :=
      validateStructure_complete W tables 8 9 0 0 (by omega) (by omega) hw2.level hw2.depth
    obtain ⟨st, h6, h7⟩ := structureComplaints_status h1
    have h8 : DepthAtMost tables (some 0) 8 := hw2.depth
    have hm := structureComplaints_mem h1
    have h9 : ∀ j, Reaches tables 0 j → ∃ os, tables[j]? = some os ∧
        ∀ o ∈ os, o.type = .option ∨ o.type = .positional → o.Explained W M := structureComplaints_explained h1
    obtain ⟨cs9, g1⟩ := structureComplaints_ok (prog := prog) (L := L) (depth := 0) (n := 8) (fuel := 9) (by omega) h8 h9
    obtain ⟨st9, g2, g3⟩ := structureComplaints_status g1
    rw [h5] at g2
    simp only [Out.ok.injEq, Option.some.injEq] at g2
    have g4 : cs9 = [] := g3.1 g2.symm
    obtain ⟨k, i, t⟩ := c
    have g5 := (structureComplaints_mem g1 k i t).2 ((hm k i t).1 (by simp))
    rw [g4] at g5; simp at g5

/-! ## Definedness -/

/-- **C74** The messages are defined iff each validator is defined on the default values it is run on and, from the first that
    does not accept a value on, every validator in the list has something to say about it. -/
theorem C74_defined_partial (W : World) (M : Wording) (prog : Str) (L : Nat → Nat → Site) (tables : List (List Opt)) (n : Nat)
    (hn : DepthAtMost tables (some 0) n) (fuel : Nat) (hf : n < fuel) :
    (∃ text, initStderr W M L fuel tables prog = .ok (some text)) ↔ ∀ k, Reaches tables 0 k → ∃ os, tables[k]? = some os ∧
      ∀ o ∈ os, o.type = .option ∨ o.type = .positional → o.Explained W M := by
  unfold initStderr
  constructor
  · rintro ⟨text, h⟩
    obtain ⟨cs, h1, _⟩ := Ends.bind_eq_some h
    exact structureComplaints_explained h1
  · intro h
    obtain ⟨cs, h1⟩ := structureComplaints_ok (prog := prog) (L := L) (depth := 0) hf hn h
    rw [h1]
    exact ⟨_, rfl⟩

/-- What a validator of the library says of a value it does not accept, and of one that it does. -/
theorem says_of_tries {W : World} {M : Wording} {o : Opt} {v : Validator} {r : VRes} (hw : W.NullRefused)
    (hb : ∀ id, v.kind ≠ .custom id) (h : o.Tries W v r) :
    ∃ ms, o.Says W M v ms ∧ (r.1 = Err.success ↔ ms = []) := by
  have fin : ∀ {x : Out (List Message)} {P : Prop}, P → Worded P r.2.toList x → r.Told → ∃ ms, x = .ok ms ∧
      (r.1 = Err.success ↔ ms = []) := by
    intro x P hp hx ht
    obtain ⟨ms, h1⟩ := hx.defined hp
    refine ⟨ms, h1, ?_⟩
    have h2 := hx.codes ms h1
    rcases ht with ⟨e1, e2⟩ | ⟨e1, e2⟩
    · rw [e2] at h2
      simp only [Option.toList_none, List.map_eq_nil_iff] at h2
      exact ⟨fun _ => h2, fun _ => e1⟩
    · rw [e2] at h2
      exact ⟨fun h => absurd h e1, fun h => by rw [h] at h2; simp at h2⟩
  rcases h with ⟨h1, h2⟩ | ⟨h1, h2, s, h3, h4⟩
  · obtain ⟨ms, g1, g2⟩ := fin trivial (runPost_worded (M := M) h2) (runPost_told hb h2)
    exact ⟨ms, .inl ⟨h1, g1⟩, g2⟩
  · obtain ⟨ms, g1, g2⟩ := fin hw (runPre_worded (M := M) h4) (runPre_told hb h4)
    exact ⟨ms, .inr (.inl ⟨h1, h2, s, h3, g1⟩), g2⟩

/-- **C74** With the validators of the library the messages about a default value are defined iff no validator that does not
    reject it comes after one that does. -/
theorem C74_library_partial (W : World) (M : Wording) (hw : W.NullRefused) (o : Opt) (ho : o.Checkable W) :
    o.Explained W M ↔ (o.haveDefault = true → o.valueType ≠ .flag → ∀ vs1 v vs2, o.validators = some (vs1 ++ v :: vs2) →
      (∃ w ∈ vs1, o.Rejects W w) → o.Rejects W v) := by
  have hsays : ∀ v ∈ o.validators.getD [], o.haveDefault = true → ∃ ms, o.Says W M v ms ∧ (ms = [] ↔ ¬ o.Rejects W v) := by
    intro v hv hd
    by_cases hr : o.Runs v
    · obtain ⟨r, h1⟩ := (ho hd v hv).2 hr
      obtain ⟨ms, h2, h3⟩ := says_of_tries (M := M) hw (ho hd v hv).1 h1
      refine ⟨ms, h2, ?_⟩
      rw [← h3]
      constructor
      · rintro h4 ⟨r2, h5, h6⟩
        rw [h1.unique h5] at h4; exact h6 h4
      · intro h4
        exact Decidable.byContradiction fun h5 => h4 ⟨r, h1, h5⟩
    · refine ⟨[], .inr (.inr ⟨hr, rfl⟩), ?_⟩
      simp only [true_iff]
      rintro ⟨r, h1, _⟩
      exact hr h1.runs
  unfold Opt.Explained
  constructor
  · intro h hd hf vs1 v vs2 hv hex
    obtain ⟨_, ms, h1, h2⟩ := h hd hf vs1 v vs2 hv
    obtain ⟨w, hw1, hw2⟩ := hex
    have h3 := h2 ⟨w, by simp [hw1], hw2⟩
    obtain ⟨ms2, h4, h5⟩ := hsays v (by rw [hv]; simp) hd
    have h6 := h1.unique h4
    subst h6
    exact Classical.byContradiction fun h7 => h3 (h5.2 h7)
  · intro h hd hf vs1 v vs2 hv
    obtain ⟨ms2, h4, h5⟩ := hsays v (by rw [hv]; simp) hd
    refine ⟨(ho hd v (by rw [hv]; simp)).2, ms2, h4, ?_⟩
    rintro ⟨w, hw1, hw2⟩ he
    rcases List.mem_append.1 hw1 with hw1 | hw1
    · exact h5.1 he (h hd hf vs1 v vs2 hv ⟨w, hw1, hw2⟩)
    · simp only [List.mem_singleton] at hw1; subst hw1
      exact h5.1 he hw2

/-- **C74** What is quoted about a rejected default value is true of that value: it is the one message of the validator
    (Spec/Blame), about the value or, for a validator of texts, about the default text. -/
theorem C74_default_told (W : World) (M : Wording) (o : Opt) (v : Validator) (ms : List Message)
    (hv : v ∈ o.validators.getD []) (hb : ∀ id, v.kind ≠ .custom id) (hr : o.Rejects W v) (hs : o.Says W M v ms) :
    ∃ m, ms = [m] ∧ ((v.order = .post ∧ ValueFault M o v.kind m) ∨
      (v.order = .pre ∧ ∃ s, o.defaultValue.asString = .ok s ∧ TextFault W M o s m)) := by
  obtain ⟨r, h1, h2⟩ := hr
  rcases h1 with ⟨h3, h4⟩ | ⟨h3, h4, s, h5, h6⟩
  · rcases hs with ⟨_, g1⟩ | g1 | g1
    · rcases runPost_explained (M := M) hb h4 ms g1 with ⟨e1 | e1, e2⟩ | ⟨_, _, t, e3, e4⟩
      · exact absurd e1 h2
      · have hc := (runPost_worded (P := True) (M := M) h4).codes ms g1
        rcases runPost_told hb h4 with ⟨f1, _⟩ | ⟨_, f2⟩
        · exact absurd f1 h2
        · rw [e2, f2] at hc; simp at hc
      · exact ⟨_, e3, .inl ⟨h3, e4⟩⟩
    · rw [h3] at g1; exact (nomatch g1.1)
    · exact absurd (.inl h3) g1.1
  · rcases hs with g1 | ⟨_, _, s2, g1, g2⟩ | g1
    · rw [h3] at g1; exact (nomatch g1.1)
    · rw [h5] at g1; simp only [Out.ok.injEq] at g1; subst g1
      rcases runPre_explained (M := M) hv h3 hb h6 ms g2 with ⟨e1 | e1, e2⟩ | ⟨_, _, t, e3, e4⟩
      · exact absurd e1 h2
      · have hc := (runPre_worded (M := M) h6).codes ms g2
        rcases runPre_told hb h6 with ⟨f1, _⟩ | ⟨_, f2⟩
        · exact absurd f1 h2
        · rw [e2, f2] at hc; simp at hc
      · exact ⟨_, e3, .inr ⟨h3, s, h5, e4⟩⟩
    · exact absurd (.inr ⟨h3, h4⟩) g1.1

/-! ## Where it fails -/

/-- A definition for the examples: everything is written in `main.c`, entry `i` of table `k` on line `10 + 20 * k + i`. -/
def Sample.site (k i : Nat) : Site := ⟨c!"main.c", 10 + 20 * k + i⟩

/-- A definition with five mistakes. -/
def Sample.mistaken : List (List Opt) :=
  [ [ helpOption,
      { (optInt 112 (some c!"port")).withHelp c!"port" with require := some [c!"host"] },
      ((optInt 112 (some c!"retry")).withHelp c!"retries").withDefault (.ofInt64 80) |> fun o =>
        { o with validators := some [vRange 1 9] },
      Argus.subcommand c!"run" 1 none ],
    [ (posString c!"file").withHelp c!"input" ] ]

set_option maxRecDepth 20000 in
/-- The hypothesis of the theorems above is met by a definition with mistakes in two tables. -/
example : initStderr Sample.world Sample.words Sample.site 9 Sample.mistaken c!"prog" = .ok (some (
    c!"main.c:12 -> Option [ --retry -p ]:\n\tShort name 'p' is already used\n" ++
    c!"main.c:11 -> Option [ --port -p ]:\n\tRequired option not found 'host' in options\n" ++
    c!"main.c:12 -> Option [ --retry -p ]:\n\tDefault value does not pass validations: \n\t    " ++
    c!"prog: Value 80 is out of range 1-9\n\n" ++
    c!"main.c:13 -> Subcommand [ run ]:\n\tSubcommand must have a help message\n" ++
    c!"main.c:30 -> Positional [ file ]:\n\tHelp option is missing\n")) := by decide +kernel

set_option maxRecDepth 20000 in
example : initStderr Sample.world Sample.words Sample.site 9 Sample.checked c!"prog" = .ok (some []) := by decide +kernel

/-- An entry that is well formed in itself and in its place: an option with names, help and handler, before which there is no
    subcommand. -/
def Opt.Blameless (os : List Opt) (i : Nat) (o : Opt) : Prop :=
  os[i]? = some o ∧ o.type = .option ∧ o.name ≠ none ∧ o.help ≠ none ∧ o.handler ≠ none ∧ o.haveDefault = false ∧
    o.require = none ∧ o.conflict = none ∧ ∀ j p, j < i → os[j]? = some p → p.type ≠ .subcommand

/-- **C74** Some complaints name an entry that is not to blame: the message about optional positionals beside POSITIONAL_MANY is
    repeated for every later entry, whatever it is. -/
theorem C74_innocent (W : World) (M : Wording) (prog : Str) (L : Nat → Site) (os : List Opt) (p q : Opt)
    (hp : p.OptionalPos) (hq : q.RequiredMany) (i : Nat) (o : Opt) (ho : os[i]? = some o) :
    Faulty W M prog L (p :: q :: os) (i + 2) c!"Cannot mix optional positional and POSITIONAL_MANY arguments" :=
  .inl (.mixed (j := 0) (k := 1) (p := p) (q := q) (by
      have := (List.getElem?_eq_some_iff.1 ho).1
      simp only [List.length_cons]; omega) (by omega) rfl hp (by omega) rfl hq)

set_option maxRecDepth 20000 in
/-- The help option is said to mix positionals. -/
example :
    let os := [{ (posString c!"a").withHelp c!"a" with flags := 0 },
      { (posString c!"b").withHelp c!"b" with flags := Flags.ofList [.required], valueType := .variadicString },
      helpOption]
    Opt.Blameless os 2 helpOption ∧
    (2, c!"Cannot mix optional positional and POSITIONAL_MANY arguments") ∈ placementComplaints os := by
  refine ⟨⟨rfl, rfl, by decide, by decide, by decide, rfl, rfl, rfl, ?_⟩, by decide +kernel⟩
  intro j p hj hp
  match j, hj with
  | 0, _ => simp only [List.getElem?_cons_zero, Option.some.injEq] at hp; subst hp; decide
  | 1, _ => simp only [List.getElem?_cons_succ, List.getElem?_cons_zero, Option.some.injEq] at hp; subst hp; decide

/-- The full claim: with validators of the library that are defined on the default values, the messages are defined. -/
def C74_claim : Prop :=
  ∀ (W : World) (M : Wording) (prog : Str) (L : Nat → Nat → Site) (tables : List (List Opt)) (n : Nat), W.NullRefused →
    DepthAtMost tables (some 0) n →
    (∀ k, Reaches tables 0 k → ∃ os, tables[k]? = some os ∧ ∀ o ∈ os, o.Checkable W) →
    ∃ text, initStderr W M L (n + 1) tables prog = .ok (some text)

/-- **C74** A default value that the first validator refuses and the second accepts: after the second, `read_stderr` returns NULL
    and is printed with `%s`. -/
def Sample.halfRight : Opt :=
  { ((optInt 110 (some c!"number")).withHelp c!"a number").withDefault (.ofInt64 5) with
    validators := some [vRange 10 20, vRange 1 9] }

theorem halfRight_only {k : Nat} (h : Reaches [[helpOption, Sample.halfRight]] 0 k) : k = 0 := by
  induction h with
  | root => rfl
  | sub _ h1 h2 h3 _ ih =>
    subst ih
    simp only [List.getElem?_cons_zero, Option.some.injEq] at h1; subst h1
    simp only [List.mem_cons, List.not_mem_nil, or_false] at h2
    rcases h2 with rfl | rfl <;> exact (nomatch h3)

/-- **C74** The full claim is false. -/
theorem C74_claim_false : ¬ C74_claim := by
  intro h
  have hd : DepthAtMost [[helpOption, Sample.halfRight]] (some 0) 0 := by
    intro ps hps
    cases ps with
    | nil => simp
    | cons p ps =>
      obtain ⟨h1, os, o, h2, h3, h4, _⟩ := hps
      simp only [Option.some.injEq] at h1
      rw [← h1] at h2
      simp only [List.getElem?_cons_zero, Option.some.injEq] at h2; subst h2
      have h5 := List.mem_of_getElem? h3
      simp only [List.mem_cons, List.not_mem_nil, or_false] at h5
      rcases h5 with rfl | rfl <;> exact (nomatch h4)
  obtain ⟨text, ht⟩ := h Sample.world Sample.words c!"prog" Sample.site [[helpOption, Sample.halfRight]] 0
    (by intro h; exact (nomatch h)) hd (by
      intro k hk
      have hk := halfRight_only hk
      subst hk
      refine ⟨_, rfl, fun o ho => ?_⟩
      simp only [List.mem_cons, List.not_mem_nil, or_false] at ho
      rcases ho with rfl | rfl
      · intro h; exact (nomatch h)
      · intro _ v hv
        have hv2 : v = vRange 10 20 ∨ v = vRange 1 9 := by simpa [Sample.halfRight] using hv
        rcases hv2 with rfl | rfl
        · exact ⟨fun id h => (nomatch h), fun _ => ⟨.fail Err.invalidRange, .inl ⟨rfl, by decide +kernel⟩⟩⟩
        · exact ⟨fun id h => (nomatch h), fun _ => ⟨.pass, .inl ⟨rfl, by decide +kernel⟩⟩⟩)
  have hu : initStderr Sample.world Sample.words Sample.site 1 [[helpOption, Sample.halfRight]] c!"prog" = .ub .nullDeref := by
    decide +kernel
  rw [hu] at ht
  exact (nomatch ht)

/-- **C74** The order matters: with the two validators exchanged the message is printed. -/
theorem C74_order_matters :
    initStderr Sample.world Sample.words Sample.site 1
      [[helpOption, { Sample.halfRight with validators := some [vRange 1 9, vRange 10 20] }]] c!"prog" = .ok (some (
        c!"main.c:11 -> Option [ --number -n ]:\n\tDefault value does not pass validations: \n\t    " ++
        c!"prog: Value 5 is out of range 10-20\n\n")) := by
  decide +kernel

/-- **C74** No message is about the flags of an option: the check compares the type with a mask of several types, so the message
    cannot appear. -/
theorem C74_option_flags_unsaid (W : World) (M : Wording) (prog : Str) (os : List Opt) (o : Opt) (i : Nat) (cs : List Complaint)
    (ht : o.type = .option) (h : entryComplaints W M prog os i o = .ok cs) :
    (i, c!"Option has invalid flags for its value type") ∉ cs := by
  intro hm
  obtain ⟨t, h1, h2⟩ := (entryComplaints_mem h _).1 hm
  simp only [Prod.mk.injEq, true_and] at h2
  cases h1 with
  | optDefault _ a =>
    cases a with
    | flagDefault _ _ => revert h2; decide
    | badDefault _ _ _ _ _ _ => simp at h2
  | both _ _ _ _ _ => simp at h2
  | unknownRequire _ _ _ _ => simp at h2
  | unknownConflict _ _ _ _ => simp at h2
  | optName _ _ _ | optHelp _ _ | optHandler _ _ => revert h2; decide
  | posName a | posHelp a | posManyFlags a | posFlags a | posHandler a | posRequired a | posDefault a | posDepends a
  | groupFlags a | subName a | subHelp a | subTable a | subFlags a | subHandler a | subDepends a | subDefault a
  | subValidators a => rw [ht] at a; exact (nomatch a)

/-- An option with a flag that is meant for groups. -/
example : entryComplaints Sample.world Sample.words c!"prog" [] 0
    { (optInt 112 (some c!"port")).withHelp c!"port" with flags := Flags.ofList [.exclusive] } = .ok [] := by decide +kernel

/-- The hypotheses of `C74_library_partial` and `C74_default_told` are met: the second validator rejects the default value 5. -/
example : Sample.halfRight.Checkable Sample.world ∧ Sample.halfRight.Rejects Sample.world (vRange 10 20) ∧
    Sample.halfRight.Says Sample.world Sample.words (vRange 10 20) [(Err.invalidRange, c!"Value 5 is out of range 10-20")] ∧
    ¬ Sample.halfRight.Rejects Sample.world (vRange 1 9) := by
  refine ⟨fun _ v hv => ?_, ⟨.fail Err.invalidRange, .inl ⟨rfl, by decide +kernel⟩, by decide⟩, .inl ⟨rfl, by decide +kernel⟩, ?_⟩
  · have hv2 : v = vRange 10 20 ∨ v = vRange 1 9 := by simpa [Sample.halfRight] using hv
    rcases hv2 with rfl | rfl
    · exact ⟨fun id h => (nomatch h), fun _ => ⟨.fail Err.invalidRange, .inl ⟨rfl, by decide +kernel⟩⟩⟩
    · exact ⟨fun id h => (nomatch h), fun _ => ⟨.pass, .inl ⟨rfl, by decide +kernel⟩⟩⟩
  · rintro ⟨r, h1, h2⟩
    have h3 : Sample.halfRight.Tries Sample.world (vRange 1 9) .pass := .inl ⟨rfl, by decide +kernel⟩
    rw [h1.unique h3] at h2
    exact h2 rfl

end Argus
