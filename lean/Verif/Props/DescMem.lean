import Verif.Lemmas.DescMemPrint
import Verif.Props.Describe
import Verif.Props.HelpMem

/-!
# C73: the help frees the texts it builds and survives any lack of memory

`DHeap.Sound`, `DAlloc.Full`, `Argus.Shows` and `Opt.Left` are in Spec/DescMem, `HelpData.Within` in Spec/HelpMem.
-/

set_option autoImplicit false

namespace Argus

theorem DHeap.Sound.is {h : DHeap} (H : h.Sound) : h.Is h.live := ⟨rfl, H⟩

theorem defaultReads_text (F : Fmt) {o : Opt} (h : o.DefaultReads) : ∃ t, defaultText F o = .ok t := by
  unfold defaultText
  by_cases hc : o.haveDefault = false ∨ o.valueType = .flag
  · exact ⟨[], if_pos hc⟩
  · rw [if_neg hc]
    have hd : o.haveDefault = true := by
      cases hh : o.haveDefault with
      | true => rfl
      | false => exact absurd (.inl hh) hc
    obtain ⟨h1, h2, h3, h4⟩ := h hd
    unfold defaultInfo
    split
    · rename_i e; obtain ⟨n, hn⟩ := h1 e; rw [hn]; exact ⟨_, rfl⟩
    · rename_i e; obtain ⟨s, hs⟩ := h2 e; rw [hs]; cases s <;> exact ⟨_, rfl⟩
    · rename_i e; obtain ⟨x, hx⟩ := h3 e; rw [hx]; exact ⟨_, rfl⟩
    · rename_i e; obtain ⟨b, hb⟩ := h4 e; rw [hb]; exact ⟨_, rfl⟩
    · exact ⟨_, rfl⟩

theorem stackNames_named (a : Argus) : ∀ ps : List Ptr, (∀ p ∈ ps, ∃ o, a.getOpt p = .ok o ∧ o.name ≠ none) →
    ∃ s, stackNames a ps = .ok s
  | [], _ => ⟨[], rfl⟩
  | p :: ps, h => by
    obtain ⟨o, ho, hn⟩ := h p (by simp)
    obtain ⟨s, hs⟩ := stackNames_named a ps fun q hq => h q (by simp [hq])
    obtain ⟨n, hn⟩ := Option.ne_none_iff_exists'.1 hn
    refine ⟨32 :: n ++ s, ?_⟩
    simp only [stackNames, ho, Out.ok_bind, hn, nameText, hs]

/-- Lists within those of `organize` refer to entries of their kinds. -/
theorem shows_tidy {B : DAlloc} {F : Fmt} {a : Argus} {os : List Opt} (hs : a.Shows F os) {d : HelpData}
    (hd : d.Within (organize os)) : (helpSectionsD B F a os d).Tidy B a.Wide (helpSections F a os d) := by
  obtain ⟨s, hst⟩ := stackNames_named a a.stack hs.stack
  have org := C43_sections os
  have lt : ∀ {S : Section} {i : Nat}, i ∈ entriesOf os S → i < os.length := fun {S i} hi => by
    unfold entriesOf at hi
    exact List.mem_range.1 (List.mem_filter.1 hi).1
  have named : ∀ {S : Section} {i : Nat}, (S = .arguments ∨ S = .commands) → i ∈ entriesOf os S →
      ∃ o n, os[i]? = some o ∧ o.name = some n := by
    intro S i hS hi
    have hl := lt hi
    have hm := mem_entriesOf.1 hi
    have ho : os[i]? = some os[i] := List.getElem?_eq_getElem hl
    have ht : os[i].type = .positional ∨ os[i].type = .subcommand := by
      unfold sectionOf at hm
      rw [ho] at hm
      simp only at hm
      split at hm
      · cases hm
      · rename_i e; exact .inl e
      · rename_i e; exact .inr e
      · split at hm
        · cases hm
        · split at hm
          · rcases hS with rfl | rfl <;> cases hm
          · rcases hS with rfl | rfl <;> cases hm
    obtain ⟨n, hn⟩ := Option.ne_none_iff_exists'.1 (hs.named _ (List.getElem_mem hl) ht)
    exact ⟨os[i], n, ho, hn⟩
  refine helpSectionsD_tidy F a os d hst hs.plain (fun o ho => defaultReads_text F (hs.defaults o ho))
    (fun i hi => ?_) (fun g hg i hi => ?_) (fun i hi => ?_) (fun i hi => ?_)
  · have := hd.positionals.subset hi
    rw [org.1] at this
    exact named (.inl rfl) this
  · obtain ⟨k, hk, rfl⟩ := List.getElem_of_mem hg
    have hlen : d.groups.length = (organize os).groups.length := by
      have := congrArg List.length hd.titles
      simpa using this
    have hk2 : k < (organize os).groups.length := hlen ▸ hk
    have h1 := (hd.entries k _ _ (List.getElem?_eq_getElem hk) (List.getElem?_eq_getElem hk2)).subset hi
    have key : ∀ E ∈ (organize os).groups, ∃ t, E.2 = entriesOf os (.group t) := by
      rw [org.2.1]
      intro E hE
      obtain ⟨t, _, ht⟩ := List.mem_map.1 hE
      exact ⟨t, by rw [← ht]⟩
    obtain ⟨t, ht⟩ := key _ (List.getElem_mem hk2)
    rw [ht] at h1
    exact lt h1
  · have := hd.ungrouped.subset hi
    rw [org.2.2.1] at this
    exact lt this
  · have := hd.subcommands.subset hi
    rw [org.2.2.2.1] at this
    exact named (.inr rfl) this

/-! ## The whole help -/

/-- **C73** Whatever the two allocators do, `display_help` prints a text and leaves memory as it was, every list and every text
    freed once; unless a group is refused, which is the undefined behaviour of `C66_group_null`, or the lines of descriptions have
    no room, where the loop that wraps them may not end. -/
theorem C73_any_allocator_partial (F : Fmt) (a : Argus) {t : Option Nat} {os : List Opt} (ht : a.activeOptions = .ok t)
    (hos : a.table t = .ok os) (hs : a.Shows F os) (A : Nat → Bool) (B : DAlloc) {m : HMem} (hm : m.Sound) {h : DHeap}
    (hh : h.Sound) :
    (∃ s m1 h1, displayHelpD F a A B m h = .ok (some (s, m1, h1)) ∧ m1.live = m.live ∧ h1.live = h.live) ∨
    (displayHelpD F a A B m h = .ub .nullDeref ∧ (∃ n, m.calls ≤ n ∧ A n = false) ∧ groupTitles os ≠ []) ∨
    (displayHelpD F a A B m h = .ok none ∧ ¬ 1 ≤ wrapWidth a.helper.descriptionColumn a.helper.maxLineWidth) := by
  unfold displayHelpD
  simp only [ht, hos, Out.ok_bind]
  rcases C66_any_allocator_partial A os hm with ⟨d, n, ⟨r, m1, m2, e1, e2, _, e3, e4⟩, hw, _⟩ | ⟨e, h1, h2⟩
  · simp only [e1, Ends.bind_ok, e2, e3]
    obtain ⟨r', e5, g1, _, g3⟩ := shows_tidy (B := B) hs hw h.live h hh.is
    rw [e5]
    cases r' with
    | none =>
      refine .inr (.inr ⟨rfl, fun hW => ?_⟩)
      have := g3 hW
      cases this
    | some r' => exact .inl ⟨_, m2, r'.2, rfl, e4, (g1 r'.1 r'.2 rfl).1⟩
  · refine .inr (.inl ⟨by rw [e]; rfl, h1, fun hg => h2 ?_⟩)
    rw [(C43_sections os).2.1, hg]; rfl

/-- **C73** With memory enough the text is that of C43 and C67, and memory is as before. -/
theorem C73_enough_partial (F : Fmt) (a : Argus) {t : Option Nat} {os : List Opt} (ht : a.activeOptions = .ok t)
    (hos : a.table t = .ok os) (hs : a.Shows F os) {A : Nat → Bool} (hA : ∀ n, A n = true) {B : DAlloc} (hB : B.Full) {m : HMem}
    (hm : m.Sound) {h : DHeap} (hh : h.Sound) (s : Str) :
    displayHelp F a = .ok (some s) ↔
      ∃ m1 h1, displayHelpD F a A B m h = .ok (some (s, m1, h1)) ∧ m1.live = m.live ∧ h1.live = h.live := by
  unfold displayHelp displayHelpD
  simp only [ht, hos, Out.ok_bind]
  obtain ⟨r, m1, m2, e1, e2, _, e3, e4⟩ := C66_enough_partial hA os hm
  have hw : (organize os).Within (organize os) :=
    ⟨.refl _, .refl _, .refl _, rfl, fun k e E h1 h2 => by rw [h1] at h2; cases h2; exact .refl _⟩
  obtain ⟨r', e5, g1, g2, _⟩ := shows_tidy (B := B) hs hw h.live h hh.is
  simp only [e1, Ends.bind_ok, e2, e3]
  rw [e5, g2 hB]
  cases r' with
  | none => exact ⟨fun h => (nomatch h), fun ⟨_, _, h, _⟩ => (nomatch h)⟩
  | some r' =>
    simp only [Ends.bind_ok, Option.map_some, Text.cat, Text.lit, Out.ok_bind, Out.ok.injEq, Option.some.injEq, Prod.mk.injEq]
    constructor
    · rintro rfl; exact ⟨m2, r'.2, ⟨rfl, rfl, rfl⟩, e4, (g1 r'.1 r'.2 rfl).1⟩
    · rintro ⟨_, _, ⟨rfl, _⟩, _⟩; rfl

/-! ## One description and one name -/

/-- **C73** Whatever the allocator does, the description of an option is NULL and nothing stays in memory, or it is one live block
    with what `Opt.Left` allows, which can be freed. -/
theorem C73_description_partial (F : Fmt) (a : Argus) (o : Opt) (note : Str) (hp : o.Plain F a.envPrefix)
    (hv : ∀ v ∈ o.validators.getD [], v.Fits F.g2) (hd : o.DefaultNote F.f2 note)
    (he : ∀ e, envVarName a.envPrefix o = some e → e.length ≤ 247) (hm : (marks o.flags).length ≤ 31) (B : DAlloc) {h : DHeap}
    (hh : h.Sound) :
    (∃ h1, buildDescriptionD B F a o h = .ok (none, h1) ∧ h1.live = h.live) ∨
    (∃ p h1 h2 s, buildDescriptionD B F a o h = .ok (some p, h1) ∧ h1.text p = .ok s ∧ o.Left F (envVarName a.envPrefix o) note s ∧
      h1.free (some p) = .ok h2 ∧ h2.live = h.live) := by
  have hdt : defaultText F o = .ok note := by
    have h1 := appendDefault_eq F o [] note hd
    rw [appendDefault_text] at h1
    obtain ⟨t, h2, h3⟩ := Out.bind_eq_ok h1
    simp only [List.nil_append, Out.ok.injEq] at h3
    rw [h2, h3]
  rcases buildDescriptionD_spec B F a o hh.is hp hdt with ⟨h1, e, g, _⟩ | ⟨p, h1, s, e, T, O, _⟩
  · exact .inl ⟨h1, e, g.1⟩
  · right
    obtain ⟨h2, f1, f2⟩ := T.free
    refine ⟨p, h1, h2, s, e, T.text, ?_, f1, f2.1⟩
    obtain ⟨l, s2, s3, o1, o2, o3, o4⟩ := O
    have hl : (o.validators.getD []).map (validatorInfo F) = (o.validators.getD []).map fun v => v.kind.note F.g2 :=
      List.map_congr_left fun v h => validatorInfo_eq F v (hv v h)
    have hmk : appendFlags o [] = marks o.flags := by
      have : appendFlags o [] = [] ++ marks o.flags := by
        rw [C67_marks]
        rw [marks_length] at hm
        intro h
        obtain ⟨h1, h2⟩ := h
        rcases h2 with ⟨h2, h3⟩ | ⟨h2, h3⟩ | ⟨h2, h3⟩ <;> simp only [h1, h2, h3, if_true] at hm <;> omega
      simpa using this
    rw [hl] at o1
    rw [hmk] at o4
    obtain ⟨d, hd1, hd2⟩ : ∃ d, (d = [] ∨ d = note) ∧ s2 = o.help.getD [] ++ l.flatten ++ d := by
      rcases o2 with o2 | o2
      · exact ⟨[], .inl rfl, by simpa using o2⟩
      · exact ⟨note, .inr rfl, o2⟩
    obtain ⟨mk, hm1, hm2⟩ : ∃ mk, (mk = [] ∨ mk = marks o.flags) ∧ s = s3 ++ mk := by
      rcases o4 with o4 | o4
      · exact ⟨[], .inl rfl, by simpa using o4⟩
      · exact ⟨_, .inr rfl, o4⟩
    refine ⟨l.flatten, d, s3, mk, ⟨l, o1, rfl⟩, hd1, ?_, hm1, hm2⟩
    rw [← hd2]
    rcases o3 with o3 | ⟨o3, o5⟩
    · exact .inl (by rw [o3, appendEnv_eq _ _ _ he])
    · rw [C45_same] at o3
      refine .inr ⟨o3, ?_⟩
      split at o5
      · rename_i hlast
        right
        obtain ⟨ys, rfl⟩ := List.getLast?_eq_some_iff.1 hlast
        rw [o5, List.dropLast_concat]
      · exact .inl o5

/-- **C73** Whatever the allocator does, the first column shows the names of an option; with a value after it what stands for it,
    or, when memory is short, the type or nothing. Memory is as before. -/
theorem C73_name_partial (F : Fmt) (a : Argus) (o : Opt) (x : Str) (hp : o.Plain F a.envPrefix)
    (hv : ∀ v, o.validators = some [v] → v.Fits F.g2) (hs : o.StandsFor F a.helper x) (hl : x.length ≤ 55) (B : DAlloc) {h : DHeap}
    (hh : h.Sound) :
    ∃ s h1, optionNameD B F a.helper o h = .ok (s, h1) ∧ h1.live = h.live ∧
      (o.valueType = .flag → s = o.typed) ∧
      (o.valueType ≠ .flag → s = o.typed ∨ s = o.typed ++ c!" <" ++ o.valueType.several x ++ c!">" ∨
        (o.hint = none ∧ s = o.typed ++ c!" <" ++ o.valueType.several o.valueType.placeholder ++ c!">")) := by
  have hroom := hp.room
  have hn := C67_name_partial F a.helper o x hv hs hl
  obtain ⟨s, h1, e, g, ho⟩ := optionNameD_spec B F a.helper o hh.is hp.validators hp.hint (by omega)
  have htyped : typedNames o = o.typed := by rw [optTyped_eq]; rfl
  refine ⟨s, h1, e, g.1, fun hf => ?_, fun hf => ?_⟩
  · rcases ho with ho | ⟨ho, _⟩
    · rw [ho, hn, if_pos hf]
    · exact absurd hf ho
  · rcases ho with ho | ⟨_, _, ho | ⟨h2, ho⟩⟩
    · rw [ho, hn, if_neg hf]; exact .inr (.inl rfl)
    · exact .inl (ho.trans htyped)
    · refine .inr (.inr ⟨h2, ?_⟩)
      rw [ho, htyped]
      simp only [List.append_assoc, List.append_cancel_left_eq]
      cases hvt : o.valueType <;> first | rfl | (exact absurd hvt hf)

/-! ## Cases -/

namespace Sample

/-- No text in memory. -/
def noTexts : DHeap := ⟨fun _ => none, 0, 0⟩

/-- A text of someone else in memory, three addresses and calls used up. -/
def someTexts : DHeap := ⟨fun x => if x = 1 then some [65, 0] else none, 3, 3⟩

theorem noTexts_sound : noTexts.Sound := fun _ _ => rfl

theorem someTexts_sound : someTexts.Sound := fun x hx => by
  have hx : 3 ≤ x := hx
  simp only [someTexts]; rw [if_neg (by omega)]

/-- An allocator that refuses the calls in `l`; its blocks are full of letters. -/
def refusing (l : List Nat) : DAlloc := fun c => if l.contains c then none else some fun i => 65 + i.toUInt8

theorem refusing_full : (refusing []).Full := fun _ => nofun

/-- The live addresses below `n`. -/
def textsBelow (h : DHeap) (n : Nat) : List Nat := (List.range n).filter fun x => (h.live x).isSome

/-- The description of `o` when the calls in `l` are refused, the blocks live with it, and those live after it is freed. -/
def descLife (l : List Nat) (a : Argus) (o : Opt) (h : DHeap) (n : Nat) : Out (Option Str × List Nat × List Nat) := do
  let r ← buildDescriptionD (refusing l) fmt a o h
  match r.1 with
  | none => .ok (none, textsBelow r.2 n, textsBelow r.2 n)
  | some p => do
    let s ← r.2.text p
    let h1 ← r.2.free (some p)
    .ok (some s, textsBelow r.2 n, textsBelow h1 n)

/-- What an entry of the help looks like when the calls in `l` are refused, and what stays in memory. -/
def entryLife (l : List Nat) (a : Argus) (o : Opt) (h : DHeap) (n : Nat) : Out (Option (Str × List Nat)) :=
  Ends.bind (printOptionD (refusing l) fmt a o h) fun r => .ok (some (r.1, textsBelow r.2 n))

/-- A program with a prefix for its variables, the options `described` and `hinted`, and a positional. -/
def small : Argus :=
  { argusInit [[helpOption, described, hinted, posString c!"file"]] c!"prog" (some c!"1.0") with envPrefix := some c!"APP" }

theorem described_plain : described.Plain fmt (some c!"APP") := by
  refine ⟨by decide +kernel, by decide +kernel, ?_, ?_, fun _ => by simp [fmt], by decide +kernel, by decide +kernel⟩
  · intro v hv
    have hv : v ∈ [vRange 1 65535, vChoiceInt [80, 443]] := hv
    simp only [List.mem_cons, List.not_mem_nil, or_false] at hv
    rcases hv with rfl | rfl
    · trivial
    · show [(80 : Int), 443].length < 2 ^ 56
      decide
  · intro s h
    have : described.defaultValue = .bits 80 := rfl
    rw [this] at h
    simp [Word.asString] at h

theorem hinted_plain : hinted.Plain fmt (some c!"APP") := by
  refine ⟨by decide +kernel, by decide +kernel, ?_, ?_, fun _ => by simp [fmt], by decide +kernel, by decide +kernel⟩
  · intro v hv
    have hv : v ∈ [vChoiceStr [c!"fast", c!"slow"]] := hv
    simp only [List.mem_cons, List.not_mem_nil, or_false] at hv
    subst hv
    exact ⟨by decide +kernel, by decide +kernel⟩
  · intro s h
    have : hinted.defaultValue = .null := rfl
    rw [this] at h
    simp [Word.null, Word.asString] at h

theorem described_fits : ∀ v ∈ described.validators.getD [], v.Fits fmt.g2 := by
  intro v hv
  have hv : v ∈ [vRange 1 65535, vChoiceInt [80, 443]] := hv
  simp only [List.mem_cons, List.not_mem_nil, or_false] at hv
  rcases hv with rfl | rfl
  · exact ⟨by show (interval 1 65535).length ≤ 31; decide +kernel, fun _ => rfl⟩
  · refine ⟨⟨by decide +kernel, ?_⟩, fun _ => rfl⟩
    intro n hn
    simp only [List.mem_cons, List.not_mem_nil, or_false] at hn
    rcases hn with rfl | rfl <;> decide

theorem described_default : described.DefaultNote fmt.f2 c!" (default: 80)" :=
  .int 80 rfl rfl (by decide) (by decide) (by decide)

theorem described_env : ∀ e, envVarName small.envPrefix described = some e → e.length ≤ 247 := by
  intro e he
  have : envVarName small.envPrefix described = some c!"APP_PORT" := by decide +kernel
  rw [this, Option.some.injEq] at he
  subst he; decide

theorem small_shows : small.Shows fmt [helpOption, described, hinted, posString c!"file"] := by
  have plain : ∀ o : Opt, o.validators = none → o.help.getD [] ++ o.hint.getD [] = (o.help.getD []) → 0 ∉ o.help.getD [] →
      (o.help.getD []).length < 1000 → o.envName = none → 0 ∉ o.name.getD [] → 0 ∉ o.lname.getD [] →
      o.defaultValue = .null → o.Plain fmt (some c!"APP") := by
    intro o h1 h2 h3 h4 h5 h6 h7 h9
    have hh : o.hint.getD [] = [] := by simpa using h2
    refine ⟨h3, by rw [hh]; simp, by rw [h1]; simp, fun s h => (by rw [h9] at h; simp [Word.null, Word.asString] at h), fun _ => by simp [fmt],
      ⟨by decide, by rw [h5]; simp, h6, h7⟩, ?_⟩
    rw [hh, h1]; simp only [Option.getD_none, List.length_nil]; omega
  refine ⟨?_, ?_, ?_, ?_⟩
  · intro o ho
    simp only [List.mem_cons, List.not_mem_nil, or_false] at ho
    rcases ho with rfl | rfl | rfl | rfl
    · exact plain _ rfl (by decide) (by decide) (by decide) rfl (by decide) (by decide) rfl
    · exact described_plain
    · exact hinted_plain
    · exact plain _ rfl (by decide) (by decide) (by decide) rfl (by decide) (by decide) rfl
  · intro o ho
    simp only [List.mem_cons, List.not_mem_nil, or_false] at ho
    rcases ho with rfl | rfl | rfl | rfl
    · exact fun h => (nomatch h)
    · exact fun _ => ⟨fun _ => ⟨80, by decide⟩, fun h => (nomatch h), fun h => (nomatch h), fun h => (nomatch h)⟩
    · exact fun h => (nomatch h)
    · exact fun h => (nomatch h)
  · intro o ho ht
    simp only [List.mem_cons, List.not_mem_nil, or_false] at ho
    rcases ho with rfl | rfl | rfl | rfl <;> first | (exact nofun) | (rcases ht with ht | ht <;> exact (nomatch ht))
  · exact fun p hp => (nomatch hp)

end Sample

/-- `C73_any_allocator_partial` and `C73_enough_partial`: a help with the memory it needs. Only the node and the text of
    someone else stay in memory. -/
example : Sample.someNodes.Sound ∧ Sample.someTexts.Sound ∧ Sample.small.activeOptions = .ok (some 0) ∧
    Sample.small.table (some 0) = .ok [helpOption, Sample.described, Sample.hinted, posString c!"file"] ∧
    Sample.small.Shows Sample.fmt [helpOption, Sample.described, Sample.hinted, posString c!"file"] ∧
    (Sample.refusing []).Full ∧
    (∃ m1 h1, displayHelpD Sample.fmt Sample.small (fun _ => true) (Sample.refusing []) Sample.someNodes Sample.someTexts =
      .ok (some (c!"\nArguments:\n" ++
      c!"  <file>                        -  (required)\n\nOptions:\n" ++
      c!"  -h, --help                    - Show help message (exit)\n" ++
      c!"  -p, --port <NUM>              - Port (range: 1-65535) [80|443] (default: 80, env: APP_PORT)\n" ++
      c!"                                  (deprecated)\n" ++
      c!"  -m, --mode <fast|slow,...>    - Modes\n\n", m1, h1)) ∧
      m1.live = Sample.someNodes.live ∧ h1.live = Sample.someTexts.live) :=
  ⟨Sample.someNodes_sound, Sample.someTexts_sound, by decide +kernel, by decide +kernel, Sample.small_shows,
    Sample.refusing_full, (C73_enough_partial Sample.fmt Sample.small (t := some 0) (by decide +kernel) (by decide +kernel)
      Sample.small_shows (fun _ => rfl) Sample.refusing_full Sample.someNodes_sound Sample.someTexts_sound _).1 (by decide +kernel)⟩

/-- `C73_description_partial` and `C73_name_partial`: without memory for the words of the range, for the default and for the
    marks. One block is live, the description, and none after it is freed. -/
example : Sample.noTexts.Sound ∧ Sample.described.Plain Sample.fmt Sample.small.envPrefix ∧
    (∀ v ∈ Sample.described.validators.getD [], v.Fits Sample.fmt.g2) ∧
    Sample.described.DefaultNote Sample.fmt.f2 c!" (default: 80)" ∧
    (∀ e, envVarName Sample.small.envPrefix Sample.described = some e → e.length ≤ 247) ∧
    (marks Sample.described.flags).length ≤ 31 ∧
    Sample.descLife [1, 4, 6] Sample.small Sample.described Sample.noTexts 20 =
      .ok (some c!"Port [80|443] (env: APP_PORT)", [3], []) ∧
    Sample.hinted.StandsFor Sample.fmt Sample.small.helper c!"fast|slow" ∧ Sample.hinted.valueType ≠ .flag :=
  ⟨Sample.noTexts_sound, Sample.described_plain, Sample.described_fits, Sample.described_default, Sample.described_env,
    by decide +kernel, by decide +kernel, .inr (.inl ⟨rfl, ⟨_, rfl, by decide +kernel⟩, by decide +kernel, by decide +kernel⟩),
    by decide +kernel⟩

/-! ## What lack of memory does to the text -/

/-- **C73** As first stated: whatever the allocator does, what a description says is whole: a note, the default, the variable or
    the marks may be missing, but no part of one. -/
def C73_claim : Prop :=
  ∀ (F : Fmt) (a : Argus) (o : Opt) (note : Str), o.Plain F a.envPrefix → (∀ v ∈ o.validators.getD [], v.Fits F.g2) →
    o.DefaultNote F.f2 note → (∀ e, envVarName a.envPrefix o = some e → e.length ≤ 247) → (marks o.flags).length ≤ 31 →
    ∀ (B : DAlloc) (h : DHeap), h.Sound → ∀ p h1 s, buildDescriptionD B F a o h = .ok (some p, h1) → h1.text p = .ok s →
      ∃ ns d m : Str, (∃ l : List Str, l.Sublist ((o.validators.getD []).map fun v => v.kind.note F.g2) ∧ ns = l.flatten) ∧
        (d = [] ∨ d = note) ∧ (m = [] ∨ m = marks o.flags) ∧
        (s = withVariable (o.help.getD [] ++ ns ++ d) (envVarName a.envPrefix o) ++ m ∨ s = o.help.getD [] ++ ns ++ d ++ m)

/-- **C73** No memory for the variable: the parenthesis before it is lost as well. -/
theorem C73_bracket_lost : Sample.descLife [6] Sample.small Sample.described Sample.noTexts 20 =
    .ok (some c!"Port (range: 1-65535) [80|443] (default: 80 (deprecated)", [6], []) := by decide +kernel

/-- **C73** No memory for the hint of an option: its only constraint is shown neither in the name nor in the description. -/
theorem C73_constraint_hidden : Sample.entryLife [0] Sample.small Sample.hinted Sample.noTexts 20 =
    .ok (some (c!"  -m, --mode <VALUE,...>        - Modes\n", [])) := by decide +kernel

/-- **C73** No memory for a description: an error in its place, and the program goes on. -/
theorem C73_error_shown : Sample.entryLife [1] Sample.small Sample.hinted Sample.noTexts 20 =
    .ok (some (c!"  -m, --mode <fast|slow,...>    - Error: Memory allocation failed\n", [])) := by decide +kernel

/-- **C73** Hence the claim as first stated is false. -/
theorem C73_claim_false : ¬ C73_claim := by
  intro hc
  have hb := C73_bracket_lost
  unfold Sample.descLife at hb
  obtain ⟨r, e, hb⟩ := Out.bind_eq_ok hb
  obtain ⟨p, h1⟩ := r
  cases p with
  | none => simp at hb
  | some p =>
    simp only at hb
    obtain ⟨s, hs, hb⟩ := Out.bind_eq_ok hb
    obtain ⟨h2, _, hb⟩ := Out.bind_eq_ok hb
    simp only [Out.ok.injEq, Prod.mk.injEq, Option.some.injEq] at hb
    obtain ⟨ns, d, m, ⟨l, hl, rfl⟩, hd, hm, h⟩ := hc _ _ _ _ Sample.described_plain Sample.described_fits
      Sample.described_default Sample.described_env (by decide +kernel) _ _ Sample.noTexts_sound p h1 s e hs
    have hv : envVarName Sample.small.envPrefix Sample.described = some c!"APP_PORT" := by decide +kernel
    have hmk : marks Sample.described.flags = c!" (deprecated)" := by decide +kernel
    have hn : ((Sample.described.validators.getD []).map fun v => v.kind.note Sample.fmt.g2) =
      [c!" (range: 1-65535)", c!" [80|443]"] := by decide +kernel
    have hh : Sample.described.help.getD [] = c!"Port" := rfl
    rw [hb.1, hv, hh] at h
    rw [hmk] at hm
    rw [hn] at hl
    have hl' : l = [] ∨ l = [c!" [80|443]"] ∨ l = [c!" (range: 1-65535)"] ∨ l = [c!" (range: 1-65535)", c!" [80|443]"] := by
      rcases List.sublist_cons_iff.1 hl with h3 | ⟨r, h3, h4⟩
      · rcases List.sublist_cons_iff.1 h3 with h5 | ⟨r, h5, h6⟩
        · exact .inl (List.sublist_nil.1 h5)
        · rw [List.sublist_nil.1 h6] at h5; exact .inr (.inl h5)
      · rcases List.sublist_cons_iff.1 h4 with h5 | ⟨r, h5, h6⟩
        · rw [List.sublist_nil.1 h5] at h3; exact .inr (.inr (.inl h3))
        · rw [h5, List.sublist_nil.1 h6] at h3; exact .inr (.inr (.inr h3))
    rcases hl' with rfl | rfl | rfl | rfl <;> rcases hd with rfl | rfl <;> rcases hm with rfl | rfl <;> revert h <;> decide +kernel

end Argus
