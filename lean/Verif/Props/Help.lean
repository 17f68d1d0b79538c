import Verif.Lemmas.Help
import Verif.Lemmas.State
import Verif.Spec.Sample

/-!
# C43: the help lists every visible entry exactly once

`groupAt`, `sectionOf`, `entriesOf` and `groupTitles` are in Spec/Help.
-/

set_option autoImplicit false

namespace Argus

/-- Everything the help of a table lists, in the order in which it is printed. -/
def listed (os : List Opt) : List Nat :=
  (organize os).positionals ++ (organize os).groups.flatMap (·.2) ++ (organize os).ungrouped ++ (organize os).subcommands

theorem mem_entriesOf {os : List Opt} {s : Section} {i : Nat} :
    i ∈ entriesOf os s ↔ sectionOf os i = some s := by
  unfold entriesOf
  rw [List.mem_filter, List.mem_range]
  constructor
  · intro h; exact of_decide_eq_true h.2
  · intro h
    refine ⟨?_, by simp [h]⟩
    unfold sectionOf at h
    cases hi : os[i]? with
    | none => rw [hi] at h; simp at h
    | some o => exact (List.getElem?_eq_some_iff.1 hi).1

theorem entriesOf_sorted (os : List Opt) (s : Section) : (entriesOf os s).Pairwise (· < ·) :=
  List.Pairwise.filter _ List.pairwise_lt_range

theorem entriesOf_nodup (os : List Opt) (s : Section) : (entriesOf os s).Nodup :=
  (entriesOf_sorted os s).imp (fun h => Nat.ne_of_lt h)

theorem listed_eq (os : List Opt) :
    listed os = (([Section.arguments] ++ (groupTitles os).map Section.group ++ [Section.options, Section.commands]).flatMap
      (entriesOf os)) := by
  unfold listed
  rw [organize_eq]
  simp [groupsOf, List.flatMap_map]

theorem mem_groupTitles {os : List Opt} {t : Str} : t ∈ groupTitles os ↔ ∃ i, sectionOf os i = some (.group t) := by
  unfold groupTitles
  rw [List.mem_eraseDups, List.mem_filterMap]
  constructor
  · rintro ⟨i, _, h⟩
    refine ⟨i, ?_⟩
    cases hs : sectionOf os i with
    | none => rw [hs] at h; simp at h
    | some s =>
      rw [hs] at h
      cases s <;> simp_all [Section.title?]
  · rintro ⟨i, h⟩
    have := mem_entriesOf.2 h
    unfold entriesOf at this
    exact ⟨i, (List.mem_filter.1 this).1, by rw [h]; rfl⟩

/-- **C43** The help lists no entry twice, and lists exactly the options without FLAG_HIDDEN, the positionals and the
    subcommands of the table. -/
theorem C43_once (os : List Opt) :
    (listed os).Nodup ∧
    ∀ i, i ∈ listed os ↔
      ∃ o, os[i]? = some o ∧ o.type ≠ .group ∧ ¬ (o.type = .option ∧ o.flags.has .hidden = true) := by
  rw [listed_eq]
  constructor
  · rw [List.nodup_iff_pairwise_ne, List.pairwise_flatMap]
    refine ⟨fun s _ => entriesOf_nodup os s, ?_⟩
    have hn : ([Section.arguments] ++ (groupTitles os).map Section.group ++ [Section.options, Section.commands]).Nodup := by
      have h1 : ((groupTitles os).map Section.group).Nodup :=
        List.Pairwise.map Section.group (fun a b hab e => hab (Section.group.inj e)) (groupTitles_nodup os)
      simp [List.nodup_append, h1]
    refine hn.imp ?_
    intro s1 s2 hne
    intro i h1 j h2 hij
    subst hij
    rw [mem_entriesOf] at h1 h2
    rw [h1] at h2
    exact hne (Option.some.inj h2)
  · intro i
    rw [List.mem_flatMap]
    have hex : (∃ s, s ∈ [Section.arguments] ++ (groupTitles os).map Section.group ++ [Section.options, Section.commands] ∧
        i ∈ entriesOf os s) ↔ ∃ s, sectionOf os i = some s := by
      constructor
      · rintro ⟨s, _, h⟩; exact ⟨s, mem_entriesOf.1 h⟩
      · rintro ⟨s, h⟩
        refine ⟨s, ?_, mem_entriesOf.2 h⟩
        cases s with
        | group t => simp [mem_groupTitles.2 ⟨i, h⟩]
        | _ => simp
    rw [hex]
    unfold sectionOf
    cases os[i]? with
    | none => simp
    | some o =>
      cases ht : o.type <;> simp [ht]
      by_cases hh : o.flags.has .hidden = true
      · simp [hh]
      · cases hg : groupAt os i <;> simp [hh]

/-- **C43** Each section lists its entries in the order of their declaration: the positionals, the visible options
    outside groups, the subcommands, and for each group the visible options declared under its name. -/
theorem C43_sections (os : List Opt) :
    (organize os).positionals = entriesOf os .arguments ∧
    (organize os).groups = (groupTitles os).map (fun t => (t, entriesOf os (.group t))) ∧
    (organize os).ungrouped = entriesOf os .options ∧
    (organize os).subcommands = entriesOf os .commands ∧
    (∀ s, (entriesOf os s).Pairwise (· < ·)) := by
  rw [organize_eq]
  exact ⟨rfl, rfl, rfl, rfl, entriesOf_sorted os⟩

/-- **C43** Every group with a visible option appears once, and none without. -/
theorem C43_groups (os : List Opt) :
    ((organize os).groups.map (·.1)).Nodup ∧
    ∀ t, t ∈ (organize os).groups.map (·.1) ↔
      ∃ i o, os[i]? = some o ∧ o.type = .option ∧ o.flags.has .hidden = false ∧ groupAt os i = some t := by
  rw [organize_eq]
  have h1 : (groupsOf os).map (·.1) = groupTitles os := by
    simp only [groupsOf, List.map_map]
    exact List.map_id _
  simp only [h1]
  refine ⟨groupTitles_nodup os, fun t => ?_⟩
  rw [mem_groupTitles]
  constructor
  · rintro ⟨i, h⟩
    unfold sectionOf at h
    cases ho : os[i]? with
    | none => rw [ho] at h; simp at h
    | some o =>
      rw [ho] at h
      cases ht : o.type <;> simp [ht] at h
      obtain ⟨hh, hg⟩ := h
      refine ⟨i, o, ho, ht, hh, ?_⟩
      cases hga : groupAt os i with
      | none => rw [hga] at hg; simp at hg
      | some t' => rw [hga] at hg; simp at hg; rw [hg]
  · rintro ⟨i, o, ho, ht, hh, hg⟩
    refine ⟨i, ?_⟩
    unfold sectionOf
    simp [ho, ht, hh, hg]

/-- The title printed for a section. -/
def Section.heading : Section → Str
  | .arguments => c!"Arguments"
  | .group t => t
  | .options => c!"Options"
  | .commands => c!"Commands"

/-- How an entry of a section is printed. -/
def Section.entry (F : Fmt) (a : Argus) : Section → Opt → Text
  | .arguments => printPositional F a
  | .group _ => printOption F a
  | .options => printOption F a
  | .commands => printSubcommand F a

/-- The text of a section: nothing for an empty one, else a heading and the entries, one after the other. -/
def sectionText (F : Fmt) (a : Argus) (os : List Opt) (s : Section) : Text :=
  if entriesOf os s = [] then Text.lit []
  else Text.all ([Text.lit (c!"\n" ++ s.heading ++ c!":\n")] ++
    ((entriesOf os s).filterMap (fun i => os[i]?)).map (s.entry F a) ++
    (if s = .commands then [commandHint a] else []))

theorem Text.cat_assoc (x y z : Text) : (x.cat y).cat z = x.cat (y.cat z) := by
  unfold Text.cat
  cases x with
  | ub u => rfl
  | ok s =>
    cases s with
    | none => rfl
    | some s =>
      cases y with
      | ub u => rfl
      | ok t =>
        cases t with
        | none => rfl
        | some t =>
          cases z with
          | ub u => rfl
          | ok r => cases r <;> simp [Out.ok_bind]

theorem Text.nil_cat (x : Text) : (Text.lit []).cat x = x := by
  unfold Text.cat Text.lit
  cases x with
  | ub u => rfl
  | ok s => cases s <;> rfl

theorem Text.cat_nil (x : Text) : x.cat (Text.lit []) = x := by
  unfold Text.cat Text.lit
  cases x with
  | ub u => rfl
  | ok s => cases s <;> simp [Out.ok_bind]

theorem Text.all_append : ∀ xs ys : List Text, Text.all (xs ++ ys) = (Text.all xs).cat (Text.all ys)
  | [], ys => by rw [Text.all, Text.nil_cat]; rfl
  | x :: xs, ys => by rw [List.cons_append, Text.all, Text.all, Text.cat_assoc, Text.all_append xs ys]

theorem Text.all_single (x : Text) : Text.all [x] = x := by rw [Text.all, Text.all, Text.cat_nil]

theorem printList_eq (print : Opt → Text) (os : List Opt) : ∀ is : List Nat, (∀ i ∈ is, i < os.length) →
    printList print os is = Text.all ((is.filterMap (fun i => os[i]?)).map print)
  | [], _ => rfl
  | i :: is, h => by
    have ih := printList_eq print os is (fun j hj => h j (by simp [hj]))
    unfold printList at ih ⊢
    have hi := List.getElem?_eq_getElem (h i (by simp))
    simp only [List.map_cons, Text.all, List.filterMap_cons, hi, ih]

theorem entriesOf_lt {os : List Opt} {s : Section} : ∀ i ∈ entriesOf os s, i < os.length := fun i hi => by
  unfold entriesOf at hi
  exact List.mem_range.1 (List.mem_filter.1 hi).1

/-- **C43** The help text: the arguments, the groups in the order of their first options, the options without a group,
    the subcommands and an empty line; each section prints each of its entries once, in order. -/
theorem C43_text (F : Fmt) (a : Argus) (t : Nat) (os : List Opt) (ha : a.activeOptions = .ok (some t))
    (ht : a.tables[t]? = some os) :
    displayHelp F a =
      Text.all (([Section.arguments] ++ (groupTitles os).map Section.group ++ [Section.options, Section.commands]).map
        (sectionText F a os) ++ [Text.lit c!"\n"]) := by
  have hsec : ∀ (s : Section) (tail : List Text), (if s = .commands then [commandHint a] else []) = tail →
      section' s.heading (entriesOf os s) ((printList (s.entry F a) os (entriesOf os s)).cat (Text.all tail)) =
        sectionText F a os s := by
    intro s tail htail
    unfold section' sectionText
    rw [htail, printList_eq _ _ _ entriesOf_lt, Text.all_append, Text.all_append, Text.all_single,
      Text.cat_assoc]
  have h1 := hsec .arguments [] rfl
  have h2 := fun g => hsec (.group g) [] rfl
  have h3 := hsec .options [] rfl
  have h4 := hsec .commands [commandHint a] rfl
  simp only [Text.all, Text.cat_nil, Section.heading, Section.entry] at h1 h2 h3 h4
  unfold displayHelp
  rw [ha]
  simp only [Out.ok_bind, Argus.table, ht, organize_eq]
  unfold helpSections groupsOf
  simp only [h1, h3, h4, List.map_map, Function.comp_def, h2]
  simp only [List.map_append, Text.all_append, List.map_map, List.map_cons, List.map_nil, Text.all, Text.cat_nil,
    Text.cat_assoc, Function.comp_def]

/-- The name under which an option is listed. -/
def listName (o : Opt) : Str :=
  match o.sname, o.lname with
  | 0, none => []
  | 0, some l => c!"--" ++ l
  | s, none => [45, s]
  | s, some l => [45, s] ++ c!", --" ++ l

/-- **C43** An entry starts on its own line with its indented name and ends with a newline; for an option it is the
    short and the long name, for a positional its name in brackets. -/
theorem C43_entry (F : Fmt) (a : Argus) (s : Section) (o : Opt) (out : Str)
    (h : s.entry F a o = .ok (some out)) :
    ∃ rest, out = List.replicate a.helper.optionIndent 32 ++
      (match s with
       | .commands => o.name.getD []
       | .arguments => (if o.flags.has .required then c!"<" else c!"[") ++ o.name.getD []
       | _ => listName o) ++ rest ++ c!"\n" := by
  have key : ∀ name, entryText F a o name = .ok (some out) →
      ∃ rest, out = spaces a.helper.optionIndent ++ name ++ rest ++ c!"\n" := by
    intro name h
    unfold entryText Text.cat Text.lit at h
    simp only [Out.ok_bind] at h
    obtain ⟨b, hb, h⟩ := Out.bind_eq_ok h
    unfold optionDescription at hb
    obtain ⟨d, hd, hb⟩ := Out.bind_eq_ok hb
    simp only [Out.ok.injEq] at hb h
    subst hb
    cases hw : wrapText d a.helper.descriptionColumn a.helper.maxLineWidth with
    | none => rw [hw] at h; simp at h
    | some w =>
      rw [hw] at h
      simp only [Option.map_some, Option.some.injEq] at h
      subst h
      refine ⟨descHead a.helper (padding a.helper (a.helper.optionIndent + name.length)) ++ w, ?_⟩
      simp only [List.append_assoc]
  have hname : ∃ r, optionName F a.helper o = listName o ++ r := by
    unfold optionName
    refine ⟨_, congrArg (· ++ _) ?_⟩
    unfold listName
    by_cases hs : o.sname = 0
    · rw [hs]
      cases o.lname <;> simp
    · cases o.lname with
      | none => split <;> simp_all
      | some l => split <;> simp_all
  cases s with
  | commands =>
    simp only [Section.entry, printSubcommand] at h
    obtain ⟨n, hn, h⟩ := Out.bind_eq_ok h
    obtain ⟨rest, hr⟩ := key _ h
    cases ho : o.name with
    | none => rw [ho] at hn; simp [nameText] at hn
    | some m =>
      rw [ho] at hn
      simp only [nameText, Out.ok.injEq] at hn
      subst hn
      exact ⟨rest, hr⟩
  | arguments =>
    simp only [Section.entry, printPositional] at h
    obtain ⟨n, hn, h⟩ := Out.bind_eq_ok h
    obtain ⟨rest, hr⟩ := key _ h
    cases ho : o.name with
    | none => rw [ho] at hn; simp [nameText] at hn
    | some m =>
      rw [ho] at hn
      simp only [nameText, Out.ok.injEq] at hn
      subst hn
      subst hr
      unfold positionalName spaces
      simp only [Option.getD_some]
      split
      · split
        · exact ⟨c!"...>" ++ rest, by simp only [List.append_assoc]⟩
        · exact ⟨c!">" ++ rest, by simp only [List.append_assoc]⟩
      · split
        · exact ⟨c!"...]" ++ rest, by simp only [List.append_assoc]⟩
        · exact ⟨c!"]" ++ rest, by simp only [List.append_assoc]⟩
  | options =>
    obtain ⟨rest, hr⟩ := key _ h
    obtain ⟨r, h2⟩ := hname
    refine ⟨r ++ rest, ?_⟩
    rw [hr, h2]; simp [spaces]
  | group t =>
    obtain ⟨rest, hr⟩ := key _ h
    obtain ⟨r, h2⟩ := hname
    refine ⟨r ++ rest, ?_⟩
    rw [hr, h2]; simp [spaces]

namespace Sample

/-- Options in two groups, one of them continued later, a hidden option, and options without a group. -/
def grouped : List Opt :=
  [ helpOption,
    { type := .group, name := some c!"Net" },
    optInt 112 (some c!"port"),
    { optFlag 120 (some c!"debug") with flags := Flags.ofList [.hidden] },
    { type := .group, name := some c!"Log" },
    optFlag 118 (some c!"verbose"),
    { type := .group, name := some c!"Net" },
    optString 0 (some c!"host"),
    { type := .group },
    optFlag 113 none,
    posString c!"file",
    subcommand c!"add" 1 (some 11) ]

/-- No float formatting and no user formatters. -/
def fmt : Fmt := ⟨fun _ => [], fun _ => [], fun _ => none⟩

end Sample

example : listed Sample.grouped = [10, 2, 7, 5, 0, 9, 11] ∧
    groupTitles Sample.grouped = [c!"Net", c!"Log"] ∧ groupAt Sample.grouped 7 = some c!"Net" := by decide +kernel

/-- The help of a table with groups. -/
example : Sample.prog.activeOptions = .ok (some 0) ∧
    displayHelp Sample.fmt { Sample.prog with tables := [Sample.grouped] } = .ok (some
      (c!"\nArguments:\n  <file>                        -  (required)\n" ++
       c!"\nNet:\n  -p, --port <NUM>              - \n  --host <STR>                  - \n" ++
       c!"\nLog:\n  -v, --verbose                 - \n" ++
       c!"\nOptions:\n  -h, --help                    - Show help message (exit)\n" ++
       c!"  -q                            - \n" ++
       c!"\nCommands:\n  add                           - \n" ++
       c!"\nRun 'prog COMMAND --help' for more information on a command.\n" ++ c!"\n")) := by decide +kernel

/-- A hidden subcommand is listed: the flag is looked at for options only. -/
example : listed [{ Sample.grouped[11] with flags := Flags.ofList [.hidden] }] = [0] := by decide +kernel

end Argus
