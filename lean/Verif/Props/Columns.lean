import Verif.Props.Help
import Verif.Props.Describe
import Verif.Props.Wrap

/-!
# C76: the columns of the help

An entry of the help has a name, indented by `option_indent`, and a description, which starts with a dash in column
`description_column`. `linesOf`, `Broken`, `printedLines` and `BreakOk` are in Spec/Wrap.
-/

set_option autoImplicit false

namespace Argus

/-- `n` is what the first column of a section shows for an option: the name of a command, the name of a positional in
    the brackets that tell whether it must be given, or the names of an option with what stands for its value. -/
def Section.Shows (F : Fmt) (cfg : HelperConfig) (o : Opt) (n : Str) : Section → Prop
  | .commands => o.name = some n
  | .arguments => ∃ m, o.name = some m ∧ n =
      (if o.flags.has .required then c!"<" else c!"[") ++ m ++ (if o.valueType.isVariadic then c!"..." else []) ++
      (if o.flags.has .required then c!">" else c!"]")
  | _ => ∃ h, o.StandsFor F cfg h ∧ h.length ≤ 55 ∧
      n = if o.valueType = .flag then o.typed else o.typed ++ c!" <" ++ o.valueType.several h ++ c!">"

/-- What stands between a name that ends in column `w` and the dash in column `col`: at least four spaces, or a new
    line. -/
def gap (col w : Nat) : Str :=
  if w + 4 ≤ col then List.replicate (col - w) 32 else 10 :: List.replicate col 32

theorem descHead_eq (cfg : HelperConfig) (w : Nat) :
    descHead cfg (padding cfg w) = gap cfg.descriptionColumn w ++ c!"- " := by
  unfold descHead padding gap spaces
  by_cases h : w + 4 ≤ cfg.descriptionColumn
  · have h1 : cfg.descriptionColumn > w := by omega
    rw [if_pos h1, if_neg (by omega), if_pos h]
  · rw [if_neg h]
    by_cases h2 : cfg.descriptionColumn > w
    · rw [if_pos h2, if_pos (by omega)]; rfl
    · rw [if_neg h2, if_pos (by decide)]; rfl

theorem entryText_layout {F : Fmt} {a : Argus} {o : Opt} {n out : Str} (h : entryText F a o n = .ok (some out)) :
    ∃ d w, buildDescription F a o = .ok d ∧ wrapText d a.helper.descriptionColumn a.helper.maxLineWidth = some w ∧
      out = List.replicate a.helper.optionIndent 32 ++ n ++
        gap a.helper.descriptionColumn (a.helper.optionIndent + n.length) ++ c!"- " ++ w ++ c!"\n" := by
  unfold entryText Text.cat Text.lit at h
  simp only [Out.ok_bind] at h
  obtain ⟨b, hb, h⟩ := Out.bind_eq_ok h
  unfold optionDescription at hb
  obtain ⟨d, hd, hb⟩ := Out.bind_eq_ok hb
  simp only [Out.ok.injEq] at hb h
  subst hb
  cases hw : wrapText d a.helper.descriptionColumn a.helper.maxLineWidth with
  | none => rw [hw] at h; simp at h
  | some w =>
    rw [hw] at h
    simp only [Option.map_some, Option.some.injEq] at h
    refine ⟨d, w, hd, hw, ?_⟩
    rw [← h, descHead_eq]
    simp [spaces]

theorem entry_shows {F : Fmt} {a : Argus} {s : Section} {o : Opt} {n : Str} (hn : s.Shows F a.helper o n)
    (hv : ∀ v, o.validators = some [v] → v.Fits F.g2) : s.entry F a o = entryText F a o n := by
  have opt : (∃ h, o.StandsFor F a.helper h ∧ h.length ≤ 55 ∧
      n = if o.valueType = .flag then o.typed else o.typed ++ c!" <" ++ o.valueType.several h ++ c!">") →
      printOption F a o = entryText F a o n := by
    rintro ⟨h, h1, h2, h3⟩
    rw [printOption, C67_name_partial F a.helper o h hv h1 h2, h3]
  cases s with
  | commands =>
    have hn : o.name = some n := hn
    simp only [Section.entry, printSubcommand, hn, nameText, Out.ok_bind]
  | arguments =>
    obtain ⟨m, h1, h2⟩ := hn
    simp only [Section.entry, printPositional, h1, nameText, Out.ok_bind]
    congr 1
    rw [h2]
    unfold positionalName
    by_cases hr : o.flags.has .required = true <;> by_cases hw : o.valueType.isVariadic = true <;> simp [hr, hw]
  | options => exact opt hn
  | group t => exact opt hn

/-- **C76** At every width: an entry is its name, indented, and its description after a dash. The dash is separated from
    the name by at least four spaces, or stands on a line of its own. -/
theorem C76_dash (F : Fmt) (a : Argus) (s : Section) (o : Opt) (n out : Str) (hn : s.Shows F a.helper o n)
    (hv : ∀ v, o.validators = some [v] → v.Fits F.g2) (h : s.entry F a o = .ok (some out)) :
    ∃ w, out = List.replicate a.helper.optionIndent 32 ++ n ++
      (if a.helper.optionIndent + n.length + 4 ≤ a.helper.descriptionColumn
        then List.replicate (a.helper.descriptionColumn - (a.helper.optionIndent + n.length)) 32
        else c!"\n" ++ List.replicate a.helper.descriptionColumn 32) ++ c!"- " ++ w ++ c!"\n" := by
  rw [entry_shows hn hv] at h
  obtain ⟨d, w, _, _, e⟩ := entryText_layout h
  exact ⟨w, e⟩

theorem printedLines_shape (k w : Nat) : ∀ (ls : List (Str × Str)) (last : Str), (∀ p ∈ ls, BreakOk w p) →
    10 ∉ last → last.length ≤ w →
    ∃ l ls', linesOf (printedLines (List.replicate k 32) ls last) = l :: ls' ∧ l.length ≤ w ∧
      ∀ m ∈ ls', m = [] ∨ (List.replicate k 32 <+: m ∧ m.length ≤ k + w)
  | [], last, _, h1, h2 => ⟨last, [], linesOf_plain h1, h2, by simp⟩
  | (l, sep) :: ls, last, hb, h1, h2 => by
    obtain ⟨m, ms, e, hm, hms⟩ := printedLines_shape k w ls last (fun p hp => hb p (by simp [hp])) h1 h2
    obtain ⟨hl1, hl2, _⟩ := hb (l, sep) (by simp)
    rw [printedLines, List.append_assoc, List.append_assoc, List.singleton_append, linesOf_append _ hl1]
    refine ⟨l, _, rfl, hl2, ?_⟩
    intro x hx
    split at hx
    · rename_i hc
      rw [hc.1, hc.2, List.nil_append] at hx
      simp [printedLines, linesOf] at hx
      exact .inl hx
    · obtain ⟨m', ms', e1, e2⟩ := linesOf_pad k (printedLines (List.replicate k 32) ls last)
      rw [e] at e1
      simp only [List.cons.injEq] at e1
      obtain ⟨rfl, rfl⟩ := e1
      rw [e2] at hx
      rcases List.mem_cons.1 hx with rfl | hx
      · refine .inr ⟨⟨_, rfl⟩, ?_⟩
        simp only [List.length_append, List.length_replicate]; omega
      · exact hms x hx

theorem linesOf_prefix : ∀ {p : Str} (s : Str) {l : Str} {ls : List Str}, 10 ∉ p → linesOf s = l :: ls →
    linesOf (p ++ s) = (p ++ l) :: ls
  | [], s, l, ls, _, h => h
  | c :: p, s, l, ls, hp, h => by
    simp only [List.mem_cons, not_or] at hp
    rw [List.cons_append, linesOf, if_neg (fun e => hp.1 e.symm), linesOf_prefix s hp.2 h]
    rfl

theorem linesOf_end : ∀ (s : Str), linesOf (s ++ [10]) = linesOf s ++ [[]]
  | [] => rfl
  | c :: s => by
    have ih := linesOf_end s
    rw [List.cons_append, linesOf, linesOf, ih]
    by_cases h : c = 10
    · rw [if_pos h, if_pos h]; rfl
    · rw [if_neg h, if_neg h]
      cases hl : linesOf s with
      | nil =>
        exfalso
        cases s with
        | nil => simp [linesOf] at hl
        | cons d s => rw [linesOf] at hl; split at hl <;> (try split at hl) <;> simp at hl
      | cons l ls => rfl

/-- **C76** (for a width above the description column plus 2) The lines of an entry. The dash is in column
    `description_column`, on the line of the name or, if that is too long, on the next one. Every other line is empty or
    starts below the first byte of the description. No line is longer than the width, except that of a name too long for
    its column. The description is that of C67, broken as in C44. -/
theorem C76_lines_partial (F : Fmt) (a : Argus) (s : Section) (o : Opt) (n out : Str) (hn : s.Shows F a.helper o n)
    (hv : ∀ v, o.validators = some [v] → v.Fits F.g2) (h10 : 10 ∉ n)
    (hw : a.helper.descriptionColumn + 3 ≤ a.helper.maxLineWidth) (hw2 : a.helper.maxLineWidth < 2 ^ 64)
    (h : s.entry F a o = .ok (some out)) :
    ∃ (b : Broken) (first : Str) (rest : List Str), buildDescription F a o = .ok b.text ∧
      (∀ p ∈ b.lines, BreakOk (a.helper.maxLineWidth - a.helper.descriptionColumn - 2) p) ∧
      linesOf (printedLines (List.replicate (a.helper.descriptionColumn + 2) 32) b.lines b.last) = first :: rest ∧
      linesOf out =
        (if a.helper.optionIndent + n.length + 4 ≤ a.helper.descriptionColumn
          then [List.replicate a.helper.optionIndent 32 ++ n ++
            List.replicate (a.helper.descriptionColumn - (a.helper.optionIndent + n.length)) 32 ++ c!"- " ++ first]
          else [List.replicate a.helper.optionIndent 32 ++ n,
            List.replicate a.helper.descriptionColumn 32 ++ c!"- " ++ first]) ++ rest ++ [[]] ∧
      a.helper.descriptionColumn + 2 + first.length ≤ a.helper.maxLineWidth ∧
      ∀ l ∈ rest, l = [] ∨ (List.replicate (a.helper.descriptionColumn + 2) 32 <+: l ∧ l.length ≤ a.helper.maxLineWidth) := by
  rw [entry_shows hn hv] at h
  obtain ⟨d, w, hd, hwr, e⟩ := entryText_layout h
  obtain ⟨b, hb, e2, hb1, hb2, hb3⟩ := C44_wrap_partial d _ _ hw hw2
  rw [hwr] at e2
  simp only [Option.some.injEq] at e2
  obtain ⟨l, ls, e3, hl, hls⟩ := printedLines_shape (a.helper.descriptionColumn + 2) _ b.lines b.last hb1 hb2
    (Nat.le_of_lt hb3)
  have hsp : ∀ k, (10 : Byte) ∉ List.replicate k (32 : Byte) := by
    intro k hk
    exact absurd (List.eq_of_mem_replicate hk) (by decide)
  have hdash : ∀ k, (10 : Byte) ∉ List.replicate k (32 : Byte) ++ c!"- " := by
    intro k hk
    rcases List.mem_append.1 hk with hk | hk
    · exact hsp k hk
    · exact absurd hk (by decide)
  have hhead : (10 : Byte) ∉ List.replicate a.helper.optionIndent (32 : Byte) ++ n := by
    intro hk
    rcases List.mem_append.1 hk with hk | hk
    · exact hsp _ hk
    · exact h10 hk
  refine ⟨b, l, ls, by rw [hb]; exact hd, hb1, e3, ?_, by omega, fun m hm => ?_⟩
  · rw [e, show c!"\n" = [10] from rfl, linesOf_end]
    congr 1
    rw [e2]
    unfold gap
    by_cases hf : a.helper.optionIndent + n.length + 4 ≤ a.helper.descriptionColumn
    · rw [if_pos hf, if_pos hf]
      refine (linesOf_prefix _ ?_ e3).trans rfl
      intro hk
      rw [List.append_assoc] at hk
      rcases List.mem_append.1 hk with hk | hk
      · exact hhead hk
      · exact hdash _ hk
    · rw [if_neg hf, if_neg hf]
      have := linesOf_append (l := List.replicate a.helper.optionIndent 32 ++ n)
        ((List.replicate a.helper.descriptionColumn 32 ++ c!"- ") ++
          printedLines (List.replicate (a.helper.descriptionColumn + 2) 32) b.lines b.last) hhead
      rw [linesOf_prefix _ (hdash _) e3] at this
      simpa using this
  · rcases hls m hm with h1 | ⟨h1, h2⟩
    · exact .inl h1
    · exact .inr ⟨h1, by omega⟩

namespace Sample

/-- An option whose names leave no room for the description. -/
def longNamed : Opt :=
  { optInt 109 (some c!"maximum-number-of-connections") with help := some c!"How many connections may be open at once.\nAll of them." }

/-- A program with narrow help. -/
def narrow : Argus := { prog with helper := { prog.helper with descriptionColumn := 20, maxLineWidth := 44 } }

end Sample

example : Section.options.Shows Sample.fmt Sample.narrow.helper Sample.longNamed c!"-m, --maximum-number-of-connections <NUM>" ∧
    (∀ v, Sample.longNamed.validators = some [v] → v.Fits Sample.fmt.g2) ∧
    10 ∉ c!"-m, --maximum-number-of-connections <NUM>" ∧
    Sample.narrow.helper.descriptionColumn + 3 ≤ Sample.narrow.helper.maxLineWidth ∧
    Section.options.entry Sample.fmt Sample.narrow Sample.longNamed = .ok (some (
      c!"  -m, --maximum-number-of-connections <NUM>\n" ++
      c!"                    - How many connections\n" ++
      c!"                      may be open at once.\n" ++
      c!"                      All of them.\n")) := by
  refine ⟨⟨c!"NUM", .inr (.inr ⟨rfl, ?_, rfl⟩), by decide, by decide⟩, ?_, by decide, by decide, by decide +kernel⟩
  · rintro w ⟨_, ⟨v, h, _⟩, _⟩
    rw [show Sample.longNamed.validators = none from rfl] at h
    exact (nomatch h)
  · intro v h
    rw [show Sample.longNamed.validators = none from rfl] at h
    exact (nomatch h)

/-- A short name leaves the description on its line. -/
example : Section.commands.Shows Sample.fmt Sample.narrow.helper (subcommand c!"add" 1 none) c!"add" ∧
    Section.commands.entry Sample.fmt Sample.narrow { subcommand c!"add" 1 none with help := some c!"Adds a file to the index" } =
      .ok (some (c!"  add               - Adds a file to the\n" ++ c!"                      index\n")) := by
  exact ⟨rfl, by decide +kernel⟩

end Argus
