import Verif.Lemmas.DescMemText
import Verif.Lemmas.Wrap

/-! # Printing descriptions kept in memory -/

set_option autoImplicit false

namespace Argus

attribute [local irreducible] sizeAdd

theorem appendEnvD_spec (A : DAlloc) (envPrefix : Option Str) (o : Opt) {base : Nat → Option Mem} {h : DHeap} {p : Nat} {s : Str}
    (H : h.Has base p s)
    (hn : 0 ∉ envPrefix.getD [] ∧ 0 ∉ o.envName.getD [] ∧ 0 ∉ o.name.getD [] ∧ 0 ∉ o.lname.getD []) :
    ∃ q h' s', appendEnvD A envPrefix o p h = .ok (q, h') ∧ h'.Has base q s' ∧
      (s' = appendEnv envPrefix o s ∨ (displayEnvName envPrefix o ≠ none ∧
        s' = (if s.getLast? = some 41 then s.dropLast else s) ∧ Refuses A (s.length + 256))) := by
  unfold appendEnvD appendEnv
  cases he : displayEnvName envPrefix o with
  | none => exact ⟨p, h, s, rfl, H, .inl rfl⟩
  | some e =>
    obtain ⟨q, h', s', e1, H', hs⟩ := variableD_spec A H (displayEnvName_plain hn he)
    refine ⟨q, h', s', e1, H', ?_⟩
    rcases hs with hs | hs
    · exact .inl hs
    · exact .inr ⟨by simp, hs⟩

theorem appendFlags_nil (o : Opt) (d : Str) : appendFlags o d = d ++ appendFlags o [] := by
  unfold appendFlags appendTo; simp

theorem appendFlags_plain (o : Opt) : 0 ∉ appendFlags o [] ∧ (appendFlags o []).length ≤ 31 := by
  unfold appendFlags appendTo
  cases o.flags.has .exit <;> cases o.flags.has .required <;> cases o.flags.has .deprecated <;>
    cases o.flags.has .experimental <;> decide

/-- What may become of a description when calls of `malloc` are refused: some notes in order, with or without the default, the
    variable added, or not added, or not added and a parenthesis lost, with or without the marks. -/
def Opt.Outcome (F : Fmt) (a : Argus) (o : Opt) (dflt s : Str) : Prop :=
  ∃ (ns : List Str) (s2 s3 : Str), ns.Sublist ((o.validators.getD []).map (validatorInfo F)) ∧
    (s2 = o.help.getD [] ++ ns.flatten ∨ s2 = o.help.getD [] ++ ns.flatten ++ dflt) ∧
    (s3 = appendEnv a.envPrefix o s2 ∨ (displayEnvName a.envPrefix o ≠ none ∧
      s3 = (if s2.getLast? = some 41 then s2.dropLast else s2))) ∧
    (s = s3 ∨ s = s3 ++ appendFlags o [])

theorem appendEnv_length (envPrefix : Option Str) (o : Opt) (s : Str) : (appendEnv envPrefix o s).length ≤ s.length + 255 := by
  unfold appendEnv appendTo
  split
  · omega
  · rename_i e _
    have h1 := snprintf_len 256 (c!", env: " ++ e ++ c!")")
    have h2 := snprintf_len 256 (c!" (env: " ++ e ++ c!")")
    split <;> simp only [List.length_append, List.length_dropLast] <;> omega

theorem appendValidators_length (F : Fmt) (cfg : HelperConfig) (o : Opt) (s : Str) :
    (appendValidators F cfg o s).length ≤ s.length + 255 * (o.validators.getD []).length := by
  have key : ∀ vs : List Validator, ((vs.map (validatorInfo F)).flatten).length ≤ 255 * vs.length := by
    intro vs
    induction vs with
    | nil => simp
    | cons v vs ih =>
      have hil : (validatorInfo F v).length ≤ 255 := by
        rw [validatorInfo_note]
        cases ht : v.text F with
        | none => simp
        | some d =>
          simp only [Option.map_some, Option.getD_some]
          cases hk : v.kind <;> simp only [noteOf] <;> first | exact snprintf_len _ _ | simp
      simp only [List.map_cons, List.flatten_cons, List.length_append, List.length_cons]
      omega
  unfold appendValidators
  split
  · omega
  · rename_i vs hvs
    rw [hvs, Option.getD_some]
    split
    · omega
    · rw [fold_notes, List.length_append]
      have := key vs
      omega

/-- `build_option_description` for an option whose default can be read: NULL for lack of memory, or a block with a description. -/
theorem buildDescriptionD_spec (A : DAlloc) (F : Fmt) (a : Argus) (o : Opt) {base : Nat → Option Mem} {h : DHeap} (H : h.Is base)
    (hp : o.Plain F a.envPrefix) {dflt : Str} (hd : defaultText F o = .ok dflt) :
    (∃ h', buildDescriptionD A F a o h = .ok (none, h') ∧ h'.Is base ∧ ¬ A.Full) ∨
    ∃ p h' s, buildDescriptionD A F a o h = .ok (some p, h') ∧ h'.Has base p s ∧ o.Outcome F a dflt s ∧
      (A.Full → buildDescription F a o = .ok s) := by
  have hroom := hp.room
  unfold buildDescriptionD
  rcases strdupD_spec A H hp.help with ⟨h', e, h1, h2⟩ | ⟨p, h', e, T⟩
  · rw [e]
    exact .inl ⟨h', rfl, h1, fun hf => absurd (h2 hf) (by omega)⟩
  · right
    rw [e]
    simp only [Out.ok_bind, describedD, describeD]
    obtain ⟨q1, h1, ns, e1, H1, hsub, hf1⟩ := appendValidatorsD_spec A F a.helper o T hp.validators
    obtain ⟨hdl, q2, h2, s2, e2, H2, hs2⟩ := appendDefaultD_spec A F o H1 hp.default hp.floats hd
    obtain ⟨q3, h3, s3, e3, H3, hs3⟩ := appendEnvD_spec A a.envPrefix o H2 hp.env
    obtain ⟨f0, fl⟩ := appendFlags_plain o
    obtain ⟨q4, h4, s4, e4, H4, hs4⟩ := appendToD_spec A H3 f0 (by omega)
    simp only [e1, e2, e3, Out.ok_bind, appendFlagsD, e4]
    refine ⟨q4, h4, s4, rfl, H4, ⟨ns, s2, s3, hsub, ?_, ?_, ?_⟩, fun hA => ?_⟩
    · rcases hs2 with hs | ⟨hs, _⟩
      · exact .inr hs
      · exact .inl hs
    · rcases hs3 with hs | ⟨hs, hs', _⟩
      · exact .inl hs
      · exact .inr ⟨hs, hs'⟩
    · rcases hs4 with hs | ⟨hs, _⟩
      · exact .inr hs
      · exact .inl hs
    · have g1 := hf1 hA (by omega)
      have l1 := appendValidators_length F a.helper o (o.help.getD [])
      rw [← g1] at l1
      have g2 : s2 = (o.help.getD [] ++ ns.flatten) ++ dflt := by
        rcases hs2 with hs | ⟨_, hr⟩
        · exact hs
        · exact absurd (hr hA) (by omega)
      have l2 : s2.length = (o.help.getD [] ++ ns.flatten).length + dflt.length := by rw [g2, List.length_append]
      have g3 : s3 = appendEnv a.envPrefix o s2 := by
        rcases hs3 with hs | ⟨_, _, hr⟩
        · exact hs
        · exact absurd (hr hA) (by omega)
      have l3 := appendEnv_length a.envPrefix o s2
      rw [← g3] at l3
      have g4 : s4 = s3 ++ appendFlags o [] := by
        rcases hs4 with hs | ⟨_, hr⟩
        · exact hs
        · exact absurd (hr hA) (by omega)
      unfold buildDescription
      rw [appendDefault_text, hd, ← g1]
      show Out.ok _ = _
      rw [← g2, ← g3, appendFlags_nil, ← g4]

/-! ## Printing -/

/-- The lines of a description have room. -/
def Argus.Wide (a : Argus) : Prop := 1 ≤ wrapWidth a.helper.descriptionColumn a.helper.maxLineWidth

theorem wrapText_some {a : Argus} (h : a.Wide) (s : Str) :
    ∃ w, wrapText s a.helper.descriptionColumn a.helper.maxLineWidth = some w := by
  obtain ⟨b, _, e, _⟩ := wrapLoop_ok _ (spaces (a.helper.descriptionColumn + 2)) h s.length s (Nat.le_refl _)
  exact ⟨_, e⟩

/-- A part of the help works in any memory: it ends if `W`, memory is then as before, and if no call is refused the text is `t`. -/
def DText.Tidy (A : DAlloc) (W : Prop) (x : DText) (t : Text) : Prop :=
  ∀ (base : Nat → Option Mem) (h : DHeap), h.Is base →
    (∃ r, x h = .ok r ∧ (∀ s h', r = some (s, h') → h'.Is base) ∧ (A.Full → t = .ok (r.map (·.1))) ∧ (W → r.isSome = true))

variable {A : DAlloc} {W : Prop}

theorem Tidy.of {t : Text} {s : Str} (ht : t = .ok (some s)) : (DText.of t).Tidy A W t := by
  intro base h H
  subst ht
  refine ⟨some (s, h), rfl, fun s' h' e => ?_, fun _ => rfl, fun _ => rfl⟩
  simp only [Option.some.injEq, Prod.mk.injEq] at e
  exact e.2 ▸ H

theorem Tidy.cat {x y : DText} {t u : Text} (hx : x.Tidy A W t) (hy : y.Tidy A W u) : (x.cat y).Tidy A W (t.cat u) := by
  intro base h H
  obtain ⟨r, e, h1, h2, h3⟩ := hx base h H
  unfold DText.cat
  rw [e]
  cases r with
  | none =>
    refine ⟨none, rfl, by simp, fun hA => ?_, h3⟩
    rw [h2 hA]; rfl
  | some r =>
    obtain ⟨s, h'⟩ := r
    obtain ⟨r2, e2, g1, g2, g3⟩ := hy base h' (h1 s h' rfl)
    simp only [Ends.bind_ok, e2]
    cases r2 with
    | none =>
      refine ⟨none, rfl, by simp, fun hA => ?_, g3⟩
      rw [h2 hA, g2 hA]; rfl
    | some r2 =>
      refine ⟨some (s ++ r2.1, r2.2), rfl, fun s' h'' e => ?_, fun hA => ?_, fun _ => rfl⟩
      · simp only [Option.some.injEq, Prod.mk.injEq] at e
        exact e.2 ▸ g1 r2.1 r2.2 rfl
      · rw [h2 hA, g2 hA]; rfl

theorem Tidy.all {α : Type} {x : α → DText} {t : α → Text} : ∀ {is : List α}, (∀ i ∈ is, (x i).Tidy A W (t i)) →
    (DText.all (is.map x)).Tidy A W (Text.all (is.map t))
  | [], _ => Tidy.of rfl
  | i :: is, h => Tidy.cat (h i (by simp)) (Tidy.all fun j hj => h j (by simp [hj]))

theorem optionDescriptionD_tidy (F : Fmt) (a : Argus) (o : Opt) (hp : o.Plain F a.envPrefix) {dflt : Str}
    (hd : defaultText F o = .ok dflt) (n : Nat) : (optionDescriptionD A F a o n).Tidy A a.Wide (optionDescription F a o n) := by
  intro base h H
  unfold optionDescriptionD
  rcases buildDescriptionD_spec A F a o H hp hd with ⟨h', e, h1, h2⟩ | ⟨p, h', s, e, T, _, hs⟩
  · rw [e]
    refine ⟨_, rfl, fun s' h'' e => ?_, fun hA => absurd hA h2, fun _ => rfl⟩
    simp only [Option.some.injEq, Prod.mk.injEq] at e
    exact e.2 ▸ h1
  · rw [e]
    simp only [Out.ok_bind, printedD, T.text]
    obtain ⟨h3, f1, f2⟩ := T.free
    cases hw : wrapText s a.helper.descriptionColumn a.helper.maxLineWidth with
    | none =>
      refine ⟨none, rfl, by simp, fun hA => ?_, fun hW => ?_⟩
      · unfold optionDescription
        rw [hs hA, Out.ok_bind, hw]; rfl
      · obtain ⟨w, hw'⟩ := wrapText_some hW s
        rw [hw] at hw'; cases hw'
    | some w =>
      rw [Ends.bind_ok, f1]
      refine ⟨_, rfl, fun s' h'' e => ?_, fun hA => ?_, fun _ => rfl⟩
      · simp only [Option.some.injEq, Prod.mk.injEq] at e
        exact e.2 ▸ f2
      · unfold optionDescription
        rw [hs hA, Out.ok_bind, hw]; rfl

theorem entryTextD_tidy (F : Fmt) (a : Argus) (o : Opt) (hp : o.Plain F a.envPrefix) {dflt : Str}
    (hd : defaultText F o = .ok dflt) (name : Str) : (entryTextD A F a o name).Tidy A a.Wide (entryText F a o name) :=
  Tidy.cat (Tidy.of rfl) (optionDescriptionD_tidy F a o hp hd _)

theorem printOptionD_tidy (F : Fmt) (a : Argus) (o : Opt) (hp : o.Plain F a.envPrefix) {dflt : Str}
    (hd : defaultText F o = .ok dflt) : (printOptionD A F a o).Tidy A a.Wide (printOption F a o) := by
  intro base h H
  have hroom := hp.room
  obtain ⟨t, h', e, h1, h2⟩ := optionNameD_spec A F a.helper o H hp.validators hp.hint (by omega)
  unfold printOptionD printOption
  rw [e]
  simp only [Out.ok_bind]
  obtain ⟨r, e2, g1, g2, g3⟩ := entryTextD_tidy (A := A) F a o hp hd t base h' h1
  refine ⟨r, e2, g1, fun hA => ?_, g3⟩
  rw [← g2 hA]
  rcases h2 with h2 | ⟨_, h2, _⟩
  · rw [h2]
  · exact absurd hA h2

theorem printPositionalD_tidy (F : Fmt) (a : Argus) (o : Opt) (hp : o.Plain F a.envPrefix) {dflt : Str}
    (hd : defaultText F o = .ok dflt) {n : Str} (hn : o.name = some n) :
    (printPositionalD A F a o).Tidy A a.Wide (printPositional F a o) := by
  unfold printPositionalD printPositional
  rw [hn]
  exact entryTextD_tidy F a o hp hd _

theorem printSubcommandD_tidy (F : Fmt) (a : Argus) (o : Opt) (hp : o.Plain F a.envPrefix) {dflt : Str}
    (hd : defaultText F o = .ok dflt) {n : Str} (hn : o.name = some n) :
    (printSubcommandD A F a o).Tidy A a.Wide (printSubcommand F a o) := by
  unfold printSubcommandD printSubcommand
  rw [hn]
  exact entryTextD_tidy F a o hp hd _

theorem printListD_tidy {f : Opt → DText} {g : Opt → Text} {os : List Opt} {is : List Nat}
    (h : ∀ i ∈ is, ∃ o, os[i]? = some o ∧ (f o).Tidy A W (g o)) : (printListD f os is).Tidy A W (printList g os is) := by
  refine Tidy.all fun i hi => ?_
  obtain ⟨o, ho, ht⟩ := h i hi
  unfold printAtD
  rw [ho]
  exact ht

theorem sectionD_tidy {title : Str} {is : List Nat} {x : DText} {t : Text} (h : x.Tidy A W t) :
    (sectionD title is x).Tidy A W (section' title is t) := by
  unfold sectionD section'
  split
  · exact Tidy.of rfl
  · exact Tidy.cat (Tidy.of rfl) h

theorem helpSectionsD_tidy (F : Fmt) (a : Argus) (os : List Opt) (d : HelpData) {s : Str} (hs : stackNames a a.stack = .ok s)
    (hp : ∀ o ∈ os, o.Plain F a.envPrefix) (hd : ∀ o ∈ os, ∃ t, defaultText F o = .ok t)
    (h1 : ∀ i ∈ d.positionals, ∃ o n, os[i]? = some o ∧ o.name = some n) (h2 : ∀ g ∈ d.groups, ∀ i ∈ g.2, i < os.length)
    (h3 : ∀ i ∈ d.ungrouped, i < os.length) (h4 : ∀ i ∈ d.subcommands, ∃ o n, os[i]? = some o ∧ o.name = some n) :
    (helpSectionsD A F a os d).Tidy A a.Wide (helpSections F a os d) := by
  have opt : ∀ i, i < os.length → ∃ o, os[i]? = some o ∧ (printOptionD A F a o).Tidy A a.Wide (printOption F a o) := by
    intro i hi
    obtain ⟨t, ht⟩ := hd _ (List.getElem_mem hi)
    exact ⟨os[i], List.getElem?_eq_getElem hi, printOptionD_tidy F a _ (hp _ (List.getElem_mem hi)) ht⟩
  refine Tidy.cat (sectionD_tidy (printListD_tidy fun i hi => ?_)) (Tidy.cat (Tidy.all fun g hg => sectionD_tidy
    (printListD_tidy fun i hi => opt i (h2 g hg i hi))) (Tidy.cat (sectionD_tidy (printListD_tidy fun i hi => opt i (h3 i hi)))
    (sectionD_tidy (Tidy.cat (printListD_tidy fun i hi => ?_) ?_))))
  · obtain ⟨o, n, ho, hn⟩ := h1 i hi
    have hm := List.mem_of_getElem? ho
    obtain ⟨t, ht⟩ := hd _ hm
    exact ⟨o, ho, printPositionalD_tidy F a o (hp o hm) ht hn⟩
  · obtain ⟨o, n, ho, hn⟩ := h4 i hi
    have hm := List.mem_of_getElem? ho
    obtain ⟨t, ht⟩ := hd _ hm
    exact ⟨o, ho, printSubcommandD_tidy F a o (hp o hm) ht hn⟩
  · exact Tidy.of (by unfold commandHint; rw [hs]; rfl)

end Argus
