import Verif.Spec.Describe
import Verif.Props.HelpEnv
import Verif.Props.Choices
import Verif.Props.Help

/-!
# C67: the help says what was declared about an option
-/

set_option autoImplicit false

namespace Argus

/-! ## Marks -/

theorem marks_length (f : Flags) : (marks f).length =
    (if f.has .exit then 7 else 0) + (if f.has .required then 11 else 0) + (if f.has .deprecated then 13 else 0) +
    (if f.has .experimental then 15 else 0) := by
  unfold marks
  cases f.has .exit <;> cases f.has .required <;> cases f.has .deprecated <;> cases f.has .experimental <;> rfl

/-- **C67** The marks (exit), (required), (deprecated) and (experimental) are shown, each exactly if its flag is
    set, unless (experimental) comes with two of the others: these are exactly the cases in which a mark is missing. -/
theorem C67_marks (o : Opt) (d : Str) : appendFlags o d = d ++ marks o.flags ↔
    ¬ (o.flags.has .experimental = true ∧
      ((o.flags.has .exit = true ∧ o.flags.has .required = true) ∨
       (o.flags.has .exit = true ∧ o.flags.has .deprecated = true) ∨
       (o.flags.has .required = true ∧ o.flags.has .deprecated = true))) := by
  unfold appendFlags appendTo marks
  rw [List.append_cancel_left_eq]
  cases o.flags.has .exit <;> cases o.flags.has .required <;> cases o.flags.has .deprecated <;>
    cases o.flags.has .experimental <;> decide

/-- The marks that are lost. -/
theorem C67_mark_lost : ∃ o : Opt, o.flags = Flags.ofList [.required, .deprecated, .experimental] ∧
    marks o.flags = c!" (required) (deprecated) (experimental)" ∧
    appendFlags o c!"Port" = c!"Port (required) (deprecated)" := by
  refine ⟨{ optInt 112 (some c!"port") with flags := Flags.ofList [.required, .deprecated, .experimental] }, ?_⟩
  decide +kernel

/-! ## Constraints in words -/

theorem choicesJoin_eq (size : Nat) : ∀ (xs : List Str) (acc : Str), acc.length + (bars xs).length < size →
    choicesJoin size acc xs = acc ++ bars xs
  | [], acc, _ => by simp [choicesJoin, bars]
  | [x], acc, h => by
    simp only [bars] at h
    simp only [choicesJoin, List.isEmpty_nil, if_true, catFit, bars]
    rw [if_neg (by omega)]
  | x :: y :: ys, acc, h => by
    rw [bars] at h
    simp only [List.length_append, List.length_cons] at h
    have ih := choicesJoin_eq size (y :: ys) (acc ++ x ++ c!"|") (by
      simp only [List.length_append, List.length_cons, List.length_nil]; omega)
    rw [choicesJoin]
    simp only [List.isEmpty_cons, Bool.false_eq_true, if_false]
    have h1 : catFit size acc x = acc ++ x := by
      unfold catFit; rw [if_neg (by omega)]
    have h2 : catFit size (acc ++ x) c!"|" = acc ++ x ++ c!"|" := by
      unfold catFit
      rw [if_neg (by simp only [List.length_append, List.length_cons, List.length_nil]; omega)]
    rw [h1, h2, ih, bars]
    simp

theorem bars_length_le {α : Type} (f : α → Str) (w : α → Nat) : ∀ cs : List α, (∀ x ∈ cs, (f x).length ≤ w x) →
    (bars (cs.map f)).length < choicesSize (cs.map w)
  | [], _ => by simp [bars, choicesSize]
  | [x], h => by
    have := h x (by simp)
    simp [bars, choicesSize]; omega
  | x :: y :: ys, h => by
    have ih := bars_length_le f w (y :: ys) (fun z hz => h z (by simp [hz]))
    have hx := h x (by simp)
    simp only [List.map_cons, bars, choicesSize, List.length_append, List.length_cons, List.sum_cons, List.length_map]
      at ih ⊢
    omega

theorem choices_map {α : Type} (f : α → Str) (w : α → Nat) (cs : List α)
    (h : ∀ x ∈ cs, (f x).length ≤ w x) :
    choicesJoin (choicesSize (cs.map w)) [] (cs.map f) = bars (cs.map f) := by
  have := choicesJoin_eq (choicesSize (cs.map w)) (cs.map f) [] (by
    have := bars_length_le f w cs h
    simpa using this)
  simpa using this

theorem snprintf_fits {n : Nat} {s : Str} (h : s.length < n) : snprintf n s = s := by
  unfold snprintf
  exact List.take_of_length_le (by omega)

theorem patternWords_eq (p h : Option Str) : formatRegex p h = patternWords p h := by
  unfold formatRegex
  cases h with
  | none =>
    cases p with
    | none => simp [patternWords]
    | some p =>
      cases p with
      | nil => simp [patternWords]
      | cons c p => simp [patternWords, Nat.succ_le_iff]
  | some h =>
    cases h with
    | nil =>
      cases p with
      | none => simp [patternWords]
      | some p =>
        cases p with
        | nil => simp [patternWords]
        | cons c p => simp [patternWords, Nat.succ_le_iff]
    | cons c h => simp [patternWords]

theorem patternWords_length (p h : Option Str) : (patternWords p h).length ≤ max 15 (h.getD []).length := by
  unfold patternWords
  split
  · simp; omega
  · split
    · simp; omega
    · exact Nat.le_trans (by decide) (Nat.le_max_left _ _)
  · exact Nat.le_trans (by decide) (Nat.le_max_left _ _)

/-- **C67** The text of a constraint is its words, within the sizes of the buffers: an interval, all choices in
    order, or the hint of a pattern. -/
theorem C67_words_partial (F : Fmt) (v : Validator) (h : v.Fits F.g2) : v.text F = v.words F := by
  obtain ⟨hk, hf⟩ := h
  obtain ⟨k, ord, hfm⟩ := v
  unfold Validator.text Validator.words
  simp only at hk hf ⊢
  cases k with
  | custom id => rfl
  | range mn mx =>
    have := hf (fun _ => nofun); subst this
    simp only [VKind.Fits] at hk
    simp only [if_true, formatter, VKind.words]
    rw [snprintf_fits (by unfold interval at hk; omega)]; rfl
  | length mn mx =>
    have := hf (fun _ => nofun); subst this
    simp only [VKind.Fits] at hk
    simp only [if_true, formatter, VKind.words]
    rw [snprintf_fits (by
      unfold interval at hk
      rw [List.length_append]
      have : (c!" chars").length = 6 := rfl
      omega)]; rfl
  | count mn mx =>
    have := hf (fun _ => nofun); subst this
    simp only [VKind.Fits] at hk
    simp only [if_true, formatter, VKind.words]
    rw [snprintf_fits (by unfold interval at hk; omega)]; rfl
  | choiceStr cs =>
    have := hf (fun _ => nofun); subst this
    have := choices_map id List.length cs (fun x _ => Nat.le_refl _)
    rw [List.map_id] at this
    simp only [if_true, formatter, VKind.words, this]
  | choiceInt cs =>
    have := hf (fun _ => nofun); subst this
    obtain ⟨_, hr⟩ := hk
    have hlen : ∀ n ∈ cs, (showInt n).length ≤ 20 := fun n hn =>
      (showInt_text (by have := (hr n hn).1; unfold llongMin; omega)
        (by have := (hr n hn).2; unfold llongMax; omega)).2
    have hm : cs.map (fun n => snprintf 32 (showInt n)) = cs.map showInt :=
      List.map_congr_left fun n hn => snprintf_fits (by have := hlen n hn; omega)
    simp only [if_true, formatter, VKind.words, hm, choices_map showInt (fun _ => 20) cs hlen]
  | choiceFloat cs =>
    have := hf (fun _ => nofun); subst this
    obtain ⟨_, hr⟩ := hk
    have hm : cs.map (fun x => snprintf 32 (F.g2 x)) = cs.map F.g2 :=
      List.map_congr_left fun n hn => snprintf_fits (by have := hr n hn; omega)
    simp only [if_true, formatter, VKind.words, hm, choices_map F.g2 (fun _ => 20) cs hr]
  | regex p h =>
    have := hf (fun _ => nofun); subst this
    simp only [if_true, formatter, VKind.words, patternWords_eq]

theorem validatorInfo_eq (F : Fmt) (v : Validator) (h : v.Fits F.g2) : validatorInfo F v = v.kind.note F.g2 := by
  have ht := C67_words_partial F v h
  obtain ⟨hk, hf⟩ := h
  obtain ⟨k, ord, hfm⟩ := v
  unfold validatorInfo
  rw [ht]
  simp only [Validator.words]
  simp only at hk
  cases k with
  | custom id => simp only [VKind.note]; split <;> rfl
  | range mn mx =>
    simp only [VKind.Fits] at hk
    simp only [VKind.words, VKind.note]
    exact snprintf_fits (by simp; omega)
  | length mn mx =>
    simp only [VKind.Fits] at hk
    simp only [VKind.words, VKind.note]
    rw [snprintf_fits (by simp; omega)]
    simp
  | count mn mx =>
    simp only [VKind.Fits] at hk
    simp only [VKind.words, VKind.note]
    exact snprintf_fits (by simp; omega)
  | choiceStr cs =>
    simp only [VKind.Fits] at hk
    simp only [VKind.words, VKind.note]
    exact snprintf_fits (by simp; omega)
  | choiceInt cs =>
    simp only [VKind.Fits] at hk
    simp only [VKind.words, VKind.note]
    exact snprintf_fits (by simp; omega)
  | choiceFloat cs =>
    simp only [VKind.Fits] at hk
    simp only [VKind.words, VKind.note]
    exact snprintf_fits (by simp; omega)
  | regex p h =>
    simp only [VKind.Fits] at hk
    simp only [VKind.words, VKind.note]
    exact snprintf_fits (by
      have := patternWords_length p h
      simp; omega)

theorem validatorHint_eq (F : Fmt) (cfg : HelperConfig) (o : Opt) (w : Str)
    (hv : ∀ v, o.validators = some [v] → v.Fits F.g2) (hh : o.hint = none) :
    validatorHint F cfg o = some w ↔ o.WordsInName F cfg w := by
  unfold validatorHint Opt.WordsInName
  constructor
  · intro h
    split at h
    · rename_i v hv1
      rw [C67_words_partial F v (hv v hv1), Option.filter_eq_some_iff] at h
      obtain ⟨h1, h2⟩ := h
      unfold isShortHint at h2
      simp only [Bool.and_eq_true, decide_eq_true_eq, Bool.or_eq_true, Bool.not_eq_true', List.contains_eq_mem,
        decide_eq_false_iff_not] at h2
      refine ⟨hh, ⟨v, hv1, h1⟩, h2.1, fun h32 => ?_⟩
      rcases h2.2 with h3 | h3
      · exact h3
      · exact absurd h32 h3
    · simp at h
  · rintro ⟨_, ⟨v, hv1, hw⟩, hl, hs⟩
    rw [hv1]
    simp only
    rw [C67_words_partial F v (hv v hv1), Option.filter_eq_some_iff]
    refine ⟨hw, ?_⟩
    unfold isShortHint
    simp only [Bool.and_eq_true, decide_eq_true_eq, Bool.or_eq_true, Bool.not_eq_true', List.contains_eq_mem,
        decide_eq_false_iff_not]
    refine ⟨hl, ?_⟩
    by_cases h32 : (32 : Byte) ∈ w
    · exact .inl (hs h32)
    · exact .inr h32

/-! ## The whole description -/

theorem appendValidators_fold (F : Fmt) (vs : List Validator) (d : Str) (h : ∀ v ∈ vs, v.Fits F.g2) :
    vs.foldl (fun d v => appendTo d (validatorInfo F v)) d = d ++ (vs.map fun v => v.kind.note F.g2).flatten := by
  induction vs generalizing d with
  | nil => simp
  | cons v vs ih =>
    rw [List.foldl_cons, ih _ (fun w hw => h w (by simp [hw])), validatorInfo_eq F v (h v (by simp))]
    simp [appendTo]

theorem asInt_of_asInt64 {w : Word} {n : Int} (h : w.asInt64 = .ok n) (h1 : -2 ^ 31 ≤ n) (h2 : n < 2 ^ 31) :
    w.asInt = .ok n := by
  cases w with
  | bits b =>
    simp only [Word.asInt64, Out.ok.injEq] at h
    simp only [Word.asInt, Out.ok.injEq]
    subst h
    rw [BitVec.truncate_eq_setWidth, BitVec.toInt_setWidth]
    have hb : b.toInt = (b.toNat : Int).bmod (2 ^ 64) := BitVec.toInt_eq_toNat_bmod b
    have hc : b.toInt.bmod (2 ^ 32) = (b.toNat : Int).bmod (2 ^ 32) := by
      rw [hb]
      exact Int.bmod_bmod_of_dvd (by decide)
    rw [← hc]
    exact Int.bmod_eq_of_le (by omega) (by omega)
  | _ => simp [Word.asInt64] at h

theorem showInt_length_le {n : Int} (h1 : -2 ^ 31 ≤ n) (h2 : n < 2 ^ 31) : (showInt n).length ≤ 20 :=
  (showInt_text (by unfold llongMin; omega) (by unfold llongMax; omega)).2

theorem appendDefault_eq (F : Fmt) (o : Opt) (d note : Str) (h : o.DefaultNote F.f2 note) :
    appendDefault F o d = .ok (d ++ note) := by
  unfold appendDefault
  cases h with
  | none h1 => rw [if_pos (.inl h1)]; simp
  | flag h1 => rw [if_pos (.inr h1)]; simp
  | int n h0 h1 h2 h3 h4 =>
    rw [if_neg (by simp [h0, h1])]
    simp only [defaultInfo, h1, asInt_of_asInt64 h2 h3 h4, Out.ok_bind]
    rw [snprintf_fits (by have := showInt_length_le h3 h4; simp; omega)]
    rfl
  | string t h0 h1 h2 h3 =>
    rw [if_neg (by simp [h0, h1])]
    simp only [defaultInfo, h1, h2, Word.asString, Out.ok_bind]
    rw [snprintf_fits (by simp; omega)]
    rfl
  | null h0 h1 h2 =>
    rw [if_neg (by simp [h0, h1])]
    simp only [defaultInfo, h1, h2, Word.null, Word.asString, if_true, Out.ok_bind]
    rfl
  | float x h0 h1 h2 h3 =>
    rw [if_neg (by simp [h0, h1])]
    simp only [defaultInfo, h1, h2, Out.ok_bind]
    rw [snprintf_fits (by simp; omega)]
    rfl
  | bool b h0 h1 h2 =>
    rw [if_neg (by simp [h0, h1])]
    simp only [defaultInfo, h1, h2, Out.ok_bind]
    cases b <;> rfl

theorem appendEnv_eq (envPrefix : Option Str) (o : Opt) (d : Str)
    (he : ∀ e, envVarName envPrefix o = some e → e.length ≤ 247) :
    appendEnv envPrefix o d = withVariable d (envVarName envPrefix o) := by
  unfold appendEnv withVariable
  rw [C45_same]
  cases hn : envVarName envPrefix o with
  | none => rfl
  | some e =>
    have := he e hn
    simp only [appendTo]
    split
    · rw [snprintf_fits (by simp; omega)]; simp
    · rw [snprintf_fits (by simp; omega)]; simp

/-- **C67** The description of an option is its help text, a note on each constraint in the order of declaration, the
    default, the variable that is read, and the marks: for texts that fit the buffers and without (experimental) beside
    two other marks. A single constraint in few words is left out here: it stands in the name (`C67_name_partial`). -/
theorem C67_description_partial (F : Fmt) (a : Argus) (o : Opt) (note : Str)
    (hv : ∀ vs, o.validators = some vs → ∀ v ∈ vs, v.Fits F.g2)
    (hd : o.DefaultNote F.f2 note)
    (he : ∀ e, envVarName a.envPrefix o = some e → e.length ≤ 247)
    (hm : (marks o.flags).length ≤ 31) :
    ((∃ w, o.WordsInName F a.helper w) → buildDescription F a o =
      .ok (withVariable (o.help.getD [] ++ note) (envVarName a.envPrefix o) ++ marks o.flags)) ∧
    ((∀ w, ¬ o.WordsInName F a.helper w) → buildDescription F a o =
      .ok (withVariable (o.help.getD [] ++ ((o.validators.getD []).map fun v => v.kind.note F.g2).flatten ++ note)
        (envVarName a.envPrefix o) ++ marks o.flags)) := by
  have hmk : ∀ d, appendFlags o d = d ++ marks o.flags := by
    intro d
    rw [C67_marks]
    rw [marks_length] at hm
    intro h
    obtain ⟨h1, h2⟩ := h
    rcases h2 with ⟨h2, h3⟩ | ⟨h2, h3⟩ | ⟨h2, h3⟩ <;> simp only [h1, h2, h3, if_true] at hm <;> omega
  have hv1 : ∀ v, o.validators = some [v] → v.Fits F.g2 := fun v h => hv _ h v (by simp)
  have key : ∀ d, appendValidators F a.helper o (o.help.getD []) = d →
      buildDescription F a o = .ok (withVariable (d ++ note) (envVarName a.envPrefix o) ++ marks o.flags) := by
    intro d h
    unfold buildDescription
    rw [h, appendDefault_eq F o d note hd, Out.ok_bind, appendEnv_eq _ _ _ he, hmk]
  constructor
  · rintro ⟨w, hw⟩
    apply key
    have h1 := (validatorHint_eq F a.helper o w hv1 hw.1).2 hw
    unfold appendValidators
    obtain ⟨v, hvs, _⟩ := hw.2.1
    rw [hvs]
    simp only [h1, Option.isSome_some, hw.1, and_self, if_true]
  · intro hn
    apply key
    unfold appendValidators
    cases hvs : o.validators with
    | none => simp
    | some vs =>
      simp only [Option.getD_some]
      rw [if_neg, appendValidators_fold F vs _ (hv vs hvs)]
      rintro ⟨h1, h2⟩
      obtain ⟨w, hw⟩ := Option.isSome_iff_exists.1 h1
      exact hn w ((validatorHint_eq F a.helper o w hv1 h2).1 hw)

/-! ## The name -/

theorem optTyped_eq (o : Opt) : o.typed =
    (if o.sname ≠ 0 then [45, o.sname] ++ (if o.lname.isSome then c!", " else []) else []) ++
    (match o.lname with
     | some l => c!"--" ++ l
     | none => []) := by
  unfold Opt.typed
  by_cases h : o.sname = 0
  · rw [h]
    cases o.lname <;> simp
  · cases hl : o.lname with
    | none =>
      split
      · exact absurd ‹_› h
      · exact absurd ‹_› h
      · simp [h]
      · simp_all
    | some l =>
      split
      · simp_all
      · exact absurd ‹_› h
      · simp_all
      · simp_all

theorem smartHint_eq (F : Fmt) (cfg : HelperConfig) (o : Opt) (h : Str)
    (hv : ∀ v, o.validators = some [v] → v.Fits F.g2) (hs : o.StandsFor F cfg h) : smartHint F cfg o = h := by
  unfold smartHint
  rcases hs with h1 | h1 | ⟨h1, h2, h3⟩
  · rw [h1]
  · rw [h1.1, (validatorHint_eq F cfg o h hv h1.1).2 h1]
  · rw [h1]
    cases hw : validatorHint F cfg o with
    | some w => exact absurd ((validatorHint_eq F cfg o w hv h1).1 hw) (h2 w)
    | none =>
      subst h3
      simp only
      cases o.valueType <;> rfl

/-- **C67** The first column shows the names of an option, and unless it is a flag what stands for its value. -/
theorem C67_name_partial (F : Fmt) (cfg : HelperConfig) (o : Opt) (h : Str)
    (hv : ∀ v, o.validators = some [v] → v.Fits F.g2) (hs : o.StandsFor F cfg h) (hl : h.length ≤ 55) :
    optionName F cfg o =
      if o.valueType = .flag then o.typed else o.typed ++ c!" <" ++ o.valueType.several h ++ c!">" := by
  have h0 : optionName F cfg o = o.typed ++ (if o.valueType ≠ .flag then
      match collectionHint o.valueType (smartHint F cfg o) with
      | some s => c!" <" ++ s ++ c!">"
      | none => c!" <" ++ smartHint F cfg o ++ c!">"
     else []) := by
    rw [optTyped_eq]; rfl
  rw [h0, smartHint_eq F cfg o h hv hs]
  by_cases hf : o.valueType = .flag
  · simp [hf]
  · rw [if_pos hf, if_neg hf]
    have hsp : ∀ x : Str, x.length < 64 → snprintf 64 x = x := fun x hx => snprintf_fits hx
    unfold collectionHint ValueType.several
    rw [hsp (h ++ c!"...") (by simp; omega), hsp (h ++ c!",...") (by simp; omega),
      hsp (c!"KEY=" ++ h ++ c!",...") (by simp; omega)]
    by_cases h1 : o.valueType.isVariadic = true
    · simp [h1]
    · by_cases h2 : o.valueType.isArray = true
      · simp [h1, h2]
      · by_cases h3 : o.valueType.isMap = true
        · simp [h1, h2, h3]
        · simp [h1, h2, h3]

theorem several_infix (t : ValueType) (h : Str) : h <:+: t.several h := by
  unfold ValueType.several
  split
  · exact ⟨[], c!"...", rfl⟩
  · split
    · exact ⟨[], c!",...", rfl⟩
    · split
      · exact ⟨c!"KEY=", c!",...", rfl⟩
      · exact ⟨[], [], by simp⟩

theorem note_infix (g2 : F64 → Str) (k : VKind) (w : Str) (h : k.words g2 = some w) :
    ∃ l r : Str, l ≠ [] ∧ r.length = 1 ∧ k.note g2 = l ++ w ++ r := by
  cases k with
  | custom => simp [VKind.words] at h
  | length mn mx =>
    simp only [VKind.words, Option.some.injEq] at h
    subst h
    exact ⟨c!" (", c!")", by decide, rfl, by simp [VKind.note]⟩
  | range mn mx => 
    simp only [VKind.words, Option.some.injEq] at h
    subst h
    exact ⟨c!" (range: ", c!")", by decide, rfl, rfl⟩
  | count mn mx => 
    simp only [VKind.words, Option.some.injEq] at h
    subst h
    exact ⟨c!" (count: ", c!")", by decide, rfl, rfl⟩
  | choiceStr cs => 
    simp only [VKind.words, Option.some.injEq] at h
    subst h
    exact ⟨c!" [", c!"]", by decide, rfl, rfl⟩
  | choiceInt cs => 
    simp only [VKind.words, Option.some.injEq] at h
    subst h
    exact ⟨c!" [", c!"]", by decide, rfl, rfl⟩
  | choiceFloat cs => 
    simp only [VKind.words, Option.some.injEq] at h
    subst h
    exact ⟨c!" [", c!"]", by decide, rfl, rfl⟩
  | regex p h => 
    simp only [VKind.words, Option.some.injEq] at h
    subst h
    exact ⟨c!" (pattern: ", c!")", by decide, rfl, rfl⟩

/-- What comes before the last byte survives the mention of a variable. -/
theorem withVariable_infix (w l r : Str) (e : Option Str) (hr : r ≠ []) : w <:+: withVariable (l ++ w ++ r) e := by
  unfold withVariable
  cases e with
  | none => exact ⟨l, r, rfl⟩
  | some e =>
    simp only
    split
    · refine ⟨l, r.dropLast ++ c!", env: " ++ e ++ c!")", ?_⟩
      rw [List.dropLast_append_of_ne_nil hr]
      simp
    · exact ⟨l, r ++ c!" (env: " ++ e ++ c!")", by simp⟩

/-- **C67** Every constraint of an option that takes a value can be read in its entry of the help, be it in the first
    column or in the description, whatever else was declared. -/
theorem C67_constraint_shown_partial (F : Fmt) (a : Argus) (o : Opt) (note w : Str) (vs : List Validator)
    (v : Validator) (hf : o.valueType ≠ .flag) (hvs : o.validators = some vs) (hv : ∀ v ∈ vs, v.Fits F.g2)
    (hd : o.DefaultNote F.f2 note)
    (he : ∀ e, envVarName a.envPrefix o = some e → e.length ≤ 247)
    (hm : (marks o.flags).length ≤ 31) (hmem : v ∈ vs) (hw : v.kind.words F.g2 = some w)
    (hl : o.WordsInName F a.helper w → w.length ≤ 55) :
    w <:+: optionName F a.helper o ∨ ∃ d, buildDescription F a o = .ok d ∧ w <:+: d := by
  have hv' : ∀ vs, o.validators = some vs → ∀ v ∈ vs, v.Fits F.g2 := by
    intro vs' h'
    rw [hvs, Option.some.injEq] at h'
    subst h'; exact hv
  have hwords : v.words F = some w := by
    unfold Validator.words
    split
    · rename_i id hk
      rw [hk] at hw
      simp [VKind.words] at hw
    · exact hw
  have hdesc := C67_description_partial F a o note hv' hd he hm
  by_cases hin : ∃ w', o.WordsInName F a.helper w'
  · left
    obtain ⟨w', hw'⟩ := hin
    obtain ⟨v', hv1, hv2⟩ := hw'.2.1
    have hvv : v' = v := by
      rw [hvs, Option.some.injEq] at hv1
      subst hv1
      simp only [List.mem_singleton] at hmem
      exact hmem.symm
    have hww : w' = w := by
      rw [hvv, hwords, Option.some.injEq] at hv2
      exact hv2.symm
    rw [hww] at hw'
    rw [C67_name_partial F a.helper o w (fun v h => hv' _ h v (by simp)) (.inr (.inl hw')) (hl hw'), if_neg hf]
    obtain ⟨l, r, h⟩ := several_infix o.valueType w
    exact ⟨o.typed ++ c!" <" ++ l, r ++ c!">", by rw [← h]; simp⟩
  · right
    have h2 := hdesc.2 (fun w' h => hin ⟨w', h⟩)
    refine ⟨_, h2, ?_⟩
    obtain ⟨l, r, _, hr1, hnote⟩ := note_infix F.g2 v.kind w hw
    obtain ⟨pre, post, hpp⟩ := List.append_of_mem hmem
    rw [hvs]
    simp only [Option.getD_some]
    subst hpp
    have heq : o.help.getD [] ++ ((pre ++ v :: post).map fun v => v.kind.note F.g2).flatten ++ note =
        (o.help.getD [] ++ (pre.map fun v => v.kind.note F.g2).flatten ++ l) ++ w ++
          (r ++ (post.map fun v => v.kind.note F.g2).flatten ++ note) := by
      simp [hnote]
    rw [heq]
    have := withVariable_infix w (o.help.getD [] ++ (pre.map fun v => v.kind.note F.g2).flatten ++ l)
      (r ++ (post.map fun v => v.kind.note F.g2).flatten ++ note) (envVarName a.envPrefix o) (by
        intro h; simp at h; simp [h.1] at hr1)
    exact this.trans (List.prefix_append _ _).isInfix

namespace Sample

/-- `OPTION_INT('p', "port", HELP("Port"), VALIDATOR(V_RANGE(1, 65535), V_CHOICE_INT(80, 443)), DEFAULT(80),
    ENV_VAR("PORT"), FLAGS(FLAG_DEPRECATED))`. -/
def described : Opt :=
  { (optInt 112 (some c!"port")).withDefault (.bits 80) with
    help := some c!"Port", validators := some [vRange 1 65535, vChoiceInt [80, 443]], envName := some c!"PORT"
    flags := Flags.ofList [.deprecated] }

/-- `OPTION_ARRAY_STRING('m', "mode", HELP("Modes"), VALIDATOR(V_CHOICE_STR("fast", "slow")))`. -/
def hinted : Opt :=
  { optArrayString 109 (some c!"mode") with
    help := some c!"Modes", validators := some [vChoiceStr [c!"fast", c!"slow"]] }

end Sample

/-- Two constraints, a default, a variable and a mark. -/
example : (∀ vs, Sample.described.validators = some vs → ∀ v ∈ vs, v.Fits Sample.fmt.g2) ∧
    Sample.described.DefaultNote Sample.fmt.f2 c!" (default: 80)" ∧
    (∀ e, envVarName (some c!"APP") Sample.described = some e → e.length ≤ 247) ∧
    (marks Sample.described.flags).length ≤ 31 ∧
    (∀ w, ¬ Sample.described.WordsInName Sample.fmt Sample.prog.helper w) ∧
    buildDescription Sample.fmt { Sample.prog with envPrefix := some c!"APP" } Sample.described =
      .ok c!"Port (range: 1-65535) [80|443] (default: 80, env: APP_PORT) (deprecated)" ∧
    optionName Sample.fmt Sample.prog.helper Sample.described = c!"-p, --port <NUM>" := by
  refine ⟨?_, ?_, ?_, by decide +kernel, ?_, by decide +kernel, by decide +kernel⟩
  · intro vs h v hv
    have : vs = [vRange 1 65535, vChoiceInt [80, 443]] := by
      simpa [Sample.described] using h.symm
    subst this
    simp only [List.mem_cons, List.not_mem_nil, or_false] at hv
    rcases hv with rfl | rfl
    · exact ⟨by show (interval 1 65535).length ≤ 31; decide +kernel, fun _ => rfl⟩
    · refine ⟨⟨by decide +kernel, ?_⟩, fun _ => rfl⟩
      intro n hn
      simp only [List.mem_cons, List.not_mem_nil, or_false] at hn
      rcases hn with rfl | rfl <;> decide
  · exact .int 80 rfl rfl (by decide) (by decide) (by decide)
  · intro e he
    have : envVarName (some c!"APP") Sample.described = some c!"APP_PORT" := by decide +kernel
    rw [this, Option.some.injEq] at he
    subst he; decide
  · rintro w ⟨_, ⟨v, hv, _⟩, _⟩
    simp [Sample.described] at hv

/-- A single constraint in few words. -/
example : Sample.hinted.WordsInName Sample.fmt Sample.prog.helper c!"fast|slow" ∧
    Sample.hinted.StandsFor Sample.fmt Sample.prog.helper c!"fast|slow" ∧
    optionName Sample.fmt Sample.prog.helper Sample.hinted = c!"-m, --mode <fast|slow,...>" ∧
    buildDescription Sample.fmt Sample.prog Sample.hinted = .ok c!"Modes" := by
  have h : Sample.hinted.WordsInName Sample.fmt Sample.prog.helper c!"fast|slow" :=
    ⟨rfl, ⟨_, rfl, by decide +kernel⟩, by decide +kernel, by decide +kernel⟩
  exact ⟨h, .inr (.inl h), by decide +kernel, by decide +kernel⟩

/-! ## What is missing -/

/-- **C67** fails for positionals: the only constraint of a positional is in no column of the help if its words are
    short, the entry is the same as without a constraint. -/
theorem C67_positional_hidden (F : Fmt) (a : Argus) (o : Opt) (v : Validator) (w : Str)
    (hv : o.validators = some [v]) (hf : v.Fits F.g2) (hw : o.WordsInName F a.helper w) :
    printPositional F a o = printPositional F a { o with validators := none } := by
  have hh := (validatorHint_eq F a.helper o w (fun v' h => by
    rw [hv, Option.some.injEq, List.cons.injEq] at h
    exact h.1 ▸ hf) hw.1).2 hw
  have h1 : appendValidators F a.helper o (o.help.getD []) = o.help.getD [] := by
    unfold appendValidators
    rw [hv]
    simp only [hh, Option.isSome_some, hw.1, and_self, if_true]
  have h2 : buildDescription F a o = buildDescription F a { o with validators := none } := by
    unfold buildDescription
    rw [h1]
    rfl
  unfold printPositional entryText optionDescription
  rw [h2]
  rfl

/-- Nobody can see that a count is limited to 5: the entries for V_RANGE(1,5) and V_RANGE(1,9) are the same. -/
theorem C67_positional_witness : ∃ (o o' : Opt), o.type = .positional ∧ o' = { o with validators := some [vRange 1 9] } ∧
    o.validators = some [vRange 1 5] ∧
    (∃ w, o.WordsInName Sample.fmt Sample.prog.helper w) ∧
    printPositional Sample.fmt Sample.prog o = printPositional Sample.fmt Sample.prog o' ∧
    printPositional Sample.fmt Sample.prog o =
      .ok (some (c!"  <count>" ++ spaces 23 ++ c!"- How often (required)\n")) := by
  refine ⟨{ posInt c!"count" with validators := some [vRange 1 5], help := some c!"How often" },
    { posInt c!"count" with validators := some [vRange 1 9], help := some c!"How often" }, rfl, rfl, rfl,
    ⟨c!"1-5", rfl, ⟨_, rfl, by decide +kernel⟩, by decide +kernel, by decide +kernel⟩, ?_⟩
  decide +kernel

/-- **C67** fails for a default beyond 32 bits: 5000000000 is what `argus_get` returns, 705032704 is shown. -/
theorem C67_default_truncated : ∃ o : Opt, o.valueType = .int ∧ o.haveDefault = true ∧
    o.defaultValue.asInt64 = .ok 5000000000 ∧ o.value = .word o.defaultValue ∧
    buildDescription Sample.fmt Sample.prog o = .ok c!" (default: 705032704)" := by
  refine ⟨(optInt 110 (some c!"num")).withDefault (.bits 5000000000), ?_⟩
  decide +kernel

/-- **C67** fails for the default of a collection: nothing is shown between the parentheses. -/
theorem C67_default_empty (F : Fmt) (o : Opt) (d : Str) (h : o.haveDefault = true)
    (ht : o.valueType.isArray = true ∨ o.valueType.isMap = true ∨ o.valueType.isVariadic = true) :
    appendDefault F o d = .ok (d ++ c!" (default: )") := by
  unfold appendDefault
  have : o.valueType ≠ .flag := by
    intro h; rw [h] at ht; simp [ValueType.isArray, ValueType.isMap, ValueType.isVariadic] at ht
  rw [if_neg (by simp [h, this])]
  unfold defaultInfo
  cases hv : o.valueType <;> rw [hv] at ht <;> simp [ValueType.isArray, ValueType.isMap, ValueType.isVariadic] at ht <;> rfl

example : ((optArrayInt 110 (some c!"nums")).withDefault (.ptr c!"1,2,3")).haveDefault = true ∧
    ((optArrayInt 110 (some c!"nums")).withDefault (.ptr c!"1,2,3")).valueType.isArray = true := by decide

/-- **C67** fails for a default of 116 bytes: the end is missing, with the quote and the parenthesis. -/
theorem C67_default_cut : ∃ o : Opt, o.valueType = .string ∧ o.haveDefault = true ∧
    o.defaultValue = .ptr (List.replicate 116 65) ∧
    buildDescription Sample.fmt Sample.prog o = .ok (c!" (default: \"" ++ List.replicate 115 65) := by
  refine ⟨(optString 110 (some c!"name")).withDefault (.ptr (List.replicate 116 65)), ?_⟩
  decide +kernel

end Argus
