import Verif.Lemmas.BlameEnv
import Verif.Props.Choices
import Verif.Lemmas.Validate

/-! The messages of the checks after parsing are true. -/

set_option autoImplicit false

namespace Argus

theorem not_any_mem {α : Type} [DecidableEq α] {cs : List α} {x : α} (h : ¬ cs.any (fun c => x == c) = true) : x ∉ cs := by
  intro hx; exact h (List.any_eq_true.2 ⟨x, hx, by simp⟩)

theorem asString_null {o : Opt} (h : o.asString = .ok none) : o.value = .word .null := by
  unfold Opt.asString at h
  split at h
  · rename_i w hw
    cases w with
    | bits b =>
      simp only [Word.asString] at h
      split at h
      · rename_i h0; rw [hw, h0]; rfl
      · cases h
    | _ => simp [Word.asString] at h
  · cases h

theorem runPost_explained {W : World} {M : Wording} {k : VKind} {o : Opt} {r : VRes} (hb : ∀ id, k ≠ .custom id)
    (h : runPost W k o = .ok r) : Explained (ValueFault M o k) r.1 (postMessages W M k o) := by
  cases k with
  | custom id => exact absurd rfl (hb id)
  | regex p hint => simp [runPost] at h
  | range mn mx =>
    simp only [runPost, rangeValidator] at h
    simp only [postMessages, rangeMessages]
    split at h
    · rename_i hc; rw [if_pos hc]
      simp only [Out.ok.injEq] at h; subst h
      exact .one (by decide) (by decide) (.emptyRange mn mx _ (.inl rfl) hc)
    · rename_i hc; rw [if_neg hc]
      obtain ⟨v, hv, h1⟩ := Out.bind_eq_ok h
      rw [hv, Out.ok_bind]
      split at h1
      · rename_i hc; rw [if_pos hc]
        simp only [Out.ok.injEq] at h1; subst h1
        exact .one (by decide) (by decide) (.range mn mx v (asInt_iff.1 hv) hc)
      · rename_i hc; rw [if_neg hc]
        simp only [Out.ok.injEq] at h1; subst h1; exact .nil
  | length mn mx =>
    simp only [runPost, lengthValidator] at h
    simp only [postMessages, lengthMessages]
    obtain ⟨v, hv, h1⟩ := Out.bind_eq_ok h
    rw [hv, Out.ok_bind]
    cases v with
    | none =>
      simp only [Out.ok.injEq] at h1; subst h1
      exact .one (by decide) (by decide) (.noString mn mx (asString_null hv))
    | some s =>
      simp only at h1 ⊢
      split at h1
      · rename_i hc; rw [if_pos hc]
        simp only [Out.ok.injEq] at h1; subst h1
        exact .one (by decide) (by decide) (.negativeRange mn mx _ (.inl rfl) hc)
      · rename_i hc; rw [if_neg hc]
        split at h1
        · rename_i hc; rw [if_pos hc]
          simp only [Out.ok.injEq] at h1; subst h1
          exact .one (by decide) (by decide) (.emptyRange mn mx _ (.inr (.inl rfl)) hc)
        · rename_i hc; rw [if_neg hc]
          split at h1
          · rename_i hc; rw [if_pos hc]
            simp only [Out.ok.injEq] at h1; subst h1
            exact .one (by decide) (by decide) (.length mn mx s (asString_iff.1 hv) hc)
          · rename_i hc; rw [if_neg hc]
            simp only [Out.ok.injEq] at h1; subst h1; exact .nil
  | count mn mx =>
    simp only [runPost, countValidator, Out.ok.injEq] at h
    simp only [postMessages, countMessages]
    subst h
    split
    · rename_i hc
      exact .one (by decide) (by decide) (.negativeRange mn mx _ (.inr rfl) hc)
    · split
      · rename_i hc
        exact .one (by decide) (by decide) (.emptyRange mn mx _ (.inr (.inr rfl)) hc)
      · split
        · rename_i hc
          exact .one (by decide) (by decide) (.count mn mx hc)
        · exact .nil
  | choiceStr cs =>
    simp only [runPost, choicesString] at h
    simp only [postMessages, choiceMessages]
    obtain ⟨v, hv, h1⟩ := Out.bind_eq_ok h
    rw [hv, Out.ok_bind]
    cases v with
    | none => cases h1
    | some s =>
      simp only at h1 ⊢
      split at h1
      · rename_i hc; rw [if_pos hc]
        simp only [Out.ok.injEq] at h1; subst h1; exact .nil
      · rename_i hc; rw [if_neg hc]
        simp only [Out.ok.injEq] at h1; subst h1
        have hm : s ∉ cs := by
          intro hx; exact hc (List.any_eq_true.2 ⟨s, hx, by simp [strcmp_self]⟩)
        have hl := choices_map id List.length cs (fun _ _ => Nat.le_refl _)
        simp only [List.map_id_fun, id_eq] at hl
        have := ValueFault.choiceStr (M := M) cs s (asString_iff.1 hv) hm
        refine .one (by decide) (by decide) ?_
        simpa [formatter, hl, quoted, VRes.fail] using this
  | choiceInt cs =>
    simp only [runPost, choicesInt] at h
    simp only [postMessages, choiceMessages]
    obtain ⟨v, hv, h1⟩ := Out.bind_eq_ok h
    rw [hv, Out.ok_bind]
    split at h1
    · rename_i hc; rw [if_pos hc]
      simp only [Out.ok.injEq] at h1; subst h1; exact .nil
    · rename_i hc; rw [if_neg hc]
      simp only [Out.ok.injEq] at h1; subst h1
      have hl : (∀ c ∈ cs, -2 ^ 63 ≤ c ∧ c < 2 ^ 63) →
          choicesJoin (choicesSize (cs.map fun _ => 20)) [] (cs.map fun n => snprintf 32 (showInt n)) = bars (cs.map showInt) := by
        intro hb
        have ht : ∀ c ∈ cs, (showInt c).length ≤ 20 := fun c hc =>
          (showInt_text (by have := (hb c hc).1; unfold llongMin; omega) (by have := (hb c hc).2; unfold llongMax; omega)).2
        have e : cs.map (fun n => snprintf 32 (showInt n)) = cs.map showInt :=
          List.map_congr_left (fun c hc => snprintf_fits (by have := ht c hc; omega))
        rw [e]; exact choices_map showInt _ cs ht
      have := ValueFault.choiceInt (M := M) cs v _ (asInt_iff.1 hv) (not_any_mem hc) hl
      refine .one (by decide) (by decide) ?_
      simpa [formatter, quoted, VRes.fail] using this
  | choiceFloat cs =>
    simp only [runPost, choicesFloat] at h
    simp only [postMessages, choiceMessages]
    obtain ⟨v, hv, h1⟩ := Out.bind_eq_ok h
    rw [hv, Out.ok_bind]
    split at h1
    · rename_i hc; rw [if_pos hc]
      simp only [Out.ok.injEq] at h1; subst h1; exact .nil
    · rename_i hc; rw [if_neg hc]
      simp only [Out.ok.injEq] at h1; subst h1
      have hl : (∀ c ∈ cs, (M.g2 c).length ≤ 20) →
          choicesJoin (choicesSize (cs.map fun _ => 20)) [] (cs.map fun n => snprintf 32 (M.g2 n)) = bars (cs.map M.g2) := by
        intro ht
        have e : cs.map (fun n => snprintf 32 (M.g2 n)) = cs.map M.g2 :=
          List.map_congr_left (fun c hc => snprintf_fits (by have := ht c hc; omega))
        rw [e]; exact choices_map M.g2 _ cs ht
      have hm : ∀ c ∈ cs, F64.eq v c = false := by
        intro c hx
        cases he : F64.eq v c with
        | false => rfl
        | true => exact absurd (List.any_eq_true.2 ⟨c, hx, he⟩) hc
      have := ValueFault.choiceFloat (M := M) cs v _ (asFloat_iff.1 hv) hm hl
      refine .one (by decide) (by decide) ?_
      simpa [formatter, quoted, VRes.fail] using this

theorem validators_explained {W : World} {M : Wording} {o : Opt} : ∀ (vs : List Validator) {r : Int × List Int},
    (∀ v ∈ vs, ∀ id, v.kind ≠ .custom id) → callValidators W o vs = .ok r →
    Explained (fun m => ∃ v ∈ vs, v.order = .post ∧ ValueFault M o v.kind m) r.1 (validatorMessages W M o vs)
  | [], r, _, h => by simp only [callValidators, Out.ok.injEq] at h; subst h; exact .nil
  | v :: vs, r, hb, h => by
    have ih := fun {q : Int × List Int} (h : callValidators W o vs = .ok q) =>
      (validators_explained (M := M) vs (fun x hx => hb x (by simp [hx])) h).imp
        (Q := fun m => ∃ x ∈ v :: vs, x.order = .post ∧ ValueFault M o x.kind m)
        (fun m ⟨x, hx, hm⟩ => ⟨x, List.mem_cons_of_mem _ hx, hm⟩)
    unfold callValidators at h
    unfold validatorMessages
    by_cases hv : v.order = .post
    · rw [if_pos hv] at h ⊢
      obtain ⟨q, hq, h1⟩ := Out.bind_eq_ok h
      have hp : Explained (fun m => ∃ x ∈ v :: vs, x.order = .post ∧ ValueFault M o x.kind m) q.1
          (postMessages W M v.kind o) :=
        (runPost_explained (hb v (by simp)) hq).imp (fun m hm => ⟨v, by simp, hv, hm⟩)
      rw [hq, Out.ok_bind]
      by_cases hc : q.1 ≠ Err.success
      · rw [if_pos hc] at h1
        simp only [if_pos hc]
        simp only [Out.ok.injEq] at h1; subst h1
        exact hp.ret
      · rw [if_neg hc] at h1
        simp only [if_neg hc]
        obtain ⟨r2, h2, h3⟩ := Out.bind_eq_ok h1
        simp only [Out.ok.injEq] at h3; subst h3
        have hc : q.1 = Err.success := by simpa using hc
        rw [hc] at hp
        have := ih h2
        exact hp.after this
    · rw [if_neg hv] at h ⊢; exact ih h

theorem required_explained {os : List Opt} {o : Opt} : ∀ (ns : List Str),
    Explained (fun m => ∃ n n' r, o.name = some n ∧ n' ∈ ns ∧ Refers os n' r ∧ r.isSet = false ∧
      m = (Err.missingRequired, c!"Required option is missing: '" ++ n' ++ c!"' with option '" ++ n ++ c!"'"))
      (validateRequired os ns).1 (requiredMessages os o ns)
  | [] => .nil
  | n :: ns => by
    have ih := (required_explained (os := os) (o := o) ns).imp
      (Q := fun m => ∃ x n' r, o.name = some x ∧ n' ∈ n :: ns ∧ Refers os n' r ∧ r.isSet = false ∧
      m = (Err.missingRequired, c!"Required option is missing: '" ++ n' ++ c!"' with option '" ++ x ++ c!"'"))
      (fun m ⟨x, n', r, h1, h2, h3⟩ => ⟨x, n', r, h1, List.mem_cons_of_mem _ h2, h3⟩)
    unfold validateRequired requiredMessages
    cases hf : (findName os n).bind (fun i => os[i]?) with
    | none => exact ih
    | some r =>
      simp only
      by_cases hs : r.isSet = true
      · rw [if_pos hs, if_pos hs]; exact ih
      · rw [if_neg hs, if_neg hs]
        refine .named (st := Err.missingRequired)
          (f := fun x => c!"Required option is missing: " ++ quoted n ++ c!" with option " ++ quoted x) (by decide) (by decide) ?_
        intro x hx
        refine ⟨x, n, r, hx, by simp, findName_refers.1 hf, by simpa using hs, ?_⟩
        simp [quoted]

theorem conflicts_explained {os : List Opt} {o : Opt} : ∀ (ns : List Str),
    Explained (fun m => ∃ n n' r, o.name = some n ∧ n' ∈ ns ∧ Refers os n' r ∧ r.isSet = true ∧
      m = (Err.conflictingOptions, c!"Conflict between '" ++ n ++ c!"' and '" ++ n' ++ c!"'"))
      (validateConflicts os ns).1 (conflictMessages os o ns)
  | [] => .nil
  | n :: ns => by
    have ih := (conflicts_explained (os := os) (o := o) ns).imp
      (Q := fun m => ∃ x n' r, o.name = some x ∧ n' ∈ n :: ns ∧ Refers os n' r ∧ r.isSet = true ∧
      m = (Err.conflictingOptions, c!"Conflict between '" ++ x ++ c!"' and '" ++ n' ++ c!"'"))
      (fun m ⟨x, n', r, h1, h2, h3⟩ => ⟨x, n', r, h1, List.mem_cons_of_mem _ h2, h3⟩)
    unfold validateConflicts conflictMessages
    cases hf : (findName os n).bind (fun i => os[i]?) with
    | none => exact ih
    | some r =>
      simp only
      by_cases hs : r.isSet = true
      · rw [if_pos hs, if_pos hs, findName_named hf]
        refine .named (st := Err.conflictingOptions)
          (f := fun x => c!"Conflict between " ++ quoted x ++ c!" and " ++ quoted n) (by decide) (by decide) ?_
        intro x hx
        refine ⟨x, n, r, hx, by simp, findName_refers.1 hf, hs, ?_⟩
        simp [quoted]
      · rw [if_neg hs, if_neg hs]; exact ih

/-- What the loop of `validate_options_set` knows after the entries `seen`. -/
def GroupKnown (seen : List Opt) (group : Option Str) (excl : Bool) (first : Option Str) : Prop :=
  excl = true → ∃ pre g mid, seen = pre ++ g :: mid ∧ g.type = .group ∧ g.flags.has .exclusive = true ∧ g.name = group ∧
    (∀ o ∈ mid, o.type ≠ .group) ∧
    ∀ n, first = some n → ∃ mid1 o1 mid2, mid = mid1 ++ o1 :: mid2 ∧ o1.isSet = true ∧ o1.name = some n

theorem GroupKnown.step {seen : List Opt} {group : Option Str} {excl : Bool} {first : Option Str} {o : Opt}
    (h : GroupKnown seen group excl first) (ht : o.type ≠ .group) : GroupKnown (seen ++ [o]) group excl first := by
  intro he
  obtain ⟨pre, g, mid, h1, h2, h3, h4, h5, h6⟩ := h he
  refine ⟨pre, g, mid ++ [o], by rw [h1]; simp, h2, h3, h4, ?_, ?_⟩
  · intro x hx
    rcases List.mem_append.1 hx with hx | hx
    · exact h5 x hx
    · simp only [List.mem_singleton] at hx; subst hx; exact ht
  · intro n hn
    obtain ⟨mid1, o1, mid2, g1, g2⟩ := h6 n hn
    exact ⟨mid1, o1, mid2 ++ [o], by rw [g1]; simp, g2⟩

theorem GroupKnown.set {seen : List Opt} {group : Option Str} {excl : Bool} {first : Option Str} {o : Opt}
    (h : GroupKnown seen group excl first) (ht : o.type ≠ .group) (hs : o.isSet = true) :
    GroupKnown (seen ++ [o]) group excl (if excl then o.name else first) := by
  intro he
  obtain ⟨pre, g, mid, h1, h2, h3, h4, h5, h6⟩ := h he
  refine ⟨pre, g, mid ++ [o], by rw [h1]; simp, h2, h3, h4, ?_, ?_⟩
  · intro x hx
    rcases List.mem_append.1 hx with hx | hx
    · exact h5 x hx
    · simp only [List.mem_singleton] at hx; subst hx; exact ht
  · intro n hn
    rw [he] at hn
    exact ⟨mid, o, [], rfl, hs, by simpa using hn⟩

theorem set_explained {W : World} {M : Wording} {os : List Opt} : ∀ (rest seen : List Opt) {group : Option Str}
    {excl : Bool} {first : Option Str} {r : Int × List Int}, os = seen ++ rest → (∀ o ∈ os, o.BuiltIn) →
    GroupKnown seen group excl first →
    validateSet W os excl first rest = .ok r → Explained (TableFault M os) r.1 (setMessages W M os group excl first rest)
  | [], _, group, excl, first, r, _, _, _, h => by simp only [validateSet, Out.ok.injEq] at h; subst h; exact .nil
  | o :: rest, seen, group, excl, first, r, hos, hb, hk, h => by
    have hos' : os = (seen ++ [o]) ++ rest := by rw [hos]; simp
    have hmem : o ∈ os := by rw [hos]; simp
    unfold validateSet at h
    unfold setMessages
    by_cases ht : o.type = .group
    · rw [if_pos ht] at h ⊢
      refine set_explained rest (seen ++ [o]) hos' hb (fun he => ?_) h
      exact ⟨seen, o, [], rfl, ht, he, rfl, by simp, by simp⟩
    · rw [if_neg ht] at h ⊢
      by_cases hr : o.type = .positional ∧ o.flags.has .required ∧ o.isSet = false
      · rw [if_pos hr] at h ⊢
        simp only [Out.ok.injEq] at h; subst h
        refine .named (st := Err.missingRequired)
          (f := fun n => c!"Required positional argument missing: " ++ quoted n) (by decide) (by decide) ?_
        intro n hn
        have := TableFault.positional (M := M) o n hmem hr.1 hr.2.1 hr.2.2 hn
        simpa [quoted] using this
      · rw [if_neg hr] at h ⊢
        by_cases hs : o.isSet = true
        · rw [if_pos hs] at h ⊢
          by_cases he : excl = true ∧ first.isSome = true
          · rw [if_pos he] at h ⊢
            simp only [Out.ok.injEq] at h; subst h
            obtain ⟨pre, g, mid, h1, h2, h3, h4, h5, h6⟩ := hk he.1
            cases first with
            | none => simp at he
            | some f =>
              obtain ⟨mid1, o1, mid2, g1, g2, g3⟩ := h6 f rfl
              cases group with
              | none => intro m hm; simp [nameText] at hm
              | some gn =>
                simp only [nameText, Out.ok_bind]
                refine .named (st := Err.exclusiveGroup)
                  (f := fun n => c!"Exclusive options group " ++ quoted gn ++ c!" conflict: " ++ quoted f ++ c!" and " ++
                    quoted n) (by decide) (by decide) ?_
                intro n hn
                have := TableFault.exclusive (M := M) (os := os) g o1 o pre mid1 mid2 rest gn f n
                  (by rw [hos, h1, g1]; simp) h2 h3 (by
                    intro x hx
                    rw [g1] at h5
                    simp only [List.mem_append, List.mem_cons, List.not_mem_nil, or_false] at hx h5
                    rcases hx with hx | rfl | hx | rfl
                    · exact h5 x (.inl hx)
                    · exact h5 x (.inr (.inl rfl))
                    · exact h5 x (.inr (.inr hx))
                    · exact ht) g2 hs h4 g3 hn
                simpa [quoted] using this
          · rw [if_neg he] at h ⊢
            obtain ⟨q, hq, h1⟩ := Out.bind_eq_ok h
            have hw : Explained (TableFault M os) q.1 (validatorMessages W M o (o.validators.getD [])) :=
              (validators_explained _ (hb o hmem).validators hq).imp
                (fun m ⟨v, g1, g2, g3⟩ => .value o v m hmem hs g1 g2 g3)
            rw [hq, Out.ok_bind]
            by_cases hc : q.1 ≠ Err.success
            · rw [if_pos hc] at h1
              simp only [if_pos hc]
              simp only [Out.ok.injEq] at h1; subst h1
              exact hw.ret
            · rw [if_neg hc] at h1
              simp only [if_neg hc]
              have hw2 : Explained (TableFault M os) _ (requiredMessages os o (o.require.getD [])) :=
                (required_explained (os := os) (o := o) (o.require.getD [])).imp
                (fun m ⟨n, n', r, g1, g2, g3, g4, g5⟩ => by rw [g5]; exact .requirement o r n n' hmem hs g1 g2 g3 g4)
              have hw3 : Explained (TableFault M os) _ (conflictMessages os o (o.conflict.getD [])) :=
                (conflicts_explained (os := os) (o := o) (o.conflict.getD [])).imp
                (fun m ⟨n, n', r, g1, g2, g3, g4, g5⟩ => by rw [g5]; exact .conflict o r n n' hmem hs g1 g2 g3 g4)
              have hc : q.1 = Err.success := by simpa using hc
              rw [hc] at hw
              simp only at h1
              by_cases hq2 : (validateRequired os (o.require.getD [])).1 ≠ Err.success
              · rw [if_pos hq2] at h1
                simp only [if_pos hq2]
                simp only [Out.ok.injEq] at h1; subst h1
                exact hw.after hw2
              · rw [if_neg hq2] at h1
                simp only [if_neg hq2]
                have hq2 := Decidable.not_not.1 hq2
                rw [hq2] at hw2
                by_cases hq3 : (validateConflicts os (o.conflict.getD [])).1 ≠ Err.success
                · rw [if_pos hq3] at h1
                  simp only [if_pos hq3]
                  simp only [Out.ok.injEq] at h1; subst h1
                  intro m hm
                  obtain ⟨m1, g1, hm⟩ := Out.bind_eq_ok hm
                  obtain ⟨m2, g2, hm⟩ := Out.bind_eq_ok hm
                  obtain ⟨m3, g3, hm⟩ := Out.bind_eq_ok hm
                  simp only [Out.ok.injEq] at hm; subst hm
                  rw [hw.silent g1, hw2.silent g2]
                  exact hw3 m3 g3
                · rw [if_neg hq3] at h1
                  simp only [if_neg hq3]
                  have hq3 := Decidable.not_not.1 hq3
                  rw [hq3] at hw3
                  obtain ⟨r2, h2, h3⟩ := Out.bind_eq_ok h1
                  simp only [Out.ok.injEq] at h3; subst h3
                  have hw4 := set_explained (M := M) rest (seen ++ [o]) hos' hb (hk.set ht hs) h2
                  intro m hm
                  obtain ⟨m1, g1, hm⟩ := Out.bind_eq_ok hm
                  obtain ⟨m2, g2, hm⟩ := Out.bind_eq_ok hm
                  obtain ⟨m3, g3, hm⟩ := Out.bind_eq_ok hm
                  obtain ⟨m4, g4, hm⟩ := Out.bind_eq_ok hm
                  simp only [Out.ok.injEq] at hm; subst hm
                  rw [hw.silent g1, hw2.silent g2, hw3.silent g3]
                  exact hw4 m4 g4
        · rw [if_neg hs] at h ⊢
          exact set_explained rest (seen ++ [o]) hos' hb (hk.step ht) h

theorem validateTable_explained {W : World} {M : Wording} {a : Argus} {t : Option Nat} {r : Int × Argus}
    (hb : Everywhere Opt.BuiltIn a) (h : validateTable W a t = .ok r) :
    Explained (fun m => ∃ k os, t = some k ∧ a.table (some k) = .ok os ∧ TableFault M os m) r.1 (tableMessages W M a t) := by
  unfold validateTable at h
  unfold tableMessages
  obtain ⟨os, hos, h1⟩ := Out.bind_eq_ok h
  obtain ⟨q, hq, h2⟩ := Out.bind_eq_ok h1
  simp only [Out.ok.injEq] at h2; subst h2
  rw [hos, Out.ok_bind]
  obtain ⟨k, rfl, hk⟩ := table_eq_ok.1 hos
  refine (set_explained os [] rfl (fun o ho => ?_) (fun h => by cases h) hq).imp (fun m hm => ⟨k, os, rfl, hos, hm⟩)
  obtain ⟨i, hi, rfl⟩ := List.getElem_of_mem ho
  exact hb.builtIn (p := ⟨k, i⟩) (getOpt_eq_ok.2 ⟨os, hk, by simp⟩)

theorem validateStack_explained {W : World} {M : Wording} : ∀ (ps : List Ptr) {a : Argus} {r : Int × Argus},
    Everywhere Opt.BuiltIn a → validateStack W a ps = .ok r →
    Explained (fun m => ∃ p ∈ ps, ∃ cmd k os, a.getOpt p = .ok cmd ∧ cmd.subOptions = some k ∧
      a.table (some k) = .ok os ∧ TableFault M os m) r.1 (stackMessages W M a ps)
  | [], a, r, _, h => by simp only [validateStack, Out.ok.injEq] at h; subst h; exact .nil
  | p :: ps, a, r, hb, h => by
    unfold validateStack at h
    unfold stackMessages
    obtain ⟨cmd, hcmd, h1⟩ := Out.bind_eq_ok h
    obtain ⟨q, hq, h2⟩ := Out.bind_eq_ok h1
    have hp : Explained (fun m => ∃ p' ∈ p :: ps, ∃ cmd k os, a.getOpt p' = .ok cmd ∧ cmd.subOptions = some k ∧
        a.table (some k) = .ok os ∧ TableFault M os m) q.1 (tableMessages W M a cmd.subOptions) :=
      (validateTable_explained hb hq).imp
        (fun m ⟨k, os, g1, g2, g3⟩ => ⟨p, by simp, cmd, k, os, hcmd, g1, g2, g3⟩)
    rw [hcmd, Out.ok_bind, hq, Out.ok_bind]
    by_cases hc : q.1 ≠ Err.success
    · rw [if_pos hc] at h2
      simp only [if_pos hc]
      simp only [Out.ok.injEq] at h2; subst h2
      exact hp.ret
    · rw [if_neg hc] at h2
      simp only [if_neg hc]
      have hc : q.1 = Err.success := by simpa using hc
      rw [hc] at hp
      obtain ⟨es, hes⟩ := validateTable_eq hq
      rw [hes] at h2 ⊢
      refine hp.after ((validateStack_explained ps (hb.emits es) h2).imp ?_)
      rintro m ⟨p', g0, cmd', k, os, g1, g2, g3, g4⟩
      refine ⟨p', List.mem_cons_of_mem _ g0, cmd', k, os, by simpa using g1, g2, ?_, g4⟩
      simpa using g3

theorem postValidation_explained {W : World} {M : Wording} {a : Argus} {r : Int × Argus}
    (hb : Everywhere Opt.BuiltIn a) (h : postValidation W a = .ok r) :
    Explained (fun m => ∃ k os, a.OnPath k ∧ a.table (some k) = .ok os ∧ TableFault M os m) r.1 (checkMessages W M a) := by
  unfold postValidation at h
  unfold checkMessages
  obtain ⟨q, hq, h2⟩ := Out.bind_eq_ok h
  have hp : Explained (fun m => ∃ k os, a.OnPath k ∧ a.table (some k) = .ok os ∧ TableFault M os m) q.1
      (tableMessages W M a (some a.root)) :=
    (validateTable_explained hb hq).imp (fun m ⟨k, os, g1, g2, g3⟩ =>
      ⟨k, os, .inl (by simpa using g1.symm), g2, g3⟩)
  rw [hq, Out.ok_bind]
  by_cases hc : q.1 ≠ Err.success
  · rw [if_pos hc] at h2
    simp only [if_pos hc]
    simp only [Out.ok.injEq] at h2; subst h2
    exact hp.ret
  · rw [if_neg hc] at h2
    simp only [if_neg hc]
    have hc : q.1 = Err.success := by simpa using hc
    rw [hc] at hp
    obtain ⟨es, hes⟩ := validateTable_eq hq
    rw [hes] at h2 ⊢
    refine hp.after ((validateStack_explained _ (hb.emits es) h2).imp ?_)
    rintro m ⟨p', g0, cmd', k, os, g1, g2, g3, g4⟩
    refine ⟨k, os, .inr ⟨p', by simpa using g0, cmd', by simpa using g1, g2⟩, by simpa using g3, g4⟩

end Argus
