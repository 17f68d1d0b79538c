import Verif.Lemmas.FirstFaultRun
import Verif.Lemmas.Access

/-! Lemmas: the first entry of the tables that has a fault, and the first fault of a whole parse. -/

set_option autoImplicit false

namespace Argus

theorem runPost_refuses {W : World} {o : Opt} {k : VKind} {r : VRes} (h : runPost W k o = .ok r) (hr : r.1 ≠ Err.success) :
    ¬ Meets W o k ∧ RefusesValue W o k r.1 := by
  obtain ⟨h1, h2⟩ := runPost_reject h hr
  refine ⟨h1, ?_⟩
  cases k with
  | range mn mx => rw [show r.1 = _ from h2]; exact .range mn mx rfl
  | count mn mx => rw [show r.1 = _ from h2]; exact .count mn mx rfl
  | length mn mx =>
    simp only [runPost, lengthValidator] at h
    obtain ⟨s, hs, h3⟩ := Out.bind_eq_ok h
    by_cases hv : o.value = .word .null
    · have : s = none := by
        have he : o.asString = .ok none := by unfold Opt.asString; rw [hv]; rfl
        rw [he] at hs
        exact (Out.ok.inj hs).symm
      subst this
      simp only [Out.ok.injEq] at h3; subst h3
      exact .noString mn mx rfl hv
    · rcases h2 with h2 | h2
      · rw [h2]; exact .length mn mx rfl hv
      · exact absurd h2.2 hv
  | choiceStr cs => rw [show r.1 = _ from h2]; exact .choiceStr cs rfl
  | choiceInt cs => rw [show r.1 = _ from h2]; exact .choiceInt cs rfl
  | choiceFloat cs => rw [show r.1 = _ from h2]; exact .choiceFloat cs rfl
  | regex p hint => exact (h2 : False).elim
  | custom id => rw [show r.1 = _ from h2]; exact .custom id rfl

theorem refusesValue_one {W : World} {o : Opt} {k : VKind} {st st' : Int} (h : RefusesValue W o k st) (h' : RefusesValue W o k st') :
    st' = st := by
  cases h <;> cases h' <;> first | rfl | (rename_i h1 _ _ h2; rw [h1] at h2; cases h2; rfl) |
    (rename_i h1 _ h2; rw [h1] at h2; cases h2; rfl) | simp_all

theorem callValidators_stops {W : World} {o : Opt} : ∀ (vs : List Validator) {r : Int × List Int},
    callValidators W o vs = .ok r → r.1 ≠ Err.success → ∃ before v after, vs = before ++ v :: after ∧
      (∀ w ∈ before, w.order = .post → Meets W o w.kind) ∧ v.order = .post ∧ ¬ Meets W o v.kind ∧ RefusesValue W o v.kind r.1
  | [], r, h, hne => by simp only [callValidators, Out.ok.injEq] at h; subst h; exact absurd rfl hne
  | v :: vs, r, h, hne => by
    unfold callValidators at h
    split at h
    · rename_i hv
      obtain ⟨q, hq, h1⟩ := Out.bind_eq_ok h
      split at h1
      · rename_i hq1
        simp only [Out.ok.injEq] at h1; subst h1
        obtain ⟨h2, h3⟩ := runPost_refuses hq hq1
        exact ⟨[], v, vs, rfl, by simp, hv, h2, h3⟩
      · rename_i hq1
        obtain ⟨r2, hr2, h2⟩ := Out.bind_eq_ok h1
        simp only [Out.ok.injEq] at h2; subst h2
        obtain ⟨before, w, after, rfl, h3, h4⟩ := callValidators_stops vs hr2 hne
        refine ⟨v :: before, w, after, rfl, fun x hx hxo => ?_, h4⟩
        rcases List.mem_cons.1 hx with rfl | hx
        · refine runPost_success_iff.1 ⟨q.2, ?_⟩
          rw [hq, ← Classical.not_not.1 hq1]
        · exact h3 x hx hxo
    · rename_i hv
      obtain ⟨before, w, after, rfl, h3, h4⟩ := callValidators_stops vs h hne
      refine ⟨v :: before, w, after, rfl, fun x hx hxo => ?_, h4⟩
      rcases List.mem_cons.1 hx with rfl | hx
      · exact absurd hxo hv
      · exact h3 x hx hxo

/-- What the loop over a table knows of the entries it has passed. -/
def Passed (pre : List Opt) (excl : Bool) (first : Option Str) : Prop :=
  (excl = false ∧ ∀ x ∈ pre, x.type ≠ .group) ∨ ∃ front g mid, pre = front ++ g :: mid ∧ g.type = .group ∧
    (∀ x ∈ mid, x.type ≠ .group) ∧ excl = g.flags.has .exclusive ∧
    (excl = true → (first.isSome = true ↔ ∃ x ∈ mid, x.isSet = true))

theorem passed_crowded {pre : List Opt} {excl : Bool} {first : Option Str} (h : Passed pre excl first) :
    Crowded pre ↔ excl = true ∧ first.isSome = true := by
  rcases h with ⟨h1, h2⟩ | ⟨front, g, mid, rfl, h1, h2, h3, h4⟩
  · rw [h1]
    constructor
    · rintro ⟨front, g, mid, rfl, h3, _⟩
      exact absurd h3 (h2 g (by simp))
    · rintro ⟨h, _⟩; cases h
  · constructor
    · rintro ⟨front', g', mid', he, h5, h6, h7, h8⟩
      rcases two_splits he with ⟨rfl, rfl, rfl⟩ | ⟨m, rfl⟩ | ⟨m, rfl⟩
      · rw [h6] at h3
        exact ⟨h3, (h4 h3).2 h8⟩
      · simp only [List.append_assoc, List.cons_append, List.append_cancel_left_eq, List.cons.injEq, true_and] at he
        exact absurd h5 (h2 g' (by rw [he]; simp))
      · simp only [List.append_assoc, List.cons_append, List.append_cancel_left_eq, List.cons.injEq, true_and] at he
        exact absurd h1 (h7 g (by rw [← he]; simp))
    · rintro ⟨h5, h6⟩
      exact ⟨front, g, mid, rfl, h1, h3.symm.trans h5, h2, (h4 h5).1 h6⟩

theorem passed_group {pre : List Opt} {o : Opt} (h : o.type = .group) : Passed (pre ++ [o]) (o.flags.has .exclusive) none :=
  .inr ⟨pre, o, [], rfl, h, by simp, rfl, fun _ => by simp⟩

theorem passed_set {pre : List Opt} {excl : Bool} {first : Option Str} {o : Opt} (h : Passed pre excl first) (ht : o.type ≠ .group)
    (hs : o.isSet = true) (hn : o.name ≠ none) : Passed (pre ++ [o]) excl (if excl then o.name else first) := by
  rcases h with ⟨h1, h2⟩ | ⟨front, g, mid, rfl, h1, h2, h3, h4⟩
  · refine .inl ⟨h1, fun x hx => ?_⟩
    rcases List.mem_append.1 hx with hx | hx
    · exact h2 x hx
    · rw [List.mem_singleton.1 hx]; exact ht
  · refine .inr ⟨front, g, mid ++ [o], by simp, h1, fun x hx => ?_, h3, fun he => ?_⟩
    · rcases List.mem_append.1 hx with hx | hx
      · exact h2 x hx
      · rw [List.mem_singleton.1 hx]; exact ht
    · rw [he, if_pos rfl]
      refine ⟨fun _ => ⟨o, by simp, hs⟩, fun _ => ?_⟩
      cases h5 : o.name with
      | none => exact absurd h5 hn
      | some n => rfl

theorem passed_unset {pre : List Opt} {excl : Bool} {first : Option Str} {o : Opt} (h : Passed pre excl first) (ht : o.type ≠ .group)
    (hs : o.isSet = false) : Passed (pre ++ [o]) excl first := by
  rcases h with ⟨h1, h2⟩ | ⟨front, g, mid, rfl, h1, h2, h3, h4⟩
  · refine .inl ⟨h1, fun x hx => ?_⟩
    rcases List.mem_append.1 hx with hx | hx
    · exact h2 x hx
    · rw [List.mem_singleton.1 hx]; exact ht
  · refine .inr ⟨front, g, mid ++ [o], by simp, h1, fun x hx => ?_, h3, fun he => ?_⟩
    · rcases List.mem_append.1 hx with hx | hx
      · exact h2 x hx
      · rw [List.mem_singleton.1 hx]; exact ht
    · rw [h4 he]
      constructor
      · rintro ⟨x, h5, h6⟩; exact ⟨x, by simp [h5], h6⟩
      · rintro ⟨x, h5, h6⟩
        rcases List.mem_append.1 h5 with h5 | h5
        · exact ⟨x, h5, h6⟩
        · rw [List.mem_singleton.1 h5, hs] at h6; cases h6

theorem stops_later {W : World} {os pre rest : List Opt} {o : Opt} {st : Int} (hf : EntryFine W os pre o)
    (h : ∃ mid x post, rest = mid ++ x :: post ∧ (∀ p q r, mid = p ++ q :: r → EntryFine W os ((pre ++ [o]) ++ p) q) ∧
      EntryFault W os ((pre ++ [o]) ++ mid) x st) :
    ∃ mid x post, o :: rest = mid ++ x :: post ∧ (∀ p q r, mid = p ++ q :: r → EntryFine W os (pre ++ p) q) ∧
      EntryFault W os (pre ++ mid) x st := by
  obtain ⟨mid, x, post, rfl, h1, h2⟩ := h
  refine ⟨o :: mid, x, post, rfl, fun p q r he => ?_, by simpa using h2⟩
  cases p with
  | nil =>
    simp only [List.nil_append, List.cons.injEq] at he
    rw [← he.1, List.append_nil]; exact hf
  | cons y p =>
    simp only [List.cons_append, List.cons.injEq] at he
    have := h1 p q r he.2
    rw [← he.1]; simpa using this

theorem validateSet_stops {W : World} {os : List Opt} : ∀ (rest pre : List Opt) (excl : Bool) (first : Option Str)
    {r : Int × List Int}, AllNamed rest → Passed pre excl first →
    validateSet W os excl first rest = .ok r → r.1 ≠ Err.success →
    ∃ mid o post, rest = mid ++ o :: post ∧ (∀ p q r, mid = p ++ q :: r → EntryFine W os (pre ++ p) q) ∧
      EntryFault W os (pre ++ mid) o r.1
  | [], pre, excl, first, r, _, _, h, hr => by simp only [validateSet, Out.ok.injEq] at h; subst h; exact absurd rfl hr
  | o :: rest, pre, excl, first, r, hn, hp, h, hr => by
    have hn' : AllNamed rest := fun x hx => hn x (by simp [hx])
    have here : EntryFault W os pre o r.1 → ∃ mid x post, o :: rest = mid ++ x :: post ∧
        (∀ p q r, mid = p ++ q :: r → EntryFine W os (pre ++ p) q) ∧ EntryFault W os (pre ++ mid) x r.1 :=
      fun hf => ⟨[], o, rest, rfl, fun p q r he => by simp at he, by rw [List.append_nil]; exact hf⟩
    unfold validateSet at h
    by_cases hg : o.type = .group
    · rw [if_pos hg] at h
      refine stops_later ⟨fun h => ?_, fun h => absurd hg h, fun h => absurd hg h, fun h => absurd hg h, fun h => absurd hg h⟩
        (validateSet_stops rest (pre ++ [o]) _ _ hn' (passed_group hg) h hr)
      rw [hg] at h; cases h
    rw [if_neg hg] at h
    by_cases hq : o.type = .positional ∧ o.flags.has .required = true ∧ o.isSet = false
    · rw [if_pos hq] at h
      simp only [Out.ok.injEq] at h; subst h
      exact here (.missing hq.1 hq.2.1 hq.2.2)
    rw [if_neg hq] at h
    have hpos : o.type = .positional → o.flags.has .required = true → o.isSet = true := fun h1 h2 => by
      cases h3 : o.isSet with
      | true => rfl
      | false => exact absurd ⟨h1, h2, h3⟩ hq
    by_cases hs : o.isSet = true
    · rw [if_pos hs] at h
      by_cases hc : excl = true ∧ first.isSome = true
      · rw [if_pos hc] at h
        simp only [Out.ok.injEq] at h; subst h
        exact here (.crowded hg hs ((passed_crowded hp).2 hc))
      rw [if_neg hc] at h
      have hnc : ¬ Crowded pre := fun h => hc ((passed_crowded hp).1 h)
      obtain ⟨v, hv, h1⟩ := Out.bind_eq_ok h
      by_cases hv1 : v.1 = Err.success
      · rw [if_neg (by simpa using hv1)] at h1
        have hm := (callValidators_success_iff _).1 ⟨v.2, by rw [hv, ← hv1]⟩
        simp only at h1
        by_cases hr1 : (validateRequired os (o.require.getD [])).1 = Err.success
        · rw [if_neg (by simpa using hr1)] at h1
          have hrq := (validateRequired_success_iff _).1 hr1
          by_cases hc1 : (validateConflicts os (o.conflict.getD [])).1 = Err.success
          · rw [if_neg (by simpa using hc1)] at h1
            have hcf := (validateConflicts_success_iff _).1 hc1
            obtain ⟨r2, hr2, h2⟩ := Out.bind_eq_ok h1
            simp only [Out.ok.injEq] at h2
            have he : r.1 = r2.1 := by rw [← h2]
            rw [he] at hr ⊢
            exact stops_later ⟨hpos, fun _ _ => hnc, fun _ _ => hm, fun _ _ => hrq, fun _ _ => hcf⟩
              (validateSet_stops rest (pre ++ [o]) _ _ hn' (passed_set hp hg hs (hn o (by simp) hg)) hr2 hr)
          · rw [if_pos (by simpa using hc1)] at h1
            simp only [Out.ok.injEq] at h1; subst h1
            obtain ⟨g1, n, g2, x, g3, g4⟩ := validateConflicts_reject _ hc1
            simp only at here ⊢
            rw [g1]
            rw [show (validateConflicts os (o.conflict.getD [])).1 = Err.conflictingOptions from g1] at here
            exact here (.conflict n x hg hs hnc hm hrq g2 g3 g4)
        · rw [if_pos (by simpa using hr1)] at h1
          simp only [Out.ok.injEq] at h1; subst h1
          obtain ⟨g1, n, g2, x, g3, g4⟩ := validateRequired_reject _ hr1
          simp only
          rw [g1]
          rw [show (validateRequired os (o.require.getD [])).1 = Err.missingRequired from g1] at here
          exact here (.requirement n x hg hs hnc hm g2 g3 g4)
      · rw [if_pos (by simpa using hv1)] at h1
        simp only [Out.ok.injEq] at h1; subst h1
        obtain ⟨before, w, after, g1, g2, g3, g4, g5⟩ := callValidators_stops _ hv hv1
        exact here (.validator before after w _ hg hs hnc g1 g2 g3 g4 g5)
    · rw [if_neg hs] at h
      have hs' : o.isSet = false := by simpa using hs
      exact stops_later ⟨hpos, fun _ h => absurd h hs, fun _ h => absurd h hs, fun _ h => absurd h hs, fun _ h => absurd h hs⟩
        (validateSet_stops rest (pre ++ [o]) _ _ hn' (passed_unset hp hg hs') h hr)

theorem validateTable_stops {W : World} {a : Argus} {t : Option Nat} {r : Int × Argus} (hn : ∀ os ∈ a.tables, AllNamed os)
    (h : validateTable W a t = .ok r) (hr : r.1 ≠ Err.success) :
    ∃ k os, t = some k ∧ a.tables[k]? = some os ∧ TableStops W os r.1 := by
  unfold validateTable at h
  obtain ⟨os, ho, h1⟩ := Out.bind_eq_ok h
  obtain ⟨k, hk, h2⟩ := table_eq_ok.1 ho
  obtain ⟨q, hq, h3⟩ := Out.bind_eq_ok h1
  simp only [Out.ok.injEq] at h3; subst h3
  obtain ⟨mid, o, post, g1, g2, g3⟩ := validateSet_stops os [] false none (hn os (List.mem_of_getElem? h2))
    (.inl ⟨rfl, by simp⟩) hq hr
  exact ⟨k, os, hk, h2, mid, o, post, g1, g2, g3⟩

theorem validateStack_stops {W : World} : ∀ (ps : List Ptr) {a : Argus} {r : Int × Argus}, (∀ os ∈ a.tables, AllNamed os) →
    validateStack W a ps = .ok r → r.1 ≠ Err.success → ∃ before k after, ps.filterMap (tableBelow a.tables) = before ++ k :: after ∧
      (∀ j ∈ before, ∃ os, a.tables[j]? = some os ∧ LevelOk W os) ∧ ∃ os, a.tables[k]? = some os ∧ TableStops W os r.1
  | [], a, r, _, h, hr => by simp only [validateStack, Out.ok.injEq] at h; subst h; exact absurd rfl hr
  | p :: ps, a, r, hn, h, hr => by
    unfold validateStack at h
    obtain ⟨cmd, hc, h1⟩ := Out.bind_eq_ok h
    obtain ⟨q, hq, h2⟩ := Out.bind_eq_ok h1
    obtain ⟨k, os, hk, ho⟩ := validateTable_table hq
    have hb : tableBelow a.tables p = some k := by rw [tableBelow_subOf, subOf_eq hc, hk]
    rw [List.filterMap_cons_some hb]
    by_cases hs : q.1 = Err.success
    · rw [if_neg (by simpa using hs)] at h2
      obtain ⟨es, hes⟩ := validateTable_eq hq
      rw [hes] at h2
      obtain ⟨before, j, after, g1, g2, g3⟩ := validateStack_stops ps (a := a.emits es) (by simpa using hn) h2 hr
      simp only [emits_tables] at g1 g2 g3
      refine ⟨k :: before, j, after, by rw [g1]; rfl, fun i hi => ?_, g3⟩
      rcases List.mem_cons.1 hi with rfl | hi
      · rw [hk] at hq
        exact ⟨os, ho, (validateSet_levelOk (hn os (List.mem_of_getElem? ho))).1 (validateTable_checked (a' := q.2) hq hs ho)⟩
      · exact g2 i hi
    · rw [if_pos hs] at h2
      simp only [Out.ok.injEq] at h2; subst h2
      obtain ⟨k', os', g1, g2, g3⟩ := validateTable_stops hn hq hs
      rw [hk] at g1; cases g1
      exact ⟨[], k, _, rfl, by simp, os', g2, g3⟩

theorem postValidation_stops {W : World} {a : Argus} {r : Int × Argus} (hn : ∀ os ∈ a.tables, AllNamed os)
    (h : postValidation W a = .ok r) (hr : r.1 ≠ Err.success) : ∃ before k after, pathTables a a.stack = before ++ k :: after ∧
      (∀ j ∈ before, ∃ os, a.tables[j]? = some os ∧ LevelOk W os) ∧ ∃ os, a.tables[k]? = some os ∧ TableStops W os r.1 := by
  unfold postValidation at h
  obtain ⟨q, hq, h2⟩ := Out.bind_eq_ok h
  obtain ⟨k, os, hk, ho⟩ := validateTable_table hq
  cases hk
  unfold pathTables
  by_cases hs : q.1 = Err.success
  · rw [if_neg (by simpa using hs)] at h2
    obtain ⟨es, hes⟩ := validateTable_eq hq
    rw [hes, emits_stack] at h2
    obtain ⟨before, j, after, g1, g2, g3⟩ := validateStack_stops a.stack (a := a.emits es) (by simpa using hn) h2 hr
    simp only [emits_tables] at g1 g2 g3
    refine ⟨a.root :: before, j, after, by rw [g1]; rfl, fun i hi => ?_, g3⟩
    rcases List.mem_cons.1 hi with rfl | hi
    · exact ⟨os, ho, (validateSet_levelOk (hn os (List.mem_of_getElem? ho))).1 (validateTable_checked (a' := q.2) hq hs ho)⟩
    · exact g2 i hi
  · rw [if_pos hs] at h2
    simp only [Out.ok.injEq] at h2; subst h2
    obtain ⟨k', os', g1, g2, g3⟩ := validateTable_stops hn hq hs
    cases g1
    exact ⟨[], a.root, _, rfl, by simp, os', g2, g3⟩

/-! ## One fault only -/

theorem entryFault_not_fine {W : World} {os pre : List Opt} {o : Opt} {st : Int} (h : EntryFault W os pre o st)
    (hf : EntryFine W os pre o) : False := by
  cases h with
  | missing h1 h2 h3 => rw [hf.positional h1 h2] at h3; cases h3
  | crowded h1 h2 h3 => exact hf.alone h1 h2 h3
  | validator before after v st h1 h2 _ h4 _ h6 h7 _ => exact h7 (hf.validators h1 h2 v (by rw [h4]; simp) h6)
  | requirement n r h1 h2 _ _ h5 h6 h7 => rw [hf.requires h1 h2 n h5 r h6] at h7; cases h7
  | conflict n r h1 h2 _ _ _ h5 h6 h7 => rw [hf.conflicts h1 h2 n h5 r h6] at h7; cases h7

theorem entryFault_one {W : World} {os pre : List Opt} {o : Opt} {st st' : Int} (h : EntryFault W os pre o st)
    (h' : EntryFault W os pre o st') : st' = st := by
  cases h with
  | missing h1 h2 h3 =>
    cases h' with
    | missing => rfl
    | crowded _ g => rw [h3] at g; cases g
    | validator _ _ _ _ _ g => rw [h3] at g; cases g
    | requirement _ _ _ g => rw [h3] at g
    | conflict _ _ _ g => rw [h3] at g; cases g
  | crowded h1 h2 h3 =>
    cases h' with
    | missing _ _ g => rw [h2] at g; cases g
    | crowded => rfl
    | validator _ _ _ _ _ _ g => exact absurd h3 g
    | requirement _ _ _ _ g => exact absurd h3 g
    | conflict _ _ _ _ g => exact absurd h3 g
  | validator before after v st h1 h2 h3 h4 h5 h6 h7 h8 =>
    cases h' with
    | missing _ _ g => rw [h2] at g; cases g
    | crowded _ _ g => exact absurd g h3
    | validator before' after' v' st' _ _ _ g4 g5 g6 g7 g8 =>
      rcases two_splits (h4.symm.trans g4) with ⟨rfl, rfl, rfl⟩ | ⟨m, rfl⟩ | ⟨m, rfl⟩
      · exact refusesValue_one h8 g8
      · exact absurd (g5 v (by simp) h6) h7
      · exact absurd (h5 v' (by simp) g6) g7
    | requirement _ _ _ _ _ g => exact absurd (g v (by rw [h4]; simp) h6) h7
    | conflict _ _ _ _ _ g => exact absurd (g v (by rw [h4]; simp) h6) h7
  | requirement n r h1 h2 h3 h4 h5 h6 h7 =>
    cases h' with
    | missing _ _ g => rw [h2] at g
    | crowded _ _ g => exact absurd g h3
    | validator before' after' v' st' _ _ _ g4 g5 g6 g7 g8 => exact absurd (h4 v' (by rw [g4]; simp) g6) g7
    | requirement => rfl
    | conflict _ _ _ _ _ _ g => rw [g n h5 r h6] at h7; cases h7
  | conflict n r h1 h2 h3 h4 h5 h6 h7 h8 =>
    cases h' with
    | missing _ _ g => rw [h2] at g; cases g
    | crowded _ _ g => exact absurd g h3
    | validator before' after' v' st' _ _ _ g4 g5 g6 g7 g8 => exact absurd (h4 v' (by rw [g4]; simp) g6) g7
    | requirement n' r' _ _ _ _ g5 g6 g7 => rw [h5 n' g5 r' g6] at g7; cases g7
    | conflict => rfl

theorem tableStops_one {W : World} {os : List Opt} {st st' : Int} (h : TableStops W os st) (h' : TableStops W os st') : st' = st := by
  obtain ⟨pre, o, post, h1, h2, h3⟩ := h
  obtain ⟨pre', o', post', h1', h2', h3'⟩ := h'
  rcases two_splits (h1.symm.trans h1') with ⟨rfl, rfl, rfl⟩ | ⟨m, rfl⟩ | ⟨m, rfl⟩
  · exact entryFault_one h3 h3'
  · exact (entryFault_not_fine h3 (h2' _ _ _ rfl)).elim
  · exact (entryFault_not_fine h3' (h2 _ _ _ rfl)).elim

theorem levelOk_fine {W : World} {os pre post : List Opt} {o : Opt} (h : LevelOk W os) (hs : os = pre ++ o :: post) :
    EntryFine W os pre o := by
  have hm : o ∈ os := by rw [hs]; simp
  refine ⟨h.positionals o hm, fun ht ho hc => ?_, h.validators o hm, h.requires o hm, h.conflicts o hm⟩
  obtain ⟨front, g, mid, rfl, h1, h2, h3, x, h4, h5⟩ := hc
  have := h.exclusive g (mid ++ [o]) ⟨h1, fun y hy => ?_, front, post, by rw [hs]; simp⟩ h2
  · rw [List.filter_append, List.length_append, List.filter_cons_of_pos ho] at this
    have h6 : x ∈ mid.filter (·.isSet) := List.mem_filter.2 ⟨h4, h5⟩
    have h7 := List.length_pos_of_mem h6
    simp only [List.filter_nil, List.length_cons, List.length_nil] at this
    omega
  · rcases List.mem_append.1 hy with hy | hy
    · exact h3 y hy
    · rw [List.mem_singleton.1 hy]; exact ht

theorem tableStops_not_ok {W : World} {os : List Opt} {st : Int} (h : TableStops W os st) (hl : LevelOk W os) : False := by
  obtain ⟨pre, o, post, h1, _, h3⟩ := h
  exact entryFault_not_fine h3 (levelOk_fine hl h1)

theorem envStops_ends {W : World} {env : Env} {a : Argus} {args : List Str} {st : Int} {path before after : List Ptr} {p : Ptr} {n : Nat}
    (h : EnvStops W env a args st path before after p) (hn : before.count p < n)
    (ht : ∀ o, placeAt a.tables p = some o → ∃ o', Through ((a.asks args).filterMap (Act.change W p) ++
      List.replicate n (LooksUp W env a.envPrefix)) o o') : False := by
  obtain ⟨o, o', m, v, h1, h2, h3, h4, h5, h6, h7⟩ := h.stops
  obtain ⟨o2, h8⟩ := ht o h1
  have e : List.replicate n (LooksUp W env a.envPrefix) = List.replicate (before.count p) (LooksUp W env a.envPrefix) ++
      (LooksUp W env a.envPrefix :: List.replicate (n - before.count p - 1) (LooksUp W env a.envPrefix)) := by
    rw [← List.replicate_succ, List.replicate_append_replicate]
    congr 1; omega
  rw [e, ← List.append_assoc, through_two] at h8
  obtain ⟨o1, g1, o3, g2, _⟩ := h8
  have := through_oneResult _ settled_oneResult _ _ _ h2 g1
  subst this
  cases g2 with
  | idle hi =>
    unfold EnvIdle at hi
    rcases hi with hi | hi | ⟨hi, hi'⟩ | hi
    · rcases h3 with h3 | h3 <;> rw [hi] at h3 <;> cases h3
    · rcases h3 with h3 | h3 <;> rw [hi] at h3 <;> cases h3
    · rcases h4 with h4 | h4
      · rw [hi] at h4; cases h4
      · rw [hi'] at h4; cases h4
    · rw [hi m h5] at h6; cases h6
  | read m' v' _ _ _ c d e =>
    rw [h5] at c; cases c; rw [h6] at d; cases d
    exact stopsAt_not_taken h7 e

theorem lineDone_one {W : World} {a : Argus} {args : List Str} {path path' : List Ptr} (h : LineDone W a args path)
    (h' : LineDone W a args path') : path' = path := by rw [h.selected, h'.selected]

theorem envStops_one {W : World} {env : Env} {a : Argus} {args : List Str} {st st' : Int} {path before after path' before' after' : List Ptr}
    {p p' : Ptr} (h : EnvStops W env a args st path before after p) (h' : EnvStops W env a args st' path' before' after' p') : st' = st := by
  have hp := lineDone_one h.line h'.line
  subst hp
  rcases two_splits (h.split.symm.trans h'.split) with ⟨rfl, rfl, rfl⟩ | ⟨m, rfl⟩ | ⟨m, rfl⟩
  · obtain ⟨o, o', m, v, h1, h2, h3, h4, h5, h6, h7⟩ := h.stops
    obtain ⟨o2, o2', m', v', h1', h2', h3', h4', h5', h6', h7'⟩ := h'.stops
    rw [h1] at h1'; cases h1'
    have := through_oneResult _ settled_oneResult _ _ _ h2 h2'
    subst this
    rw [h5] at h5'; cases h5'; rw [h6] at h6'; cases h6'
    exact stopsAt_one h7 h7'
  · exact (envStops_ends h (by simp) (h'.taken p)).elim
  · exact (envStops_ends h' (by simp) (h.taken p')).elim

theorem taken_line {W : World} {env : Env} {a : Argus} {args : List Str} {n : Ptr → Nat}
    (ht : ∀ p o, placeAt a.tables p = some o → ∃ o', Through ((a.asks args).filterMap (Act.change W p) ++
      List.replicate (n p) (LooksUp W env a.envPrefix)) o o') :
    ∀ p o, placeAt a.tables p = some o → ∃ o', Through ((a.asks args).filterMap (Act.change W p)) o o' := by
  intro p o hp
  obtain ⟨o', h⟩ := ht p o hp
  obtain ⟨o1, h1, _⟩ := (through_two _ _ _ _).1 h
  exact ⟨o1, h1⟩

theorem taken_some {W : World} {env : Env} {a : Argus} {args : List Str} {T : List (List Opt)} {path : List Ptr}
    (h : Taken W env a args T path) : ∀ p o, placeAt a.tables p = some o → ∃ o', Through ((a.asks args).filterMap (Act.change W p) ++
      List.replicate ((pathTables a path).count p.tbl) (LooksUp W env a.envPrefix)) o o' := by
  intro p o hp
  obtain ⟨o', _, h1⟩ := h.entries p o hp
  exact ⟨o', h1⟩

theorem envStops_not_taken {W : World} {env : Env} {a : Argus} {args : List Str} {st : Int} {path before after : List Ptr} {p : Ptr}
    {T : List (List Opt)} {path' : List Ptr} (h : EnvStops W env a args st path before after p) (ht : Taken W env a args T path') : False := by
  have hp := lineDone_one h.line ht.line
  subst hp
  refine envStops_ends h (n := (pathTables a path').count p.tbl) ?_ (taken_some ht p)
  obtain ⟨o, _, _, _, h1, _⟩ := h.stops
  obtain ⟨n, h2, h3⟩ := placeAt_size h1
  rw [← count_visitAll p _ _ n h2 h3, lookups_visitAll, h.split]
  simp

theorem tables_same {T T' : List (List Opt)} (hs : T'.map List.length = T.map List.length)
    (h : ∀ p o, placeAt T p = some o → placeAt T' p = some o) : T' = T := by
  have hl : T'.length = T.length := by simpa using congrArg List.length hs
  refine List.ext_getElem hl fun k h1 h2 => ?_
  have hk : (T'.map List.length)[k]'(by simpa using h1) = (T.map List.length)[k]'(by simpa using h2) := by simp only [hs]
  simp only [List.getElem_map] at hk
  refine List.ext_getElem hk fun i h3 h4 => ?_
  have := h ⟨k, i⟩ (T[k][i]) (by simp [placeAt, h2, h4])
  simp [placeAt, h1, h3] at this
  exact this

theorem taken_one {W : World} {env : Env} {a : Argus} {args : List Str} {T T' : List (List Opt)} {path path' : List Ptr}
    (h : Taken W env a args T path) (h' : Taken W env a args T' path') : T' = T ∧ path' = path := by
  have hp := lineDone_one h.line h'.line
  subst hp
  refine ⟨tables_same (h'.sizes.trans h.sizes.symm) fun p o hp => ?_, rfl⟩
  obtain ⟨o0, ho⟩ := sizes_entry h.sizes.symm hp
  obtain ⟨o1, h1, h2⟩ := h.entries p o0 ho
  obtain ⟨o2, h3, h4⟩ := h'.entries p o0 ho
  rw [hp] at h1; cases h1
  have := through_oneResult _ settled_oneResult _ _ _ h2 h4
  subst this
  exact h3

theorem levelStops_one {W : World} {env : Env} {a : Argus} {args : List Str} {st st' : Int} {T T' : List (List Opt)} {path path' : List Ptr}
    {before after before' after' : List Nat} {k k' : Nat} (h : LevelStops W env a args st T path before after k)
    (h' : LevelStops W env a args st' T' path' before' after' k') : st' = st := by
  obtain ⟨rfl, rfl⟩ := taken_one h.taken h'.taken
  obtain ⟨os, h1, h2⟩ := h.stops
  obtain ⟨os', h1', h2'⟩ := h'.stops
  rcases two_splits (h.split.symm.trans h'.split) with ⟨rfl, rfl, rfl⟩ | ⟨m, rfl⟩ | ⟨m, rfl⟩
  · rw [h1] at h1'; cases h1'
    exact tableStops_one h2 h2'
  · obtain ⟨os2, g1, g2⟩ := h'.fine k (by simp)
    rw [h1] at g1; cases g1
    exact (tableStops_not_ok h2 g2).elim
  · obtain ⟨os2, g1, g2⟩ := h.fine k' (by simp)
    rw [h1'] at g1; cases g1
    exact (tableStops_not_ok h2' g2).elim

theorem accepted_taken {W : World} {env : Env} {a : Argus} {args : List Str} {T : List (List Opt)} {path : List Ptr}
    (h : Accepted W env a args T path) : Taken W env a args T path :=
  ⟨⟨h.readable, h.selected, h.depth⟩, h.sizes, h.entries⟩

theorem levelStops_not_accepted {W : World} {env : Env} {a : Argus} {args : List Str} {st : Int} {T T' : List (List Opt)} {path path' : List Ptr}
    {before after : List Nat} {k : Nat} (h : LevelStops W env a args st T path before after k) (ha : Accepted W env a args T' path') : False := by
  obtain ⟨rfl, rfl⟩ := taken_one h.taken (accepted_taken ha)
  obtain ⟨os, h1, h2⟩ := h.stops
  have hk : k ∈ pathTables a path' := by rw [h.split]; simp
  rcases List.mem_cons.1 hk with rfl | hk
  · obtain ⟨os', g1, g2⟩ := ha.root
    rw [h1] at g1; cases g1
    exact tableStops_not_ok h2 g2
  · obtain ⟨q, hq, he⟩ := List.mem_filterMap.1 hk
    obtain ⟨k', os', g1, g2, g3⟩ := ha.levels q hq
    rw [he] at g1; cases g1
    rw [h1] at g2; cases g2
    exact tableStops_not_ok h2 g3

theorem firstFault_not_accepted {W : World} {env : Env} {a : Argus} {args : List Str} {e : ParseEnd} {T : List (List Opt)} {path : List Ptr}
    (h : FirstFault W env a args e) (ha : Accepted W env a args T path) : False := by
  have ht := accepted_taken ha
  cases h with
  | exit _ _ _ h => exact lineStops_not_done h ht.line (taken_line (taken_some ht))
  | line _ _ _ _ _ h => exact lineStops_not_done h ht.line (taken_line (taken_some ht))
  | env _ _ _ _ _ h => exact envStops_not_taken h ht
  | level _ _ _ _ _ _ h => exact levelStops_not_accepted h ha

theorem lineStops_not_env {W : World} {env : Env} {a : Argus} {args : List Str} {st st' : Int} {done rest : List Act} {act : Act}
    {path before after : List Ptr} {p : Ptr} (h : LineStops W a args st done act rest) (he : EnvStops W env a args st' path before after p) :
    False := lineStops_not_done h he.line (taken_line (n := fun q => before.count q) he.taken)

theorem lineStops_not_level {W : World} {env : Env} {a : Argus} {args : List Str} {st st' : Int} {done rest : List Act} {act : Act}
    {T : List (List Opt)} {path : List Ptr} {before after : List Nat} {k : Nat} (h : LineStops W a args st done act rest)
    (he : LevelStops W env a args st' T path before after k) : False :=
  lineStops_not_done h he.taken.line (taken_line (taken_some he.taken))

theorem firstFault_one {W : World} {env : Env} {a : Argus} {args : List Str} {e e' : ParseEnd}
    (h : FirstFault W env a args e) (h' : FirstFault W env a args e') : e' = e := by
  cases h with
  | exit _ _ _ h =>
    cases h' with
    | exit => rfl
    | line _ _ _ _ g h' => exact absurd (lineStops_one h h') g
    | env _ _ _ _ _ h' => exact (lineStops_not_env h h').elim
    | level _ _ _ _ _ _ h' => exact (lineStops_not_level h h').elim
  | line _ _ _ _ g h =>
    cases h' with
    | exit _ _ _ h' => exact absurd (lineStops_one h' h) g
    | line _ _ _ _ _ h' => rw [lineStops_one h h']
    | env _ _ _ _ _ h' => exact (lineStops_not_env h h').elim
    | level _ _ _ _ _ _ h' => exact (lineStops_not_level h h').elim
  | env _ _ _ _ _ h =>
    cases h' with
    | exit _ _ _ h' => exact (lineStops_not_env h' h).elim
    | line _ _ _ _ _ h' => exact (lineStops_not_env h' h).elim
    | env _ _ _ _ _ h' => rw [envStops_one h h']
    | level _ _ _ _ _ _ h' => exact (envStops_not_taken h h'.taken).elim
  | level _ _ _ _ _ _ h =>
    cases h' with
    | exit _ _ _ h' => exact (lineStops_not_level h' h).elim
    | line _ _ _ _ _ h' => exact (lineStops_not_level h' h).elim
    | env _ _ _ _ _ h' => exact (envStops_not_taken h' h.taken).elim
    | level _ _ _ _ _ _ h' => rw [levelStops_one h h']

/-! ## The parse -/

/-- A line that was carried out. -/
theorem parseArgs_done {W : World} {a a1 : Argus} {args : List Str} (hx : HelpExits a.tables)
    (h : parseArgs W a (some a.root) args = .ok (Err.success, a1)) :
    LineDone W a args a1.stack ∧ Applies ((a.asks args).filterMap (Act.op W)) a.tables a1.tables ∧ a1.shape = a.shape ∧
      a1.root = a.root ∧ a1.envPrefix = a.envPrefix := by
  have h1 := h
  rw [parseArgs_run] at h1
  have hw : ∀ x ∈ a.asks args, x.Wish := run_success_wishes W _ a a1 h1 (asks_no_fail0 a args)
  have hs1 := run_sim_self _ a a1 hw h1
  obtain ⟨b1, b2, b3⟩ := (run_applies _ a a1.tables a1.stack hx hw).1 ⟨a1, h1, hs1⟩
  obtain ⟨_, _, _, hf⟩ := parseLoop_frame args (show parseLoop W (some a.root) a 0 false false args = .ok (Err.success, a1) from h)
  exact ⟨⟨fun x hx => wish_iff.1 (hw x hx), b2, b3⟩, b1, hf.shape, hs1.root, hs1.envPrefix⟩

theorem loadEnvVars_sim_self {W : World} {env : Env} {a a' : Argus} (hx : HelpExits a.tables)
    (h : loadEnvVars W env a = .ok (Err.success, a')) : Sim a' { a with tables := a'.tables } := by
  unfold loadEnvVars at h
  obtain ⟨r, hr, h4⟩ := Out.bind_eq_ok h
  split at h4
  · rename_i hne; simp only [Out.ok.injEq] at h4; rw [h4] at hne; exact absurd rfl hne
  · rename_i hne
    have hst : r.1 = Err.success := by simpa using hne
    have g1 := loadEnvTable_sim_self hx (show _ = Out.ok (Err.success, r.2) by rw [hr, ← hst])
    have g2 := loadEnvStack_sim_self _ (helpExits_shape (loadEnvTable_frame hr).frame.shape hx) h4
    exact g2.trans (g1.withTables a'.tables)

theorem loadEnvVars_fault {W : World} {env : Env} {a a1 : Argus} {args : List Str} {r : Int × Argus} (hx : HelpExits a.tables)
    (h : parseArgs W a (some a.root) args = .ok (Err.success, a1))
    (h2 : loadEnvVars W env { a1 with errorCode := Err.success } = .ok r) (hr : r.1 ≠ Err.success) :
    ∃ path before after p, EnvStops W env a args r.1 path before after p := by
  obtain ⟨hd, b1, hsh, hroot, hpre⟩ := parseArgs_done hx h
  have hx1 : HelpExits a1.tables := helpExits_shape hsh hx
  obtain ⟨before, after, p, a2, g⟩ := loadEnvVars_stops (a := { a1 with errorCode := Err.success }) hx1 h2 hr
  have hpt : pathTables { a1 with errorCode := Err.success } a1.stack = pathTables a a1.stack := pathTables_shape hsh hroot _
  have hsplit : visitAll (a.tables.map List.length) (pathTables a a1.stack) = before ++ p :: after := by
    rw [← hpt, ← shape_sizes hsh]; exact g.split
  have hap := g.applies
  simp only at hap
  rw [hpre] at hap
  have hall := (applies_append _ _ _ _).2 ⟨a1.tables, b1, hap⟩
  rw [applies_iff] at hall
  · obtain ⟨c1, c2⟩ := hall
    have c3 : ∀ q o, placeAt a.tables q = some o → ∃ o', placeAt a2.tables q = some o' ∧
        Through ((a.asks args).filterMap (Act.change W q) ++ List.replicate (before.count q) (LooksUp W env a.envPrefix)) o o' := by
      intro q o ho
      have := c2 q o ho
      rw [changesAt_append, changesAt_acts, changesAt_visit] at this
      exact this
    obtain ⟨o, ho⟩ := visitAll_exists (T := a.tables) (ks := pathTables a a1.stack) (p := p) (by rw [hsplit]; simp)
    obtain ⟨o', d1, d2⟩ := c3 p o ho
    have henv : a2.envPrefix = a.envPrefix := by rw [g.sim.envPrefix]; exact hpre
    obtain ⟨n, v, e1, e2, e3, e4, e5⟩ := loadEnvStep_stops (placeAt_getOpt.1 d1) g.step hr
    rw [henv] at e3
    exact ⟨a1.stack, before, after, p, hd, by rw [← lookups_visitAll]; exact hsplit,
      fun q o hq => (c3 q o hq).imp fun _ h => h.2, o, o', n, v, ho, d2, e1, e2, e3, e4, e5⟩
  · intro c hc
    rcases List.mem_append.1 hc with hc | hc
    · exact act_op_exists hc
    · obtain ⟨q, hq, rfl⟩ := List.mem_map.1 hc
      exact visitAll_exists (T := a.tables) (ks := pathTables a a1.stack) (by rw [hsplit]; simp [hq])

theorem loadEnvVars_taken {W : World} {env : Env} {a a1 a2 : Argus} {args : List Str} (hx : HelpExits a.tables)
    (h : parseArgs W a (some a.root) args = .ok (Err.success, a1))
    (h2 : loadEnvVars W env { a1 with errorCode := Err.success } = .ok (Err.success, a2)) :
    Taken W env a args a2.tables a2.stack ∧ a2.shape = a.shape ∧ a2.root = a.root := by
  obtain ⟨hd, b1, hsh, hroot, hpre⟩ := parseArgs_done hx h
  have hx1 : HelpExits a1.tables := helpExits_shape hsh hx
  have hself := loadEnvVars_sim_self (a := { a1 with errorCode := Err.success }) hx1 h2
  obtain ⟨_, _, c3⟩ := (loadEnvVars_applies { a1 with errorCode := Err.success } a2.tables hx1).1 ⟨a2, h2, hself⟩
  have hpt : pathTables { a1 with errorCode := Err.success } a1.stack = pathTables a a1.stack := pathTables_shape hsh hroot _
  simp only at c3
  rw [hpt, shape_sizes hsh, hpre] at c3
  have hst : a2.stack = a1.stack := hself.stack
  obtain ⟨d1, d2⟩ := through_split.1 (applies_append _ _ _ _ |>.2 ⟨a1.tables, b1, c3⟩)
  refine ⟨⟨by rw [hst]; exact hd, d1, by rw [hst]; exact d2⟩, ?_, ?_⟩
  · rw [(loadEnvVars_frame h2).frame.shape]; exact hsh
  · rw [hself.root]; exact hroot

theorem argusParse_fault {W : World} {env : Env} {a a' : Argus} {args : List Str} {e : ParseEnd} (hx : HelpExits a.tables)
    (hn : ∀ os ∈ a.tables, AllNamed os) (h : argusParse W env a args = .ok (e, a')) (he : e ≠ .returned Err.success) :
    FirstFault W env a args e := by
  unfold argusParse at h
  obtain ⟨r, hr, h1⟩ := Out.bind_eq_ok h
  simp only at h1
  by_cases hx1 : r.1 = Err.shouldExit
  · rw [if_pos hx1] at h1
    obtain ⟨a2, _, h2⟩ := Out.bind_eq_ok h1
    simp only [Out.ok.injEq, Prod.mk.injEq] at h2
    obtain ⟨done, act, rest, g⟩ := parseArgs_stops hx hr (by rw [hx1]; decide)
    rw [hx1] at g
    rw [← h2.1]
    exact .exit done rest act g
  rw [if_neg hx1] at h1
  by_cases hs : r.1 = Err.success
  · rw [if_neg (by simpa using hs)] at h1
    have hr' : parseArgs W a (some a.root) args = .ok (Err.success, r.2) := by rw [hr, ← hs]
    rw [hs] at h1
    obtain ⟨v, hv, h2⟩ := Out.bind_eq_ok h1
    by_cases hvs : v.1 = Err.success
    · rw [if_neg (by simpa using hvs)] at h2
      obtain ⟨g1, g2, g3⟩ := loadEnvVars_taken hx hr' (show _ = Out.ok (Err.success, v.2) by rw [hv, ← hvs])
      obtain ⟨q, hq, h3⟩ := Out.bind_eq_ok h2
      by_cases hqs : q.1 = Err.success
      · rw [if_neg (by simpa using hqs)] at h3
        simp only [Out.ok.injEq, Prod.mk.injEq] at h3
        rw [← h3.1, hqs] at he
        exact absurd rfl he
      · rw [if_pos hqs] at h3
        obtain ⟨a2, _, h4⟩ := Out.bind_eq_ok h3
        simp only [Out.ok.injEq, Prod.mk.injEq] at h4
        rw [← h4.1]
        obtain ⟨before, k, after, f1, f2, f3⟩ := postValidation_stops (allNamed_shape g2 hn) hq hqs
        rw [pathTables_shape g2 g3] at f1
        exact .level q.1 v.2.tables v.2.stack before after k ⟨g1, f1, f2, f3⟩
    · rw [if_pos hvs] at h2
      obtain ⟨a2, _, h3⟩ := Out.bind_eq_ok h2
      simp only [Out.ok.injEq, Prod.mk.injEq] at h3
      rw [← h3.1]
      obtain ⟨path, before, after, p, g⟩ := loadEnvVars_fault hx hr' hv hvs
      exact .env v.1 path before after p g
  · rw [if_pos hs] at h1
    obtain ⟨a2, _, h2⟩ := Out.bind_eq_ok h1
    simp only [Out.ok.injEq, Prod.mk.injEq] at h2
    rw [← h2.1]
    obtain ⟨done, act, rest, g⟩ := parseArgs_stops hx hr hs
    exact .line r.1 done rest act hx1 g

end Argus
