import Verif.Spec.FirstFault
import Verif.Lemmas.Outcome
import Verif.Lemmas.Blame
import Verif.Lemmas.Readable
import Verif.Lemmas.Ranges

/-! Lemmas: the first fault of a parse. -/

set_option autoImplicit false

namespace Argus

/-! ## Texts -/

theorem runPre_refuses {W : World} {k : VKind} {x : Option Str} {r : VRes} (h : runPre W k x = .ok r) (hr : r.1 ≠ Err.success) :
    RefusesText W x k r.1 := by
  cases k with
  | regex p hint =>
    simp only [runPre, Out.ok.injEq] at h; subst h
    unfold regexValidator at hr ⊢
    by_cases ha : W.regexAvailable = false
    · rw [if_pos ha]; exact .noRegex p hint ha
    · rw [if_neg ha] at hr ⊢
      cases p with
      | none => exact .noPattern hint
      | some p =>
        simp only at hr ⊢
        cases hm : W.regex p x with
        | isMatch => rw [hm] at hr; exact absurd rfl hr
        | noMatch => exact .noMatch p hint hm
        | compileError => exact .broken p hint (by simpa using ha) (.inl hm)
        | otherError => exact .broken p hint (by simpa using ha) (.inr hm)
  | custom id =>
    simp only [runPre, Out.ok.injEq] at h; subst h
    exact .custom id hr
  | _ => simp [runPre] at h

theorem refusesText_unmet {W : World} {k : VKind} {x : Option Str} {st : Int} (h : RefusesText W x k st) : ¬ MeetsText W x k := by
  cases h with
  | noRegex p hint h => rintro ⟨h1, _⟩; rw [h] at h1; cases h1
  | noPattern hint => rintro ⟨_, q, h1, _⟩; cases h1
  | noMatch p hint h => rintro ⟨_, q, h1, h2⟩; cases h1; rw [h] at h2; cases h2
  | broken p hint _ h => rintro ⟨_, q, h1, h2⟩; cases h1; rw [h2] at h; rcases h with h | h <;> cases h
  | custom id h => exact h

theorem refusesText_one {W : World} {k : VKind} {x : Option Str} {st st' : Int} (h : RefusesText W x k st)
    (h' : RefusesText W x k st') : st' = st := by
  cases h with
  | noRegex p hint h =>
    cases h' with
    | broken p hint h1 _ => rw [h] at h1; cases h1
    | _ => rfl
  | noPattern hint => cases h' <;> rfl
  | noMatch p hint h =>
    cases h' with
    | broken p hint _ h1 => rw [h] at h1; rcases h1 with h1 | h1 <;> cases h1
    | _ => rfl
  | broken p hint h1 h =>
    cases h' with
    | noRegex _ _ h2 => rw [h1] at h2; cases h2
    | noMatch _ _ h2 => rw [h2] at h; rcases h with h | h <;> cases h
    | broken => rfl
  | custom id h => cases h' <;> rfl

theorem runPreAll_refuses {W : World} {x : Option Str} : ∀ (vs : List Validator) {a : Argus} {r : Int × Argus},
    runPreAll W a x vs = .ok r → r.1 ≠ Err.success → ∃ before v after, vs = before ++ v :: after ∧
      (∀ w ∈ before, w.order = .pre → MeetsText W x w.kind) ∧ v.order = .pre ∧ RefusesText W x v.kind r.1
  | [], a, r, h, hr => by simp only [runPreAll, Out.ok.injEq] at h; subst h; exact absurd rfl hr
  | v :: vs, a, r, h, hr => by
    unfold runPreAll at h
    by_cases hp : v.order = .pre
    · rw [if_pos hp] at h
      obtain ⟨q, hq, h1⟩ := Out.bind_eq_ok h
      simp only at h1
      by_cases hs : q.1 = Err.success
      · rw [if_neg (by simpa using hs)] at h1
        obtain ⟨before, w, after, rfl, h2, h3, h4⟩ := runPreAll_refuses vs h1 hr
        refine ⟨v :: before, w, after, rfl, ?_, h3, h4⟩
        intro u hu ho
        rcases List.mem_cons.1 hu with rfl | hu
        · exact runPre_success_iff.1 ⟨q.2, by rw [hq, ← hs]⟩
        · exact h2 u hu ho
      · rw [if_pos hs] at h1
        simp only [Out.ok.injEq] at h1; subst h1
        exact ⟨[], v, vs, rfl, by simp, hp, runPre_refuses hq hs⟩
    · rw [if_neg hp] at h
      obtain ⟨before, w, after, rfl, h2, h3, h4⟩ := runPreAll_refuses vs h hr
      refine ⟨v :: before, w, after, rfl, ?_, h3, h4⟩
      intro u hu ho
      rcases List.mem_cons.1 hu with rfl | hu
      · exact absurd ho hp
      · exact h2 u hu ho

/-- Of two first bad elements of a list one is the other. -/
theorem first_bad_one {α : Type} {Good : α → Prop} : ∀ {xs : List α} {before after before' after' : List α} {x x' : α},
    xs = before ++ x :: after → xs = before' ++ x' :: after' → (∀ y ∈ before, Good y) → (∀ y ∈ before', Good y) → ¬ Good x →
    ¬ Good x' → before = before' ∧ x = x' ∧ after = after'
  | [], before, _, _, _, _, _, h, _, _, _, _, _ => by cases before <;> cases h
  | y :: xs, [], _, [], _, _, _, h, h', _, _, _, _ => by cases h; cases h'; exact ⟨rfl, rfl, rfl⟩
  | y :: xs, [], _, z :: before', _, _, _, h, h', _, g', b, _ => by
    cases h; cases h'; exact absurd (g' _ (by simp)) b
  | y :: xs, z :: before, _, [], _, _, _, h, h', g, _, _, b' => by
    cases h; cases h'; exact absurd (g _ (by simp)) b'
  | y :: xs, z :: before, _, z' :: before', _, _, _, h, h', g, g', b, b' => by
    simp only [List.cons_append, List.cons.injEq] at h h'
    obtain ⟨rfl, h⟩ := h
    obtain ⟨rfl, h'⟩ := h'
    obtain ⟨rfl, rfl, rfl⟩ := first_bad_one h h' (fun y hy => g y (by simp [hy])) (fun y hy => g' y (by simp [hy])) b b'
    exact ⟨rfl, rfl, rfl⟩

/-- Storing texts one after the other: all are good, or the first bad one ends it with its code. -/
theorem setAll_first {f : Opt → Str → Out HRes} {Good : Str → Prop} {code : Str → Int}
    (hf : ∀ o v r, f o v = .ok r → (Good v ∧ r.1 = Err.success) ∨ (¬ Good v ∧ r.1 = code v ∧ code v ≠ Err.success)) :
    ∀ (vs : List Str) {o : Opt} {r : HRes}, setAll f o vs = .ok r →
      ((∀ v ∈ vs, Good v) ∧ r.1 = Err.success) ∨
      ∃ before p after, vs = before ++ p :: after ∧ (∀ v ∈ before, Good v) ∧ ¬ Good p ∧ r.1 = code p ∧ code p ≠ Err.success
  | [], o, r, h => by simp only [setAll, Out.ok.injEq] at h; subst h; exact .inl ⟨by simp, rfl⟩
  | v :: vs, o, r, h => by
    unfold setAll at h
    obtain ⟨q, hq, h1⟩ := Out.bind_eq_ok h
    rcases hf o v q hq with ⟨hg, hs⟩ | ⟨hg, hs, hc⟩
    · rw [if_neg (by simpa using hs)] at h1
      obtain ⟨q2, hq2, h2⟩ := Out.bind_eq_ok h1
      simp only [Out.ok.injEq] at h2; subst h2
      rcases setAll_first hf vs hq2 with ⟨g1, g2⟩ | ⟨before, p, after, rfl, g1, g2, g3, g4⟩
      · refine .inl ⟨?_, g2⟩
        intro w hw
        rcases List.mem_cons.1 hw with rfl | hw
        · exact hg
        · exact g1 w hw
      · refine .inr ⟨v :: before, p, after, rfl, ?_, g2, g3, g4⟩
        intro w hw
        rcases List.mem_cons.1 hw with rfl | hw
        · exact hg
        · exact g1 w hw
    · rw [if_pos (by rw [hs]; exact hc)] at h1
      simp only [Out.ok.injEq] at h1; subst h1
      exact .inr ⟨[], v, vs, rfl, by simp, hg, hs, hc⟩

theorem collect_first {f : Opt → Str → Out HRes} {g : Opt → Out Opt} {Good : Str → Prop} {code : Str → Int}
    (hf : ∀ o v r, f o v = .ok r → (Good v ∧ r.1 = Err.success) ∨ (¬ Good v ∧ r.1 = code v ∧ code v ≠ Err.success))
    {o : Opt} {x : Option Str} {r : HRes} (h : collect f g o x = .ok r) : ∃ t, x = some t ∧
      (((∀ v ∈ pieces t, Good v) ∧ r.1 = Err.success) ∨
      ∃ before p after, pieces t = before ++ p :: after ∧ (∀ v ∈ before, Good v) ∧ ¬ Good p ∧ r.1 = code p ∧ code p ≠ Err.success) := by
  unfold collect at h
  cases x with
  | none => simp at h
  | some t =>
    refine ⟨t, rfl, ?_⟩
    simp only at h
    obtain ⟨q, hq, h1⟩ := Out.bind_eq_ok h
    rw [storeParts_pieces] at hq
    rcases setAll_first hf _ hq with ⟨g1, g2⟩ | ⟨before, p, after, g1, g2, g3, g4, g5⟩
    · rw [if_neg (by simpa using g2)] at h1
      obtain ⟨o2, _, h2⟩ := Out.bind_eq_ok h1
      simp only [Out.ok.injEq] at h2; subst h2
      exact .inl ⟨g1, rfl⟩
    · rw [if_pos (by rw [g4]; exact g5)] at h1
      simp only [Out.ok.injEq] at h1; subst h1
      exact .inr ⟨before, p, after, g1, g2, g3, g4, g5⟩

theorem setValueInt_either (o : Opt) (v : Str) (r : HRes) (h : setValueInt o v = .ok r) :
    (TakesInts v ∧ r.1 = Err.success) ∨ (¬ TakesInts v ∧ r.1 = Err.invalidFormat ∧ Err.invalidFormat ≠ Err.success) := by
  unfold setValueInt at h
  split at h
  · rename_i hp
    simp only [Out.ok.injEq] at h; subst h
    refine .inr ⟨?_, rfl, by decide⟩
    rintro ⟨lo, hi, hh⟩
    rw [parseIntRange_iff.2 hh] at hp; cases hp
  · rename_i q hp
    obtain ⟨o1, _, h1⟩ := Out.bind_eq_ok h
    simp only [Out.ok.injEq] at h1; subst h1
    exact .inl ⟨⟨q.1, q.2, parseIntRange_iff.1 hp⟩, rfl⟩

/-- The code for a bad pair. -/
def pairCode (p : Str) : Int := if (61 : Byte) ∈ p then Err.invalidValue else Err.invalidFormat

theorem setKvPair_either {W : World} {vt : ValueType} (hvt : vt = .mapString ∨ vt = .mapInt ∨ vt = .mapFloat ∨ vt = .mapBool)
    (o : Opt) (v : Str) (r : HRes) (h : setKvPair (convOf W vt) o v = .ok r) :
    (TakesPair W vt v ∧ r.1 = Err.success) ∨ (¬ TakesPair W vt v ∧ r.1 = pairCode v ∧ pairCode v ≠ Err.success) := by
  have hcode : pairCode v ≠ Err.success := by unfold pairCode; split <;> decide
  unfold setKvPair at h
  split at h
  · rename_i hs
    have hs := (strchrSplit_none_iff 61 v).1 hs
    simp only [Out.ok.injEq] at h; subst h
    refine .inr ⟨?_, ?_, hcode⟩
    · rintro ⟨key, value, _, rfl, _⟩; exact hs (by simp)
    · unfold pairCode; rw [if_neg hs]
  · rename_i key value hs
    obtain ⟨h1, h2⟩ := (strchrSplit_some_iff 61 v key value).1 hs
    cases hc : convOf W vt value with
    | none =>
      rw [hc] at h
      simp only [Out.ok.injEq] at h; subst h
      refine .inr ⟨?_, ?_, hcode⟩
      · rintro ⟨k, w, y, hv, hk, hy⟩
        have : strchrSplit 61 v = some (k, w) := by rw [hv]; exact strchrSplit_pair 61 w k hk
        rw [hs] at this; cases this
        obtain ⟨_, st, h3, _⟩ := convOf_value hy
        rw [hc] at h3; cases h3
      · unfold pairCode; rw [if_pos (by rw [h1]; simp)]
    | some st =>
      rw [hc] at h
      obtain ⟨o1, _, h3⟩ := Out.bind_eq_ok h
      simp only [Out.ok.injEq] at h3; subst h3
      refine .inl ⟨?_, rfl⟩
      by_cases hy : ∃ y, TextValue W vt value y
      · obtain ⟨y, hy⟩ := hy
        exact ⟨key, value, y, by rw [h1]; simp, h2, hy⟩
      · rw [convOf_none hvt (fun y h => hy ⟨y, h⟩)] at hc; cases hc

theorem mapType_conv {W : World} {h : Handler} {vt : ValueType} (hm : h.mapType = some vt) (a : Argus) (o : Opt) (x : Option Str) :
    runHandler W a h o x = collect (setKvPair (convOf W vt)) (applyMapFlags W) o x ∧
      (vt = .mapString ∨ vt = .mapInt ∨ vt = .mapFloat ∨ vt = .mapBool) := by
  cases h <;> simp only [Handler.mapType, Option.some.injEq, reduceCtorEq] at hm <;> subst hm
  · exact ⟨rfl, .inl rfl⟩
  · exact ⟨rfl, .inr (.inl rfl)⟩
  · exact ⟨rfl, .inr (.inr (.inl rfl))⟩
  · exact ⟨rfl, .inr (.inr (.inr rfl))⟩

/-- A handler refuses with the status that the text deserves. -/
theorem runHandler_refuses {W : World} {a : Argus} {h : Handler} {o : Opt} {x : Option Str} {r : HRes} (ho : o.handler = some h)
    (hr : runHandler W a h o x = .ok r) (hs : r.1 ≠ Err.success) : HandlerRefuses W x o r.1 := by
  have maps : ∀ vt, h.mapType = some vt → HandlerRefuses W x o r.1 := by
    intro vt hm
    obtain ⟨e, hvt⟩ := mapType_conv (W := W) hm a o x
    rw [e] at hr
    obtain ⟨t, ht, hc | ⟨before, p, after, g1, g2, g3, g4, g5⟩⟩ := collect_first (setKvPair_either hvt) hr
    · exact absurd hc.2 hs
    · rw [g4]
      unfold pairCode
      by_cases hp : (61 : Byte) ∈ p
      · rw [if_pos hp]; exact .badValue h vt t p before after ho hm ht g1 g2 hp g3
      · rw [if_neg hp]; exact .noPair h vt t p before after ho hm ht g1 g2 hp
  have good : ∀ {f : Opt → Str → Out HRes} {g : Opt → Out Opt}, (∀ o v r, f o v = .ok r → r.1 = Err.success) →
      collect f g o x = .ok r → HandlerRefuses W x o r.1 := by
    intro f g hf hc
    obtain ⟨t, _, hc | ⟨_, _, _, _, _, g3, _⟩⟩ := collect_first (Good := fun _ => True) (code := fun _ => 0)
      (fun o v r h => .inl ⟨trivial, hf o v r h⟩) hc
    · exact absurd hc.2 hs
    · exact absurd trivial g3
  cases h with
  | flag => simp only [runHandler, Out.ok.injEq] at hr; subst hr; exact absurd rfl hs
  | string => simp only [runHandler, Out.ok.injEq] at hr; subst hr; exact absurd rfl hs
  | version => simp only [runHandler, Out.ok.injEq] at hr; subst hr; exact absurd rfl hs
  | int =>
    cases x with
    | none => simp [runHandler] at hr
    | some t => simp only [runHandler, Out.ok.injEq] at hr; subst hr; exact absurd rfl hs
  | float =>
    cases x with
    | none => simp [runHandler] at hr
    | some t => simp only [runHandler, Out.ok.injEq] at hr; subst hr; exact absurd rfl hs
  | help =>
    unfold runHandler at hr
    obtain ⟨t, _, h1⟩ := Out.bind_eq_ok hr
    simp only [Out.ok.injEq] at h1; subst h1; exact absurd rfl hs
  | bool =>
    unfold runHandler boolHandler at hr
    cases x with
    | none =>
      simp only [Out.ok.injEq] at hr; subst hr
      exact .bool ho (fun t h => by cases h)
    | some t =>
      simp only at hr
      cases hb : stringToBool t with
      | none =>
        rw [hb] at hr
        simp only [Out.ok.injEq] at hr; subst hr
        exact .bool ho (fun t' h => by cases h; exact stringToBool_none hb)
      | some b =>
        rw [hb] at hr
        simp only [Out.ok.injEq] at hr; subst hr; exact absurd rfl hs
  | arrayString =>
    refine good ?_ (show collect setValueString (applyArrayFlags W) o x = .ok r from hr)
    intro o v r h
    obtain ⟨o1, _, h1⟩ := Out.bind_eq_ok h
    simp only [Out.ok.injEq] at h1; subst h1; rfl
  | arrayFloat =>
    refine good ?_ (show collect (setValueFloat W) (applyArrayFlags W) o x = .ok r from hr)
    intro o v r h
    obtain ⟨o1, _, h1⟩ := Out.bind_eq_ok h
    simp only [Out.ok.injEq] at h1; subst h1; rfl
  | arrayInt =>
    obtain ⟨t, ht, hc | ⟨before, p, after, g1, g2, g3, g4, g5⟩⟩ := collect_first (code := fun _ => Err.invalidFormat) setValueInt_either
      (show collect setValueInt (applyArrayFlags W) o x = .ok r from hr)
    · exact absurd hc.2 hs
    · rw [g4]; exact .ints t p before after ho ht g1 g2 g3
  | mapString => exact maps _ rfl
  | mapInt => exact maps _ rfl
  | mapFloat => exact maps _ rfl
  | mapBool => exact maps _ rfl
  | variadicString =>
    unfold runHandler variadicNum at hr
    obtain ⟨o1, _, h1⟩ := Out.bind_eq_ok hr
    cases x with
    | none => simp at h1
    | some t =>
      simp only at h1
      obtain ⟨o2, _, h2⟩ := Out.bind_eq_ok h1
      obtain ⟨o3, _, h3⟩ := Out.bind_eq_ok h2
      simp only [Out.ok.injEq] at h3; subst h3; exact absurd rfl hs
  | variadicInt =>
    unfold runHandler variadicNum at hr
    obtain ⟨o1, _, h1⟩ := Out.bind_eq_ok hr
    cases x with
    | none => simp at h1
    | some t =>
      simp only at h1
      cases hc : variadicIntConv t with
      | none =>
        rw [hc] at h1
        simp only [Out.ok.injEq] at h1; subst h1
        exact .variadicInt t ho rfl (variadicInt_none hc)
      | some w =>
        rw [hc] at h1
        obtain ⟨o2, _, h2⟩ := Out.bind_eq_ok h1
        obtain ⟨o3, _, h3⟩ := Out.bind_eq_ok h2
        simp only [Out.ok.injEq] at h3; subst h3; exact absurd rfl hs
  | variadicFloat =>
    unfold runHandler variadicNum at hr
    obtain ⟨o1, _, h1⟩ := Out.bind_eq_ok hr
    cases x with
    | none => simp at h1
    | some t =>
      simp only at h1
      cases hc : variadicFloatConv W t with
      | none =>
        rw [hc] at h1
        simp only [Out.ok.injEq] at h1; subst h1
        exact .variadicFloat t ho rfl (variadicFloat_none hc)
      | some w =>
        rw [hc] at h1
        obtain ⟨o2, _, h2⟩ := Out.bind_eq_ok h1
        obtain ⟨o3, _, h3⟩ := Out.bind_eq_ok h2
        simp only [Out.ok.injEq] at h3; subst h3; exact absurd rfl hs
  | custom id =>
    simp only [runHandler, Out.ok.injEq] at hr; subst hr
    exact .custom id ho hs

/-- What a handler refuses it does not take. -/
theorem handlerRefuses_not_run {W : World} {x : Option Str} {o : Opt} {st : Int} (hf : HandlerRefuses W x o st) {a : Argus}
    {h : Handler} {r : HRes} (ho : o.handler = some h) (hr : runHandler W a h o x = .ok r) : r.1 ≠ Err.success := by
  have maps : ∀ (vt : ValueType) (t p : Str) (before after : List Str), h.mapType = some vt → x = some t →
      pieces t = before ++ p :: after → ¬ TakesPair W vt p → r.1 ≠ Err.success := by
    intro vt t p before after hm ht hp hn
    obtain ⟨e, hvt⟩ := mapType_conv (W := W) hm a o x
    rw [e] at hr
    obtain ⟨t', ht', hc | ⟨_, _, _, _, _, _, g4, g5⟩⟩ := collect_first (setKvPair_either hvt) hr
    · rw [ht] at ht'; cases ht'
      exact absurd (hc.1 p (by rw [hp]; simp)) hn
    · rw [g4]; exact g5
  cases hf with
  | bool h1 h2 =>
    rw [ho] at h1; cases h1
    unfold runHandler boolHandler at hr
    cases x with
    | none => simp only [Out.ok.injEq] at hr; subst hr; simp only; decide
    | some t =>
      obtain ⟨g1, g2⟩ := h2 t rfl
      simp only at hr
      cases hb : stringToBool t with
      | none => rw [hb] at hr; simp only [Out.ok.injEq] at hr; subst hr; simp only; decide
      | some b =>
        cases b with
        | true => exact absurd ((stringToBool_iff t).1.1 hb) g1
        | false => exact absurd ((stringToBool_iff t).2.1 hb) g2
  | ints t p before after h1 ht hp hb hn =>
    rw [ho] at h1; cases h1
    obtain ⟨t', ht', hc | ⟨_, _, _, _, _, _, g4, g5⟩⟩ := collect_first (code := fun _ => Err.invalidFormat) setValueInt_either
      (show collect setValueInt (applyArrayFlags W) o x = .ok r from hr)
    · rw [ht] at ht'; cases ht'
      exact absurd (hc.1 p (by rw [hp]; simp)) hn
    · rw [g4]; exact g5
  | noPair h' vt t p before after h1 hm ht hp hb hn =>
    rw [ho] at h1; cases h1
    refine maps vt t p before after hm ht hp ?_
    rintro ⟨k, v, y, rfl, _⟩; exact hn (by simp)
  | badValue h' vt t p before after h1 hm ht hp hb _ hn =>
    rw [ho] at h1; cases h1
    exact maps vt t p before after hm ht hp hn
  | variadicInt t h1 ht hn =>
    rw [ho] at h1; cases h1; subst ht
    unfold runHandler variadicNum at hr
    obtain ⟨o1, _, h1⟩ := Out.bind_eq_ok hr
    simp only at h1
    have hc : variadicIntConv t = none := by
      cases hc : variadicIntConv t with
      | none => rfl
      | some w =>
        exfalso
        unfold variadicIntConv at hc
        rcases strtoll_cases t with ⟨n, rest, h2, h3⟩ | ⟨_, h3⟩
        · rw [h3] at hc
          simp only at hc
          split at hc
          · cases hc
          · rename_i hh
            have : rest = [] := by
              cases rest with
              | nil => rfl
              | cons c s => exact absurd (.inl (by simp)) hh
            subst this
            exact hn n h2
        · rw [h3] at hc; simp at hc
    rw [hc] at h1
    simp only [Out.ok.injEq] at h1; subst h1; simp only; decide
  | variadicFloat t h1 ht hn =>
    rw [ho] at h1; cases h1; subst ht
    unfold runHandler variadicNum at hr
    obtain ⟨o1, _, h1⟩ := Out.bind_eq_ok hr
    simp only at h1
    have hc : variadicFloatConv W t = none := by
      unfold variadicFloatConv
      simp only
      rw [if_pos]
      rcases hn with rfl | hn
      · by_cases h0 : (W.strtod []).2 = 0
        · exact .inr h0
        · exact .inl (by simpa using h0)
      · exact .inl hn
    rw [hc] at h1
    simp only [Out.ok.injEq] at h1; subst h1; simp only; decide
  | custom id h1 hn =>
    rw [ho] at h1; cases h1
    simp only [runHandler, Out.ok.injEq] at hr; subst hr
    exact hn

theorem handlerRefuses_not_give {W : World} {x : Option Str} {o o' : Opt} {st : Int} (hf : HandlerRefuses W x o st)
    (hg : o.give W x = some o') : False := by
  unfold Opt.give at hg
  split at hg
  · cases hg
  · rename_i h hh
    split at hg
    · rename_i r hr
      have := handlerRefuses_not_run hf hh hr
      rw [if_neg this] at hg; cases hg
    · cases hg

theorem handlerRefuses_one {W : World} {x : Option Str} {o : Opt} {st st' : Int} (h : HandlerRefuses W x o st)
    (h' : HandlerRefuses W x o st') : st' = st := by
  have noPair_bad : ∀ {vt : ValueType} {p : Str}, (61 : Byte) ∉ p → ¬ TakesPair W vt p := by
    rintro vt p hn ⟨k, v, y, rfl, _⟩; exact hn (by simp)
  have other : ∀ {h1 h2 : Handler} {vt : ValueType}, o.handler = some h1 → o.handler = some h2 → h1.mapType = some vt →
      h2.mapType = none → False := by
    intro h1 h2 vt e1 e2 m1 m2
    rw [e1] at e2; cases e2; rw [m1] at m2; cases m2
  have first : ∀ {h1 h2 : Handler} {vt vt' : ValueType} {t t' p p' : Str} {b b' c c' : List Str}, o.handler = some h1 →
      o.handler = some h2 → h1.mapType = some vt → h2.mapType = some vt' → x = some t → x = some t' → pieces t = b ++ p :: c →
      pieces t' = b' ++ p' :: c' → (∀ q ∈ b, TakesPair W vt q) → (∀ q ∈ b', TakesPair W vt' q) → ¬ TakesPair W vt p →
      ¬ TakesPair W vt' p' → p = p' := by
    intro h1 h2 vt vt' t t' p p' b b' c c' e1 e2 m1 m2 x1 x2 s1 s2 g1 g2 n1 n2
    rw [e1] at e2; cases e2; rw [m1] at m2; cases m2; rw [x1] at x2; cases x2
    exact (first_bad_one s1 s2 g1 g2 n1 n2).2.1
  have diff : ∀ {h1 h2 : Handler}, o.handler = some h1 → o.handler = some h2 → h1 ≠ h2 → False := by
    intro h1 h2 e1 e2 n
    rw [e1] at e2; cases e2; exact n rfl
  cases h with
  | bool e1 _ =>
    cases h' with
    | bool => rfl
    | ints _ _ _ _ e2 => exact (diff e1 e2 (by simp)).elim
    | noPair _ _ _ _ _ _ e2 m2 => exact (other e2 e1 m2 rfl).elim
    | badValue _ _ _ _ _ _ e2 m2 => exact (other e2 e1 m2 rfl).elim
    | variadicInt _ e2 => exact (diff e1 e2 (by simp)).elim
    | variadicFloat _ e2 => exact (diff e1 e2 (by simp)).elim
    | custom _ e2 => exact (diff e1 e2 (by simp)).elim
  | ints _ _ _ _ e1 =>
    cases h' with
    | bool e2 => exact (diff e1 e2 (by simp)).elim
    | ints => rfl
    | noPair _ _ _ _ _ _ e2 m2 => exact (other e2 e1 m2 rfl).elim
    | badValue _ _ _ _ _ _ e2 m2 => exact (other e2 e1 m2 rfl).elim
    | variadicInt _ e2 => exact (diff e1 e2 (by simp)).elim
    | variadicFloat _ e2 => exact (diff e1 e2 (by simp)).elim
    | custom _ e2 => exact (diff e1 e2 (by simp)).elim
  | noPair _ _ _ _ _ _ e1 m1 x1 s1 g1 n1 =>
    cases h' with
    | bool e2 => exact (other e1 e2 m1 rfl).elim
    | ints _ _ _ _ e2 => exact (other e1 e2 m1 rfl).elim
    | noPair => rfl
    | badValue _ _ _ _ _ _ e2 m2 x2 s2 g2 i2 n2 =>
      have := first e1 e2 m1 m2 x1 x2 s1 s2 g1 g2 (noPair_bad n1) n2
      subst this; exact absurd i2 n1
    | variadicInt _ e2 => exact (other e1 e2 m1 rfl).elim
    | variadicFloat _ e2 => exact (other e1 e2 m1 rfl).elim
    | custom _ e2 => exact (other e1 e2 m1 rfl).elim
  | badValue _ _ _ _ _ _ e1 m1 x1 s1 g1 i1 n1 =>
    cases h' with
    | bool e2 => exact (other e1 e2 m1 rfl).elim
    | ints _ _ _ _ e2 => exact (other e1 e2 m1 rfl).elim
    | noPair _ _ _ _ _ _ e2 m2 x2 s2 g2 n2 =>
      have := first e1 e2 m1 m2 x1 x2 s1 s2 g1 g2 n1 (noPair_bad n2)
      subst this; exact absurd i1 n2
    | badValue => rfl
    | variadicInt _ e2 => exact (other e1 e2 m1 rfl).elim
    | variadicFloat _ e2 => exact (other e1 e2 m1 rfl).elim
    | custom _ e2 => exact (other e1 e2 m1 rfl).elim
  | variadicInt _ e1 =>
    cases h' with
    | bool e2 => exact (diff e1 e2 (by simp)).elim
    | ints _ _ _ _ e2 => exact (diff e1 e2 (by simp)).elim
    | noPair _ _ _ _ _ _ e2 m2 => exact (other e2 e1 m2 rfl).elim
    | badValue => rfl
    | variadicInt => rfl
    | variadicFloat => rfl
    | custom _ e2 => exact (diff e1 e2 (by simp)).elim
  | variadicFloat _ e1 =>
    cases h' with
    | bool e2 => exact (diff e1 e2 (by simp)).elim
    | ints _ _ _ _ e2 => exact (diff e1 e2 (by simp)).elim
    | noPair _ _ _ _ _ _ e2 m2 => exact (other e2 e1 m2 rfl).elim
    | badValue => rfl
    | variadicInt => rfl
    | variadicFloat => rfl
    | custom _ e2 => exact (diff e1 e2 (by simp)).elim
  | custom id e1 =>
    cases h' with
    | bool e2 => exact (diff e1 e2 (by simp)).elim
    | ints _ _ _ _ e2 => exact (diff e1 e2 (by simp)).elim
    | noPair _ _ _ _ _ _ e2 m2 => exact (other e2 e1 m2 rfl).elim
    | badValue _ _ _ _ _ _ e2 m2 => exact (other e2 e1 m2 rfl).elim
    | variadicInt _ e2 => exact (diff e1 e2 (by simp)).elim
    | variadicFloat _ e2 => exact (diff e1 e2 (by simp)).elim
    | custom _ e2 => rw [e1] at e2; cases e2; rfl

/-- A text stops the parse or is taken, not both. -/
theorem stopsAt_not_taken {W : World} {x : Option Str} {o o' : Opt} {st : Int} (h : StopsAt W x o st) (ht : TakesText W x o o') :
    False := by
  cases h with
  | noHandler h =>
    have := ht.handled
    unfold Opt.give at this
    rw [h] at this; cases this
  | validator before after v st _ h1 _ h3 h4 =>
    exact refusesText_unmet h4 (ht.validators v (by rw [h1]; simp) h3)
  | handler st _ h => exact handlerRefuses_not_give h ht.handled
  | exit _ _ _ h => rw [ht.goesOn] at h; cases h

theorem handlerRefuses_handler {W : World} {x : Option Str} {o : Opt} {st : Int} (h : HandlerRefuses W x o st) : o.handler ≠ none := by
  cases h <;> simp_all

theorem give_has_handler {W : World} {x : Option Str} {o o' : Opt} (h : o.give W x = some o') : o.handler ≠ none := by
  intro hn
  unfold Opt.give at h
  rw [hn] at h; cases h

theorem stopsAt_one {W : World} {x : Option Str} {o : Opt} {st st' : Int} (h : StopsAt W x o st) (h' : StopsAt W x o st') : st' = st := by
  have pre : ∀ {before after : List Validator} {v : Validator} {s : Int}, o.validators.getD [] = before ++ v :: after →
      v.order = .pre → RefusesText W x v.kind s → (∀ v ∈ o.validators.getD [], v.order = .pre → MeetsText W x v.kind) → False := by
    intro before after v s h1 h2 h3 h4
    exact refusesText_unmet h3 (h4 v (by rw [h1]; simp) h2)
  cases h with
  | noHandler h =>
    cases h' with
    | noHandler => rfl
    | validator _ _ _ _ h1 => exact absurd h h1
    | handler _ _ h1 => exact absurd h (handlerRefuses_handler h1)
    | exit _ _ h1 => exact absurd h (give_has_handler h1)
  | validator before after v st hh h1 h2 h3 h4 =>
    cases h' with
    | noHandler h => exact absurd h hh
    | validator before' after' v' st' _ h1' h2' h3' h4' =>
      have := (first_bad_one (Good := fun w : Validator => w.order = .pre → MeetsText W x w.kind) h1 h1' h2 h2'
        (fun h => refusesText_unmet h4 (h h3)) (fun h => refusesText_unmet h4' (h h3'))).2.1
      subst this
      exact refusesText_one h4 h4'
    | handler _ h5 => exact (pre h1 h3 h4 h5).elim
    | exit _ h5 => exact (pre h1 h3 h4 h5).elim
  | handler st h5 h6 =>
    cases h' with
    | noHandler h => exact absurd h (handlerRefuses_handler h6)
    | validator _ _ _ _ _ h1 _ h3 h4 => exact (pre h1 h3 h4 h5).elim
    | handler _ _ h6' => exact handlerRefuses_one h6 h6'
    | exit _ _ h7 => exact (handlerRefuses_not_give h6 h7).elim
  | exit _ h5 h7 =>
    cases h' with
    | noHandler h => exact absurd h (give_has_handler h7)
    | validator _ _ _ _ _ h1 _ h3 h4 => exact (pre h1 h3 h4 h5).elim
    | handler _ _ h6 => exact (handlerRefuses_not_give h6 h7).elim
    | exit => rfl

/-- The callbacks end with a status other than success exactly with the status that the text deserves. -/
theorem execCallbacks_stops {W : World} {a : Argus} {p : Ptr} {o : Opt} {x : Option Str} {r : Int × Argus} (ho : a.getOpt p = .ok o)
    (h : execCallbacks W a p x = .ok r) (hr : r.1 ≠ Err.success) : StopsAt W x o r.1 := by
  unfold execCallbacks at h
  rw [ho, Out.ok_bind] at h
  cases hh : o.handler with
  | none =>
    rw [hh] at h
    simp only [Out.ok.injEq] at h; subst h
    exact .noHandler hh
  | some hd =>
    rw [hh] at h
    simp only at h
    obtain ⟨q, hq, h1⟩ := Out.bind_eq_ok h
    by_cases hs : q.1 = Err.success
    · rw [if_neg (by simpa using hs)] at h1
      have hmet : ∀ v ∈ o.validators.getD [], v.order = .pre → MeetsText W x v.kind := by
        intro v hv hp
        exact runPreAll_success _ (show runPreAll W a x _ = .ok (Err.success, q.2) by rw [hq, ← hs]) v hv hp
      obtain ⟨r1, hr1, h2⟩ := Out.bind_eq_ok h1
      by_cases hs1 : r1.1 = Err.success
      · rw [if_neg (by simpa using hs1)] at h2
        simp only [Out.ok.injEq] at h2; subst h2
        have hfl : r1.2.1.markSet.flags = o.flags := (congrArg Opt.flags (runHandler_meta hr1) : r1.2.1.meta.flags = o.meta.flags)
        simp only at hr ⊢
        rw [hfl] at hr ⊢
        by_cases he : o.flags.has .exit = true
        · rw [if_pos he]
          obtain ⟨r', g1, g2, g3⟩ := runHandler_context (b := { tables := [] }) hr1
          refine .exit r1.2.1.markSet hmet ?_ he
          unfold Opt.give
          rw [hh]
          simp only
          rw [show runHandler W { tables := [] } hd o x = .ok r' from g1]
          simp only
          rw [if_pos (g2.trans hs1), g3]
        · rw [if_neg he] at hr; exact absurd rfl hr
      · rw [if_pos hs1] at h2
        simp only [Out.ok.injEq] at h2; subst h2
        exact .handler _ hmet (runHandler_refuses hh hr1 hs1)
    · rw [if_pos hs] at h1
      simp only [Out.ok.injEq] at h1; subst h1
      obtain ⟨before, v, after, g1, g2, g3, g4⟩ := runPreAll_refuses _ hq hs
      exact .validator before after v _ (by rw [hh]; simp) g1 g2 g3 g4

end Argus
