import Verif.Spec.Messages
import Verif.Lemmas.FrameApi

/-! The messages and the codes that Model/Parse records. -/

set_option autoImplicit false

namespace Argus

@[simp] theorem errorCodes_append : ∀ (x y : List Event), errorCodes (x ++ y) = errorCodes x ++ errorCodes y
  | [], _ => rfl
  | e :: x, y => by cases e <;> simp [errorCodes, errorCodes_append x y]

@[simp] theorem errorCodes_errors : ∀ (cs : List Int), errorCodes (cs.map .error) = cs
  | [] => rfl
  | c :: cs => by simp [errorCodes, errorCodes_errors cs]

/-- The messages `x` have the codes `cs`, and are defined under `P`. -/
structure Worded (P : Prop) (cs : List Int) (x : Out (List Message)) : Prop where
  codes : ∀ m, x = .ok m → m.map (·.1) = cs
  defined : P → ∃ m, x = .ok m

namespace Worded
variable {P Q : Prop} {cs cs' : List Int} {x y : Out (List Message)}

theorem ok {m : List Message} (h : m.map (·.1) = cs) : Worded P cs (.ok m) :=
  ⟨fun _ h1 => by cases h1; exact h, fun _ => ⟨m, rfl⟩⟩

theorem nil : Worded P [] (.ok []) := .ok rfl

theorem imp (h : Worded P cs x) (hp : Q → P) : Worded Q cs x := ⟨h.codes, fun q => h.defined (hp q)⟩

theorem eq (h : Worded P cs x) (he : cs = cs') : Worded P cs' x := he ▸ h

theorem named {o : Option Str} {f : Str → List Message} (hp : P → o ≠ none) (hf : ∀ n, (f n).map (·.1) = cs) :
    Worded P cs (do let n ← nameText o; .ok (f n)) := by
  cases o with
  | none => exact ⟨fun m h => by simp [nameText] at h, fun p => absurd rfl (hp p)⟩
  | some s => exact .ok (hf s)

theorem append (h : Worded P cs x) (h' : Worded P cs' y) :
    Worded P (cs ++ cs') (do let m ← x; let m2 ← y; .ok (m ++ m2)) := by
  constructor
  · intro m hm
    obtain ⟨m1, h1, h2⟩ := Out.bind_eq_ok hm
    obtain ⟨m2, h3, h4⟩ := Out.bind_eq_ok h2
    simp only [Out.ok.injEq] at h4; subst h4
    simp [h.codes _ h1, h'.codes _ h3]
  · intro p
    obtain ⟨m1, h1⟩ := h.defined p
    obtain ⟨m2, h2⟩ := h'.defined p
    exact ⟨m1 ++ m2, by rw [h1, h2]; rfl⟩

end Worded

/-! ### Handlers -/

/-- A storing step reports what the message function says. -/
def PartWorded (f : Opt → Str → Out HRes) (g : Str → Option Message) : Prop :=
  ∀ o s r, f o s = .ok r →
    (r.1 = Err.success ∧ r.2.2 = [] ∧ g s = none) ∨ (r.1 ≠ Err.success ∧ ∃ m, g s = some m ∧ r.2.2 = [.error m.1])

theorem setAll_worded {f : Opt → Str → Out HRes} {g : Str → Option Message} (hf : PartWorded f g) :
    ∀ (vs : List Str) {o : Opt} {r : HRes}, setAll f o vs = .ok r →
    (vs.findSome? g).toList.map (·.1) = errorCodes r.2.2
  | [], o, r, h => by simp only [setAll, Out.ok.injEq] at h; subst h; rfl
  | v :: vs, o, r, h => by
    unfold setAll at h
    obtain ⟨r1, h1, h2⟩ := Out.bind_eq_ok h
    rcases hf _ _ _ h1 with ⟨e1, e2, e3⟩ | ⟨e1, m, e2, e3⟩
    · rw [if_neg (by simp [e1])] at h2
      obtain ⟨r2, h3, h4⟩ := Out.bind_eq_ok h2
      simp only [Out.ok.injEq] at h4; subst h4
      simp only [List.findSome?_cons, e3, e2, List.nil_append]
      exact setAll_worded hf vs h3
    · rw [if_pos e1] at h2
      simp only [Out.ok.injEq] at h2; subst h2
      simp [e2, e3, errorCodes]

theorem collect_worded {P : Prop} {f : Opt → Str → Out HRes} {fl : Opt → Out Opt} {g : Str → Option Message}
    (hf : PartWorded f g) {o : Opt} {arg : Option Str} {r : HRes} (h : collect f fl o arg = .ok r) :
    Worded P (errorCodes r.2.2) (collectMessages g arg) := by
  unfold collect at h
  split at h
  · simp at h
  · rename_i value
    obtain ⟨r1, h1, h2⟩ := Out.bind_eq_ok h
    have hm : (partsMessages g value).map (·.1) = errorCodes r1.2.2 := by
      unfold storeParts at h1
      unfold partsMessages
      split at h1
      · rename_i hc; rw [if_pos hc]; exact setAll_worded hf _ h1
      · rename_i hc
        rw [if_neg hc]
        rcases hf _ _ _ h1 with ⟨e1, e2, e3⟩ | ⟨e1, m, e2, e3⟩
        · simp [e2, e3, errorCodes]
        · simp [e2, e3, errorCodes]
    split at h2
    · simp only [Out.ok.injEq] at h2; subst h2; exact .ok hm
    · obtain ⟨o2, h3, h4⟩ := Out.bind_eq_ok h2
      simp only [Out.ok.injEq] at h4; subst h4; exact .ok hm

theorem setValueInt_worded : PartWorded setValueInt intPartMessage := by
  intro o s r h
  unfold setValueInt at h
  unfold intPartMessage
  split at h
  · rename_i hp
    simp only [Out.ok.injEq] at h; subst h
    exact .inr ⟨by simp only; decide, _, by rw [hp]; exact if_neg (by decide), rfl⟩
  · rename_i hp
    obtain ⟨o1, h1, h2⟩ := Out.bind_eq_ok h
    simp only [Out.ok.injEq] at h2; subst h2
    exact .inl ⟨rfl, rfl, by rw [hp]; rfl⟩

theorem setValueString_worded : PartWorded setValueString (fun _ => none) := by
  intro o s r h
  obtain ⟨o1, h1, h2⟩ := Out.bind_eq_ok h
  simp only [Out.ok.injEq] at h2; subst h2; exact .inl ⟨rfl, rfl, rfl⟩

theorem setValueFloat_worded (W : World) : PartWorded (setValueFloat W) (fun _ => none) := by
  intro o s r h
  obtain ⟨o1, h1, h2⟩ := Out.bind_eq_ok h
  simp only [Out.ok.injEq] at h2; subst h2; exact .inl ⟨rfl, rfl, rfl⟩

theorem setKvPair_worded (conv : Str → Option MapStore) (what tail : Str) :
    PartWorded (setKvPair conv) (pairMessage conv what tail) := by
  intro o s r h
  unfold setKvPair at h
  unfold pairMessage
  split at h
  · rename_i hp
    simp only [Out.ok.injEq] at h; subst h
    exact .inr ⟨by simp only; decide, _, by rw [hp], rfl⟩
  · rename_i key value hp
    simp only [hp]
    split at h
    · rename_i hv
      simp only [Out.ok.injEq] at h; subst h
      refine .inr ⟨by simp only; decide, _, by rw [hv]; rfl, rfl⟩
    · rename_i st hv
      obtain ⟨o1, h1, h2⟩ := Out.bind_eq_ok h
      simp only [Out.ok.injEq] at h2; subst h2
      exact .inl ⟨rfl, rfl, by rw [hv]; rfl⟩

theorem variadicNum_worded {P : Prop} {W : World} {conv : Str → Option Word} {o : Opt} {arg : Option Str} {r : HRes}
    {what : Str} (hp : P → o.name ≠ none) (h : variadicNum W conv o arg = .ok r) :
    Worded P (errorCodes r.2.2) (variadicMessages conv what o arg) := by
  unfold variadicNum at h
  unfold variadicMessages
  obtain ⟨o1, h1, h2⟩ := Out.bind_eq_ok h
  split at h2
  · simp at h2
  · simp only
    split at h2
    · rename_i hv
      simp only [Out.ok.injEq] at h2; subst h2
      rw [hv]
      exact .named hp (fun n => rfl)
    · rename_i w hv
      obtain ⟨o2, h3, h4⟩ := Out.bind_eq_ok h2
      obtain ⟨o3, h5, h6⟩ := Out.bind_eq_ok h4
      simp only [Out.ok.injEq] at h6; subst h6
      rw [hv]; exact .nil

theorem runHandler_worded {P : Prop} {W : World} {M : Wording} {a : Argus} {h : Handler} {o : Opt} {arg : Option Str}
    {r : HRes} (hp : P → o.name ≠ none) (hr : runHandler W a h o arg = .ok r) :
    Worded P (errorCodes r.2.2) (handlerMessages W M h o arg) := by
  cases h with
  | flag => simp only [runHandler, Out.ok.injEq] at hr; subst hr; exact .nil
  | bool =>
    simp only [runHandler, boolHandler] at hr
    simp only [handlerMessages, boolMessages]
    split at hr
    · simp only [Out.ok.injEq] at hr; subst hr
      exact .named hp (fun n => rfl)
    · simp only
      split at hr
      · rename_i hs
        simp only [Out.ok.injEq] at hr; subst hr
        rw [hs]; exact .ok rfl
      · rename_i b hs
        simp only [Out.ok.injEq] at hr; subst hr
        rw [hs]; exact .nil
  | string => simp only [runHandler, Out.ok.injEq] at hr; subst hr; exact .nil
  | int =>
    simp only [runHandler] at hr; split at hr
    · simp at hr
    · simp only [Out.ok.injEq] at hr; subst hr; exact .nil
  | float =>
    simp only [runHandler] at hr; split at hr
    · simp at hr
    · simp only [Out.ok.injEq] at hr; subst hr; exact .nil
  | help =>
    simp only [runHandler] at hr
    obtain ⟨t, _, h2⟩ := Out.bind_eq_ok hr
    simp only [Out.ok.injEq] at h2; subst h2; exact .nil
  | version => simp only [runHandler, Out.ok.injEq] at hr; subst hr; exact .nil
  | arrayString => exact collect_worded setValueString_worded hr
  | arrayInt => exact collect_worded setValueInt_worded hr
  | arrayFloat => exact collect_worded (setValueFloat_worded W) hr
  | mapString => exact collect_worded (setKvPair_worded _ _ _) hr
  | mapInt => exact collect_worded (setKvPair_worded _ _ _) hr
  | mapFloat => exact collect_worded (setKvPair_worded _ _ _) hr
  | mapBool => exact collect_worded (setKvPair_worded _ _ _) hr
  | variadicString => simp only [runHandler] at hr; exact variadicNum_worded hp hr
  | variadicInt => simp only [runHandler] at hr; exact variadicNum_worded hp hr
  | variadicFloat => simp only [runHandler] at hr; exact variadicNum_worded hp hr
  | custom id =>
    simp only [runHandler, Out.ok.injEq] at hr; subst hr
    refine .ok ?_
    rw [List.map_map, errorCodes_errors]
    show List.map (fun c => c) _ = _
    simp

/-! ### Validators -/

theorem custom_worded {P : Prop} {c : Option Int} {s : Str} : Worded P c.toList (.ok (c.toList.map fun c => (c, s))) := by
  refine .ok ?_
  cases c <;> rfl

theorem runPre_worded {W : World} {M : Wording} {k : VKind} {arg : Option Str} {r : VRes} (h : runPre W k arg = .ok r) :
    Worded W.NullRefused r.2.toList (preMessages W M k arg) := by
  cases k with
  | regex p hint =>
    simp only [runPre, Out.ok.injEq] at h; subst h
    simp only [preMessages]
    unfold regexValidator regexMessages
    by_cases ha : W.regexAvailable = false
    · rw [if_pos ha, if_pos ha]; exact .ok rfl
    · rw [if_neg ha, if_neg ha]
      cases p with
      | none => exact .ok rfl
      | some p =>
        simp only
        cases hm : W.regex p arg with
        | isMatch => exact .nil
        | noMatch =>
          simp only
          constructor
          · intro m h
            obtain ⟨v, _, h1⟩ := Out.bind_eq_ok h
            split at h1 <;> (simp only [Out.ok.injEq] at h1; subst h1; rfl)
          · intro hw
            cases arg with
            | none => exact absurd hm (hw (by simpa using ha) p)
            | some v =>
              by_cases hh : hint.getD [] ≠ []
              · exact ⟨_, if_pos hh⟩
              · exact ⟨_, if_neg hh⟩
        | compileError => exact .ok rfl
        | otherError => exact .ok rfl
  | custom id => simp only [runPre, Out.ok.injEq] at h; subst h; exact custom_worded
  | _ => simp [runPre] at h

theorem runPost_worded {P : Prop} {W : World} {M : Wording} {k : VKind} {o : Opt} {r : VRes} (h : runPost W k o = .ok r) :
    Worded P r.2.toList (postMessages W M k o) := by
  cases k with
  | custom id => simp only [runPost, Out.ok.injEq] at h; subst h; exact custom_worded
  | regex p hint => simp [runPost] at h
  | range mn mx =>
    simp only [runPost, rangeValidator] at h
    simp only [postMessages, rangeMessages]
    split at h
    · rename_i hc; rw [if_pos hc]; simp only [Out.ok.injEq] at h; subst h; exact .ok rfl
    · rename_i hc; rw [if_neg hc]
      obtain ⟨v, hv, h1⟩ := Out.bind_eq_ok h
      rw [hv]
      simp only [Out.ok_bind]
      split at h1
      · rename_i hc; rw [if_pos hc]; simp only [Out.ok.injEq] at h1; subst h1; exact .ok rfl
      · rename_i hc; rw [if_neg hc]; simp only [Out.ok.injEq] at h1; subst h1; exact .nil
  | length mn mx =>
    simp only [runPost, lengthValidator] at h
    simp only [postMessages, lengthMessages]
    obtain ⟨v, hv, h1⟩ := Out.bind_eq_ok h
    rw [hv]
    simp only [Out.ok_bind]
    cases v with
    | none => simp only [Out.ok.injEq] at h1; subst h1; exact .ok rfl
    | some s =>
      simp only at h1 ⊢
      split at h1
      · rename_i hc; rw [if_pos hc]; simp only [Out.ok.injEq] at h1; subst h1; exact .ok rfl
      · rename_i hc; rw [if_neg hc]
        split at h1
        · rename_i hc; rw [if_pos hc]; simp only [Out.ok.injEq] at h1; subst h1; exact .ok rfl
        · rename_i hc; rw [if_neg hc]
          split at h1
          · rename_i hc; rw [if_pos hc]; simp only [Out.ok.injEq] at h1; subst h1; exact .ok rfl
          · rename_i hc; rw [if_neg hc]; simp only [Out.ok.injEq] at h1; subst h1; exact .nil
  | count mn mx =>
    simp only [runPost, countValidator, Out.ok.injEq] at h; subst h
    simp only [postMessages, countMessages]
    refine .ok ?_
    repeat' split
    all_goals rfl
  | choiceStr cs =>
    simp only [runPost, choicesString] at h
    simp only [postMessages, choiceMessages]
    obtain ⟨v, hv, h1⟩ := Out.bind_eq_ok h
    rw [hv]
    simp only [Out.ok_bind]
    cases v with
    | none => simp at h1
    | some s =>
      simp only at h1 ⊢
      split at h1
      · rename_i hc; rw [if_pos hc]; simp only [Out.ok.injEq] at h1; subst h1; exact .nil
      · rename_i hc; rw [if_neg hc]; simp only [Out.ok.injEq] at h1; subst h1; exact .ok rfl
  | choiceInt cs =>
    simp only [runPost, choicesInt] at h
    simp only [postMessages, choiceMessages]
    obtain ⟨v, hv, h1⟩ := Out.bind_eq_ok h
    rw [hv]
    simp only [Out.ok_bind]
    split at h1
    · rename_i hc; rw [if_pos hc]; simp only [Out.ok.injEq] at h1; subst h1; exact .nil
    · rename_i hc; rw [if_neg hc]; simp only [Out.ok.injEq] at h1; subst h1; exact .ok rfl
  | choiceFloat cs =>
    simp only [runPost, choicesFloat] at h
    simp only [postMessages, choiceMessages]
    obtain ⟨v, hv, h1⟩ := Out.bind_eq_ok h
    rw [hv]
    simp only [Out.ok_bind]
    split at h1
    · rename_i hc; rw [if_pos hc]; simp only [Out.ok.injEq] at h1; subst h1; exact .nil
    · rename_i hc; rw [if_neg hc]; simp only [Out.ok.injEq] at h1; subst h1; exact .ok rfl

end Argus
