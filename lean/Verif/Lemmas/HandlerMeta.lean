import Verif.Lemmas.State

/-! Handlers only write the value fields of their option. -/

set_option autoImplicit false

namespace Argus

theorem adjustArray_meta {o o' : Opt} (h : adjustArray o = .ok o') : o'.meta = o.meta := by
  unfold adjustArray at h
  repeat' split at h
  all_goals first | (simp at h; done) | (simp only [Out.ok.injEq] at h; subst h; rfl)

theorem adjustMap_meta {o o' : Opt} (h : adjustMap o = .ok o') : o'.meta = o.meta := by
  unfold adjustMap at h
  repeat' split at h
  all_goals first | (simp at h; done) | (simp only [Out.ok.injEq] at h; subst h; rfl)

theorem storeCell_meta {o o' : Opt} {w : Word} (h : storeCell o w = .ok o') :
    o'.meta = o.meta := by
  unfold storeCell at h
  split at h
  · obtain ⟨c, _, h2⟩ := Out.bind_eq_ok h
    simp only [Out.pure_eq, Out.ok.injEq] at h2
    subst h2; rfl
  · simp at h

theorem pushCell_meta {o o' : Opt} {w : Word} (h : pushCell o w = .ok o') : o'.meta = o.meta := by
  unfold pushCell at h
  obtain ⟨o1, h1, h2⟩ := Out.bind_eq_ok h
  rw [storeCell_meta h2, adjustArray_meta h1]

theorem addRangeLoop_meta : ∀ (n : Nat) (i : Int) {o o' : Opt}, addRangeLoop n i o = .ok o' →
    o'.meta = o.meta
  | 0, _, o, o', h => by simp only [addRangeLoop, Out.ok.injEq] at h; rw [h]
  | n + 1, i, o, o', h => by
    unfold addRangeLoop at h
    obtain ⟨o1, h1, h2⟩ := Out.bind_eq_ok h
    rw [addRangeLoop_meta n _ h2, pushCell_meta h1]

theorem setPair_meta {o o' : Opt} {k : Str} {f : Word → Word} {w : Word}
    (h : setPair o k f w = .ok o') : o'.meta = o.meta := by
  unfold setPair at h
  obtain ⟨i, _, h2⟩ := Out.bind_eq_ok h
  split at h2
  · split at h2
    · simp only [Out.pure_eq, Out.ok.injEq] at h2; subst h2; rfl
    · simp at h2
  · obtain ⟨o1, h3, h4⟩ := Out.bind_eq_ok h2
    have := adjustMap_meta h3
    repeat' split at h4
    all_goals first
      | (simp at h4; done)
      | (simp only [Out.pure_eq, Out.ok.injEq] at h4; subst h4; rw [← this]; rfl)

theorem applySorted_meta {W : World} {k : CellKind} {o o' : Opt} (h : applySorted W k o = .ok o') :
    o'.meta = o.meta := by
  unfold applySorted at h
  split at h
  · obtain ⟨c, _, h3⟩ := Out.bind_eq_ok h
    simp only [Out.ok.injEq] at h3; subst h3; rfl
  · simp only [Out.ok.injEq] at h; rw [h]

theorem applyUnique_meta {k : CellKind} {o o' : Opt} (h : applyUnique k o = .ok o') :
    o'.meta = o.meta := by
  unfold applyUnique at h
  split at h
  · obtain ⟨c, _, h3⟩ := Out.bind_eq_ok h
    simp only [Out.ok.injEq] at h3; subst h3; rfl
  · simp only [Out.ok.injEq] at h; rw [h]

theorem applyArrayFlags_meta {W : World} {o o' : Opt} (h : applyArrayFlags W o = .ok o') :
    o'.meta = o.meta := by
  unfold applyArrayFlags at h
  split at h
  · simp only [Out.ok.injEq] at h; rw [h]
  · split at h
    · simp only [Out.ok.injEq] at h; rw [h]
    · obtain ⟨o1, h1, h2⟩ := Out.bind_eq_ok h
      rw [applyUnique_meta h2, applySorted_meta h1]

theorem applyUniqueValue_meta {o o' : Opt} (h : applyUniqueValue o = .ok o') :
    o'.meta = o.meta := by
  unfold applyUniqueValue at h
  split at h
  · obtain ⟨c, _, h3⟩ := Out.bind_eq_ok h
    repeat' split at h3
    all_goals first
      | (simp at h3; done)
      | (simp only [Out.ok.injEq] at h3; subst h3; rfl)
  · simp only [Out.ok.injEq] at h; rw [h]

theorem applyMapSort_meta {W : World} {o o' : Opt} (h : applyMapSort W o = .ok o') :
    o'.meta = o.meta := by
  unfold applyMapSort at h
  split at h
  · obtain ⟨c, _, h3⟩ := Out.bind_eq_ok h
    simp only [Out.ok.injEq] at h3; subst h3; rfl
  · split at h
    · split at h
      · simp only [Out.ok.injEq] at h; rw [h]
      · obtain ⟨c, _, h3⟩ := Out.bind_eq_ok h
        split at h3
        · simp only [Out.ok.injEq] at h3; subst h3; rfl
        · simp at h3
    · simp only [Out.ok.injEq] at h; rw [h]

theorem applyMapFlags_meta {W : World} {o o' : Opt} (h : applyMapFlags W o = .ok o') :
    o'.meta = o.meta := by
  unfold applyMapFlags at h
  split at h
  · simp only [Out.ok.injEq] at h; rw [h]
  · obtain ⟨o1, h1, h2⟩ := Out.bind_eq_ok h
    rw [applyMapSort_meta h2, applyUniqueValue_meta h1]

/-- A storing step keeps metadata. -/
def StoreMeta (f : Opt → Str → Out HRes) : Prop :=
  ∀ o s r, f o s = .ok r → r.2.1.meta = o.meta

theorem setValueInt_meta : StoreMeta setValueInt := by
  intro o s r h
  unfold setValueInt addRange at h
  split at h
  · simp only [Out.ok.injEq] at h; subst h; rfl
  · obtain ⟨o1, h1, h2⟩ := Out.bind_eq_ok h
    simp only [Out.ok.injEq] at h2; subst h2
    obtain ⟨o2, h3, h4⟩ := Out.bind_eq_ok h1
    split at h4
    · simp at h4
    · simp only [Out.ok.injEq] at h4; subst h4; exact addRangeLoop_meta _ _ h3

theorem setValueString_meta : StoreMeta setValueString := by
  intro o s r h
  obtain ⟨o1, h1, h2⟩ := Out.bind_eq_ok h
  simp only [Out.ok.injEq] at h2; subst h2; exact pushCell_meta h1

theorem setValueFloat_meta (W : World) : StoreMeta (setValueFloat W) := by
  intro o s r h
  obtain ⟨o1, h1, h2⟩ := Out.bind_eq_ok h
  simp only [Out.ok.injEq] at h2; subst h2; exact pushCell_meta h1

theorem setKvPair_meta (conv : Str → Option MapStore) : StoreMeta (setKvPair conv) := by
  intro o s r h
  unfold setKvPair at h
  split at h
  · simp only [Out.ok.injEq] at h; subst h; rfl
  · split at h
    · simp only [Out.ok.injEq] at h; subst h; rfl
    · obtain ⟨o1, h1, h2⟩ := Out.bind_eq_ok h
      simp only [Out.ok.injEq] at h2; subst h2; exact setPair_meta h1

theorem setAll_meta {f : Opt → Str → Out HRes} (hf : StoreMeta f) : ∀ (vs : List Str) {o : Opt}
    {r : HRes}, setAll f o vs = .ok r → r.2.1.meta = o.meta
  | [], o, r, h => by simp only [setAll, Out.ok.injEq] at h; subst h; rfl
  | v :: vs, o, r, h => by
    unfold setAll at h
    obtain ⟨r1, h1, h2⟩ := Out.bind_eq_ok h
    have hm := hf _ _ _ h1
    split at h2
    · simp only [Out.ok.injEq] at h2; subst h2; exact hm
    · obtain ⟨r2, h3, h4⟩ := Out.bind_eq_ok h2
      simp only [Out.ok.injEq] at h4; subst h4
      have := setAll_meta hf vs h3
      rw [hm] at this; exact this

theorem collect_meta {f : Opt → Str → Out HRes} {fl : Opt → Out Opt} (hf : StoreMeta f)
    (hfl : ∀ o o', fl o = .ok o' → o'.meta = o.meta) {o : Opt} {arg : Option Str} {r : HRes}
    (h : collect f fl o arg = .ok r) : r.2.1.meta = o.meta := by
  unfold collect at h
  split at h
  · simp at h
  · obtain ⟨r1, h1, h2⟩ := Out.bind_eq_ok h
    have hm : r1.2.1.meta = o.meta := by
      unfold storeParts at h1
      split at h1
      · exact setAll_meta hf _ h1
      · exact hf _ _ _ h1
    split at h2
    · simp only [Out.ok.injEq] at h2; subst h2; exact hm
    · obtain ⟨o2, h3, h4⟩ := Out.bind_eq_ok h2
      simp only [Out.ok.injEq] at h4; subst h4
      rw [← hm, ← hfl _ _ h3]; rfl

theorem variadicNum_meta {W : World} {conv : Str → Option Word} {o : Opt} {arg : Option Str}
    {r : HRes} (h : variadicNum W conv o arg = .ok r) : r.2.1.meta = o.meta := by
  unfold variadicNum at h
  obtain ⟨o1, h1, h2⟩ := Out.bind_eq_ok h
  have hm := adjustArray_meta h1
  split at h2
  · simp at h2
  · split at h2
    · simp only [Out.ok.injEq] at h2; subst h2; exact hm
    · obtain ⟨o2, h3, h4⟩ := Out.bind_eq_ok h2
      obtain ⟨o3, h5, h6⟩ := Out.bind_eq_ok h4
      simp only [Out.ok.injEq] at h6; subst h6
      rw [← hm, ← storeCell_meta h3, ← applyArrayFlags_meta h5]; rfl

theorem setBool_meta (o : Opt) (b : Bool) : (o.setBool b).meta = o.meta := by
  unfold Opt.setBool; split <;> rfl

theorem runHandler_meta {W : World} {a : Argus} {h : Handler} {o : Opt} {arg : Option Str}
    {r : HRes} (hr : runHandler W a h o arg = .ok r) : r.2.1.meta = o.meta := by
  cases h with
  | flag => simp only [runHandler, Out.ok.injEq] at hr; subst hr; exact setBool_meta o true
  | bool =>
    simp only [runHandler, boolHandler] at hr
    repeat' split at hr
    all_goals (simp only [Out.ok.injEq] at hr; subst hr)
    · rfl
    · rfl
    · exact setBool_meta o _
  | string => simp only [runHandler, Out.ok.injEq] at hr; subst hr; rfl
  | int =>
    simp only [runHandler] at hr; split at hr
    · simp at hr
    · simp only [Out.ok.injEq] at hr; subst hr; rfl
  | float =>
    simp only [runHandler] at hr; split at hr
    · simp at hr
    · simp only [Out.ok.injEq] at hr; subst hr; rfl
  | help =>
    simp only [runHandler] at hr
    obtain ⟨t, _, h2⟩ := Out.bind_eq_ok hr
    simp only [Out.ok.injEq] at h2; subst h2; rfl
  | version => simp only [runHandler, Out.ok.injEq] at hr; subst hr; rfl
  | arrayString => exact collect_meta setValueString_meta (fun _ _ => applyArrayFlags_meta) hr
  | arrayInt => exact collect_meta setValueInt_meta (fun _ _ => applyArrayFlags_meta) hr
  | arrayFloat => exact collect_meta (setValueFloat_meta W) (fun _ _ => applyArrayFlags_meta) hr
  | mapString => exact collect_meta (setKvPair_meta _) (fun _ _ => applyMapFlags_meta) hr
  | mapInt => exact collect_meta (setKvPair_meta _) (fun _ _ => applyMapFlags_meta) hr
  | mapFloat => exact collect_meta (setKvPair_meta _) (fun _ _ => applyMapFlags_meta) hr
  | mapBool => exact collect_meta (setKvPair_meta _) (fun _ _ => applyMapFlags_meta) hr
  | variadicString => simp only [runHandler] at hr; exact variadicNum_meta hr
  | variadicInt => simp only [runHandler] at hr; exact variadicNum_meta hr
  | variadicFloat => simp only [runHandler] at hr; exact variadicNum_meta hr
  | custom id => simp only [runHandler, Out.ok.injEq] at hr; subst hr; rfl

end Argus
