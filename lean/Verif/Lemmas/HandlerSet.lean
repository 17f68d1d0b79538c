import Verif.Lemmas.State

/-! No handler marks its option as set: execute_callbacks.c does. With `custom` handlers by the modelled assumption. -/

set_option autoImplicit false

namespace Argus

theorem adjustArray_set {o o' : Opt} (h : adjustArray o = .ok o') : o'.isSet = o.isSet := by
  unfold adjustArray at h
  repeat' split at h
  all_goals first | (simp at h; done) | (simp only [Out.ok.injEq] at h; subst h; rfl)

theorem adjustMap_set {o o' : Opt} (h : adjustMap o = .ok o') : o'.isSet = o.isSet := by
  unfold adjustMap at h
  repeat' split at h
  all_goals first | (simp at h; done) | (simp only [Out.ok.injEq] at h; subst h; rfl)

theorem storeCell_set {o o' : Opt} {w : Word} (h : storeCell o w = .ok o') :
    o'.isSet = o.isSet := by
  unfold storeCell at h
  split at h
  · obtain ⟨c, _, h2⟩ := Out.bind_eq_ok h
    simp only [Out.pure_eq, Out.ok.injEq] at h2
    subst h2; rfl
  · simp at h

theorem pushCell_set {o o' : Opt} {w : Word} (h : pushCell o w = .ok o') : o'.isSet = o.isSet := by
  unfold pushCell at h
  obtain ⟨o1, h1, h2⟩ := Out.bind_eq_ok h
  rw [storeCell_set h2, adjustArray_set h1]

theorem addRangeLoop_set : ∀ (n : Nat) (i : Int) {o o' : Opt}, addRangeLoop n i o = .ok o' →
    o'.isSet = o.isSet
  | 0, _, o, o', h => by simp only [addRangeLoop, Out.ok.injEq] at h; rw [h]
  | n + 1, i, o, o', h => by
    unfold addRangeLoop at h
    obtain ⟨o1, h1, h2⟩ := Out.bind_eq_ok h
    rw [addRangeLoop_set n _ h2, pushCell_set h1]

theorem setPair_set {o o' : Opt} {k : Str} {f : Word → Word} {w : Word}
    (h : setPair o k f w = .ok o') : o'.isSet = o.isSet := by
  unfold setPair at h
  obtain ⟨i, _, h2⟩ := Out.bind_eq_ok h
  split at h2
  · split at h2
    · simp only [Out.pure_eq, Out.ok.injEq] at h2; subst h2; rfl
    · simp at h2
  · obtain ⟨o1, h3, h4⟩ := Out.bind_eq_ok h2
    have := adjustMap_set h3
    repeat' split at h4
    all_goals first
      | (simp at h4; done)
      | (simp only [Out.pure_eq, Out.ok.injEq] at h4; subst h4; rw [← this])

theorem applySorted_set {W : World} {k : CellKind} {o o' : Opt} (h : applySorted W k o = .ok o') :
    o'.isSet = o.isSet := by
  unfold applySorted at h
  split at h
  · obtain ⟨c, _, h3⟩ := Out.bind_eq_ok h
    simp only [Out.ok.injEq] at h3; subst h3; rfl
  · simp only [Out.ok.injEq] at h; rw [h]

theorem applyUnique_set {k : CellKind} {o o' : Opt} (h : applyUnique k o = .ok o') :
    o'.isSet = o.isSet := by
  unfold applyUnique at h
  split at h
  · obtain ⟨c, _, h3⟩ := Out.bind_eq_ok h
    simp only [Out.ok.injEq] at h3; subst h3; rfl
  · simp only [Out.ok.injEq] at h; rw [h]

theorem applyArrayFlags_set {W : World} {o o' : Opt} (h : applyArrayFlags W o = .ok o') :
    o'.isSet = o.isSet := by
  unfold applyArrayFlags at h
  split at h
  · simp only [Out.ok.injEq] at h; rw [h]
  · split at h
    · simp only [Out.ok.injEq] at h; rw [h]
    · obtain ⟨o1, h1, h2⟩ := Out.bind_eq_ok h
      rw [applyUnique_set h2, applySorted_set h1]

theorem applyUniqueValue_set {o o' : Opt} (h : applyUniqueValue o = .ok o') :
    o'.isSet = o.isSet := by
  unfold applyUniqueValue at h
  split at h
  · obtain ⟨c, _, h3⟩ := Out.bind_eq_ok h
    repeat' split at h3
    all_goals first
      | (simp at h3; done)
      | (simp only [Out.ok.injEq] at h3; subst h3; rfl)
  · simp only [Out.ok.injEq] at h; rw [h]

theorem applyMapSort_set {W : World} {o o' : Opt} (h : applyMapSort W o = .ok o') :
    o'.isSet = o.isSet := by
  unfold applyMapSort at h
  split at h
  · obtain ⟨c, _, h3⟩ := Out.bind_eq_ok h
    simp only [Out.ok.injEq] at h3; subst h3; rfl
  · split at h
    · split at h
      · simp only [Out.ok.injEq] at h; rw [h]
      · obtain ⟨c, _, h3⟩ := Out.bind_eq_ok h
        split at h3
        · simp only [Out.ok.injEq] at h3; subst h3; rfl
        · simp at h3
    · simp only [Out.ok.injEq] at h; rw [h]

theorem applyMapFlags_set {W : World} {o o' : Opt} (h : applyMapFlags W o = .ok o') :
    o'.isSet = o.isSet := by
  unfold applyMapFlags at h
  split at h
  · simp only [Out.ok.injEq] at h; rw [h]
  · obtain ⟨o1, h1, h2⟩ := Out.bind_eq_ok h
    rw [applyMapSort_set h2, applyUniqueValue_set h1]

/-- A storing step keeps the set mark. -/
def StoreSet (f : Opt → Str → Out HRes) : Prop :=
  ∀ o s r, f o s = .ok r → r.2.1.isSet = o.isSet

theorem setValueInt_set : StoreSet setValueInt := by
  intro o s r h
  unfold setValueInt addRange at h
  split at h
  · simp only [Out.ok.injEq] at h; subst h; rfl
  · obtain ⟨o1, h1, h2⟩ := Out.bind_eq_ok h
    simp only [Out.ok.injEq] at h2; subst h2
    obtain ⟨o2, h3, h4⟩ := Out.bind_eq_ok h1
    split at h4
    · simp at h4
    · simp only [Out.ok.injEq] at h4; subst h4; exact addRangeLoop_set _ _ h3

theorem setValueString_set : StoreSet setValueString := by
  intro o s r h
  obtain ⟨o1, h1, h2⟩ := Out.bind_eq_ok h
  simp only [Out.ok.injEq] at h2; subst h2; exact pushCell_set h1

theorem setValueFloat_set (W : World) : StoreSet (setValueFloat W) := by
  intro o s r h
  obtain ⟨o1, h1, h2⟩ := Out.bind_eq_ok h
  simp only [Out.ok.injEq] at h2; subst h2; exact pushCell_set h1

theorem setKvPair_set (conv : Str → Option MapStore) : StoreSet (setKvPair conv) := by
  intro o s r h
  unfold setKvPair at h
  split at h
  · simp only [Out.ok.injEq] at h; subst h; rfl
  · split at h
    · simp only [Out.ok.injEq] at h; subst h; rfl
    · obtain ⟨o1, h1, h2⟩ := Out.bind_eq_ok h
      simp only [Out.ok.injEq] at h2; subst h2; exact setPair_set h1

theorem setAll_set {f : Opt → Str → Out HRes} (hf : StoreSet f) : ∀ (vs : List Str) {o : Opt}
    {r : HRes}, setAll f o vs = .ok r → r.2.1.isSet = o.isSet
  | [], o, r, h => by simp only [setAll, Out.ok.injEq] at h; subst h; rfl
  | v :: vs, o, r, h => by
    unfold setAll at h
    obtain ⟨r1, h1, h2⟩ := Out.bind_eq_ok h
    have hm := hf _ _ _ h1
    split at h2
    · simp only [Out.ok.injEq] at h2; subst h2; exact hm
    · obtain ⟨r2, h3, h4⟩ := Out.bind_eq_ok h2
      simp only [Out.ok.injEq] at h4; subst h4
      have := setAll_set hf vs h3
      rw [hm] at this; exact this

theorem collect_set {f : Opt → Str → Out HRes} {fl : Opt → Out Opt} (hf : StoreSet f)
    (hfl : ∀ o o', fl o = .ok o' → o'.isSet = o.isSet) {o : Opt} {arg : Option Str} {r : HRes}
    (h : collect f fl o arg = .ok r) : r.2.1.isSet = o.isSet := by
  unfold collect at h
  split at h
  · simp at h
  · obtain ⟨r1, h1, h2⟩ := Out.bind_eq_ok h
    have hm : r1.2.1.isSet = o.isSet := by
      unfold storeParts at h1
      split at h1
      · exact setAll_set hf _ h1
      · exact hf _ _ _ h1
    split at h2
    · simp only [Out.ok.injEq] at h2; subst h2; exact hm
    · obtain ⟨o2, h3, h4⟩ := Out.bind_eq_ok h2
      simp only [Out.ok.injEq] at h4; subst h4
      rw [← hm, ← hfl _ _ h3]

theorem variadicNum_set {W : World} {conv : Str → Option Word} {o : Opt} {arg : Option Str}
    {r : HRes} (h : variadicNum W conv o arg = .ok r) : r.2.1.isSet = o.isSet := by
  unfold variadicNum at h
  obtain ⟨o1, h1, h2⟩ := Out.bind_eq_ok h
  have hm := adjustArray_set h1
  split at h2
  · simp at h2
  · split at h2
    · simp only [Out.ok.injEq] at h2; subst h2; exact hm
    · obtain ⟨o2, h3, h4⟩ := Out.bind_eq_ok h2
      obtain ⟨o3, h5, h6⟩ := Out.bind_eq_ok h4
      simp only [Out.ok.injEq] at h6; subst h6
      rw [← hm, ← storeCell_set h3, ← applyArrayFlags_set h5]

theorem setBool_set (o : Opt) (b : Bool) : (o.setBool b).isSet = o.isSet := by
  unfold Opt.setBool; split <;> rfl

theorem runHandler_set {W : World} {a : Argus} {h : Handler} {o : Opt} {arg : Option Str}
    {r : HRes} (hr : runHandler W a h o arg = .ok r) : r.2.1.isSet = o.isSet := by
  cases h with
  | flag => simp only [runHandler, Out.ok.injEq] at hr; subst hr; exact setBool_set o true
  | bool =>
    simp only [runHandler, boolHandler] at hr
    repeat' split at hr
    all_goals (simp only [Out.ok.injEq] at hr; subst hr)
    · rfl
    · rfl
    · exact setBool_set o _
  | string => simp only [runHandler, Out.ok.injEq] at hr; subst hr; rfl
  | int =>
    simp only [runHandler] at hr; split at hr
    · simp at hr
    · simp only [Out.ok.injEq] at hr; subst hr; rfl
  | float =>
    simp only [runHandler] at hr; split at hr
    · simp at hr
    · simp only [Out.ok.injEq] at hr; subst hr; rfl
  | help =>
    simp only [runHandler] at hr
    obtain ⟨t, _, h2⟩ := Out.bind_eq_ok hr
    simp only [Out.ok.injEq] at h2; subst h2; rfl
  | version => simp only [runHandler, Out.ok.injEq] at hr; subst hr; rfl
  | arrayString => exact collect_set setValueString_set (fun _ _ => applyArrayFlags_set) hr
  | arrayInt => exact collect_set setValueInt_set (fun _ _ => applyArrayFlags_set) hr
  | arrayFloat => exact collect_set (setValueFloat_set W) (fun _ _ => applyArrayFlags_set) hr
  | mapString => exact collect_set (setKvPair_set _) (fun _ _ => applyMapFlags_set) hr
  | mapInt => exact collect_set (setKvPair_set _) (fun _ _ => applyMapFlags_set) hr
  | mapFloat => exact collect_set (setKvPair_set _) (fun _ _ => applyMapFlags_set) hr
  | mapBool => exact collect_set (setKvPair_set _) (fun _ _ => applyMapFlags_set) hr
  | variadicString => simp only [runHandler] at hr; exact variadicNum_set hr
  | variadicInt => simp only [runHandler] at hr; exact variadicNum_set hr
  | variadicFloat => simp only [runHandler] at hr; exact variadicNum_set hr
  | custom id => simp only [runHandler, Out.ok.injEq] at hr; subst hr; rfl

end Argus
