import Verif.Lemmas.Size

/-! # Lemmas: the room an option takes -/

set_option autoImplicit false

namespace Argus

theorem adjustArray_room {o o' : Opt} (h : adjustArray o = .ok o') : o'.room ≤ o.room ∧ o'.valueCount = o.valueCount := by
  refine ⟨?_, adjustArray_count h⟩
  unfold adjustArray at h
  split at h
  · split at h
    · simp only [Out.ok.injEq] at h; subst h; simp only [Opt.room, initialCapacity]; omega
    · exact (nomatch h)
  · split at h
    · simp only [Out.ok.injEq] at h; subst h; simp only [Opt.room]; omega
    · simp only [Out.ok.injEq] at h; subst h; exact Nat.le_refl _
  · exact (nomatch h)
  · exact (nomatch h)

theorem adjustMap_room {o o' : Opt} (h : adjustMap o = .ok o') : o'.room ≤ o.room ∧ o'.valueCount = o.valueCount := by
  refine ⟨?_, adjustMap_count h⟩
  unfold adjustMap at h
  split at h
  · split at h
    · simp only [Out.ok.injEq] at h; subst h; simp only [Opt.room, initialCapacity]; omega
    · exact (nomatch h)
  · split at h
    · simp only [Out.ok.injEq] at h; subst h; simp only [Opt.room]; omega
    · simp only [Out.ok.injEq] at h; subst h; exact Nat.le_refl _
  · exact (nomatch h)
  · exact (nomatch h)

theorem storeCell_room {o o' : Opt} {w : Word} (h : storeCell o w = .ok o') : o'.room ≤ o.room + 2 := by
  unfold storeCell at h
  split at h
  · obtain ⟨cs, _, h1⟩ := Out.bind_eq_ok h
    cases h1
    simp only [Opt.room]; omega
  · exact (nomatch h)

theorem pushCell_room {o o' : Opt} {w : Word} (h : pushCell o w = .ok o') : o'.room ≤ o.room + 2 := by
  unfold pushCell at h
  obtain ⟨o1, h1, h2⟩ := Out.bind_eq_ok h
  have := (adjustArray_room h1).1
  have := storeCell_room h2
  omega

theorem addRangeLoop_room : ∀ (n : Nat) (i : Int) {o o' : Opt}, addRangeLoop n i o = .ok o' → o'.room ≤ o.room + 2 * n
  | 0, _, o, o', h => by simp only [addRangeLoop, Out.ok.injEq] at h; subst h; exact Nat.le_refl _
  | n + 1, i, o, o', h => by
    simp only [addRangeLoop] at h
    obtain ⟨o1, h1, h2⟩ := Out.bind_eq_ok h
    have := addRangeLoop_room n _ h2
    have := pushCell_room h1
    omega

theorem setValueInt_room {o : Opt} {v : Str} {r : HRes} (h : setValueInt o v = .ok r) :
    r.2.1.room ≤ o.room + 2 * 2 ^ 32 := by
  unfold setValueInt at h
  split at h
  · simp only [Out.ok.injEq] at h; subst h; exact Nat.le_add_right _ _
  · rename_i q hq
    obtain ⟨o1, h1, h2⟩ := Out.bind_eq_ok h
    simp only [Out.ok.injEq] at h2; subst h2
    unfold addRange at h1
    obtain ⟨o2, h3, h4⟩ := Out.bind_eq_ok h1
    split at h4
    · exact (nomatch h4)
    · simp only [Out.ok.injEq] at h4; subst h4
      have := addRangeLoop_room _ _ h3
      have := parseIntRange_size hq
      simp only
      omega

theorem setPair_room {o o' : Opt} {k : Str} {u : Word → Word} {w : Word} (h : setPair o k u w = .ok o') :
    o'.room ≤ o.room + 2 := by
  unfold setPair at h
  obtain ⟨i, hi, h1⟩ := Out.bind_eq_ok h
  cases i with
  | some i =>
    simp only at h1
    split at h1
    · cases h1; exact Nat.le_add_right _ _
    · exact (nomatch h1)
  | none =>
    simp only at h1
    obtain ⟨o1, h2, h3⟩ := Out.bind_eq_ok h1
    have e := (adjustMap_room h2).1
    split at h3
    · split at h3
      · exact (nomatch h3)
      · split at h3
        · exact (nomatch h3)
        · cases h3
          refine Nat.le_trans (m := o1.room + 2) ?_ (Nat.add_le_add_right e 2)
          simp only [Opt.room]; omega
    · exact (nomatch h3)

theorem setKvPair_room {conv : Str → Option MapStore} {o : Opt} {v : Str} {r : HRes} (h : setKvPair conv o v = .ok r) :
    r.2.1.room ≤ o.room + 2 := by
  unfold setKvPair at h
  split at h
  · simp only [Out.ok.injEq] at h; subst h; exact Nat.le_add_right _ _
  · split at h
    · simp only [Out.ok.injEq] at h; subst h; exact Nat.le_add_right _ _
    · obtain ⟨o1, h1, h2⟩ := Out.bind_eq_ok h
      simp only [Out.ok.injEq] at h2; subst h2
      exact setPair_room h1

theorem room_of_le {o o' : Opt} (h : o'.valueCapacity = o.valueCapacity) (h' : o'.valueCount ≤ o.valueCount) :
    o'.room ≤ o.room := by
  simp only [Opt.room]; omega

theorem applyArrayFlags_room {W : World} {o o' : Opt} (h : applyArrayFlags W o = .ok o') : o'.room ≤ o.room := by
  refine room_of_le ?_ (applyArrayFlags_count h)
  unfold applyArrayFlags at h
  split at h
  · simp only [Out.ok.injEq] at h; subst h; rfl
  · split at h
    · simp only [Out.ok.injEq] at h; subst h; rfl
    · obtain ⟨o1, h1, h2⟩ := Out.bind_eq_ok h
      have e1 : o1.valueCapacity = o.valueCapacity := by
        unfold applySorted at h1
        split at h1
        · obtain ⟨cs, _, h3⟩ := Out.bind_eq_ok h1
          simp only [Out.ok.injEq] at h3; subst h3; rfl
        · simp only [Out.ok.injEq] at h1; subst h1; rfl
      unfold applyUnique at h2
      split at h2
      · obtain ⟨cs, hc, h3⟩ := Out.bind_eq_ok h2
        simp only [Out.ok.injEq] at h3; subst h3; exact e1
      · simp only [Out.ok.injEq] at h2; subst h2; exact e1

theorem applyMapFlags_room {W : World} {o o' : Opt} (h : applyMapFlags W o = .ok o') : o'.room ≤ o.room := by
  refine room_of_le ?_ (applyMapFlags_count h)
  unfold applyMapFlags at h
  split at h
  · simp only [Out.ok.injEq] at h; subst h; rfl
  · obtain ⟨o1, h1, h2⟩ := Out.bind_eq_ok h
    have e1 : o1.valueCapacity = o.valueCapacity := by
      unfold applyUniqueValue at h1
      split at h1
      · obtain ⟨cs, _, h3⟩ := Out.bind_eq_ok h1
        split at h3
        · simp only [Out.ok.injEq] at h3; subst h3; rfl
        · split at h3
          · simp only [Out.ok.injEq] at h3; subst h3; rfl
          · exact (nomatch h3)
      · simp only [Out.ok.injEq] at h1; subst h1; rfl
    refine Eq.trans ?_ e1
    unfold applyMapSort at h2
    split at h2
    · obtain ⟨cs, _, h3⟩ := Out.bind_eq_ok h2
      simp only [Out.ok.injEq] at h3; subst h3; rfl
    · split at h2
      · split at h2
        · simp only [Out.ok.injEq] at h2; subst h2; rfl
        · obtain ⟨cs, _, h3⟩ := Out.bind_eq_ok h2
          split at h3
          · simp only [Out.ok.injEq] at h3; subst h3; rfl
          · exact (nomatch h3)
      · simp only [Out.ok.injEq] at h2; subst h2; rfl

theorem setBool_room (o : Opt) (b : Bool) : (o.setBool b).room = o.room := by
  unfold Opt.setBool; split <;> rfl

theorem variadicNum_room {W : World} {conv : Str → Option Word} {o : Opt} {x : Option Str} {r : HRes}
    (h : variadicNum W conv o x = .ok r) : r.2.1.room ≤ o.room + 2 := by
  unfold variadicNum at h
  obtain ⟨o1, h1, h2⟩ := Out.bind_eq_ok h
  have e1 := (adjustArray_room h1).1
  split at h2
  · exact (nomatch h2)
  · split at h2
    · simp only [Out.ok.injEq] at h2; subst h2; simp only; omega
    · obtain ⟨o2, h3, h4⟩ := Out.bind_eq_ok h2
      obtain ⟨o3, h5, h6⟩ := Out.bind_eq_ok h4
      simp only [Out.ok.injEq] at h6; subst h6
      have e2 := storeCell_room h3
      have e3 := applyArrayFlags_room h5
      change o3.room ≤ _
      omega

/-- The room of an option grows by at most two entries for each byte of a text. -/
theorem runHandler_room {W : World} {a : Argus} {h : Handler} {o : Opt} {x : Option Str} {r : HRes} {K : Nat}
    (hc : ∀ id, h ≠ .custom id) (hK : 2 ≤ K) (hi : h = .arrayInt → 2 * 2 ^ 32 ≤ K) (hr : runHandler W a h o x = .ok r) :
    r.2.1.room ≤ o.room + K * argSize x := by
  have hpos := argSize_pos x
  have h1 : 2 ≤ K * argSize x := Nat.mul_le_mul hK hpos
  have one : ∀ (f : Opt → Str → Out HRes), (∀ o v r, f o v = .ok r → r.2.1.room ≤ o.room + K) →
      StoreGrows Opt.room K f := fun f hf o v r e => Nat.le_trans (hf o v r e)
        (Nat.add_le_add_left (Nat.le_mul_of_pos_right K (Nat.succ_pos _)) _)
  have kv : ∀ conv, StoreGrows Opt.room K (setKvPair conv) := fun conv =>
    one _ (fun o v r e => Nat.le_trans (setKvPair_room e) (Nat.add_le_add_left hK _))
  cases h with
  | flag => simp only [runHandler, Out.ok.injEq] at hr; subst hr; simp only [setBool_room]; omega
  | bool =>
    simp only [runHandler, boolHandler] at hr
    split at hr
    · simp only [Out.ok.injEq] at hr; subst hr; exact Nat.le_add_right _ _
    · split at hr
      · simp only [Out.ok.injEq] at hr; subst hr; exact Nat.le_add_right _ _
      · simp only [Out.ok.injEq] at hr; subst hr; simp only [setBool_room]; exact Nat.le_add_right _ _
  | string => simp only [runHandler, Out.ok.injEq] at hr; subst hr; exact Nat.le_add_right _ _
  | int =>
    simp only [runHandler] at hr
    split at hr
    · exact (nomatch hr)
    · simp only [Out.ok.injEq] at hr; subst hr; exact Nat.le_add_right _ _
  | float =>
    simp only [runHandler] at hr
    split at hr
    · exact (nomatch hr)
    · simp only [Out.ok.injEq] at hr; subst hr; exact Nat.le_add_right _ _
  | help =>
    simp only [runHandler] at hr
    obtain ⟨t, _, h2⟩ := Out.bind_eq_ok hr
    simp only [Out.ok.injEq] at h2; subst h2; exact Nat.le_add_right _ _
  | version => simp only [runHandler, Out.ok.injEq] at hr; subst hr; exact Nat.le_add_right _ _
  | arrayString =>
    refine collect_grows (m := Opt.room) (one _ ?_) (fun _ _ => applyArrayFlags_room) (fun _ => rfl) hr
    intro o v r e
    unfold setValueString at e
    obtain ⟨o1, e1, e2⟩ := Out.bind_eq_ok e
    simp only [Out.ok.injEq] at e2; subst e2
    have := pushCell_room e1
    simp only; omega
  | arrayInt =>
    refine collect_grows (m := Opt.room) (one _ ?_) (fun _ _ => applyArrayFlags_room) (fun _ => rfl) hr
    intro o v r e
    exact Nat.le_trans (setValueInt_room e) (Nat.add_le_add_left (hi rfl) _)
  | arrayFloat =>
    refine collect_grows (m := Opt.room) (one _ ?_) (fun _ _ => applyArrayFlags_room) (fun _ => rfl) hr
    intro o v r e
    unfold setValueFloat at e
    obtain ⟨o1, e1, e2⟩ := Out.bind_eq_ok e
    simp only [Out.ok.injEq] at e2; subst e2
    have := pushCell_room e1
    simp only; omega
  | mapString => exact collect_grows (m := Opt.room) (kv _) (fun _ _ => applyMapFlags_room) (fun _ => rfl) hr
  | mapInt => exact collect_grows (m := Opt.room) (kv _) (fun _ _ => applyMapFlags_room) (fun _ => rfl) hr
  | mapFloat => exact collect_grows (m := Opt.room) (kv _) (fun _ _ => applyMapFlags_room) (fun _ => rfl) hr
  | mapBool => exact collect_grows (m := Opt.room) (kv _) (fun _ _ => applyMapFlags_room) (fun _ => rfl) hr
  | variadicString =>
    exact Nat.le_trans (variadicNum_room (W := W) (conv := fun s => some (.ptr s)) hr) (Nat.add_le_add_left h1 _)
  | variadicInt => exact Nat.le_trans (variadicNum_room (W := W) (conv := variadicIntConv) hr) (Nat.add_le_add_left h1 _)
  | variadicFloat => exact Nat.le_trans (variadicNum_room (W := W) (conv := variadicFloatConv W) hr) (Nat.add_le_add_left h1 _)
  | custom id => exact absurd rfl (hc id)

theorem give_room {W : World} {o o' : Opt} {x : Option Str} {K : Nat} (hc : ∀ id, o.handler ≠ some (.custom id)) (hK : 2 ≤ K)
    (hi : o.handler = some .arrayInt → 2 * 2 ^ 32 ≤ K) (h : o.give W x = some o') : o'.room ≤ o.room + K * argSize x := by
  unfold Opt.give at h
  split at h
  · exact (nomatch h)
  · rename_i g hg
    split at h
    · rename_i r hr
      split at h
      · simp only [Option.some.injEq] at h; subst h
        have e := runHandler_room (K := K) (fun id e => hc id (by rw [hg, e])) hK (fun e => hi (by rw [hg, e])) hr
        refine Nat.le_trans ?_ e
        unfold Opt.markSet
        simp only [Opt.room]
        split <;> omega
      · exact (nomatch h)
    · exact (nomatch h)

theorem give_keeps_handler {W : World} {o o' : Opt} {x : Option Str} (h : o.give W x = some o') : o'.handler = o.handler := by
  have h1 : o.giveAll W [x] = some o' := by simp only [Opt.giveAll, h, Option.bind_some]
  exact (congrArg Opt.handler (giveAll_meta [x] h1) : o'.meta.handler = o.meta.handler)

end Argus
