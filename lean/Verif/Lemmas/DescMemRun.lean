import Verif.Lemmas.DescMem

/-! # Descriptions in memory -/

set_option autoImplicit false

namespace Argus

attribute [local irreducible] sizeAdd

/-- `append_to_description`: the suffix is appended as a whole, or not at all for lack of memory; the old block is gone. -/
theorem appendToD_spec (A : DAlloc) {base : Nat → Option Mem} {h : DHeap} {p : Nat} {s : Str} (H : h.Has base p s) {t : Str}
    (h0 : 0 ∉ t) (ht : t.length < 2 ^ 62) :
    ∃ q h' s', appendToD A h p t = .ok (q, h') ∧ h'.Has base q s' ∧
      (s' = s ++ t ∨ (s' = s ∧ Refuses A (s.length + t.length + 1))) := by
  unfold appendToD
  by_cases hz : t = []
  · rw [if_pos hz]
    exact ⟨p, h, s, rfl, H, .inl (by simp [hz])⟩
  rw [if_neg hz]
  obtain ⟨m, hm, hlen, hl⟩ := H.block
  have hb : h.block p = .ok m := by simp only [DHeap.block, hl, upd_self]
  have hsl := hm.lt
  have hsz : sizeAdd (sizeAdd s.length t.length) 1 = s.length + t.length + 1 := by
    rw [sizeAdd_eq (a := s.length) (b := t.length) (by omega), sizeAdd_eq (by omega)]
  simp only [hb, Out.ok_bind, hm.strlen, hsz]
  rcases malloc_spec A H.is (s.length + t.length + 1) with ⟨h', e, h1, h2⟩ | ⟨q, h', m1, e, hm1, hn, h1, h2, h3, h4⟩
  · rw [e]
    exact ⟨p, h', s, rfl, H.again h1, .inr ⟨rfl, h2⟩⟩
  · rw [e]
    have hqp : q ≠ p := by
      rintro rfl
      rw [hl, upd_self] at h1; cases h1
    have hq : h'.block q = .ok m1 := by simp only [DHeap.block, h4, upd_self]
    have hp : h'.block p = .ok m := by simp only [DHeap.block, h4, upd_ne _ _ (Ne.symm hqp), hl, upd_self]
    obtain ⟨m2, j1, j2, j3⟩ : ∃ m2 : Mem, joinD (s.length + t.length + 1) m (t ++ [0]) m1 = .ok m2 ∧ HoldsStr m2 (s ++ t) ∧
        m2.length = m1.length := by
      unfold joinD
      rcases C49_strcpy m1 m (s.length + t.length + 1) s (by omega) hm with ⟨_, d, hd, hw⟩ | ⟨hc, _⟩
      · rw [hd]
        simp only [keepD, Out.ok_bind, Option.getD_some]
        have hdl : d.length = m1.length := hw.length
        rcases C49_strcat d (t ++ [0]) (s.length + t.length + 1) s t (by omega) hw.holds ⟨h0, [], rfl⟩ (by simp; omega) with
          ⟨_, r, hr, hw2⟩ | ⟨hc, _⟩
        · rw [hr]
          exact ⟨r, rfl, hw2.holds, by rw [hw2.length, hdl]⟩
        · omega
      · omega
    have hfree : (h'.store q m2).free (some p) =
        .ok { h'.store q m2 with live := upd (h'.store q m2).live p none } := by
      simp only [DHeap.free, DHeap.store, h4, upd_upd, upd_ne _ _ (Ne.symm hqp), hl, upd_self]
    refine ⟨q, { h'.store q m2 with live := upd (h'.store q m2).live p none }, s ++ t, ?_, ⟨fun x hx => ?_, ?_, h2, m2, j2, by omega, ?_⟩, .inl rfl⟩
    · simp only [appendedD, hq, hp, Out.ok_bind, j1, hfree]
    · simp only [DHeap.store] at hx
      have := h3 x hx
      rw [hl] at this
      by_cases hxp : x = p
      · rw [hxp]; exact H.fresh
      · rwa [upd_ne _ _ hxp] at this
    · rw [hl] at h1
      rwa [upd_ne _ _ hqp] at h1
    · simp only [DHeap.store, h4, upd_upd, hl]
      funext x
      by_cases hxp : x = p
      · subst hxp
        rw [upd_self, upd_ne _ _ (Ne.symm hqp), H.fresh]
      · rw [upd_ne _ _ hxp]
        by_cases hxq : x = q
        · subst hxq; rw [upd_self, upd_self]
        · rw [upd_ne _ _ hxq, upd_ne _ _ hxq, upd_ne _ _ hxp]

theorem zero_app {s t : Str} (h1 : (0 : Byte) ∉ s) (h2 : 0 ∉ t) : 0 ∉ s ++ t := by
  rw [List.mem_append, not_or]; exact ⟨h1, h2⟩

theorem snprintf_len (n : Nat) (s : Str) : (snprintf n s).length ≤ n - 1 := by
  unfold snprintf; rw [List.length_take]; omega

theorem snprintf_zero (n : Nat) {s : Str} (h : 0 ∉ s) : 0 ∉ snprintf n s := zero_take h _

theorem noteOf_spec (k : VKind) {d : Str} (h : 0 ∉ d) : 0 ∉ noteOf k d ∧ (noteOf k d).length ≤ 255 := by
  have key : ∀ pre post : Str, 0 ∉ pre → 0 ∉ post → 0 ∉ snprintf 256 (pre ++ d ++ post) ∧
      (snprintf 256 (pre ++ d ++ post)).length ≤ 255 := fun pre post h1 h2 =>
    ⟨snprintf_zero _ (zero_app (zero_app h1 h) h2), snprintf_len _ _⟩
  cases k <;> first | exact key _ _ (by decide) (by decide) | exact ⟨by simp [noteOf], by simp [noteOf]⟩

theorem validatorInfo_note (F : Fmt) (v : Validator) : validatorInfo F v = ((v.text F).map (noteOf v.kind)).getD [] := by
  unfold validatorInfo
  cases v.text F with
  | none => rfl
  | some d => simp only [Option.map_some, Option.getD_some]; rfl

theorem DHeap.Has.zero {base : Nat → Option Mem} {h : DHeap} {p : Nat} {s : Str} (H : h.Has base p s) : 0 ∉ s := by
  obtain ⟨m, hm, _⟩ := H.block
  exact hm.1

theorem DHeap.Has.small {base : Nat → Option Mem} {h : DHeap} {p : Nat} {s : Str} (H : h.Has base p s) :
    s.length + 1 < 2 ^ 63 := by
  obtain ⟨m, hm, hl, _⟩ := H.block
  have := hm.lt
  omega

/-- A description block kept while the allocator works on top of it. -/
theorem DHeap.Has.swap {base : Nat → Option Mem} {h h' : DHeap} {p t : Nat} {s d : Str} (H : h.Has base p s)
    (T : h'.Has h.live t d) : ∃ m, h'.Has (upd base t (some m)) p s ∧ HoldsStr m d ∧ m.length < 2 ^ 63 ∧ base t = none := by
  obtain ⟨m, hm, hl1, hl⟩ := H.block
  obtain ⟨m', hm', hl1', hl'⟩ := T.block
  have htp : t ≠ p := by
    rintro rfl
    have := T.fresh
    rw [hl, upd_self] at this; cases this
  have hbt : base t = none := by
    have := T.fresh
    rwa [hl, upd_ne _ _ htp] at this
  have hpn : p < h'.next := by
    refine Nat.lt_of_not_le fun hx => ?_
    have := T.sound p hx
    rw [hl, upd_self] at this
    cases this
  refine ⟨m', ⟨fun x hx => ?_, ?_, hpn, m, hm, hl1, ?_⟩, hm', hl1', hbt⟩
  · have h1 := T.sound x hx
    have h2 := T.lt
    rw [hl, upd_ne _ _ (by omega)] at h1
    rw [upd_ne _ _ (by omega)]
    exact h1
  · rw [upd_ne _ _ (Ne.symm htp)]; exact H.fresh
  · rw [hl', hl]
    funext x
    unfold upd
    by_cases h1 : x = t <;> by_cases h2 : x = p <;> simp [h1, h2] <;> omega

/-- Freeing the other block. -/
theorem DHeap.Has.drop {base : Nat → Option Mem} {h : DHeap} {q t : Nat} {s d : Str} {m : Mem} (ht : base t = none)
    (H : h.Has (upd base t (some m)) q s) (hm : HoldsStr m d) :
    ∃ h', h.free (some t) = .ok h' ∧ h'.Has base q s := by
  obtain ⟨m', hm', hl1, hl⟩ := H.block
  have hqt : t ≠ q := by
    rintro rfl
    have := H.fresh
    rw [upd_self] at this; cases this
  have hbq : base q = none := by
    have := H.fresh
    rwa [upd_ne _ _ (Ne.symm hqt)] at this
  have hlt : h.live t = some m := by rw [hl, upd_ne _ _ hqt, upd_self]
  refine ⟨{ h with live := upd h.live t none }, ?_, fun x hx => ?_, hbq, H.lt, m', hm', hl1, ?_⟩
  · simp only [DHeap.free, hlt]
  · have := H.sound x hx
    by_cases hxt : x = t
    · rw [hxt]; exact ht
    · rwa [upd_ne _ _ hxt] at this
  · simp only [hl]
    funext x
    unfold upd
    by_cases h1 : x = t
    · subst h1
      simp only [if_true, if_neg hqt]
      exact ht.symm
    · by_cases h2 : x = q <;> simp [h1, h2, Ne.symm hqt]

/-- One validator: its note is appended as a whole or not at all. -/
theorem noteD_spec (A : DAlloc) (F : Fmt) {base : Nat → Option Mem} {h : DHeap} {p : Nat} {s : Str} (H : h.Has base p s)
    {k : VKind} (hk : k.Plain F) :
    ∃ t q h' s', formatD A F h k = .ok t ∧ noteD A k p t.2 t.1 = .ok (q, h') ∧ h'.Has base q s' ∧
      (s' = s ++ ((formatter F k).map (noteOf k)).getD [] ∨ (s' = s ∧ Refuses A (s.length + 256))) := by
  rcases formatD_spec A F H.is hk with ⟨e1, e2⟩ | ⟨d, n, e1, hn, ⟨h', e2, h1, h2⟩ | ⟨t, h', e2, T⟩⟩
  · rw [e1]
    exact ⟨_, p, h, s, e2, rfl, H, .inl (by simp)⟩
  · rw [e1]
    refine ⟨_, p, h', s, e2, rfl, H.again h1, .inr ⟨rfl, fun hf => ?_⟩⟩
    have := h2 hf
    omega
  · rw [e1]
    have hd0 := T.zero
    obtain ⟨m, H2, hm, _, ht⟩ := H.swap T
    obtain ⟨n0, nl⟩ := noteOf_spec k hd0
    obtain ⟨q, h2, s', a1, a2, a3⟩ := appendToD_spec A H2 n0 (by omega)
    obtain ⟨h3, f1, f2⟩ := a2.drop ht hm
    refine ⟨_, q, h3, s', e2, ?_, f2, ?_⟩
    · simp only [noteD, T.text, Out.ok_bind, a1, f1]
    · rcases a3 with a3 | ⟨a3, a4⟩
      · exact .inl (by simpa using a3)
      · exact .inr ⟨a3, fun hf => by have := a4 hf; omega⟩

/-- The loop over the validators: some notes are appended, in order. -/
theorem notesD_spec (A : DAlloc) (F : Fmt) {base : Nat → Option Mem} : ∀ (vs : List Validator) {h : DHeap} {p : Nat} {s : Str},
    h.Has base p s → (∀ v ∈ vs, v.kind.Plain F) →
    ∃ (q : Nat) (h' : DHeap) (ns : List Str), notesD A F vs p h = .ok (q, h') ∧ h'.Has base q (s ++ ns.flatten) ∧
      ns.Sublist (vs.map (validatorInfo F)) ∧
      (A.Full → s.length + 256 * vs.length < 2 ^ 63 → ns = vs.map (validatorInfo F))
  | [], h, p, s, H, _ => ⟨p, h, [], rfl, by simpa using H, by simp, fun _ _ => rfl⟩
  | v :: vs, h, p, s, H, hv => by
    have hvs : ∀ v ∈ vs, v.kind.Plain F := fun w hw => hv w (by simp [hw])
    unfold notesD
    by_cases hf : v.hasFormatter = true
    · rw [if_pos hf]
      have hinfo : validatorInfo F v = ((formatter F v.kind).map (noteOf v.kind)).getD [] := by
        rw [validatorInfo_note, Validator.text, if_pos hf]
      obtain ⟨t, q, h', s', e1, e2, H', hs⟩ := noteD_spec A F H (hv v (by simp))
      simp only [e1, e2, Out.ok_bind]
      rw [← hinfo] at hs
      have hil : (validatorInfo F v).length ≤ 255 := by
        rw [validatorInfo_note]
        cases ht : v.text F with
        | none => simp
        | some d =>
          simp only [Option.map_some, Option.getD_some]
          cases hk : v.kind <;> simp only [noteOf] <;> first | exact snprintf_len _ _ | simp
      obtain ⟨q2, h2, ns, e3, H2, hsub, hfull⟩ := notesD_spec A F vs H' hvs
      rcases hs with hs | ⟨hs, href⟩
      · refine ⟨q2, h2, validatorInfo F v :: ns, e3, ?_, ?_, ?_⟩
        · subst hs
          simpa using H2
        · rw [List.map_cons]; exact hsub.cons_cons _
        · intro hA hl
          rw [List.map_cons, hfull hA (by rw [hs, List.length_append]; rw [List.length_cons] at hl; omega)]
      · refine ⟨q2, h2, ns, e3, by subst hs; exact H2, ?_, fun hA hl => ?_⟩
        · rw [List.map_cons]; exact hsub.cons _
        · have := href hA
          rw [List.length_cons] at hl
          omega
    · rw [if_neg hf]
      have hinfo : validatorInfo F v = [] := by
        rw [validatorInfo_note, Validator.text, if_neg hf]; rfl
      obtain ⟨q2, h2, ns, e3, H2, hsub, hfull⟩ := notesD_spec A F vs H hvs
      refine ⟨q2, h2, validatorInfo F v :: ns, e3, ?_, ?_, ?_⟩
      · rw [hinfo]; simpa using H2
      · rw [List.map_cons]; exact hsub.cons_cons _
      · intro hA hl
        rw [List.map_cons, hfull hA (by rw [List.length_cons] at hl; omega)]

end Argus
