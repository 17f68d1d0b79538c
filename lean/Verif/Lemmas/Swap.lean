import Verif.Lemmas.Quiet

/-! Occurrences of different options commute. -/

set_option autoImplicit false

namespace Argus

/-- Contexts with the same options everywhere have the same tables. -/
theorem tables_ext {a b : Argus} (hs : a.shape = b.shape) (h : ∀ p, a.getOpt p = b.getOpt p) :
    a.tables = b.tables := by
  have hlen : a.tables.length = b.tables.length := by
    have := congrArg List.length hs
    simpa [Argus.shape] using this
  refine List.ext_getElem hlen (fun k hk1 hk2 => ?_)
  have hrow : (a.tables[k]).map Opt.meta = (b.tables[k]).map Opt.meta := by
    have h1 : a.shape[k]? = b.shape[k]? := by rw [hs]
    unfold Argus.shape at h1
    simpa [hk1, hk2] using h1
  have hl2 : a.tables[k].length = b.tables[k].length := by
    have := congrArg List.length hrow; simpa using this
  refine List.ext_getElem hl2 (fun i hi1 hi2 => ?_)
  have := h ⟨k, i⟩
  unfold Argus.getOpt at this
  simpa [hk1, hk2, hi1, hi2] using this

theorem activeOptions_shape {a b : Argus} (hs : b.shape = a.shape) (hst : b.stack = a.stack)
    (hr : b.root = a.root) : b.activeOptions = a.activeOptions := by
  unfold Argus.activeOptions
  rw [hst, hr]
  split
  · rename_i p _
    cases ha : a.getOpt p with
    | ok o =>
      obtain ⟨o', ho', hm⟩ := shape_getOpt hs ha
      rw [ho']
      simp only [Out.ok_bind]
      rw [show o'.subOptions = o.subOptions from
        (congrArg Opt.subOptions hm : o'.meta.subOptions = o.meta.subOptions)]
    | ub u =>
      cases hb : b.getOpt p with
      | ok o =>
        obtain ⟨o', ho', _⟩ := shape_getOpt hs.symm hb
        rw [ha] at ho'; simp at ho'
      | ub u' =>
        have : ∀ (c : Argus) (v : Ub), c.getOpt p = .ub v → v = .nullDeref := by
          intro c v hc
          unfold Argus.getOpt at hc
          repeat' split at hc
          all_goals simp at hc
          all_goals exact hc.symm
        rw [this a u ha, this b u' hb]
  · rfl

theorem runPreAll_status {W : World} {arg : Option Str} : ∀ (vs : List Validator) {a b : Argus}
    {r : Int × Argus}, runPreAll W a arg vs = .ok r →
    ∃ r', runPreAll W b arg vs = .ok r' ∧ r'.1 = r.1
  | [], a, b, r, h => by
    simp only [runPreAll, Out.ok.injEq] at h
    exact ⟨_, rfl, by rw [← h]⟩
  | v :: vs, a, b, r, h => by
    unfold runPreAll at h ⊢
    split at h
    · rename_i hv
      rw [if_pos hv]
      obtain ⟨q, hq, h1⟩ := Out.bind_eq_ok h
      rw [hq]
      simp only [Out.ok_bind] at h1 ⊢
      split at h1
      · rename_i hne
        rw [if_pos hne]
        simp only [Out.ok.injEq] at h1
        exact ⟨_, rfl, by rw [← h1]⟩
      · rename_i hne
        rw [if_neg hne]
        exact runPreAll_status vs h1
    · rename_i hv
      rw [if_neg hv]
      exact runPreAll_status vs h

/-- A successful occurrence succeeds in the same way wherever the option is the same. -/
theorem execCallbacks_transfer {W : World} {a b a' : Argus} {p : Ptr} {x : Option Str}
    (h : execCallbacks W a p x = .ok (Err.success, a')) (hp : b.getOpt p = a.getOpt p)
    (hact : b.activeOptions = a.activeOptions) :
    ∃ b', execCallbacks W b p x = .ok (Err.success, b') ∧ b'.getOpt p = a'.getOpt p := by
  unfold execCallbacks at h ⊢
  rw [hp]
  obtain ⟨o, ho, h1⟩ := Out.bind_eq_ok h
  rw [ho]
  simp only [Out.ok_bind]
  split at h1
  · simp only [Out.ok.injEq, Prod.mk.injEq] at h1; exact absurd h1.1 (by decide)
  · rename_i hd hh
    obtain ⟨pre, hpre, h2⟩ := Out.bind_eq_ok h1
    obtain ⟨pre', hpre', hs⟩ := runPreAll_status (b := b) _ hpre
    rw [hpre']
    simp only [Out.ok_bind]
    split at h2
    · rename_i hne; simp only [Out.ok.injEq] at h2; rw [h2] at hne; exact absurd rfl hne
    · rename_i hne
      rw [if_neg (by rw [hs]; exact hne)]
      obtain ⟨es, he⟩ := runPreAll_eq _ hpre
      obtain ⟨es', he'⟩ := runPreAll_eq _ hpre'
      obtain ⟨r, hr, h3⟩ := Out.bind_eq_ok h2
      have hr' : runHandler W pre'.2 hd o x = .ok r := by
        have : pre'.2.activeOptions = pre.2.activeOptions := by
          rw [he, he', (Sim.emits_left b es').activeOptions, (Sim.emits_left a es).activeOptions]
          exact hact
        rw [← hr]
        cases hd with
        | help => unfold runHandler; rw [this]
        | _ => rfl
      rw [hr']
      simp only [Out.ok_bind]
      split at h3
      · rename_i hne; simp only [Out.ok.injEq, Prod.mk.injEq] at h3; exact absurd h3.1 hne
      · rename_i hne
        rw [if_neg hne]
        simp only [Out.ok.injEq, Prod.mk.injEq] at h3
        refine ⟨_, by rw [h3.1], ?_⟩
        rw [← h3.2, he, he']
        rw [getOpt_setOpt_self (o := o) (by simp [hp, ho]), getOpt_setOpt_self (o := o) (by simp [ho])]

theorem Frame.sim {K K' : Nat → Prop} {a b c : Argus} (h1 : Frame K a b) (h2 : Frame K' a c)
    (hst : b.stack = c.stack) (ht : b.tables = c.tables) : Sim b c := by
  have e1 := h1.cfg
  have e2 := h2.cfg
  rw [← e2] at e1
  unfold Argus.cfg at e1
  simp only [Prod.mk.injEq] at e1
  obtain ⟨r1, r2, r3, r4, r5, r6⟩ := e1
  unfold Sim Argus.quiet
  rw [hst, ht, r1, r2, r3, r4, r5, r6]

/-- Two successful occurrences of different options may be exchanged. -/
theorem swap_gives {W : World} {a a1 a2 : Argus} {p q : Ptr} {x y : Option Str} (hpq : p ≠ q)
    (h1 : execCallbacks W a p x = .ok (Err.success, a1))
    (h2 : execCallbacks W a1 q y = .ok (Err.success, a2)) :
    ∃ b1 b2, execCallbacks W a q y = .ok (Err.success, b1) ∧
      execCallbacks W b1 p x = .ok (Err.success, b2) ∧ Sim a2 b2 := by
  have o1 := execCallbacks_one h1
  have o2 := execCallbacks_one h2
  simp only at o1 o2
  have act1 : a1.activeOptions = a.activeOptions :=
    activeOptions_shape o1.frame.shape o1.stack o1.frame.root
  obtain ⟨b1, hb1, e1⟩ := execCallbacks_transfer (b := a) h2
    (o1.others q (fun h => hpq h.symm)).symm act1.symm
  have p1 := execCallbacks_one hb1
  simp only at p1
  have act2 : b1.activeOptions = a.activeOptions :=
    activeOptions_shape p1.frame.shape p1.stack p1.frame.root
  obtain ⟨b2, hb2, e2⟩ := execCallbacks_transfer (b := b1) h1 (p1.others p hpq) act2
  have p2 := execCallbacks_one hb2
  simp only at p2
  refine ⟨b1, b2, hb1, hb2, ?_⟩
  have f1 : Frame (fun _ => True) a a2 :=
    (o1.frame.mono fun _ _ => trivial).trans (o2.frame.mono fun _ _ => trivial)
  have f2 : Frame (fun _ => True) a b2 :=
    (p1.frame.mono fun _ _ => trivial).trans (p2.frame.mono fun _ _ => trivial)
  refine f1.sim f2 (by rw [o2.stack, o1.stack, p2.stack, p1.stack]) (tables_ext ?_ ?_)
  · rw [f1.shape, f2.shape]
  · intro r
    by_cases hp : r = p
    · subst hp
      rw [o2.others r hpq, e2]
    · by_cases hq : r = q
      · subst hq
        rw [p2.others r hp, e1]
      · rw [o2.others r hq, o1.others r hp, p2.others r hp, p1.others r hq]

/-- The exchange inside a longer list of acts. -/
theorem swap_run {W : World} {a a' : Argus} {p q : Ptr} {x y : Option Str} (hpq : p ≠ q)
    (xs ys : List Act) (hf : Act.fail Err.success ∉ xs)
    (h : run W a (xs ++ .give p x :: .give q y :: ys) = .ok (Err.success, a')) :
    ∃ b', run W a (xs ++ .give q y :: .give p x :: ys) = .ok (Err.success, b') ∧ Sim a' b' := by
  have hf' : ∀ c, Act.fail c ∈ xs → c ≠ Err.success := fun c hc h => hf (h ▸ hc)
  rw [run_append xs _ a hf'] at h ⊢
  obtain ⟨r, hr, h1⟩ := Out.bind_eq_ok h
  rw [hr]
  simp only [Out.ok_bind]
  split at h1
  · rename_i hne; simp only [Out.ok.injEq] at h1; rw [h1] at hne; exact absurd rfl hne
  · rename_i hne
    rw [if_neg hne]
    simp only [run] at h1 ⊢
    obtain ⟨s1, hs1, h2⟩ := Out.bind_eq_ok h1
    split at h2
    · rename_i hne; simp only [Out.ok.injEq] at h2; rw [h2] at hne; exact absurd rfl hne
    · rename_i hne1
      obtain ⟨s2, hs2, h3⟩ := Out.bind_eq_ok h2
      split at h3
      · rename_i hne; simp only [Out.ok.injEq] at h3; rw [h3] at hne; exact absurd rfl hne
      · rename_i hne2
        have e1 : s1.1 = Err.success := by simpa using hne1
        have e2 : s2.1 = Err.success := by simpa using hne2
        obtain ⟨b1, b2, hb1, hb2, hsim⟩ := swap_gives hpq
          (show execCallbacks W r.2 p x = .ok (Err.success, s1.2) by rw [hs1, ← e1])
          (show execCallbacks W s1.2 q y = .ok (Err.success, s2.2) by rw [hs2, ← e2])
        rw [hb1]
        simp only [Out.ok_bind, ne_eq, not_true_eq_false, if_false]
        rw [hb2]
        simp only [Out.ok_bind, not_true_eq_false, if_false]
        exact (run_sim ys hsim).of_ok h3

end Argus
