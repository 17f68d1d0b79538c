import Verif.Lemmas.Gives

/-! # Lemmas: arrays of doubles -/

set_option autoImplicit false

namespace Argus

theorem uniqueLoop_apart {α : Type} (d : α → α → Bool) (rest : List α) : ∀ (ys kept : List α),
    (kept ++ ys).Pairwise (fun a b => d b a = false) →
    uniqueLoop d kept (ys ++ rest) = uniqueLoop d (kept ++ ys) rest
  | [], kept, _ => by simp
  | y :: ys, kept, h => by
    rw [List.cons_append, uniqueLoop]
    have hn : ¬ (kept.any (fun k => d y k) = true) := by
      simp only [List.any_eq_true, not_exists, not_and, Bool.not_eq_true]
      intro k hk
      exact (List.pairwise_append.1 h).2.2 k hk y (by simp)
    rw [if_neg hn, uniqueLoop_apart d rest ys (kept ++ [y]) (by simpa using h)]
    simp

theorem near_comm (a b : F64) : F64.near a b = F64.near b a := by
  rw [Bool.eq_iff_iff]; exact ⟨near_symm, near_symm⟩

theorem flagged_floats (W : World) (fl : Flags) {zs ys a : List F64} (h : ArrangedFloats fl zs ys) :
    ∃ ys1, flagged W fl .float ((ys ++ a).map Word.bits) = ys1.map Word.bits ∧
      ArrangedFloats fl (zs ++ a) ys1 := by
  have h1 : ∃ xs : List F64, (if fl.has .sorted then sortCells W .float ((ys ++ a).map Word.bits)
        else (ys ++ a).map Word.bits) = xs.map Word.bits ∧ xs.Perm (ys ++ a) ∧
      (fl.has .sorted = false → xs = ys ++ a) ∧
      (fl.has .sorted = true → (∀ x ∈ ys ++ a, F64.isNaN x = false) →
        xs.Pairwise (fun a b => F64.lt b a = false)) := by
    by_cases hs : fl.has .sorted = true
    · rw [if_pos hs]
      obtain ⟨xs, e1, e2⟩ := perm_map_inv (sortCells_perm W .float ((ys ++ a).map Word.bits)) (ys ++ a) rfl
      refine ⟨xs, e1, e2, fun h => by simp [hs] at h, fun _ hn => ?_⟩
      obtain ⟨xs', e1', _, e3⟩ := sortCells_map W (k := .float) (ys ++ a) (cmpFloat_consistent _ hn)
      have : xs' = xs := by
        have hinj : ∀ l l' : List F64, l.map Word.bits = l'.map Word.bits → l = l' := by
          intro l
          induction l with
          | nil => intro l' h; cases l' <;> simp_all
          | cons x l ih =>
            intro l' h
            cases l' with
            | nil => simp at h
            | cons y l' =>
              simp only [List.map_cons, List.cons.injEq, Word.bits.injEq] at h
              rw [h.1, ih l' h.2]
        exact hinj _ _ (e1'.symm.trans e1)
      subst this
      refine e3.imp_of_mem (fun {x y} hx hy hxy => ?_)
      have nx := hn x (e2.mem_iff.1 hx)
      have ny := hn y (e2.mem_iff.1 hy)
      have := cmpFloat_le nx ny hxy
      simp only [F64.lt, nx, ny, Bool.not_false, Bool.true_and, decide_eq_false_iff_not]
      omega
    · rw [if_neg hs]
      exact ⟨ys ++ a, rfl, .refl _, fun _ => rfl, fun h => absurd h hs⟩
  obtain ⟨xs, e1, e2, e3, e4⟩ := h1
  have hsub : ∀ x ∈ ys ++ a, x ∈ zs ++ a := by
    intro x hx
    rcases List.mem_append.1 hx with hx | hx
    · exact List.mem_append_left _ (h.sub x hx)
    · exact List.mem_append_right _ hx
  unfold flagged
  simp only
  rw [e1]
  by_cases hu : fl.has .unique = true
  · rw [if_pos hu, uniqueCells_map]
    have hd : (fun a b => CellKind.float.dup (.bits a) (.bits b)) = F64.near := rfl
    rw [hd]
    have hsl : (uniqueLoop F64.near [] xs).Sublist xs := by
      have := uniqueLoop_sublist F64.near xs []
      simpa using this
    refine ⟨_, rfl, ?_, ?_, ?_, ?_, ?_, ?_⟩
    · intro x hx; exact hsub x (e2.mem_iff.1 (hsl.subset hx))
    · intro _ h; rw [hu] at h; simp at h
    · intro h; rw [hu] at h; simp at h
    · intro hs hn; exact (e4 hs (fun x hx => hn x (hsub x hx))).sublist hsl
    · intro _
      refine (uniqueLoop_pairwise F64.near xs [] .nil).imp (fun {x y} hxy => ?_)
      rw [near_comm]; exact hxy
    · intro _ hs x hx
      rw [e3 hs]
      have hys : ([] ++ ys).Pairwise (fun a b => F64.near b a = false) :=
        (h.apart hu).imp (fun {x y} hxy => by rw [near_comm]; exact hxy)
      rw [uniqueLoop_apart F64.near a ys [] hys, List.nil_append]
      have hcov := uniqueLoop_cover F64.near a ys
      rcases List.mem_append.1 hx with hx | hx
      · have hpre : ∀ y ∈ ys, y ∈ uniqueLoop F64.near ys a :=
          fun y hy => (uniqueLoop_prefix F64.near a ys).subset hy
        rcases h.cover hu hs x hx with hm | ⟨y, hy, hn⟩
        · exact .inl (hpre x hm)
        · exact .inr ⟨y, hpre y hy, hn⟩
      · exact hcov x (List.mem_append_right _ hx)
  · rw [if_neg hu]
    refine ⟨xs, rfl, fun x hx => hsub x (e2.mem_iff.1 hx), fun h1 h2 => ?_, fun h1 => ?_,
      fun hs hn => e4 hs (fun x hx => hn x (hsub x hx)), fun h => absurd h hu, fun h => absurd h hu⟩
    · rw [e3 h1, h.plain h1 h2]
    · exact e2.trans ((h.perm h1).append_right a)

theorem ArrangedFloats.nil (fl : Flags) : ArrangedFloats fl [] [] :=
  ⟨fun _ h => h, fun _ _ => rfl, fun _ => .refl _, fun _ _ => .nil, fun _ => .nil,
    fun _ _ _ h => by simp at h⟩

theorem giveAll_floats {W : World} {h : Handler} {G : Str → Option (List F64)}
    (hg : GivesArr W h .float (fun v => (G v).map (fun l => l.map Word.bits)))
    (ts : List Str) (o : Opt) (hf : o.Fresh) (hh : o.handler = some h)
    (hk : o.valueType.arrayKind = some .float) (hhead : ∀ t ∈ ts.head?, G t ≠ some []) :
    (∀ ws, gather G ts = some ws → ∃ o' ys', o.giveAll W (ts.map some) = some o' ∧
      Arr o' (ys'.map Word.bits) ∧ ArrangedFloats o.flags ws ys' ∧ (ts ≠ [] → ys' ≠ [])) ∧
    (gather G ts = none → o.giveAll W (ts.map some) = none) := by
  have h0 := giveAll_inv (I := ArrangedFloats o.flags) (fl := o.flags) (fun _ => rfl) hg
    (fun zs ys v a hi _ _ => flagged_floats W o.flags hi) ts o [] [] hf.arr (.nil _) hh hk rfl (.inr hhead)
  refine ⟨fun ws hw => ?_, h0.2⟩
  obtain ⟨o', ys', q1, q2, q3, q5⟩ := h0.1 ws hw
  exact ⟨o', ys', q1, q2, by simpa using q3, q5⟩

end Argus
