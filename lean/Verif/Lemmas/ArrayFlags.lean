import Verif.Lemmas.Arrays
import Verif.Lemmas.Strings

/-! # Lemmas: sorting and removing duplicates -/

set_option autoImplicit false

namespace Argus

theorem perm_map_inv {α β : Type} {f : α → β} {l l' : List β} (h : l.Perm l') :
    ∀ xs : List α, l' = xs.map f → ∃ ys : List α, l = ys.map f ∧ ys.Perm xs := by
  induction h with
  | nil => intro xs hx; exact ⟨[], rfl, by cases xs <;> simp_all⟩
  | cons b _ ih =>
    intro xs hx
    cases xs with
    | nil => simp at hx
    | cons x xs =>
      simp only [List.map_cons, List.cons.injEq] at hx
      obtain ⟨ys, h1, h2⟩ := ih xs hx.2
      exact ⟨x :: ys, by rw [h1, hx.1]; rfl, h2.cons x⟩
  | swap a b l =>
    intro xs hx
    match xs, hx with
    | x :: y :: xs, hx =>
      simp only [List.map_cons, List.cons.injEq] at hx
      exact ⟨y :: x :: xs, by rw [hx.1, hx.2.1, hx.2.2]; rfl, .swap x y xs⟩
  | trans _ _ ih1 ih2 =>
    intro xs hx
    obtain ⟨ys, h1, h2⟩ := ih2 xs hx
    obtain ⟨zs, h3, h4⟩ := ih1 ys h1
    exact ⟨zs, h3, h4.trans h2⟩

section Unique
variable {α : Type} (d : α → α → Bool)

theorem uniqueLoop_sublist : ∀ (cs kept : List α), (uniqueLoop d kept cs).Sublist (kept ++ cs)
  | [], kept => by simp [uniqueLoop]
  | c :: cs, kept => by
    unfold uniqueLoop
    split
    · exact (uniqueLoop_sublist cs kept).trans ((List.sublist_cons_self c cs).append_left kept)
    · have := uniqueLoop_sublist cs (kept ++ [c])
      simpa using this

/-- No kept element is equal to an earlier kept one. -/
theorem uniqueLoop_pairwise : ∀ (cs kept : List α), kept.Pairwise (fun a b => d b a = false) →
    (uniqueLoop d kept cs).Pairwise (fun a b => d b a = false)
  | [], kept, h => h
  | c :: cs, kept, h => by
    unfold uniqueLoop
    split
    · exact uniqueLoop_pairwise cs kept h
    · rename_i hc
      refine uniqueLoop_pairwise cs _ ?_
      rw [List.pairwise_append]
      refine ⟨h, List.pairwise_singleton _ _, fun a ha b hb => ?_⟩
      simp only [List.mem_singleton] at hb
      subst hb
      simp only [List.any_eq_true, not_exists, not_and, Bool.not_eq_true] at hc
      exact hc a ha

/-- Every element is kept or equal to a kept one. -/
theorem uniqueLoop_cover : ∀ (cs kept : List α), ∀ c ∈ kept ++ cs,
    c ∈ uniqueLoop d kept cs ∨ ∃ k ∈ uniqueLoop d kept cs, d c k = true
  | [], kept, c, hc => .inl (by simpa [uniqueLoop] using hc)
  | x :: cs, kept, c, hc => by
    unfold uniqueLoop
    split
    · rename_i hx
      rcases List.mem_append.1 hc with h | h
      · exact uniqueLoop_cover cs kept c (by simp [h])
      · rcases List.mem_cons.1 h with rfl | h
        · obtain ⟨k, hk, hd⟩ := List.any_eq_true.1 hx
          exact .inr ⟨k, (uniqueLoop_prefix d cs kept).subset hk, hd⟩
        · exact uniqueLoop_cover cs kept c (by simp [h])
    · exact uniqueLoop_cover cs (kept ++ [x]) c (by simpa using hc)

theorem uniqueLoop_map {β : Type} (f : α → β) (d : β → β → Bool) : ∀ (cs kept : List α),
    uniqueLoop d (kept.map f) (cs.map f) = (uniqueLoop (fun a b => d (f a) (f b)) kept cs).map f
  | [], kept => rfl
  | c :: cs, kept => by
    rw [List.map_cons]
    unfold uniqueLoop
    have : (kept.map f).any (fun k => d (f c) k) = kept.any (fun k => d (f c) (f k)) := by
      rw [List.any_map]; rfl
    rw [this]
    split
    · exact uniqueLoop_map f d cs kept
    · have := uniqueLoop_map f d cs (kept ++ [c])
      rw [List.map_append] at this
      exact this

theorem uniqueLoop_congr {d d' : α → α → Bool} : ∀ (cs kept : List α),
    (∀ a ∈ kept ++ cs, ∀ b ∈ kept ++ cs, d a b = d' a b) → uniqueLoop d kept cs = uniqueLoop d' kept cs
  | [], kept, _ => rfl
  | c :: cs, kept, h => by
    unfold uniqueLoop
    have : kept.any (fun k => d c k) = kept.any (fun k => d' c k) := by
      rw [Bool.eq_iff_iff, List.any_eq_true, List.any_eq_true]
      constructor
      · rintro ⟨k, hk, hd⟩; exact ⟨k, hk, by rw [← h c (by simp) k (by simp [hk])]; exact hd⟩
      · rintro ⟨k, hk, hd⟩; exact ⟨k, hk, by rw [h c (by simp) k (by simp [hk])]; exact hd⟩
    rw [this]
    split
    · refine uniqueLoop_congr cs kept (fun a ha b hb => h a ?_ b ?_)
      · rcases List.mem_append.1 ha with h | h <;> simp [h]
      · rcases List.mem_append.1 hb with h | h <;> simp [h]
    · exact uniqueLoop_congr cs _ (fun a ha b hb => h a (by simpa using ha) b (by simpa using hb))

end Unique

theorem uniqueLoop_eraseDups {α : Type} [DecidableEq α] : ∀ (cs kept : List α),
    uniqueLoop (fun a b => decide (a = b)) kept cs = kept ++ (cs.removeAll kept).eraseDups
  | [], kept => by simp [uniqueLoop, List.removeAll]
  | c :: cs, kept => by
    unfold uniqueLoop
    by_cases hc : c ∈ kept
    · rw [if_pos (by simpa using hc), uniqueLoop_eraseDups cs kept]
      simp [List.removeAll, hc]
    · rw [if_neg (by simpa using hc), uniqueLoop_eraseDups cs (kept ++ [c])]
      have e : (c :: cs).removeAll kept = c :: cs.removeAll kept := by simp [List.removeAll, hc]
      rw [e, List.eraseDups_cons, List.append_assoc]
      congr 2
      simp only [List.removeAll, List.filter_filter, List.singleton_append]
      congr 2
      apply List.filter_congr
      intro x _
      by_cases h1 : x = c <;> by_cases h2 : x ∈ kept <;> simp [h1, h2]

/-! ### Encoded values -/

theorem uniqueCells_map {α : Type} {k : CellKind} {enc : α → Word} (xs : List α) :
    uniqueCells k (xs.map enc) =
      (uniqueLoop (fun a b => k.dup (enc a) (enc b)) [] xs).map enc := by
  cases xs with
  | nil => rfl
  | cons x xs =>
    show uniqueLoop k.dup [enc x] (xs.map enc) = _
    have := uniqueLoop_map enc k.dup xs [x]
    simp only [List.map_cons, List.map_nil] at this
    rw [this]
    simp [uniqueLoop]

theorem sortCells_map {α : Type} (W : World) {k : CellKind} {enc : α → Word} (xs : List α)
    (hc : Consistent k.cmp (xs.map enc)) :
    ∃ ys : List α, sortCells W k (xs.map enc) = ys.map enc ∧ ys.Perm xs ∧
      ys.Pairwise (fun a b => k.cmp (enc a) (enc b) ≤ 0) := by
  obtain ⟨ys, h1, h2⟩ := perm_map_inv (sortCells_perm W k (xs.map enc)) xs rfl
  refine ⟨ys, h1, h2, ?_⟩
  have hp : (sortCells W k (xs.map enc)).Pairwise (fun a b => k.cmp a b ≤ 0) := by
    unfold sortCells
    split
    · rename_i hl
      match hx : xs.map enc, hl with
      | [], _ => exact .nil
      | [c], _ => exact List.pairwise_singleton _ _
    · exact W.qsort_sorted _ _ hc
  rw [h1, List.pairwise_map] at hp
  exact hp

theorem eraseDups_mem {α : Type} [DecidableEq α] (x : α) : ∀ (n : Nat) (l : List α), l.length ≤ n →
    (x ∈ l.eraseDups ↔ x ∈ l)
  | _, [], _ => by simp
  | 0, _ :: _, h => by simp at h
  | n + 1, a :: l, h => by
    rw [List.eraseDups_cons, List.mem_cons, eraseDups_mem x n _ (by
      have := List.length_filter_le (fun b => !b == a) l
      simp only [List.length_cons] at h; omega)]
    by_cases hx : x = a <;> simp [hx]

theorem mem_eraseDups_iff {α : Type} [DecidableEq α] {x : α} {l : List α} :
    x ∈ l.eraseDups ↔ x ∈ l := eraseDups_mem x l.length l (Nat.le_refl _)

theorem eraseDups_nodup_aux {α : Type} [DecidableEq α] : ∀ (n : Nat) (l : List α), l.length ≤ n →
    l.eraseDups.Nodup
  | _, [], _ => by simp
  | 0, _ :: _, h => by simp at h
  | n + 1, a :: l, h => by
    have hl : (l.filter (fun b => !b == a)).length ≤ n := by
      have := List.length_filter_le (fun b => !b == a) l
      simp only [List.length_cons] at h; omega
    rw [List.eraseDups_cons, List.nodup_cons, mem_eraseDups_iff]
    exact ⟨by simp, eraseDups_nodup_aux n _ hl⟩

theorem nodup_eraseDups {α : Type} [DecidableEq α] (l : List α) : l.eraseDups.Nodup :=
  eraseDups_nodup_aux l.length l (Nat.le_refl _)

theorem eraseDups_of_nodup {α : Type} [DecidableEq α] : ∀ (l : List α), l.Nodup → l.eraseDups = l
  | [], _ => by simp
  | a :: l, h => by
    rw [List.nodup_cons] at h
    rw [List.eraseDups_cons]
    have : l.filter (fun b => !b == a) = l := by
      rw [List.filter_eq_self]
      intro b hb
      have : b ≠ a := by rintro rfl; exact h.1 hb
      simpa using this
    rw [this, eraseDups_of_nodup l h.2]

theorem flagged_enc {α : Type} [DecidableEq α] (W : World) {P : α → Prop} {k : CellKind} {enc : α → Word}
    (hdup : ∀ x y, P x → P y → k.dup (enc x) (enc y) = decide (x = y))
    (hc : ∀ xs : List α, Consistent k.cmp (xs.map enc)) (fl : Flags) (xs : List α)
    (hP : ∀ x ∈ xs, P x) :
    ∃ ys : List α, flagged W fl k (xs.map enc) = ys.map enc ∧
      Arranged fl (fun a b => k.cmp (enc a) (enc b) ≤ 0) xs ys := by
  -- sorting
  have h1 : ∃ ys : List α, (if fl.has .sorted then sortCells W k (xs.map enc) else xs.map enc) = ys.map enc ∧
      ys.Perm xs ∧ (fl.has .sorted = false → ys = xs) ∧
      (fl.has .sorted = true → ys.Pairwise (fun a b => k.cmp (enc a) (enc b) ≤ 0)) := by
    by_cases hs : fl.has .sorted = true
    · obtain ⟨ys, e1, e2, e3⟩ := sortCells_map W xs (hc xs)
      exact ⟨ys, by rw [if_pos hs]; exact e1, e2, fun h => by simp [hs] at h, fun _ => e3⟩
    · exact ⟨xs, by rw [if_neg hs], .refl _, fun _ => rfl, fun h => absurd h hs⟩
  obtain ⟨ys, e1, e2, e3, e4⟩ := h1
  unfold flagged
  simp only
  rw [e1]
  by_cases hu : fl.has .unique = true
  · rw [if_pos hu, uniqueCells_map]
    have e5 : uniqueLoop (fun a b => k.dup (enc a) (enc b)) [] ys = ys.eraseDups := by
      rw [uniqueLoop_congr (d' := fun a b => decide (a = b)) ys [] (by
        intro a ha b hb
        exact hdup a b (hP a (e2.mem_iff.1 (by simpa using ha))) (hP b (e2.mem_iff.1 (by simpa using hb)))),
        uniqueLoop_eraseDups]
      have : ys.removeAll [] = ys := by
        simp only [List.removeAll]
        rw [List.filter_eq_self]
        simp
      rw [this, List.nil_append]
    refine ⟨_, rfl, ?_, ?_, ?_, ?_, ?_, ?_⟩
    · intro x; rw [e5, mem_eraseDups_iff]; exact e2.mem_iff
    · intro _ h; rw [hu] at h; simp at h
    · intro h; rw [hu] at h; simp at h
    · intro h
      have := uniqueLoop_sublist (fun a b => k.dup (enc a) (enc b)) ys []
      exact (e4 h).sublist (by simpa using this)
    · intro _; rw [e5]; exact nodup_eraseDups ys
    · intro _ h; rw [e5, e3 h]
  · rw [if_neg hu]
    refine ⟨ys, rfl, fun x => e2.mem_iff, fun h _ => e3 h, fun _ => e2, e4, fun h => absurd h hu,
      fun h => absurd h hu⟩

theorem Arranged.step {α : Type} [DecidableEq α] {fl : Flags} {le : α → α → Prop}
    {zs ys new ys' : List α} (h : Arranged fl le zs ys) (h' : Arranged fl le (ys ++ new) ys') :
    Arranged fl le (zs ++ new) ys' := by
  refine ⟨?_, ?_, ?_, h'.sorted, h'.nodup, ?_⟩
  · intro x
    rw [h'.mem]
    simp [h.mem]
  · intro h1 h2; rw [h'.plain h1 h2, h.plain h1 h2]
  · intro h1; exact (h'.perm h1).trans ((h.perm h1).append_right new)
  · intro h1 h2
    rw [h'.firsts h1 h2, List.eraseDups_append, List.eraseDups_append,
      eraseDups_of_nodup ys (h.nodup h1), ← h.firsts h1 h2]
    congr 2
    simp only [List.removeAll]
    apply List.filter_congr
    intro x _
    by_cases hx : x ∈ ys
    · simp [hx, (h.mem x).1 hx]
    · have hz : x ∉ zs := fun hz => hx ((h.mem x).2 hz)
      simp [hx, hz]

theorem Arranged.nil {α : Type} [DecidableEq α] (fl : Flags) (le : α → α → Prop) :
    Arranged fl le [] [] :=
  ⟨fun _ => Iff.rfl, fun _ _ => rfl, fun _ => .refl _, fun _ => .nil, fun _ => .nil, fun _ _ => by simp⟩

/-! ### Occurrences -/

/-- What an occurrence with text `v` does to an array option with handler `h`. -/
def GivesArr (W : World) (h : Handler) (k : CellKind) (F : Str → Option (List Word)) : Prop :=
  ∀ o cells v, Arr o cells → o.handler = some h → o.valueType.arrayKind = some k →
    (∀ c ∈ cells, k.readable c = true) →
    (∀ ws, F v = some ws → cells ++ ws ≠ [] →
      ∃ o', o.give W (some v) = some o' ∧ Arr o' (flagged W o.flags k (cells ++ ws))) ∧
    (F v = none → o.give W (some v) = none)

theorem Arr.mark {o : Opt} {cells : List Word} (h : Arr o cells) (hne : cells ≠ []) :
    Arr o.markSet cells := by
  have hl : cells.length ≠ 0 := fun h => hne (List.length_eq_zero_iff.1 h)
  refine ⟨?_, h.val⟩
  show (if o.valueCount = 0 then 1 else o.valueCount) = cells.length
  rw [h.count, if_neg hl]

theorem give_of_run {W : World} {o o' : Opt} {h : Handler} {x : Option Str} {es : List Event}
    (hh : o.handler = some h) (hr : runHandler W { tables := [] } h o x = .ok (Err.success, o', es)) :
    o.give W x = some o'.markSet := by
  unfold Opt.give
  simp only [hh, hr, if_true]

theorem give_none_of_run {W : World} {o : Opt} {h : Handler} {x : Option Str} (hh : o.handler = some h)
    (hr : ∀ r, runHandler W { tables := [] } h o x = .ok r → r.1 ≠ Err.success) : o.give W x = none := by
  unfold Opt.give
  rw [hh]
  simp only
  cases he : runHandler W { tables := [] } h o x with
  | ub u => rfl
  | ok r => simp only [if_neg (hr r he)]

theorem collect_gives {W : World} {h : Handler} {k : CellKind} {F : Str → Option (List Word)}
    {f : Opt → Str → Out HRes}
    (hrun : ∀ o x, runHandler W { tables := [] } h o x = collect f (applyArrayFlags W) o x)
    (hf : Appends F f) (hm : StoreMeta f)
    (hF : ∀ v ws, F v = some ws → ∀ c ∈ ws, k.readable c = true) :
    GivesArr W h k (fun v => gather F (pieces v)) := by
  intro o cells v ha hh hk hr
  obtain ⟨h1, h2⟩ := collect_arr W hf hm ha hk hr hF v
  refine ⟨fun ws hw hne => ?_, fun hw => ?_⟩
  · obtain ⟨o1, e1, e2, _⟩ := h1 ws hw
    refine ⟨o1.markSet, give_of_run hh (by rw [hrun]; exact e1), e2.mark (flagged_ne_nil W _ k hne)⟩
  · exact give_none_of_run hh (fun r hr => h2 hw r (by rw [← hrun]; exact hr))

theorem variadic_gives {W : World} {h : Handler} {k : CellKind} {conv : Str → Option Word}
    (hrun : ∀ o x, runHandler W { tables := [] } h o x = variadicNum W conv o x)
    (hc : ∀ v w, conv v = some w → k.readable w = true) :
    GivesArr W h k (fun v => (conv v).map (fun w => [w])) := by
  intro o cells v ha hh hk hr
  obtain ⟨o1, e1, e2, e3, e4⟩ := adjustArray_arr ha
  cases hv : conv v with
  | none =>
    refine ⟨fun ws hw => by simp [hv] at hw, fun _ => give_none_of_run hh (fun r hr' => ?_)⟩
    rw [hrun] at hr'
    unfold variadicNum at hr'
    simp only [e1, Out.ok_bind, hv, Out.ok.injEq] at hr'
    subst hr'
    show Err.invalidValue ≠ Err.success
    decide
  | some w =>
    refine ⟨fun ws hw hne => ?_, fun h => by simp [hv] at h⟩
    simp only [hv, Option.map_some, Option.some.injEq] at hw
    subst hw
    obtain ⟨o2, g1, g2⟩ := storeCell_arr w e2 e3 e4
    have hm : o2.meta = o.meta := (storeCell_meta g1).trans (adjustArray_meta e1)
    have ht : o2.valueType = o.valueType := (congrArg Opt.valueType hm : o2.meta.valueType = o.meta.valueType)
    have hfl : o2.flags = o.flags := (congrArg Opt.flags hm : o2.meta.flags = o.meta.flags)
    obtain ⟨o3, g3, g4⟩ := applyArrayFlags_arr W g2 (ht ▸ hk) (fun c hc' => by
      rcases List.mem_append.1 hc' with h | h
      · exact hr c h
      · simp only [List.mem_singleton] at h; rw [h]; exact hc v w hv)
    rw [hfl] at g4
    refine ⟨({ o3 with isAllocated := true } : Opt).markSet, give_of_run (es := []) hh ?_, ?_⟩
    · rw [hrun]
      unfold variadicNum
      simp only [e1, Out.ok_bind, hv, g1, g3]
    · refine Arr.mark ⟨g4.count, g4.val⟩ (flagged_ne_nil W _ k hne)

theorem gather_map {α β γ : Type} (g : α → Option (List β)) (f : β → γ) : ∀ xs : List α,
    gather (fun x => (g x).map (fun l => l.map f)) xs = (gather g xs).map (fun l => l.map f)
  | [] => rfl
  | x :: xs => by
    unfold gather
    rw [gather_map g f xs]
    cases g x with
    | none => rfl
    | some a => cases gather g xs <;> simp

theorem gather_flatMap {α β γ : Type} (g : β → Option (List γ)) (p : α → List β) : ∀ xs : List α,
    gather (fun x => gather g (p x)) xs = gather g (xs.flatMap p)
  | [] => rfl
  | x :: xs => by
    rw [gather, gather_flatMap g p xs, List.flatMap_cons, gather_append]
    cases gather g (p x) <;> cases gather g (xs.flatMap p) <;> rfl

/-- An array option with encoded values, after any number of occurrences: an invariant relating the
    values given (`zs`) and shown (`ys`) is kept if every occurrence keeps it. -/
theorem giveAll_inv {α : Type} {W : World} {k : CellKind} {enc : α → Word} {h : Handler}
    {G : Str → Option (List α)} {I : List α → List α → Prop} {fl : Flags}
    (hread : ∀ x, k.readable (enc x) = true)
    (hg : GivesArr W h k (fun v => (G v).map (fun l => l.map enc)))
    (hstep : ∀ zs ys v a, I zs ys → G v = some a → ys ++ a ≠ [] →
      ∃ ys1, flagged W fl k ((ys ++ a).map enc) = ys1.map enc ∧ I (zs ++ a) ys1) :
    ∀ (ts : List Str) (o : Opt) (zs ys : List α), Arr o (ys.map enc) → I zs ys →
    o.handler = some h → o.valueType.arrayKind = some k → o.flags = fl →
    (ys ≠ [] ∨ ∀ t ∈ ts.head?, G t ≠ some []) →
    (∀ ws, gather G ts = some ws → ∃ o' ys', o.giveAll W (ts.map some) = some o' ∧
      Arr o' (ys'.map enc) ∧ I (zs ++ ws) ys' ∧ (ts ≠ [] → ys' ≠ [])) ∧
    (gather G ts = none → o.giveAll W (ts.map some) = none)
  | [], o, zs, ys, ha, har, _, _, _, _ => by
    refine ⟨fun ws hw => ?_, fun hw => by simp [gather] at hw⟩
    simp only [gather, Option.some.injEq] at hw; subst hw
    exact ⟨o, ys, rfl, ha, by simpa using har, fun h => absurd rfl h⟩
  | t :: ts, o, zs, ys, ha, har, hh, hk, hfl, hhead => by
    obtain ⟨h1, h2⟩ := hg o (ys.map enc) t ha hh hk (by
      intro c hc'
      obtain ⟨x, _, rfl⟩ := List.mem_map.1 hc'
      exact hread x)
    unfold gather
    cases ht : G t with
    | none =>
      refine ⟨fun ws hw => by simp at hw, fun _ => ?_⟩
      simp only [List.map_cons, Opt.giveAll]
      rw [h2 (by simp [ht])]; rfl
    | some a =>
      have hne : ys ++ a ≠ [] := by
        rcases hhead with h | h
        · simp [h]
        · have := h t (by simp)
          rw [ht] at this
          intro he
          exact this (by simp at he; simp [he.2])
      obtain ⟨o1, e1, e2⟩ := h1 (a.map enc) (by simp [ht]) (by
        rw [← List.map_append]; simpa using hne)
      rw [← List.map_append] at e2
      obtain ⟨ys1, f1, f2⟩ := hstep zs ys t a har ht hne
      have hfne := flagged_ne_nil W fl k (cells := (ys ++ a).map enc) (by simpa using hne)
      rw [hfl, f1] at e2
      rw [f1] at hfne
      have hm := runHandler_keeps_meta e1
      have m1 : o1.valueType = o.valueType := (congrArg Opt.valueType hm : o1.meta.valueType = o.meta.valueType)
      have m2 : o1.flags = o.flags := (congrArg Opt.flags hm : o1.meta.flags = o.meta.flags)
      have m3 : o1.handler = o.handler := (congrArg Opt.handler hm : o1.meta.handler = o.meta.handler)
      have hne1 : ys1 ≠ [] := by simpa using hfne
      obtain ⟨g1, g2⟩ := giveAll_inv hread hg hstep ts o1 (zs ++ a) ys1 e2 f2
        (m3.trans hh) (m1 ▸ hk) (m2.trans hfl) (.inl hne1)
      simp only [List.map_cons, Opt.giveAll, e1, Option.bind_some]
      cases hts : gather G ts with
      | none => exact ⟨fun ws hw => by simp at hw, fun _ => g2 hts⟩
      | some b =>
        refine ⟨fun ws hw => ?_, fun hw => by simp at hw⟩
        simp only [Option.some.injEq] at hw; subst hw
        obtain ⟨o', ys', q1, q2, q3, q4⟩ := g1 b hts
        refine ⟨o', ys', q1, q2, by rw [← List.append_assoc]; exact q3, fun _ => ?_⟩
        cases ts with
        | nil =>
          simp only [List.map_nil, Opt.giveAll, Option.some.injEq] at q1
          subst q1
          intro he
          subst he
          have := q2.count
          rw [e2.count] at this
          simp at this
          exact hne1 this
        | cons _ _ => exact q4 (by simp)

/-- An array option whose duplicate test decides equality, after any number of occurrences. -/
theorem giveAll_arranged {α : Type} [DecidableEq α] {W : World} {P : α → Prop} {k : CellKind}
    {enc : α → Word} {h : Handler} {G : Str → Option (List α)} {le : α → α → Prop} {fl : Flags}
    (hdup : ∀ x y, P x → P y → k.dup (enc x) (enc y) = decide (x = y))
    (hc : ∀ xs : List α, Consistent k.cmp (xs.map enc)) (hread : ∀ x, k.readable (enc x) = true)
    (hle : ∀ x y, P x → P y → k.cmp (enc x) (enc y) ≤ 0 → le x y)
    (hg : GivesArr W h k (fun v => (G v).map (fun l => l.map enc)))
    (hGP : ∀ v xs, G v = some xs → ∀ x ∈ xs, P x)
    (ts : List Str) (o : Opt) (hf : o.Fresh) (hh : o.handler = some h)
    (hk : o.valueType.arrayKind = some k) (hfl : o.flags = fl) (hhead : ∀ t ∈ ts.head?, G t ≠ some []) :
    (∀ ws, gather G ts = some ws → ∃ o' ys', o.giveAll W (ts.map some) = some o' ∧
      Arr o' (ys'.map enc) ∧ Arranged fl le ws ys' ∧ (ts ≠ [] → ys' ≠ [])) ∧
    (gather G ts = none → o.giveAll W (ts.map some) = none) := by
  have h0 := giveAll_inv (I := fun zs ys => (∀ x ∈ zs, P x) ∧
      Arranged fl (fun a b => k.cmp (enc a) (enc b) ≤ 0) zs ys) (fl := fl) hread hg (by
    rintro zs ys v a ⟨hP, har⟩ hv hne
    have hP' : ∀ x ∈ ys ++ a, P x := by
      intro x hx
      rcases List.mem_append.1 hx with hx | hx
      · exact hP x ((har.mem x).1 hx)
      · exact hGP v a hv x hx
    obtain ⟨ys1, f1, f2⟩ := flagged_enc W hdup hc fl (ys ++ a) hP'
    refine ⟨ys1, f1, ?_, har.step f2⟩
    intro x hx
    rcases List.mem_append.1 hx with hx | hx
    · exact hP x hx
    · exact hGP v a hv x hx) ts o [] [] hf.arr ⟨by simp, .nil _ _⟩ hh hk hfl (.inr hhead)
  refine ⟨fun ws hw => ?_, h0.2⟩
  obtain ⟨o', ys', q1, q2, ⟨q3, q4⟩, q5⟩ := h0.1 ws hw
  refine ⟨o', ys', q1, q2, ?_, q5⟩
  rw [List.nil_append] at q3 q4
  refine ⟨q4.mem, q4.plain, q4.perm, fun hs => ?_, q4.nodup, q4.firsts⟩
  exact (q4.sorted hs).imp_of_mem (fun hx hy hxy =>
    hle _ _ (q3 _ ((q4.mem _).1 hx)) (q3 _ ((q4.mem _).1 hy)) hxy)

end Argus
