import Verif.Spec.Collect
import Verif.Lemmas.Split
import Verif.Lemmas.Scalar

/-! # Lemmas: the contents of arrays -/

set_option autoImplicit false

namespace Argus

theorem gather_append {α β : Type} (f : α → Option (List β)) : ∀ xs ys : List α,
    gather f (xs ++ ys) = match gather f xs, gather f ys with
      | some a, some b => some (a ++ b)
      | _, _ => none
  | [], ys => by simp only [List.nil_append, gather]; cases gather f ys <;> simp
  | x :: xs, ys => by
    rw [List.cons_append, gather, gather_append f xs ys, gather]
    cases f x with
    | none => simp
    | some a => cases gather f xs <;> cases gather f ys <;> simp

/-- The option's array is well formed and holds `cells`. -/
structure Arr (o : Opt) (cells : List Word) : Prop where
  count : o.valueCount = cells.length
  val : (cells = [] ∧ o.value = .null) ∨
    (o.value = .arr cells ∧ cells.length ≤ o.valueCapacity ∧ 0 < o.valueCapacity)

theorem Arr.elements {o : Opt} {cells : List Word} (h : Arr o cells) (hne : cells ≠ []) :
    o.Elements cells := by
  refine ⟨?_, h.count⟩
  rcases h.val with ⟨h1, _⟩ | ⟨h1, _⟩
  · exact absurd h1 hne
  · exact h1

theorem Opt.Fresh.arr {o : Opt} (h : o.Fresh) : Arr o [] := ⟨h.2, .inl ⟨rfl, h.1⟩⟩

/-- `adjust_array_size` makes room for one more cell. -/
theorem adjustArray_arr {o : Opt} {cells : List Word} (h : Arr o cells) :
    ∃ o', adjustArray o = .ok o' ∧ o'.value = .arr cells ∧ o'.valueCount = cells.length ∧
      cells.length < o'.valueCapacity := by
  unfold adjustArray
  rcases h.val with ⟨h1, h2⟩ | ⟨h1, h2, h3⟩
  · subst h1
    refine ⟨{ o with value := .arr [], valueCapacity := initialCapacity }, ?_, rfl, h.count,
      (show (0 : Nat) < initialCapacity by decide)⟩
    rw [h2]
    simp [Val.null]
  · rw [h1]
    simp only
    by_cases hc : o.valueCount ≥ o.valueCapacity
    · rw [if_pos hc]
      refine ⟨_, rfl, rfl, h.count, ?_⟩
      rw [h.count] at hc
      show cells.length < o.valueCapacity * 2
      omega
    · rw [if_neg hc]
      refine ⟨o, rfl, h1, h.count, ?_⟩
      rw [h.count] at hc; omega

theorem storeCell_arr {o : Opt} {cells : List Word} (w : Word) (h1 : o.value = .arr cells)
    (h2 : o.valueCount = cells.length) (h3 : cells.length < o.valueCapacity) :
    ∃ o', storeCell o w = .ok o' ∧ Arr o' (cells ++ [w]) := by
  unfold storeCell
  rw [h1]
  simp only
  have hw : writeCell o.valueCapacity cells o.valueCount w = .ok (cells ++ [w]) := by
    unfold writeCell
    rw [h2, if_neg (by omega), if_neg (by omega)]
    simp
  rw [hw]
  refine ⟨_, rfl, ?_, .inr ⟨rfl, ?_, ?_⟩⟩
  · simp [h2]
  · simp; omega
  · show 0 < o.valueCapacity; omega

theorem pushCell_arr {o : Opt} {cells : List Word} (w : Word) (h : Arr o cells) :
    ∃ o', pushCell o w = .ok o' ∧ Arr o' (cells ++ [w]) := by
  obtain ⟨o1, e1, e2, e3, e4⟩ := adjustArray_arr h
  unfold pushCell
  rw [e1]
  exact storeCell_arr w e2 e3 e4

/-- `f` appends to the array what `F` says, or fails. -/
def Appends (F : Str → Option (List Word)) (f : Opt → Str → Out HRes) : Prop :=
  ∀ o cells v, Arr o cells →
    (∀ ws, F v = some ws → ∃ o', f o v = .ok (Err.success, o', []) ∧ Arr o' (cells ++ ws)) ∧
    (F v = none → ∀ r, f o v = .ok r → r.1 ≠ Err.success)

theorem setValueString_appends : Appends (fun s => some [.ptr s]) setValueString := by
  intro o cells v h
  refine ⟨fun ws hw => ?_, fun h => by simp at h⟩
  simp only [Option.some.injEq] at hw; subst hw
  obtain ⟨o', e1, e2⟩ := pushCell_arr (.ptr v) h
  exact ⟨o', by unfold setValueString; rw [e1]; rfl, e2⟩

theorem setValueFloat_appends (W : World) :
    Appends (fun s => some [.bits (W.strtof s)]) (setValueFloat W) := by
  intro o cells v h
  refine ⟨fun ws hw => ?_, fun h => by simp at h⟩
  simp only [Option.some.injEq] at hw; subst hw
  obtain ⟨o', e1, e2⟩ := pushCell_arr (.bits (W.strtof v)) h
  exact ⟨o', by unfold setValueFloat; rw [e1]; rfl, e2⟩

/-- A cell written with `as_int`. -/
def intCell (i : Int) : Word := .low (BitVec.ofInt 32 i)

theorem addRangeLoop_arr : ∀ (n : Nat) (i : Int) {o : Opt} {cells : List Word}, Arr o cells →
    ∃ o', addRangeLoop n i o = .ok o' ∧
      Arr o' (cells ++ (List.range n).map (fun (j : Nat) => intCell (i + (j : Int))))
  | 0, i, o, cells, h => ⟨o, rfl, by simpa using h⟩
  | n + 1, i, o, cells, h => by
    obtain ⟨o1, e1, e2⟩ := pushCell_arr (intCell i) h
    obtain ⟨o2, e3, e4⟩ := addRangeLoop_arr n (i + 1) e2
    refine ⟨o2, ?_, ?_⟩
    · unfold addRangeLoop
      rw [show Word.low (BitVec.ofInt 32 i) = intCell i from rfl, e1]
      exact e3
    · rw [List.range_succ_eq_map, List.map_cons, List.map_map]
      have : (cells ++ [intCell i] ++ (List.range n).map (fun (j : Nat) => intCell (i + 1 + (j : Int)))) =
          cells ++ (intCell (i + ((0 : Nat) : Int)) ::
            (List.range n).map ((fun (j : Nat) => intCell (i + (j : Int))) ∘ Nat.succ)) := by
        rw [List.append_assoc]
        congr 1
        simp only [List.singleton_append, Int.natCast_zero, Int.add_zero, List.cons.injEq, true_and]
        apply List.map_congr_left
        intro j _
        simp only [Function.comp]
        congr 1
        push_cast
        omega
      rw [← this]; exact e4

/-- The integers one piece of text stands for in an int array; `none` if it is rejected, or if its range
    ends at INT_MAX, where the counting variable overflows. -/
def pieceInts (piece : Str) : Option (List Int) :=
  match parseIntRange piece with
  | none => none
  | some (lo, hi) =>
    if hi = intMax then none else some ((List.range (hi - lo + 1).toNat).map (fun (i : Nat) => lo + (i : Int)))

theorem setValueInt_appends :
    Appends (fun s => (pieceInts s).map (fun xs => xs.map intCell)) setValueInt := by
  intro o cells v h
  have hF : ∀ lo hi, parseIntRange v = some (lo, hi) → pieceInts v =
      if hi = intMax then none
      else some ((List.range (hi - lo + 1).toNat).map (fun (i : Nat) => lo + (i : Int))) := by
    intro lo hi hp; unfold pieceInts; rw [hp]
  have hN : parseIntRange v = none → pieceInts v = none := by
    intro hp; unfold pieceInts; rw [hp]
  unfold setValueInt
  cases hp : parseIntRange v with
  | none =>
    refine ⟨fun ws hw => by simp [hN hp] at hw, fun _ r hr => ?_⟩
    simp only [Out.ok.injEq] at hr; subst hr
    show Err.invalidFormat ≠ Err.success
    decide
  | some p =>
    obtain ⟨lo, hi⟩ := p
    have hF := hF lo hi hp
    simp only
    obtain ⟨o', e1, e2⟩ := addRangeLoop_arr (hi - lo + 1).toNat lo h
    by_cases hm : hi = intMax
    · refine ⟨fun ws hw => by simp [hF, hm] at hw, fun _ r hr => ?_⟩
      unfold addRange at hr
      simp only [e1, Out.ok_bind, if_pos hm, Out.ub_bind] at hr
      simp at hr
    · refine ⟨fun ws hw => ?_, fun hw => by simp [hF, hm] at hw⟩
      simp only [hF, if_neg hm, Option.map_some, Option.some.injEq] at hw
      subst hw
      refine ⟨o', ?_, by simpa [Function.comp_def] using e2⟩
      unfold addRange
      simp only [e1, Out.ok_bind, if_neg hm]

theorem setAll_appends {F : Str → Option (List Word)} {f : Opt → Str → Out HRes} (hf : Appends F f) :
    ∀ (vs : List Str) (o : Opt) (cells : List Word), Arr o cells →
    (∀ ws, gather F vs = some ws → ∃ o', setAll f o vs = .ok (Err.success, o', []) ∧
      Arr o' (cells ++ ws)) ∧
    (gather F vs = none → ∀ r, setAll f o vs = .ok r → r.1 ≠ Err.success)
  | [], o, cells, h => by
    refine ⟨fun ws hw => ?_, fun hw => by simp [gather] at hw⟩
    simp only [gather, Option.some.injEq] at hw; subst hw
    exact ⟨o, rfl, by simpa using h⟩
  | v :: vs, o, cells, h => by
    obtain ⟨h1, h2⟩ := hf o cells v h
    unfold gather setAll
    cases hv : F v with
    | none =>
      refine ⟨fun ws hw => by simp at hw, fun _ r hr => ?_⟩
      obtain ⟨r1, e1, e2⟩ := Out.bind_eq_ok hr
      have := h2 hv r1 e1
      rw [if_pos this] at e2
      simp only [Out.ok.injEq] at e2; subst e2; exact this
    | some a =>
      obtain ⟨o1, e1, e2⟩ := h1 a hv
      obtain ⟨g1, g2⟩ := setAll_appends hf vs o1 _ e2
      rw [e1]
      simp only [Out.ok_bind, ne_eq, not_true_eq_false, if_false, List.nil_append]
      cases hvs : gather F vs with
      | none =>
        refine ⟨fun ws hw => by simp at hw, fun _ r hr => ?_⟩
        obtain ⟨r1, e3, e4⟩ := Out.bind_eq_ok hr
        simp only [Out.ok.injEq] at e4; subst e4
        exact g2 hvs r1 e3
      | some b =>
        refine ⟨fun ws hw => ?_, fun hw => by simp at hw⟩
        simp only [Option.some.injEq] at hw; subst hw
        obtain ⟨o2, e3, e4⟩ := g1 b hvs
        refine ⟨o2, by rw [e3]; rfl, by rw [← List.append_assoc]; exact e4⟩

theorem split_comma (v : Str) : split v [44] = (fields (· == 44) v).filter (· ≠ []) := by
  rw [split_eq]
  have : (List.contains [44] : Byte → Bool) = (· == 44) := by
    funext c
    by_cases h : c = 44 <;> simp [h]
  rw [this]

theorem storeParts_appends {F : Str → Option (List Word)} {f : Opt → Str → Out HRes} (hf : Appends F f) :
    Appends (fun v => gather F (pieces v)) (storeParts f) := by
  intro o cells v h
  unfold storeParts pieces
  simp only
  by_cases hc : (44 : Byte) ∈ v
  · have hc' : v.contains 44 = true := by simpa using hc
    rw [if_pos hc, hc', if_pos rfl, split_comma]
    exact setAll_appends hf _ o cells h
  · have hc' : v.contains 44 = false := by simpa using hc
    rw [if_neg hc, hc', if_neg (by simp)]
    obtain ⟨h1, h2⟩ := hf o cells v h
    have hg : gather F [v] = F v := by
      simp only [gather]
      cases F v <;> simp
    simp only [hg]
    exact ⟨h1, h2⟩

/-- What the flags make of the cells of an array. -/
def flagged (W : World) (fl : Flags) (k : CellKind) (cells : List Word) : List Word :=
  let s := if fl.has .sorted then sortCells W k cells else cells
  if fl.has .unique then uniqueCells k s else s

theorem sortCells_perm (W : World) (k : CellKind) (cells : List Word) :
    (sortCells W k cells).Perm cells := by
  unfold sortCells
  split
  · exact .refl _
  · exact W.qsort_perm _ _

theorem uniqueLoop_length {α : Type} (dup : α → α → Bool) : ∀ (cs kept : List α),
    (uniqueLoop dup kept cs).length ≤ kept.length + cs.length
  | [], kept => by simp [uniqueLoop]
  | c :: cs, kept => by
    unfold uniqueLoop
    split
    · have := uniqueLoop_length dup cs kept; simp; omega
    · have := uniqueLoop_length dup cs (kept ++ [c]); simp at this ⊢; omega

theorem uniqueCells_length (k : CellKind) (cells : List Word) :
    (uniqueCells k cells).length ≤ cells.length := by
  unfold uniqueCells
  split
  · simp
  · rename_i c cs
    have := uniqueLoop_length k.dup cs [c]; simp at this ⊢; omega

theorem uniqueLoop_prefix {α : Type} (dup : α → α → Bool) : ∀ (cs kept : List α),
    kept <+: uniqueLoop dup kept cs
  | [], kept => List.prefix_rfl
  | c :: cs, kept => by
    unfold uniqueLoop
    split
    · exact uniqueLoop_prefix dup cs kept
    · exact (List.prefix_append kept [c]).trans (uniqueLoop_prefix dup cs _)

theorem uniqueCells_ne_nil (k : CellKind) {cells : List Word} (h : cells ≠ []) :
    uniqueCells k cells ≠ [] := by
  cases cells with
  | nil => exact absurd rfl h
  | cons c cs =>
    obtain ⟨t, ht⟩ := uniqueLoop_prefix k.dup cs [c]
    show uniqueLoop k.dup [c] cs ≠ []
    rw [← ht]; simp

theorem flagged_ne_nil (W : World) (fl : Flags) (k : CellKind) {cells : List Word} (h : cells ≠ []) :
    flagged W fl k cells ≠ [] := by
  unfold flagged
  simp only
  have h1 : (if fl.has .sorted then sortCells W k cells else cells) ≠ [] := by
    split
    · intro he
      have := (sortCells_perm W k cells).length_eq
      rw [he] at this
      exact h (List.length_eq_zero_iff.1 this.symm)
    · exact h
  split
  · exact uniqueCells_ne_nil k h1
  · exact h1

theorem flagged_length (W : World) (fl : Flags) (k : CellKind) (cells : List Word) :
    (flagged W fl k cells).length ≤ cells.length := by
  unfold flagged
  simp only
  have h1 : (if fl.has .sorted then sortCells W k cells else cells).length = cells.length := by
    split
    · exact (sortCells_perm W k cells).length_eq
    · rfl
  split
  · exact h1 ▸ uniqueCells_length k _
  · exact Nat.le_of_eq h1

theorem flagged_short (W : World) (fl : Flags) (k : CellKind) {cells : List Word}
    (h : cells.length ≤ 1) : flagged W fl k cells = cells := by
  have h1 : sortCells W k cells = cells := by unfold sortCells; rw [if_pos h]
  have h2 : uniqueCells k cells = cells := by
    match cells, h with
    | [], _ => rfl
    | [c], _ => rfl
  unfold flagged
  simp [h1, h2]

theorem arrayCells_arr {o : Opt} {cells : List Word} {k : CellKind} (h : Arr o cells)
    (hne : cells ≠ []) (hr : ∀ c ∈ cells, k.readable c = true) : o.arrayCells k = .ok cells := by
  obtain ⟨h1, h2⟩ := h.elements hne
  unfold Opt.arrayCells
  rw [h1]
  simp only [h2, Nat.lt_irrefl, if_false, List.take_length]
  rw [if_pos (List.all_eq_true.2 hr)]

theorem applyArrayFlags_arr (W : World) {o : Opt} {cells : List Word} {k : CellKind} (h : Arr o cells)
    (hk : o.valueType.arrayKind = some k) (hr : ∀ c ∈ cells, k.readable c = true) :
    ∃ o', applyArrayFlags W o = .ok o' ∧ Arr o' (flagged W o.flags k cells) := by
  unfold applyArrayFlags
  by_cases hc : o.valueCount ≤ 1
  · rw [if_pos hc]
    exact ⟨o, rfl, by rw [flagged_short W _ k (by rw [← h.count]; exact hc)]; exact h⟩
  · rw [if_neg hc, hk]
    simp only
    have hne : cells ≠ [] := by
      rintro rfl
      exact hc (by rw [h.count]; simp)
    -- sorting
    have h1 : ∃ o1, applySorted W k o = .ok o1 ∧ o1.flags = o.flags ∧
        Arr o1 (if o.flags.has .sorted then sortCells W k cells else cells) := by
      unfold applySorted
      by_cases hs : o.flags.has .sorted = true
      · rw [if_pos hs, if_pos hs, arrayCells_arr h hne hr]
        refine ⟨_, rfl, rfl, ?_, .inr ⟨rfl, ?_⟩⟩
        · show o.valueCount = _
          rw [(sortCells_perm W k cells).length_eq]; exact h.count
        · rcases h.val with ⟨h1, _⟩ | ⟨_, h2⟩
          · exact absurd h1 hne
          · show (sortCells W k cells).length ≤ o.valueCapacity ∧ 0 < o.valueCapacity
            rw [(sortCells_perm W k cells).length_eq]; exact h2
      · rw [if_neg hs, if_neg hs]
        exact ⟨o, rfl, rfl, h⟩
    obtain ⟨o1, e1, e2, e3⟩ := h1
    rw [e1]
    simp only [Out.ok_bind]
    unfold flagged
    simp only
    generalize hx : (if o.flags.has .sorted then sortCells W k cells else cells) = cells1 at e3
    have hp : cells1.Perm cells := by
      rw [← hx]; split
      · exact sortCells_perm W k cells
      · exact .refl _
    have hne1 : cells1 ≠ [] := by
      intro he; rw [he] at hp; exact hne hp.symm.eq_nil
    have hr1 : ∀ c ∈ cells1, k.readable c = true := fun c hc => hr c (hp.mem_iff.1 hc)
    unfold applyUnique
    rw [e2]
    by_cases hu : o.flags.has .unique = true
    · rw [if_pos hu, if_pos hu, arrayCells_arr e3 hne1 hr1]
      refine ⟨_, rfl, rfl, .inr ⟨rfl, ?_⟩⟩
      rcases e3.val with ⟨h1, _⟩ | ⟨_, h2, h3⟩
      · exact absurd h1 hne1
      · exact ⟨Nat.le_trans (uniqueCells_length k cells1) h2, h3⟩
    · rw [if_neg hu, if_neg hu]
      exact ⟨o1, rfl, e3⟩

/-- Array handlers: what an occurrence does. -/
theorem collect_arr (W : World) {F : Str → Option (List Word)} {f : Opt → Str → Out HRes}
    (hf : Appends F f) (hm : StoreMeta f) {o : Opt} {cells : List Word} {k : CellKind} (h : Arr o cells)
    (hk : o.valueType.arrayKind = some k) (hr : ∀ c ∈ cells, k.readable c = true)
    (hF : ∀ v ws, F v = some ws → ∀ c ∈ ws, k.readable c = true) (v : Str) :
    (∀ ws, gather F (pieces v) = some ws →
      ∃ o', collect f (applyArrayFlags W) o (some v) = .ok (Err.success, o', []) ∧
        Arr o' (flagged W o.flags k (cells ++ ws)) ∧ o'.isAllocated = true) ∧
    (gather F (pieces v) = none → ∀ r, collect f (applyArrayFlags W) o (some v) = .ok r →
      r.1 ≠ Err.success) := by
  obtain ⟨h1, h2⟩ := storeParts_appends hf o cells v h
  unfold collect
  simp only
  refine ⟨fun ws hw => ?_, fun hw r hr' => ?_⟩
  · obtain ⟨o1, e1, e2⟩ := h1 ws hw
    have hread : ∀ (vs : List Str) ws, gather F vs = some ws → ∀ c ∈ ws, k.readable c = true := by
      intro vs
      induction vs with
      | nil => intro ws hw c hc; simp only [gather, Option.some.injEq] at hw; subst hw; simp at hc
      | cons x xs ih =>
        intro ws hw c hc
        unfold gather at hw
        cases ha : F x with
        | none => rw [ha] at hw; simp at hw
        | some a =>
          cases hb : gather F xs with
          | none => rw [ha, hb] at hw; simp at hw
          | some b =>
            rw [ha, hb] at hw
            simp only [Option.some.injEq] at hw; subst hw
            rcases List.mem_append.1 hc with hc | hc
            · exact hF x a ha c hc
            · exact ih b hb c hc
    have hm1 : o1.meta = o.meta := by
      have : StoreMeta (storeParts f) := by
        intro o v r hr
        unfold storeParts at hr
        split at hr
        · exact setAll_meta hm _ hr
        · exact hm _ _ _ hr
      exact this _ _ _ e1
    have ht : o1.valueType = o.valueType := (congrArg Opt.valueType hm1 : o1.meta.valueType = o.meta.valueType)
    have hfl : o1.flags = o.flags := (congrArg Opt.flags hm1 : o1.meta.flags = o.meta.flags)
    obtain ⟨o2, e3, e4⟩ := applyArrayFlags_arr W e2 (ht ▸ hk) (fun c hc => by
      rcases List.mem_append.1 hc with hc | hc
      · exact hr c hc
      · exact hread _ ws hw c hc)
    rw [e1]
    simp only [Out.ok_bind, ne_eq, not_true_eq_false, if_false]
    rw [e3]
    refine ⟨_, rfl, ?_, rfl⟩
    rw [hfl] at e4
    exact ⟨e4.count, e4.val⟩
  · obtain ⟨r1, e1, e2⟩ := Out.bind_eq_ok hr'
    have := h2 hw r1 e1
    rw [if_pos this] at e2
    simp only [Out.ok.injEq] at e2; subst e2; exact this

end Argus
