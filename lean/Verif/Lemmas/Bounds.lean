import Verif.Lemmas.Arrays

/-! # Lemmas: collections stay within their buffers -/

set_option autoImplicit false

namespace Argus

/-- The buffer an option points to is large enough for what it holds. A count of 1 without a buffer is
    what `set_option_value` leaves when a handler has stored nothing. -/
inductive InBuf (o : Opt) : Prop
  | empty : o.value = .null → o.valueCount ≤ 1 → InBuf o
  | arr (cells : List Word) : o.value = .arr cells → cells.length ≤ o.valueCapacity → 0 < o.valueCapacity →
      o.valueCount ≤ o.valueCapacity → InBuf o
  | map (cells : List (Str × Word)) : o.value = .map cells → cells.length ≤ o.valueCapacity →
      0 < o.valueCapacity → o.valueCount ≤ o.valueCapacity → InBuf o

/-- Not a write outside a buffer, and a result satisfying `P`. -/
def Inside {α : Type} (x : Out α) (P : α → Prop) : Prop := x ≠ .ub .outOfBounds ∧ ∀ r, x = .ok r → P r

theorem Inside.bind {α β : Type} {x : Out α} {f : α → Out β} {P : α → Prop} {Q : β → Prop}
    (hx : Inside x P) (hf : ∀ r, P r → Inside (f r) Q) : Inside (x >>= f) Q := by
  cases x with
  | ub u =>
    refine ⟨?_, fun r h => by cases h⟩
    intro h
    have : u = .outOfBounds := by cases h; rfl
    exact hx.1 (by rw [this])
  | ok r => exact hf r (hx.2 r rfl)

theorem Inside.ok {α : Type} {x : α} {P : α → Prop} (h : P x) : Inside (.ok x) P :=
  ⟨fun h => (by cases h), fun r hr => by cases hr; exact h⟩

theorem Inside.ub {α : Type} {u : Ub} {P : α → Prop} (h : u ≠ .outOfBounds) : Inside (.ub u) P :=
  ⟨fun h' => (by cases h'; exact h rfl), fun r hr => by cases hr⟩

/-- There is an array with room for one more cell. -/
def ArrRoom (o : Opt) : Prop :=
  (∃ cells : List Word, o.value = .arr cells ∧ cells.length ≤ o.valueCapacity) ∧ o.valueCount < o.valueCapacity

def MapRoom (o : Opt) : Prop :=
  (∃ cells : List (Str × Word), o.value = .map cells ∧ cells.length ≤ o.valueCapacity) ∧
    o.valueCount < o.valueCapacity

theorem ArrRoom.inBuf {o : Opt} (h : ArrRoom o) : InBuf o := by
  obtain ⟨⟨cells, h1, h2⟩, h3⟩ := h
  exact .arr cells h1 h2 (by omega) (by omega)

theorem adjustArray_inside {o : Opt} (h : InBuf o) : Inside (adjustArray o) ArrRoom := by
  unfold adjustArray
  cases h with
  | empty h1 h2 =>
    rw [h1]
    simp only [Val.null]
    rw [if_pos trivial]
    refine .ok ⟨⟨[], rfl, by simp⟩, ?_⟩
    show o.valueCount < initialCapacity
    unfold initialCapacity; omega
  | arr cells h1 h2 h3 h4 =>
    rw [h1]
    simp only
    split
    · refine .ok ⟨⟨cells, rfl, ?_⟩, ?_⟩
      · show cells.length ≤ o.valueCapacity * 2; omega
      · show o.valueCount < o.valueCapacity * 2; omega
    · exact .ok ⟨⟨cells, h1, h2⟩, by omega⟩
  | map cells h1 h2 h3 h4 => rw [h1]; exact .ub (by decide)

theorem adjustMap_inside {o : Opt} (h : InBuf o) : Inside (adjustMap o) MapRoom := by
  unfold adjustMap
  cases h with
  | empty h1 h2 =>
    rw [h1]
    simp only [Val.null]
    rw [if_pos trivial]
    refine .ok ⟨⟨[], rfl, by simp⟩, ?_⟩
    show o.valueCount < initialCapacity
    unfold initialCapacity; omega
  | map cells h1 h2 h3 h4 =>
    rw [h1]
    simp only
    split
    · refine .ok ⟨⟨cells, rfl, ?_⟩, ?_⟩
      · show cells.length ≤ o.valueCapacity * 2; omega
      · show o.valueCount < o.valueCapacity * 2; omega
    · exact .ok ⟨⟨cells, h1, h2⟩, by omega⟩
  | arr cells h1 h2 h3 h4 => rw [h1]; exact .ub (by decide)

theorem writeCell_inside {cap : Nat} {cells : List Word} {i : Nat} (w : Word) (hi : i < cap)
    (hc : cells.length ≤ cap) : Inside (writeCell cap cells i w) (fun cs => cs.length ≤ cap) := by
  unfold writeCell
  rw [if_neg (by omega)]
  split
  · exact .ok (by rw [List.length_set]; exact hc)
  · refine .ok ?_
    simp only [List.length_append, List.length_replicate, List.length_cons, List.length_nil]
    omega

theorem storeCell_inside {o : Opt} (w : Word) (h : ArrRoom o) : Inside (storeCell o w) InBuf := by
  obtain ⟨⟨cells, h1, h2⟩, h3⟩ := h
  unfold storeCell
  rw [h1]
  refine (writeCell_inside w h3 h2).bind (fun cs hcs => .ok ?_)
  refine .arr cs rfl hcs (by show 0 < o.valueCapacity; omega) ?_
  show o.valueCount + 1 ≤ o.valueCapacity
  omega

theorem pushCell_inside {o : Opt} (w : Word) (h : InBuf o) : Inside (pushCell o w) InBuf :=
  (adjustArray_inside h).bind (fun _ h1 => storeCell_inside w h1)

theorem addRangeLoop_inside : ∀ (n : Nat) (i : Int) {o : Opt}, InBuf o → Inside (addRangeLoop n i o) InBuf
  | 0, _, _, h => .ok h
  | n + 1, i, _, h => (pushCell_inside _ h).bind (fun _ h1 => addRangeLoop_inside n (i + 1) h1)

/-- What the handlers guarantee: the option returned is in its buffer. -/
def InsideRes (x : Out HRes) : Prop := Inside x (fun r => InBuf r.2.1)

theorem setValueInt_inside {o : Opt} (v : Str) (h : InBuf o) : InsideRes (setValueInt o v) := by
  unfold setValueInt
  split
  · exact .ok h
  · rename_i r _
    refine Inside.bind (P := InBuf) ?_ (fun o1 h1 => .ok h1)
    unfold addRange
    refine (addRangeLoop_inside _ _ h).bind (fun o1 h1 => ?_)
    split
    · exact .ub (by decide)
    · exact .ok h1

theorem setValueString_inside {o : Opt} (v : Str) (h : InBuf o) : InsideRes (setValueString o v) :=
  (pushCell_inside _ h).bind (fun _ h1 => .ok h1)

theorem setValueFloat_inside (W : World) {o : Opt} (v : Str) (h : InBuf o) : InsideRes (setValueFloat W o v) :=
  (pushCell_inside _ h).bind (fun _ h1 => .ok h1)

theorem setPair_inside {o : Opt} (k : Str) (upd : Word → Word) (w : Word) (h : InBuf o) :
    Inside (setPair o k upd w) InBuf := by
  unfold setPair
  refine Inside.bind (P := fun _ => True) ?_ (fun r _ => ?_)
  · unfold mapFindKey
    split
    · exact .ok trivial
    · refine Inside.bind (P := fun _ => True) ?_ (fun _ _ => .ok trivial)
      unfold Opt.mapCells
      split
      · split
        · exact .ub (by decide)
        · exact .ok trivial
      · split
        · exact .ub (by decide)
        · exact .ub (by decide)
      · exact .ub (by decide)
      · exact .ub (by decide)
  · split
    · rename_i i
      cases h with
      | empty h1 h2 => rw [h1]; exact .ub (by decide)
      | arr cells h1 h2 h3 h4 => rw [h1]; exact .ub (by decide)
      | map cells h1 h2 h3 h4 =>
        rw [h1]
        exact .ok (.map _ rfl (by rw [List.length_modify]; exact h2) h3 h4)
    · refine (adjustMap_inside h).bind (fun o1 h1 => ?_)
      obtain ⟨⟨cells, e1, e2⟩, e3⟩ := h1
      rw [e1]
      simp only
      rw [if_neg (by omega)]
      split
      · exact .ub (by decide)
      · refine .ok (.map _ rfl ?_ (by show 0 < o1.valueCapacity; omega) (by show o1.valueCount + 1 ≤ o1.valueCapacity; omega))
        simp only [List.length_append, List.length_take, List.length_cons, List.length_nil]
        show min o1.valueCount cells.length + 1 ≤ o1.valueCapacity
        omega

theorem setKvPair_inside (conv : Str → Option MapStore) {o : Opt} (v : Str) (h : InBuf o) :
    InsideRes (setKvPair conv o v) := by
  unfold setKvPair
  split
  · exact .ok h
  · split
    · exact .ok h
    · exact (setPair_inside _ _ _ h).bind (fun _ h1 => .ok h1)

theorem setAll_inside {f : Opt → Str → Out HRes} (hf : ∀ o v, InBuf o → InsideRes (f o v)) :
    ∀ (vs : List Str) (o : Opt), InBuf o → InsideRes (setAll f o vs)
  | [], _, h => .ok h
  | v :: vs, o, h => by
    unfold setAll
    refine Inside.bind (hf o v h) (fun r hr => ?_)
    split
    · exact .ok hr
    · exact Inside.bind (setAll_inside hf vs r.2.1 hr) (fun r2 hr2 => .ok hr2)

theorem storeParts_inside {f : Opt → Str → Out HRes} (hf : ∀ o v, InBuf o → InsideRes (f o v)) (o : Opt) (v : Str)
    (h : InBuf o) : InsideRes (storeParts f o v) := by
  unfold storeParts
  split
  · exact setAll_inside hf _ o h
  · exact hf o v h

theorem arrayCells_inside (o : Opt) (k : CellKind) :
    Inside (o.arrayCells k) (fun cs => cs.length = o.valueCount ∧ ∃ cells, o.value = .arr cells) := by
  unfold Opt.arrayCells
  split
  · split
    · exact .ub (by decide)
    · split
      · refine .ok ⟨?_, _, by assumption⟩
        rw [List.length_take]; omega
      · exact .ub (by decide)
  · split <;> exact .ub (by decide)
  · exact .ub (by decide)
  · exact .ub (by decide)

theorem mapCells_inside (o : Opt) :
    Inside o.mapCells (fun cs => cs.length = o.valueCount ∧ ∃ cells, o.value = .map cells) := by
  unfold Opt.mapCells
  split
  · split
    · exact .ub (by decide)
    · refine .ok ⟨?_, _, by assumption⟩
      rw [List.length_take]; omega
  · split <;> exact .ub (by decide)
  · exact .ub (by decide)
  · exact .ub (by decide)

theorem InBuf.caps {o : Opt} (h : InBuf o) (hv : o.value ≠ .null) :
    0 < o.valueCapacity ∧ o.valueCount ≤ o.valueCapacity := by
  cases h with
  | empty h1 _ => exact absurd h1 hv
  | arr _ _ _ h3 h4 => exact ⟨h3, h4⟩
  | map _ _ _ h3 h4 => exact ⟨h3, h4⟩

theorem applyArrayFlags_inside (W : World) {o : Opt} (h : InBuf o) : Inside (applyArrayFlags W o) InBuf := by
  unfold applyArrayFlags
  split
  · exact .ok h
  · split
    · exact .ok h
    · rename_i k _
      refine Inside.bind (P := InBuf) ?_ (fun o1 h1 => ?_)
      · unfold applySorted
        split
        · refine (arrayCells_inside o k).bind (fun cs hcs => .ok ?_)
          obtain ⟨e1, cells, e2⟩ := hcs
          obtain ⟨e3, e4⟩ := h.caps (by rw [e2]; intro h; cases h)
          refine .arr _ rfl ?_ e3 e4
          show (sortCells W k cs).length ≤ o.valueCapacity
          rw [(sortCells_perm W k cs).length_eq]; omega
        · exact .ok h
      · unfold applyUnique
        split
        · refine (arrayCells_inside o1 k).bind (fun cs hcs => .ok ?_)
          obtain ⟨e1, cells, e2⟩ := hcs
          obtain ⟨e3, e4⟩ := h1.caps (by rw [e2]; intro h; cases h)
          have hl : (uniqueCells k cs).length ≤ cs.length := by
            cases cs with
            | nil => exact Nat.le_refl _
            | cons c cs =>
              have := uniqueLoop_length k.dup cs [c]
              show (uniqueLoop k.dup [c] cs).length ≤ _
              simp only [List.length_cons, List.length_nil] at this ⊢
              omega
          refine .arr _ rfl ?_ e3 ?_
          · show (uniqueCells k cs).length ≤ o1.valueCapacity; omega
          · show (uniqueCells k cs).length ≤ o1.valueCapacity; omega
        · exact .ok h1

theorem sortPairs_length (W : World) (cmp : Str × Word → Str × Word → Int) (cells : List (Str × Word)) :
    (sortPairs W cmp cells).length = cells.length := by
  unfold sortPairs
  split
  · rfl
  · exact (W.qsort_perm _ _).length_eq

theorem applyMapFlags_inside (W : World) {o : Opt} (h : InBuf o) : Inside (applyMapFlags W o) InBuf := by
  unfold applyMapFlags
  split
  · exact .ok h
  · refine Inside.bind (P := InBuf) ?_ (fun o1 h1 => ?_)
    · unfold applyUniqueValue
      split
      · refine (mapCells_inside o).bind (fun cs hcs => ?_)
        obtain ⟨e1, cells, e2⟩ := hcs
        obtain ⟨e3, e4⟩ := h.caps (by rw [e2]; intro h; cases h)
        split
        · exact .ok (.map _ rfl (by show cs.length ≤ o.valueCapacity; omega) e3 e4)
        · rename_i k _
          split
          · have hl : (uniquePairs k cs).length ≤ cs.length := by
              have := uniqueLoop_length (fun new old : Str × Word => k.dup old.2 new.2) cs []
              simpa [uniquePairs] using this
            refine .ok (.map _ rfl ?_ e3 ?_)
            · show (uniquePairs k cs).length ≤ o.valueCapacity; omega
            · show (uniquePairs k cs).length ≤ o.valueCapacity; omega
          · exact .ub (by decide)
      · exact .ok h
    · unfold applyMapSort
      split
      · refine (mapCells_inside o1).bind (fun cs hcs => .ok ?_)
        obtain ⟨e1, cells, e2⟩ := hcs
        obtain ⟨e3, e4⟩ := h1.caps (by rw [e2]; intro h; cases h)
        refine .map _ rfl ?_ e3 e4
        show (sortPairs W cmpKey cs).length ≤ o1.valueCapacity
        rw [sortPairs_length]; omega
      · split
        · split
          · exact .ok h1
          · refine (mapCells_inside o1).bind (fun cs hcs => ?_)
            obtain ⟨e1, cells, e2⟩ := hcs
            obtain ⟨e3, e4⟩ := h1.caps (by rw [e2]; intro h; cases h)
            split
            · refine .ok (.map _ rfl ?_ e3 e4)
              show (sortPairs W _ cs).length ≤ o1.valueCapacity
              rw [sortPairs_length]; omega
            · exact .ub (by decide)
        · exact .ok h1

theorem InBuf.alloc {o : Opt} (b : Bool) (h : InBuf o) : InBuf { o with isAllocated := b } := by
  cases h with
  | empty h1 h2 => exact .empty h1 h2
  | arr c h1 h2 h3 h4 => exact .arr c h1 h2 h3 h4
  | map c h1 h2 h3 h4 => exact .map c h1 h2 h3 h4

theorem collect_inside {f : Opt → Str → Out HRes} {g : Opt → Out Opt} (hf : ∀ o v, InBuf o → InsideRes (f o v))
    (hg : ∀ o, InBuf o → Inside (g o) InBuf) (o : Opt) (x : Option Str) (h : InBuf o) :
    InsideRes (collect f g o x) := by
  unfold collect
  split
  · exact .ub (by decide)
  · refine Inside.bind (storeParts_inside hf o _ h) (fun r hr => ?_)
    split
    · exact .ok hr
    · exact (hg _ hr).bind (fun o2 h2 => .ok (h2.alloc true))

theorem variadicNum_inside (W : World) (conv : Str → Option Word) (o : Opt) (x : Option Str) (h : InBuf o) :
    InsideRes (variadicNum W conv o x) := by
  unfold variadicNum
  refine (adjustArray_inside h).bind (fun o1 h1 => ?_)
  split
  · exact .ub (by decide)
  · split
    · exact .ok h1.inBuf
    · refine (storeCell_inside _ h1).bind (fun o2 h2 => ?_)
      exact (applyArrayFlags_inside W h2).bind (fun o3 h3 => .ok (h3.alloc true))

theorem runHandler_inside (W : World) (a : Argus) (h : Handler) (hc : h.isCollection = true) (o : Opt)
    (x : Option Str) (hb : InBuf o) : InsideRes (runHandler W a h o x) := by
  cases h with
  | arrayString => exact collect_inside (fun _ v h => setValueString_inside v h) (fun _ h => applyArrayFlags_inside W h) o x hb
  | arrayInt => exact collect_inside (fun _ v h => setValueInt_inside v h) (fun _ h => applyArrayFlags_inside W h) o x hb
  | arrayFloat => exact collect_inside (fun _ v h => setValueFloat_inside W v h) (fun _ h => applyArrayFlags_inside W h) o x hb
  | mapString => exact collect_inside (fun _ v h => setKvPair_inside _ v h) (fun _ h => applyMapFlags_inside W h) o x hb
  | mapInt => exact collect_inside (fun _ v h => setKvPair_inside _ v h) (fun _ h => applyMapFlags_inside W h) o x hb
  | mapFloat => exact collect_inside (fun _ v h => setKvPair_inside _ v h) (fun _ h => applyMapFlags_inside W h) o x hb
  | mapBool => exact collect_inside (fun _ v h => setKvPair_inside _ v h) (fun _ h => applyMapFlags_inside W h) o x hb
  | variadicString => exact variadicNum_inside W (fun s => some (.ptr s)) o x hb
  | variadicInt => exact variadicNum_inside W _ o x hb
  | variadicFloat => exact variadicNum_inside W _ o x hb
  | _ => simp [Handler.isCollection] at hc

theorem InBuf.mark {o : Opt} (h : InBuf o) : InBuf o.markSet := by
  have hc : o.markSet.valueCount = if o.valueCount = 0 then 1 else o.valueCount := rfl
  cases h with
  | empty h1 h2 => exact .empty h1 (by rw [hc]; split <;> omega)
  | arr c h1 h2 h3 h4 => exact .arr c h1 h2 h3 (by rw [hc]; show _ ≤ o.valueCapacity; split <;> omega)
  | map c h1 h2 h3 h4 => exact .map c h1 h2 h3 (by rw [hc]; show _ ≤ o.valueCapacity; split <;> omega)

end Argus
