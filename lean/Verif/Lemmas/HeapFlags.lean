import Verif.Lemmas.Heap
import Verif.Lemmas.ArrayFlags

/-!
# Lemmas: the flags of arrays and maps in memory
-/

set_option autoImplicit false

namespace Argus

variable {γ : Type}

/-- Rows in memory and the elements they hold. -/
def Zipped (K : Coll γ) (h : Heap) (Z : List (Row × γ)) : Prop :=
  ∀ z ∈ Z, z.1.map (Cell.word h) = (K.enc z.2).map Out.ok ∧ Shape K.n z.1 ∧ K.good z.2

theorem Zipped.congr {K : Coll γ} {h h' : Heap} {Z : List (Row × γ)} (z : Zipped K h Z)
    (he : ∀ x ∈ addrsOf (Z.map Prod.fst), h'.live x = h.live x) : Zipped K h' Z := by
  intro p hp
  obtain ⟨h1, h2⟩ := z p hp
  refine ⟨?_, h2⟩
  rw [← h1]
  exact row_congr (fun x hx => he x (List.mem_flatMap.2 ⟨p.1, List.mem_map.2 ⟨p, hp, rfl⟩, hx⟩))

theorem words_zipped {K : Coll γ} {h : Heap} : ∀ {l : List Row} {cs : List γ}, Words h l (cs.map K.enc) →
    (∀ r ∈ l, Shape K.n r) → (∀ c ∈ cs, K.good c) →
    ∃ Z : List (Row × γ), Z.map Prod.fst = l ∧ Z.map Prod.snd = cs ∧ Zipped K h Z
  | [], [], _, _, _ => ⟨[], rfl, rfl, fun z hz => nomatch hz⟩
  | [], c :: cs, w, _, _ => by have := w.length; simp at this
  | r :: l, [], w, _, _ => by have := w.length; simp at this
  | r :: l, c :: cs, w, hs, hg => by
    rw [List.map_cons, Words.cons_iff] at w
    obtain ⟨Z, e1, e2, e3⟩ := words_zipped w.2 (fun r hr => hs r (by simp [hr])) (fun c hc => hg c (by simp [hc]))
    refine ⟨(r, c) :: Z, by simp [e1], by simp [e2], fun z hz => ?_⟩
    rcases List.mem_cons.1 hz with rfl | hz
    · exact ⟨w.1, hs r (by simp), hg c (by simp)⟩
    · exact e3 z hz

theorem Zipped.words {K : Coll γ} {h : Heap} {Z : List (Row × γ)} (z : Zipped K h Z) :
    Words h (Z.map Prod.fst) ((Z.map Prod.snd).map K.enc) := by
  unfold Words
  simp only [List.map_map]
  exact List.map_congr_left (fun p hp => (z p hp).1)

/-- The rows behind an option. -/
structure RowsAt (K : Coll γ) (base : Nat → Option Blk) (h : Heap) (ho : HOpt) (a : Nat) (Z : List (Row × γ)) (tail : List Row) :
    Prop where
  ptr : ho.ptr = some a
  live : h.live a = some (.rows (Z.map Prod.fst ++ tail))
  cap : Z.length + tail.length = ho.o.valueCapacity
  pos : 0 < ho.o.valueCapacity
  count : ho.o.valueCount = Z.length
  part : Part base h (a :: addrsOf (Z.map Prod.fst))
  zip : Zipped K h Z

theorem Rep.holds {K : Coll γ} {base : Nat → Option Blk} {h : Heap} {ho : HOpt} {cs : List γ} (r : Rep K base h ho cs)
    (hp : ho.ptr ≠ none) : ∃ (a : Nat) (Z : List (Row × γ)) (tail : List Row), RowsAt K base h ho a Z tail ∧ Z.map Prod.snd = cs := by
  obtain ⟨a, l, h1, h2, h3, h4, h5, h6, h7, h8, h9⟩ := r.block hp
  obtain ⟨Z, e1, e2, e3⟩ := words_zipped h8 h9 r.good
  have hl : Z.length = cs.length := by rw [← e2, List.length_map]
  refine ⟨a, Z, l.drop cs.length, ⟨h1, ?_, ?_, h5, by rw [r.count, hl], by rw [e1]; exact h7, e3⟩, e2⟩
  · rw [e1, List.take_append_drop]; exact h3
  · rw [List.length_drop]; omega

theorem RowsAt.rep {K : Coll γ} {base : Nat → Option Blk} {h : Heap} {ho : HOpt} {a : Nat} {Z : List (Row × γ)}
    {tail : List Row} (r : RowsAt K base h ho a Z tail) : Rep K base h ho (Z.map Prod.snd) := by
  have ht : (Z.map Prod.fst ++ tail).take (Z.map Prod.snd).length = Z.map Prod.fst := by
    rw [List.length_map, ← List.length_map (f := Prod.fst), List.take_left]
  refine ⟨by rw [r.count, List.length_map], ?_, .inr ⟨a, _, r.ptr, r.live, ?_, r.pos, ?_, ?_, ?_, ?_⟩⟩
  · intro c hc
    obtain ⟨z, hz, rfl⟩ := List.mem_map.1 hc
    exact (r.zip z hz).2.2
  · rw [List.length_append, List.length_map]; exact r.cap
  · simp
  · rw [ht]; exact r.part
  · rw [ht]; exact r.zip.words
  · rw [ht]
    intro row hr
    obtain ⟨z, hz, rfl⟩ := List.mem_map.1 hr
    exact (r.zip z hz).2.1

theorem RowsAt.block {K : Coll γ} {base : Nat → Option Blk} {h : Heap} {ho : HOpt} {a : Nat} {Z : List (Row × γ)}
    {tail : List Row} (r : RowsAt K base h ho a Z tail) : ho.block h = .ok (a, Z.map Prod.fst ++ tail) := by
  unfold HOpt.block
  rw [r.ptr]
  simp only [r.live]

theorem RowsAt.rows {K : Coll γ} {base : Nat → Option Blk} {h : Heap} {ho : HOpt} {a : Nat} {Z : List (Row × γ)}
    {tail : List Row} (r : RowsAt K base h ho a Z tail) : ho.rows h = .ok (a, Z.map Prod.fst, tail) := by
  unfold HOpt.rows
  rw [r.block, Out.ok_bind, if_neg (by simp [r.count])]
  have e : ho.o.valueCount = (Z.map Prod.fst).length := by rw [r.count, List.length_map]
  simp only [e, List.take_left, List.drop_left]

theorem RowsAt.notin {K : Coll γ} {base : Nat → Option Blk} {h : Heap} {ho : HOpt} {a : Nat} {Z : List (Row × γ)}
    {tail : List Row} (r : RowsAt K base h ho a Z tail) : a ∉ addrsOf (Z.map Prod.fst) := (List.nodup_cons.1 r.part.nodup).1

/-- The rows are rewritten. -/
theorem RowsAt.set {K : Coll γ} {base : Nat → Option Blk} {h : Heap} {ho : HOpt} {a : Nat} {Z : List (Row × γ)}
    {tail : List Row} (r : RowsAt K base h ho a Z tail) {Z' : List (Row × γ)} (hp : Z'.Perm Z) :
    RowsAt K base (HOpt.setRows h a (Z'.map Prod.fst ++ tail)) ho a Z' tail := by
  have hpa : (addrsOf (Z'.map Prod.fst)).Perm (addrsOf (Z.map Prod.fst)) := addrsOf_perm (hp.map _)
  refine ⟨r.ptr, upd_self _ _ _, by rw [hp.length_eq]; exact r.cap, r.pos, by rw [hp.length_eq]; exact r.count, ?_, ?_⟩
  · exact (r.part.write (by simp) _).perm (hpa.cons a)
  · have : Zipped K h Z' := fun z hz => r.zip z (hp.mem_iff.1 hz)
    exact this.congr (fun x hx => upd_notin r.notin (hpa.mem_iff.1 hx))

theorem read_of {h : Heap} {k : CellKind} {i : Nat} {r : Row} {ws : List Word} {w : Word}
    (h1 : r.map (Cell.word h) = ws.map Out.ok) (h2 : ws[i]? = some w) (h3 : k.readable w = true) :
    r.read h k i = .ok w := by
  have := congrArg (fun l => l[i]?) h1
  simp only [List.getElem?_map, h2, Option.map_some, Option.map_eq_some_iff] at this
  obtain ⟨c, hc, e⟩ := this
  unfold Row.read
  rw [hc]
  simp only [e, Out.ok_bind, h3, if_true]

theorem readRows_of {h : Heap} {k : CellKind} {i : Nat} {g : γ → Word} : ∀ Z : List (Row × γ),
    (∀ z ∈ Z, z.1.read h k i = .ok (g z.2)) →
    readRows h k i (Z.map Prod.fst) = .ok (Z.map (fun z => (z.1, g z.2)))
  | [], _ => rfl
  | z :: Z, hz => by
    simp only [List.map_cons, readRows]
    rw [hz z (by simp), Out.ok_bind, readRows_of Z (fun y hy => hz y (by simp [hy])), Out.ok_bind]

/-- The elements in the order of `qsort`. -/
def sortZ {α : Type} (W : World) (cmp : α → α → Int) (l : List α) : List α := if l.length ≤ 1 then l else W.qsort cmp l

theorem sortZ_perm {α : Type} (W : World) (cmp : α → α → Int) (l : List α) : (sortZ W cmp l).Perm l := by
  unfold sortZ
  split
  · exact .refl _
  · exact W.qsort_perm _ _

theorem sortZ_map {α β : Type} (W : World) (cmp : β → β → Int) (f : α → β) (l : List α) :
    (sortZ W (fun a b => cmp (f a) (f b)) l).map f = sortZ W cmp (l.map f) := by
  unfold sortZ
  rw [List.length_map]
  split
  · rfl
  · exact W.qsort_map _ _ _

theorem sortRows_of (W : World) {h : Heap} {k : CellKind} {i : Nat} {g : γ → Word} (Z : List (Row × γ))
    (hz : ∀ z ∈ Z, z.1.read h k i = .ok (g z.2)) :
    ∃ Z' : List (Row × γ), sortRows W h k i (Z.map Prod.fst) = .ok (Z'.map Prod.fst) ∧ Z'.Perm Z ∧
      Z'.map Prod.snd = sortZ W (fun a b => k.cmp (g a) (g b)) (Z.map Prod.snd) := by
  refine ⟨sortZ W (fun a b => k.cmp (g a.2) (g b.2)) Z, ?_, sortZ_perm _ _ _, ?_⟩
  · unfold sortRows
    rw [readRows_of Z hz, Out.ok_bind]
    have e := sortZ_map W (fun (a b : Row × Word) => k.cmp a.2 b.2) (fun z : Row × γ => (z.1, g z.2)) Z
    have e2 : (if (Z.map (fun z => (z.1, g z.2))).length ≤ 1 then Z.map (fun z => (z.1, g z.2)) else
        W.qsort (fun a b => k.cmp a.2 b.2) (Z.map (fun z => (z.1, g z.2)))) =
        sortZ W (fun (a b : Row × Word) => k.cmp a.2 b.2) (Z.map (fun z => (z.1, g z.2))) := rfl
    rw [e2, ← e, List.map_map]
    rfl
  · exact sortZ_map W (fun a b => k.cmp (g a) (g b)) Prod.snd Z

/-! ## Arrays -/

/-- Strings are behind addresses, numbers are not. -/
def ArrN (k : CellKind) (n : Nat) : Prop := (k = .string ∧ n = 1) ∨ (k ≠ .string ∧ n = 0)

theorem zipped_read {k : CellKind} {n : Nat} {h : Heap} {Z : List (Row × Word)} (hz : Zipped (arrColl k n) h Z) {z : Row × Word}
    (hm : z ∈ Z) : z.1.read h k 0 = .ok z.2 :=
  read_of (hz z hm).1 rfl (hz z hm).2.2

theorem anyDup_of {k : CellKind} {h : Heap} {c : Row} {w : Word} (hc : c.read h k 0 = .ok w) :
    ∀ Z : List (Row × Word), (∀ z ∈ Z, z.1.read h k 0 = .ok z.2) →
    anyDup h k c (Z.map Prod.fst) = .ok ((Z.map Prod.snd).any (fun x => k.dup w x))
  | [], _ => rfl
  | z :: Z, hz => by
    simp only [List.map_cons, anyDup]
    rw [hc, Out.ok_bind, hz z (by simp), Out.ok_bind]
    split
    · rename_i h1; simp [h1]
    · rename_i h1
      rw [anyDup_of hc Z (fun y hy => hz y (by simp [hy]))]
      simp [h1]

/-- A row of an array: its first cell is its only address. -/
theorem arr_addrs {k : CellKind} {n : Nat} (hn : ArrN k n) {h : Heap} {r : Row} {w : Word}
    (h1 : r.map (Cell.word h) = ((arrColl k n).enc w).map Out.ok) (h2 : Shape n r) :
    (k = .string ∧ ∃ x, r = [.addr x]) ∨ (k ≠ .string ∧ r.addrs = []) := by
  rcases hn with ⟨hk, rfl⟩ | ⟨hk, rfl⟩
  · obtain ⟨x, t, rfl, _⟩ := h2
    cases t with
    | nil => exact .inl ⟨hk, x, rfl⟩
    | cons c t => simp [arrColl] at h1
  · obtain ⟨d, rfl⟩ := h2
    exact .inr ⟨hk, rfl⟩

theorem uniqueArrH_of {k : CellKind} {n : Nat} (hn : ArrN k n) {base : Nat → Option Blk} {a : Nat} :
    ∀ (rest kept : List (Row × Word)) (h : Heap), Part base h (a :: addrsOf ((kept ++ rest).map Prod.fst)) →
    Zipped (arrColl k n) h (kept ++ rest) →
    ∃ (Z : List (Row × Word)) (h' : Heap), uniqueArrH k (kept.map Prod.fst) (rest.map Prod.fst) h = .ok (Z.map Prod.fst, h') ∧
      Part base h' (a :: addrsOf (Z.map Prod.fst)) ∧ Zipped (arrColl k n) h' Z ∧ h'.live a = h.live a ∧
      Z.map Prod.snd = uniqueLoop k.dup (kept.map Prod.snd) (rest.map Prod.snd)
  | [], kept, h, p, z => ⟨kept, h, rfl, by rwa [List.append_nil] at p, by rwa [List.append_nil] at z, rfl, rfl⟩
  | c :: rest, kept, h, p, z => by
    have hc := zipped_read z (z := c) (by simp)
    have hd := anyDup_of hc kept (fun y hy => zipped_read z (by simp [hy]))
    simp only [List.map_cons, uniqueArrH, uniqueLoop]
    rw [hd, Out.ok_bind]
    cases hdup : (kept.map Prod.snd).any (fun x => k.dup c.2 x) with
    | false =>
      obtain ⟨Z, h', e1, e2, e3, e4, e5⟩ := uniqueArrH_of hn rest (kept ++ [c]) h (by simpa using p) (by simpa using z)
      refine ⟨Z, h', ?_, e2, e3, e4, ?_⟩
      · simpa using e1
      · simpa using e5
    | true =>
      have hz' : Zipped (arrColl k n) h (kept ++ rest) := fun y hy => z y (by
        rcases List.mem_append.1 hy with hy | hy <;> simp [hy])
      rcases arr_addrs hn (z c (by simp)).1 (z c (by simp)).2.1 with ⟨hk, x, hx⟩ | ⟨hk, hx⟩
      · have p1 : Part base h (x :: a :: addrsOf ((kept ++ rest).map Prod.fst)) := by
          refine p.perm ?_
          simp only [List.map_append, List.map_cons, addrsOf_append, addrsOf_cons, hx]
          show (x :: a :: _).Perm (a :: (_ ++ ([x] ++ _)))
          refine (List.Perm.swap a x _).trans (List.Perm.cons a ?_)
          exact List.perm_middle.symm
        have hxn := (List.nodup_cons.1 p1.nodup).1
        simp only [List.mem_cons, not_or] at hxn
        obtain ⟨f1, f2⟩ := p1.free_own
        obtain ⟨Z, h', e1, e2, e3, e4, e5⟩ := uniqueArrH_of hn rest kept _ f2 (hz'.congr (fun y hy => upd_notin hxn.2 hy))
        refine ⟨Z, h', ?_, e2, e3, ?_, ?_⟩
        · rw [if_pos rfl, if_pos hk, hx]
          show (h.free (.addr x) >>= fun h1 => _) = _
          rw [f1, Out.ok_bind, e1]
        · rw [e4]; exact upd_ne _ _ (fun e => hxn.1 e.symm)
        · rw [if_pos rfl]; exact e5
      · obtain ⟨Z, h', e1, e2, e3, e4, e5⟩ := uniqueArrH_of hn rest kept h (by
          simpa [addrsOf_append, addrsOf_cons, hx] using p) hz'
        refine ⟨Z, h', ?_, e2, e3, e4, ?_⟩
        · rw [if_pos rfl, if_neg hk, Out.ok_bind, e1]
        · rw [if_pos rfl]; exact e5

theorem arrayCells_abs {k : CellKind} {n : Nat} {base : Nat → Option Blk} {h : Heap} {ho : HOpt} {cs : List Word}
    (r : Rep (arrColl k n) base h ho cs) (hp : ho.ptr ≠ none) : (ho.abs (arrColl k n) cs).arrayCells k = .ok cs := by
  rw [HOpt.abs_some hp]
  unfold Opt.arrayCells
  simp only [arrColl, r.count]
  rw [if_neg (by omega), List.take_of_length_le (Nat.le_refl _), if_pos]
  exact List.all_eq_true.2 r.good

theorem sorted_sim (W : World) {k : CellKind} {n : Nat} {base : Nat → Option Blk} {h : Heap} {ho : HOpt}
    {cs : List Word} (r : Rep (arrColl k n) base h ho cs) (hp : ho.ptr ≠ none) :
    ∃ h' cs', applySorted W k (ho.abs (arrColl k n) cs) = .ok (ho.abs (arrColl k n) cs') ∧
      sortedH W k ho h = .ok h' ∧ Rep (arrColl k n) base h' ho cs' ∧ cs'.length = cs.length := by
  unfold applySorted sortedH
  have hf : (ho.abs (arrColl k n) cs).flags = ho.o.flags := by rw [HOpt.abs_some hp]
  rw [hf]
  by_cases hs : ho.o.flags.has .sorted = true
  · rw [if_pos hs, if_pos hs, arrayCells_abs r hp]
    obtain ⟨a, Z, tail, e1, e2⟩ := r.holds hp
    obtain ⟨Z', g1, g2, g3⟩ := sortRows_of W (g := id) Z (fun z hz => zipped_read e1.zip hz) 
    refine ⟨HOpt.setRows h a (Z'.map Prod.fst ++ tail), sortCells W k cs, ?_, ?_, ?_, ?_⟩
    · rw [HOpt.abs_some hp, HOpt.abs_some hp]; rfl
    · rw [e1.rows, Out.ok_bind, g1, Out.ok_bind]
    · have := (e1.set g2).rep
      rw [g3, e2] at this
      exact this
    · exact (sortCells_perm W k cs).length_eq
  · rw [if_neg hs, if_neg hs]
    exact ⟨h, cs, rfl, rfl, r, rfl⟩

theorem unique_sim {k : CellKind} {n : Nat} (hn : ArrN k n) {base : Nat → Option Blk} {h : Heap} {ho : HOpt}
    {cs : List Word} (r : Rep (arrColl k n) base h ho cs) (hp : ho.ptr ≠ none) :
    ∃ ho' h' cs', applyUnique k (ho.abs (arrColl k n) cs) = .ok (ho'.abs (arrColl k n) cs') ∧
      uniqueH k ho h = .ok (ho', h') ∧ Rep (arrColl k n) base h' ho' cs' := by
  unfold applyUnique uniqueH
  have hf : (ho.abs (arrColl k n) cs).flags = ho.o.flags := by rw [HOpt.abs_some hp]
  rw [hf]
  by_cases hs : ho.o.flags.has .unique = true
  · rw [if_pos hs, if_pos hs, arrayCells_abs r hp]
    obtain ⟨a, Z, tail, e1, e2⟩ := r.holds hp
    rw [e1.rows, Out.ok_bind, Out.ok_bind]
    cases Z with
    | nil =>
      simp only [List.map_nil] at e2
      subst e2
      refine ⟨ho, h, [], ?_, rfl, r⟩
      rw [HOpt.abs_some hp]
      have := r.count
      simp only [List.length_nil] at this
      simp [uniqueCells, arrColl, ← this]
    | cons c Z =>
      obtain ⟨Z', h', g1, g2, g3, g4, g5⟩ := uniqueArrH_of hn Z [c] h e1.part e1.zip
      have hcs : uniqueCells k cs = Z'.map Prod.snd := by rw [← e2, g5]; rfl
      have hlen : Z'.length ≤ (c :: Z).length := by
        have := uniqueCells_length k cs
        rw [hcs, List.length_map, ← e2, List.length_map] at this
        exact this
      have hlen' : (Z'.map Prod.fst).length = Z'.length := List.length_map ..
      refine ⟨{ ho with o := { ho.o with valueCount := Z'.length } },
        HOpt.setRows h' a (Z'.map Prod.fst ++ (((c :: Z).map Prod.fst) ++ tail).drop (Z'.map Prod.fst).length),
        Z'.map Prod.snd, ?_, ?_, ?_⟩
      · rw [HOpt.abs_some hp, HOpt.abs_some (by exact hp), hcs, List.length_map]
        rfl
      · show (uniqueArrH k ([c].map Prod.fst) (Z.map Prod.fst) h >>= fun r => _) = _
        rw [g1, Out.ok_bind]
        simp only [hlen']
      · have hnot : a ∉ addrsOf (Z'.map Prod.fst) := (List.nodup_cons.1 g2.nodup).1
        refine RowsAt.rep (a := a) (tail := (((c :: Z).map Prod.fst) ++ tail).drop (Z'.map Prod.fst).length)
          ⟨e1.ptr, upd_self _ _ _, ?_, e1.pos, rfl, g2.write (by simp) _, g3.congr (fun x hx => upd_notin hnot hx)⟩
        rw [List.length_drop, List.length_append, List.length_map, List.length_map]
        have := e1.cap
        simp only
        omega
  · rw [if_neg hs, if_neg hs]
    exact ⟨ho, h, cs, rfl, rfl, r⟩

theorem arrayFlags_sim (W : World) {k : CellKind} {n : Nat} (hn : ArrN k n) {base : Nat → Option Blk} {h : Heap} {ho : HOpt}
    {cs : List Word} (r : Rep (arrColl k n) base h ho cs) (hk : ho.o.valueType.arrayKind = some k) :
    ∃ ho' h' cs', applyArrayFlags W (ho.abs (arrColl k n) cs) = .ok (ho'.abs (arrColl k n) cs') ∧
      arrayFlagsH W ho h = .ok (ho', h') ∧ Rep (arrColl k n) base h' ho' cs' := by
  unfold applyArrayFlags arrayFlagsH
  have hc : (ho.abs (arrColl k n) cs).valueCount = ho.o.valueCount := rfl
  have ht : (ho.abs (arrColl k n) cs).valueType = ho.o.valueType := rfl
  rw [hc, ht]
  split
  · exact ⟨ho, h, cs, rfl, rfl, r⟩
  · rename_i hcount
    have hp : ho.ptr ≠ none := by
      intro hp
      rcases r.mem with ⟨_, h2, _⟩ | ⟨a, l, h1, _⟩
      · have := r.count; rw [h2] at this; simp at this; omega
      · rw [hp] at h1; simp at h1
    rw [hk]
    simp only
    obtain ⟨h1, cs1, e1, e2, e3, _⟩ := sorted_sim W r hp
    obtain ⟨ho2, h2, cs2, g1, g2, g3⟩ := unique_sim hn e3 hp
    exact ⟨ho2, h2, cs2, by rw [e1, Out.ok_bind, g1], by rw [e2, Out.ok_bind, g2], g3⟩

/-! ## Maps -/

/-- Strings are behind addresses, other values are not; keys always are. -/
def MapN (k : CellKind) (n : Nat) : Prop := (k = .string ∧ n = 2) ∨ (k ≠ .string ∧ n = 1)

/-- A row of a map. -/
theorem map_addrs {k : CellKind} {n : Nat} (hn : MapN k n) {h : Heap} {r : Row} {e : Str × Word}
    (h1 : r.map (Cell.word h) = ((mapColl k n).enc e).map Out.ok) (h2 : Shape n r) :
    (k = .string ∧ ∃ x y, r = [.addr x, .addr y]) ∨ (k ≠ .string ∧ ∃ x, r = [.addr x, .data e.2]) := by
  rcases hn with ⟨hk, rfl⟩ | ⟨hk, rfl⟩
  · obtain ⟨x, y, rfl⟩ := h2
    exact .inl ⟨hk, x, y, rfl⟩
  · obtain ⟨x, t, rfl, ht⟩ := h2
    refine .inr ⟨hk, x, ?_⟩
    cases t with
    | nil => simp [mapColl] at h1
    | cons c t =>
      cases t with
      | cons d t => simp [mapColl] at h1
      | nil =>
        cases c with
        | addr y => simp [Row.addrs, Cell.addr?] at ht
        | data w =>
          simp only [mapColl, List.map_cons, List.map_nil, List.cons.injEq, and_true, Cell.word, Out.ok.injEq] at h1
          rw [h1.2]

theorem mapZip_read {k : CellKind} {n : Nat} {h : Heap} {Z : List (Row × (Str × Word))} (hz : Zipped (mapColl k n) h Z)
    {z : Row × (Str × Word)} (hm : z ∈ Z) :
    z.1.read h .string 0 = .ok (.ptr z.2.1) ∧ z.1.read h k 1 = .ok z.2.2 :=
  ⟨read_of (hz z hm).1 rfl rfl, read_of (hz z hm).1 rfl (hz z hm).2.2⟩

theorem mapCells_abs {k : CellKind} {n : Nat} {base : Nat → Option Blk} {h : Heap} {ho : HOpt} {cs : List (Str × Word)}
    (r : Rep (mapColl k n) base h ho cs) (hp : ho.ptr ≠ none) : (ho.abs (mapColl k n) cs).mapCells = .ok cs := by
  rw [HOpt.abs_some hp]
  unfold Opt.mapCells
  simp only [mapColl, r.count]
  rw [if_neg (by omega), List.take_of_length_le (Nat.le_refl _)]

theorem mapSort_sim (W : World) {k : CellKind} {n : Nat} {base : Nat → Option Blk} {h : Heap} {ho : HOpt}
    {cs : List (Str × Word)} (r : Rep (mapColl k n) base h ho cs) (hp : ho.ptr ≠ none) (hk : ho.o.valueType.mapKind = some k) :
    ∃ h' cs', applyMapSort W (ho.abs (mapColl k n) cs) = .ok (ho.abs (mapColl k n) cs') ∧
      mapSortH W ho h = .ok h' ∧ Rep (mapColl k n) base h' ho cs' ∧ cs'.Perm cs := by
  obtain ⟨a, Z, tail, e1, e2⟩ := r.holds hp
  have main : ∀ (kk : CellKind) (i : Nat) (g : Str × Word → Word), (∀ z ∈ Z, z.1.read h kk i = .ok (g z.2)) →
      ∃ Z' : List (Row × (Str × Word)), sortRows W h kk i (Z.map Prod.fst) = .ok (Z'.map Prod.fst) ∧
        Rep (mapColl k n) base (HOpt.setRows h a (Z'.map Prod.fst ++ tail)) ho
          (sortPairs W (fun a b => kk.cmp (g a) (g b)) cs) := by
    intro kk i g hg
    obtain ⟨Z', g1, g2, g3⟩ := sortRows_of W (g := g) Z hg
    refine ⟨Z', g1, ?_⟩
    have := (e1.set g2).rep
    rw [g3, e2] at this
    exact this
  have hpm : ∀ cmp, (sortPairs W cmp cs).Perm cs := fun cmp => sortZ_perm W cmp cs
  unfold applyMapSort mapSortH
  have hf : (ho.abs (mapColl k n) cs).flags = ho.o.flags := rfl
  have ht : (ho.abs (mapColl k n) cs).valueType = ho.o.valueType := rfl
  rw [hf, ht, hk]
  by_cases hs : ho.o.flags.has .sortedKey = true
  · rw [if_pos hs, if_pos hs, mapCells_abs r hp]
    obtain ⟨Z', g1, g2⟩ := main .string 0 (fun e => .ptr e.1) (fun z hz => (mapZip_read e1.zip hz).1)
    refine ⟨HOpt.setRows h a (Z'.map Prod.fst ++ tail), _, ?_, ?_, g2, hpm _⟩
    · rw [HOpt.abs_some hp, HOpt.abs_some hp]; rfl
    · rw [e1.rows, Out.ok_bind, g1, Out.ok_bind]
  · rw [if_neg hs, if_neg hs]
    by_cases hv : ho.o.flags.has .sortedValue = true
    · rw [if_pos hv, if_pos hv]
      simp only
      rw [mapCells_abs r hp]
      obtain ⟨Z', g1, g2⟩ := main k 1 (fun e => e.2) (fun z hz => (mapZip_read e1.zip hz).2)
      refine ⟨HOpt.setRows h a (Z'.map Prod.fst ++ tail), _, ?_, ?_, g2, hpm _⟩
      · rw [Out.ok_bind, if_pos (List.all_eq_true.2 r.good), HOpt.abs_some hp, HOpt.abs_some hp]; rfl
      · rw [e1.rows, Out.ok_bind, g1, Out.ok_bind]
    · rw [if_neg hv, if_neg hv]
      exact ⟨h, cs, rfl, rfl, r, .refl _⟩

/-- The marks `make_map_values_unique` ends with. -/
def marksOf {α : Type} (dup : α → α → Bool) : List α → List α → List (α × Bool)
  | _, [] => []
  | kept, x :: xs =>
    if kept.any (fun y => dup y x) then (x, true) :: marksOf dup kept xs else (x, false) :: marksOf dup (kept ++ [x]) xs

theorem markFrom_of {α : Type} (dup : α → α → Bool) : ∀ (xs kept : List α),
    markFrom dup xs.length (xs.map fun x => (x, kept.any fun y => dup y x)) = marksOf dup kept xs
  | [], kept => rfl
  | x :: xs, kept => by
    simp only [List.map_cons, List.length_cons, markFrom, marksOf]
    cases hx : kept.any (fun y => dup y x) with
    | true =>
      rw [if_pos rfl, if_pos rfl, markFrom_of dup xs kept]
    | false =>
      rw [if_neg (by simp), if_neg (by simp), List.map_map, ← markFrom_of dup xs (kept ++ [x])]
      congr 2
      refine List.map_congr_left (fun y _ => ?_)
      simp [List.any_append]

theorem marksOf_kept {α : Type} (dup : α → α → Bool) : ∀ (xs kept : List α),
    kept ++ ((marksOf dup kept xs).filter (fun x => !x.2)).map Prod.fst = uniqueLoop (fun new old => dup old new) kept xs
  | [], kept => by simp [marksOf, uniqueLoop]
  | x :: xs, kept => by
    simp only [marksOf, uniqueLoop]
    cases hx : kept.any (fun y => dup y x) with
    | true =>
      rw [if_pos rfl, if_pos rfl]
      simp only [List.filter_cons, Bool.not_true, Bool.false_eq_true, if_false]
      exact marksOf_kept dup xs kept
    | false =>
      rw [if_neg (by simp), if_neg (by simp)]
      simp only [List.filter_cons, Bool.not_false, if_true, List.map_cons]
      rw [List.append_cons]
      exact marksOf_kept dup xs (kept ++ [x])

theorem marksOf_fst {α : Type} (dup : α → α → Bool) : ∀ (xs kept : List α), (marksOf dup kept xs).map Prod.fst = xs
  | [], _ => rfl
  | x :: xs, kept => by
    simp only [marksOf]
    split <;> simp [marksOf_fst dup xs]

theorem marksOf_map {α β : Type} (f : α → β) (dup : β → β → Bool) : ∀ (xs kept : List α),
    marksOf dup (kept.map f) (xs.map f) = (marksOf (fun a b => dup (f a) (f b)) kept xs).map (fun x => (f x.1, x.2))
  | [], _ => rfl
  | x :: xs, kept => by
    simp only [List.map_cons, marksOf, List.any_map]
    have e : (kept.any ((fun y => dup y (f x)) ∘ f)) = kept.any (fun y => dup (f y) (f x)) := rfl
    rw [e]
    split
    · rw [List.map_cons, marksOf_map f dup xs kept]
    · rw [List.map_cons]
      congr 1
      have := marksOf_map f dup xs (kept ++ [x])
      rw [List.map_append] at this
      exact this

/-- The unmarked rows stay, the blocks of the others are released. -/
theorem compactH_of {k : CellKind} {n : Nat} (hn : MapN k n) {base : Nat → Option Blk} {a : Nat} :
    ∀ (M : List ((Row × (Str × Word)) × Bool)) (pre : List (Row × (Str × Word))) (h : Heap),
    Part base h (a :: addrsOf ((pre ++ M.map Prod.fst).map Prod.fst)) → Zipped (mapColl k n) h (pre ++ M.map Prod.fst) →
    ∃ h', compactH (k = .string) (M.map fun x => (x.1.1, x.2)) h =
        .ok (((M.filter (fun x => !x.2)).map Prod.fst).map Prod.fst, h') ∧
      Part base h' (a :: addrsOf ((pre ++ (M.filter (fun x => !x.2)).map Prod.fst).map Prod.fst)) ∧
      Zipped (mapColl k n) h' (pre ++ (M.filter (fun x => !x.2)).map Prod.fst) ∧ h'.live a = h.live a ∧
      ∀ x, base x ≠ none → h'.live x = h.live x
  | [], pre, h, p, z => ⟨h, rfl, p, z, rfl, fun _ _ => rfl⟩
  | (c, false) :: M, pre, h, p, z => by
    obtain ⟨h', e1, e2, e3, e4, e5⟩ := compactH_of hn M (pre ++ [c]) h (by simpa using p) (by simpa using z)
    refine ⟨h', ?_, ?_, ?_, e4, e5⟩
    · simp only [List.map_cons, compactH, if_true, List.filter_cons, Bool.not_false]
      rw [e1, Out.ok_bind]
    · simpa [List.filter_cons] using e2
    · simpa [List.filter_cons] using e3
  | (c, true) :: M, pre, h, p, z => by
    have hz' : Zipped (mapColl k n) h (pre ++ M.map Prod.fst) := fun y hy => z y (by
      rcases List.mem_append.1 hy with hy | hy <;> simp [hy])
    have hb : ∀ x, base x ≠ none → x ∉ c.1.addrs := fun x hx hm => hx (p.apart x (by
      simp only [List.map_cons, List.map_append, addrsOf_append, addrsOf_cons, List.mem_cons, List.mem_append]
      exact .inr (.inr (.inl hm))))
    have hperm : ∀ l : List Nat, (l ++ (a :: addrsOf ((pre ++ M.map Prod.fst).map Prod.fst))).Perm
        (a :: (addrsOf (pre.map Prod.fst) ++ (l ++ addrsOf ((M.map Prod.fst).map Prod.fst)))) := by
      intro l
      rw [List.map_append, addrsOf_append]
      refine List.perm_middle.trans (List.Perm.cons a ?_)
      rw [← List.append_assoc, ← List.append_assoc]
      exact List.Perm.append_right _ List.perm_append_comm
    rcases map_addrs hn (z c (by simp)).1 (z c (by simp)).2.1 with ⟨hk, x, y, hc⟩ | ⟨hk, x, hc⟩
    · have p1 : Part base h ([x, y] ++ (a :: addrsOf ((pre ++ M.map Prod.fst).map Prod.fst))) := by
        refine p.perm ((hperm [x, y]).trans ?_)
        simp only [List.map_append, List.map_cons, addrsOf_append, addrsOf_cons, hc]
        exact .refl _
      have p1' : Part base h (x :: y :: a :: addrsOf ((pre ++ M.map Prod.fst).map Prod.fst)) := p1
      have hx1 := (List.nodup_cons.1 p1'.nodup).1
      have hy1 := (List.nodup_cons.1 (List.nodup_cons.1 p1'.nodup).2).1
      simp only [List.mem_cons, not_or] at hx1 hy1
      obtain ⟨f1, f2⟩ := p1'.free_own
      obtain ⟨f3, f4⟩ := f2.free_own
      have hl : ∀ w, w ≠ x → w ≠ y → upd (upd h.live x none) y none w = h.live w := fun w h1 h2 => by
        rw [upd_ne _ _ h2, upd_ne _ _ h1]
      obtain ⟨h', e1, e2, e3, e4, e5⟩ := compactH_of hn M pre _ f4 (hz'.congr (fun w hw =>
        hl w (fun e => hx1.2.2 (e ▸ hw)) (fun e => hy1.2 (e ▸ hw))))
      refine ⟨h', ?_, ?_, ?_, ?_, ?_⟩
      · simp only [List.map_cons, compactH, hc, List.headD_cons, List.getElem?_cons_succ, List.getElem?_cons_zero,
          Option.getD_some]
        rw [if_neg (by simp), f1, Out.ok_bind, if_pos (by simpa using hk), f3, Out.ok_bind, e1]
        simp
      · simpa [List.filter_cons] using e2
      · simpa [List.filter_cons] using e3
      · rw [e4]; exact hl a (fun e => hx1.2.1 e.symm) (fun e => hy1.1 e.symm)
      · intro w hw
        have hnw := hb w hw
        rw [hc] at hnw
        simp [Row.addrs, Cell.addr?] at hnw
        rw [e5 w hw]; exact hl w hnw.1 hnw.2
    · have p1 : Part base h ([x] ++ (a :: addrsOf ((pre ++ M.map Prod.fst).map Prod.fst))) := by
        refine p.perm ((hperm [x]).trans ?_)
        simp only [List.map_append, List.map_cons, addrsOf_append, addrsOf_cons, hc]
        exact .refl _
      have p1' : Part base h (x :: a :: addrsOf ((pre ++ M.map Prod.fst).map Prod.fst)) := p1
      have hx1 := (List.nodup_cons.1 p1'.nodup).1
      simp only [List.mem_cons, not_or] at hx1
      obtain ⟨f1, f2⟩ := p1'.free_own
      obtain ⟨h', e1, e2, e3, e4, e5⟩ := compactH_of hn M pre _ f2 (hz'.congr (fun w hw => upd_notin hx1.2 hw))
      refine ⟨h', ?_, ?_, ?_, ?_, ?_⟩
      · simp only [List.map_cons, compactH, hc, List.headD_cons]
        rw [if_neg (by simp), f1, Out.ok_bind, if_neg (by simpa using hk), Out.ok_bind, e1]
        simp
      · simpa [List.filter_cons] using e2
      · simpa [List.filter_cons] using e3
      · rw [e4]; exact upd_ne _ _ (fun e => hx1.1 e.symm)
      · intro w hw
        have hnw := hb w hw
        rw [hc] at hnw
        simp [Row.addrs, Cell.addr?] at hnw
        rw [e5 w hw]; exact upd_ne _ _ hnw

/-- `make_map_values_unique`; when the marks cannot be allocated nothing changes. -/
theorem uniquePairs_sim {k : CellKind} {n : Nat} (hn : MapN k n) (A : Allocator) {base : Nat → Option Blk} {h : Heap}
    {ho : HOpt} {cs : List (Str × Word)} (r : Rep (mapColl k n) base h ho cs) (hp : ho.ptr ≠ none) :
    (∃ h', uniquePairsH A k ho h = .ok ({ ho with o := { ho.o with valueCount := (uniquePairs k cs).length } }, h') ∧
      Rep (mapColl k n) base h' { ho with o := { ho.o with valueCount := (uniquePairs k cs).length } } (uniquePairs k cs)) ∨
    (∃ h' i, A.malloc i = false ∧ uniquePairsH A k ho h = .ok (ho, h') ∧ Rep (mapColl k n) base h' ho cs) := by
  obtain ⟨a, Z, tail, e1, e2⟩ := r.holds hp
  unfold uniquePairsH
  rw [e1.rows, Out.ok_bind]
  rcases malloc_cases A h (.marks ho.o.valueCount) with ⟨_, e⟩ | ⟨hf, e⟩
  · refine .inl ?_
    rw [e]
    simp only
    obtain ⟨nf1, nf2⟩ := e1.part.next_free
    simp only [List.mem_cons, not_or] at nf1
    have p1 := e1.part.malloc (.marks ho.o.valueCount) (h.calls + 1)
    have z1 : Zipped (mapColl k n) ⟨upd h.live h.next (some (.marks ho.o.valueCount)), h.next + 1, h.calls + 1⟩ Z :=
      e1.zip.congr (fun x hx => upd_notin nf1.2 hx)
    rw [readRows_of (g := fun e : Str × Word => e.2) Z (fun z hz => (mapZip_read z1 hz).2), Out.ok_bind]
    have hm : markFrom (fun (x y : Row × Word) => k.dup x.2 y.2) (Z.map (fun z => (z.1, z.2.2))).length
        ((Z.map (fun z => (z.1, z.2.2))).map fun x => (x, false)) =
        (marksOf (fun (x y : Row × (Str × Word)) => k.dup x.2.2 y.2.2) [] Z).map (fun x => ((x.1.1, x.1.2.2), x.2)) := by
      have h1 := markFrom_of (fun (x y : Row × Word) => k.dup x.2 y.2) (Z.map (fun z => (z.1, z.2.2))) []
      simp only [List.any_nil] at h1
      rw [h1]
      exact marksOf_map (fun z : Row × (Str × Word) => (z.1, z.2.2)) (fun x y => k.dup x.2 y.2) Z []
    rw [hm, List.map_map]
    generalize hM : marksOf (fun (x y : Row × (Str × Word)) => k.dup x.2.2 y.2.2) [] Z = M
    have hfst : M.map Prod.fst = Z := by rw [← hM]; exact marksOf_fst _ _ _
    have hkept : ((M.filter (fun x => !x.2)).map Prod.fst).map Prod.snd = uniquePairs k cs := by
      have h1 := marksOf_kept (fun (x y : Row × (Str × Word)) => k.dup x.2.2 y.2.2) Z []
      rw [List.nil_append, hM] at h1
      rw [h1]
      unfold uniquePairs
      rw [← e2]
      exact (uniqueLoop_map Prod.snd (fun new old => k.dup old.2 new.2) Z []).symm
    obtain ⟨h', c1, c2, c3, c4, c5⟩ := compactH_of hn M [] _ (a := a) (by rw [List.nil_append, hfst]; exact p1)
      (by rw [List.nil_append, hfst]; exact z1)
    rw [List.nil_append] at c2 c3
    have hcomp : compactH (decide (k = CellKind.string))
        (M.map ((fun x : (Row × Word) × Bool => (x.1.1, x.2)) ∘
          fun x : (Row × (Str × Word)) × Bool => ((x.1.1, x.1.2.2), x.2)))
        ⟨upd h.live h.next (some (.marks ho.o.valueCount)), h.next + 1, h.calls + 1⟩ =
        .ok (((M.filter (fun x => !x.2)).map Prod.fst).map Prod.fst, h') := c1
    rw [hcomp, Out.ok_bind]
    generalize hU : (M.filter (fun x => !x.2)).map Prod.fst = U at *
    have hlen : U.length ≤ Z.length := by
      rw [← hU, ← hfst, List.length_map, List.length_map]
      exact List.length_filter_le _ _
    obtain ⟨f1, f2⟩ := c2.free_base (x := h.next) (by rw [upd_self]; simp)
    rw [upd_upd, upd_same _ _ _ nf2] at f2
    have hul : (uniquePairs k cs).length = (U.map Prod.fst).length := by
      rw [← hkept, List.length_map, List.length_map]
    refine ⟨HOpt.setRows { h' with live := upd h'.live h.next none } a
      (U.map Prod.fst ++ (Z.map Prod.fst ++ tail).drop (U.map Prod.fst).length), ?_, ?_⟩
    · show (h'.free (.addr h.next) >>= fun h2 => _) = _
      rw [f1, Out.ok_bind, hul]
    · rw [← hkept]
      have hnot : a ∉ addrsOf (U.map Prod.fst) := (List.nodup_cons.1 f2.nodup).1
      have hnx : h.next ∉ addrsOf (U.map Prod.fst) := fun hx => by
        have := c2.apart h.next (by simp [hx])
        rw [upd_self] at this; simp at this
      refine RowsAt.rep (a := a) (tail := (Z.map Prod.fst ++ tail).drop (U.map Prod.fst).length)
        ⟨e1.ptr, upd_self _ _ _, ?_, e1.pos, ?_, f2.write (by simp) _, ?_⟩
      · rw [List.length_drop, List.length_append, List.length_map, List.length_map]
        have := e1.cap
        simp only
        omega
      · simp
      · exact (c3.congr (h' := { h' with live := upd h'.live h.next none }) (fun x hx => upd_notin hnx hx)).congr
          (fun x hx => upd_notin hnot hx)
  · rw [e]
    exact .inr ⟨_, _, hf, rfl, r.other (fun _ p => p.calls _) (fun _ _ _ _ => rfl)⟩

theorem uniqueKind_of_mapKind {vt : ValueType} {k : CellKind} (h : vt.mapKind = some k) : vt.uniqueKind = some k := by
  cases vt <;> simp_all [ValueType.mapKind, ValueType.uniqueKind]

theorem mapFlags_sim (W : World) {k : CellKind} {n : Nat} (hn : MapN k n) {A : Allocator} (hA : A.Never)
    {base : Nat → Option Blk} {h : Heap} {ho : HOpt} {cs : List (Str × Word)} (r : Rep (mapColl k n) base h ho cs)
    (hk : ho.o.valueType.mapKind = some k) :
    ∃ ho' h' cs', applyMapFlags W (ho.abs (mapColl k n) cs) = .ok (ho'.abs (mapColl k n) cs') ∧
      mapFlagsH W A ho h = .ok (ho', h') ∧ Rep (mapColl k n) base h' ho' cs' := by
  unfold applyMapFlags mapFlagsH
  have hc : (ho.abs (mapColl k n) cs).valueCount = ho.o.valueCount := rfl
  rw [hc]
  split
  · exact ⟨ho, h, cs, rfl, rfl, r⟩
  · rename_i hcount
    have hp : ho.ptr ≠ none := by
      intro hp
      rcases r.mem with ⟨_, h2, _⟩ | ⟨a, l, h1, _⟩
      · have := r.count; rw [h2] at this; simp at this; omega
      · rw [hp] at h1; simp at h1
    have step : ∃ ho1 h1 cs1, applyUniqueValue (ho.abs (mapColl k n) cs) = .ok (ho1.abs (mapColl k n) cs1) ∧
        mapUniqueH A ho h = .ok (ho1, h1) ∧ Rep (mapColl k n) base h1 ho1 cs1 ∧ ho1.ptr ≠ none ∧
        ho1.o.valueType = ho.o.valueType := by
      unfold applyUniqueValue mapUniqueH
      have hf : (ho.abs (mapColl k n) cs).flags = ho.o.flags := rfl
      have ht : (ho.abs (mapColl k n) cs).valueType = ho.o.valueType := rfl
      rw [hf, ht, hk, uniqueKind_of_mapKind hk]
      cases hu : ho.o.flags.has .uniqueValue with
      | false => exact ⟨ho, h, cs, rfl, rfl, r, hp, rfl⟩
      | true =>
        rw [if_pos rfl, mapCells_abs r hp]
        rcases uniquePairs_sim hn A r hp with ⟨h', e1, e2⟩ | ⟨_, i, hi, _⟩
        · refine ⟨_, h', _, ?_, e1, e2, hp, rfl⟩
          rw [Out.ok_bind]
          simp only
          rw [if_pos (List.all_eq_true.2 r.good), HOpt.abs_some hp, HOpt.abs_some (by exact hp)]
          rfl
        · rw [(hA i).1] at hi; simp at hi
    obtain ⟨ho1, h1, cs1, e1, e2, e3, e4, e5⟩ := step
    obtain ⟨h2, cs2, g1, g2, g3, _⟩ := mapSort_sim W e3 e4 (by rw [e5]; exact hk)
    refine ⟨ho1, h2, cs2, ?_, ?_, g3⟩
    · rw [e1, Out.ok_bind, g1]
    · rw [e2, Out.ok_bind, g2, Out.ok_bind]

end Argus
