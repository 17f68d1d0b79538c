import Verif.Lemmas.HeapRun

/-!
# Lemmas: what handlers in memory leave alone in the option
-/

set_option autoImplicit false

namespace Argus

/-- Only the number of elements, the capacity and the pointer have changed. -/
def Kept (ho ho' : HOpt) : Prop :=
  ho'.o = { ho.o with valueCount := ho'.o.valueCount, valueCapacity := ho'.o.valueCapacity }

theorem Kept.refl (ho : HOpt) : Kept ho ho := rfl

theorem Kept.trans {a b c : HOpt} (h1 : Kept a b) (h2 : Kept b c) : Kept a c := by
  unfold Kept at *
  rw [h2]
  have e : ({ b.o with valueCount := c.o.valueCount, valueCapacity := c.o.valueCapacity } : Opt) =
      { ({ a.o with valueCount := b.o.valueCount, valueCapacity := b.o.valueCapacity } : Opt) with
        valueCount := c.o.valueCount, valueCapacity := c.o.valueCapacity } := by rw [← h1]
  rw [e]

theorem Kept.alloc {a b : HOpt} (h : Kept a b) : b.o.isAllocated = a.o.isAllocated := by rw [h]

theorem Kept.type {a b : HOpt} (h : Kept a b) : b.o.valueType = a.o.valueType := by rw [h]

theorem Kept.handler {a b : HOpt} (h : Kept a b) : b.o.handler = a.o.handler := by rw [h]

theorem Kept.free {a b : HOpt} (h : Kept a b) : b.o.freeHandler = a.o.freeHandler := by rw [h]

theorem Kept.value {a b : HOpt} (h : Kept a b) : b.o.value = a.o.value := by rw [h]

theorem adjustH_kept {A : Allocator} {ho ho' : HOpt} {h h' : Heap} (e : adjustH A ho h = .ok (ho', h')) : Kept ho ho' := by
  unfold adjustH at e
  split at e
  · split at e <;> (simp only [Out.ok.injEq, Prod.mk.injEq] at e; obtain ⟨rfl, rfl⟩ := e; rfl)
  · split at e
    · obtain ⟨x, _, h1⟩ := Out.bind_eq_ok e
      split at h1 <;> (simp only [Out.ok.injEq, Prod.mk.injEq] at h1; obtain ⟨rfl, rfl⟩ := h1; rfl)
    · simp only [Out.ok.injEq, Prod.mk.injEq] at e; obtain ⟨rfl, rfl⟩ := e; rfl

theorem storeH_kept {ho ho' : HOpt} {h h' : Heap} {r : Row} (e : storeH ho h r = .ok (ho', h')) : Kept ho ho' := by
  unfold storeH at e
  obtain ⟨b, _, h1⟩ := Out.bind_eq_ok e
  split at h1
  · simp only [Out.ok.injEq, Prod.mk.injEq] at h1; obtain ⟨rfl, rfl⟩ := h1; rfl
  · simp at h1

/-- A way of storing that leaves the option alone. -/
def KeepsH (f : HOpt → Heap → Str → Out MRes) : Prop :=
  ∀ (ho : HOpt) (h : Heap) (s : Str) (st : Int) (ho' : HOpt) (h' : Heap), f ho h s = .ok (st, ho', h') → Kept ho ho'

theorem setStringH_keeps (A : Allocator) : KeepsH (setStringH A) := by
  intro ho h s st ho' h' e
  unfold setStringH at e
  obtain ⟨x, h1, h2⟩ := Out.bind_eq_ok e
  have k1 := adjustH_kept (ho' := x.1) (h' := x.2) h1
  split at h2
  · simp only [Out.ok.injEq, Prod.mk.injEq] at h2; obtain ⟨_, rfl⟩ := h2; exact k1
  · split at h2
    · simp only [Out.ok.injEq, Prod.mk.injEq] at h2; obtain ⟨_, rfl, _⟩ := h2; exact k1
    · obtain ⟨y, h3, h4⟩ := Out.bind_eq_ok h2
      simp only [Out.ok.injEq, Prod.mk.injEq] at h4; obtain ⟨_, rfl⟩ := h4
      exact k1.trans (storeH_kept h3)

theorem addRangeLoopH_kept (A : Allocator) : ∀ (n : Nat) (i : Int) {ho ho' : HOpt} {h h' : Heap},
    addRangeLoopH A n i ho h = .ok (ho', h') → Kept ho ho'
  | 0, i, ho, ho', h, h', e => by
    simp only [addRangeLoopH, Out.ok.injEq, Prod.mk.injEq] at e
    obtain ⟨rfl, rfl⟩ := e; rfl
  | n + 1, i, ho, ho', h, h', e => by
    unfold addRangeLoopH at e
    obtain ⟨x, h1, h2⟩ := Out.bind_eq_ok e
    obtain ⟨y, h3, h4⟩ := Out.bind_eq_ok h2
    exact ((adjustH_kept (ho' := x.1) (h' := x.2) h1).trans (storeH_kept (ho' := y.1) (h' := y.2) h3)).trans
      (addRangeLoopH_kept A n (i + 1) h4)

theorem setIntH_keeps (A : Allocator) : KeepsH (setIntH A) := by
  intro ho h s st ho' h' e
  unfold setIntH at e
  split at e
  · simp only [Out.ok.injEq, Prod.mk.injEq] at e; obtain ⟨_, rfl, _⟩ := e; rfl
  · obtain ⟨x, h1, h2⟩ := Out.bind_eq_ok e
    split at h2
    · simp at h2
    · simp only [Out.ok.injEq, Prod.mk.injEq] at h2; obtain ⟨_, rfl⟩ := h2
      exact addRangeLoopH_kept A _ _ h1

theorem setFloatH_keeps (W : World) (A : Allocator) : KeepsH (setFloatH W A) := by
  intro ho h s st ho' h' e
  unfold setFloatH at e
  obtain ⟨x, h1, h2⟩ := Out.bind_eq_ok e
  obtain ⟨y, h3, h4⟩ := Out.bind_eq_ok h2
  simp only [Out.ok.injEq, Prod.mk.injEq] at h4; obtain ⟨_, rfl⟩ := h4
  exact (adjustH_kept (ho' := x.1) (h' := x.2) h1).trans (storeH_kept h3)

theorem setNumH_keeps (A : Allocator) (conv : Str → Option Word) : KeepsH (setNumH A conv) := by
  intro ho h s st ho' h' e
  unfold setNumH at e
  obtain ⟨x, h1, h2⟩ := Out.bind_eq_ok e
  have k1 := adjustH_kept (ho' := x.1) (h' := x.2) h1
  split at h2
  · simp only [Out.ok.injEq, Prod.mk.injEq] at h2; obtain ⟨_, rfl⟩ := h2; exact k1
  · split at h2
    · simp only [Out.ok.injEq, Prod.mk.injEq] at h2; obtain ⟨_, rfl⟩ := h2; exact k1
    · obtain ⟨y, h3, h4⟩ := Out.bind_eq_ok h2
      simp only [Out.ok.injEq, Prod.mk.injEq] at h4; obtain ⟨_, rfl⟩ := h4
      exact k1.trans (storeH_kept h3)

theorem putPairH_kept {A : Allocator} {b : Bool} {ho ho' : HOpt} {h h' : Heap} {key : Str} {ka : Nat} {u : Word → Cell}
    {fresh : Cell} (e : putPairH A b ho h key ka u fresh = .ok (ho', h')) : Kept ho ho' := by
  unfold putPairH at e
  obtain ⟨x, _, h2⟩ := Out.bind_eq_ok e
  split at h2
  · unfold replaceValueH at h2
    obtain ⟨b, _, h3⟩ := Out.bind_eq_ok h2
    simp only at h3
    split at h3 <;>
      (obtain ⟨h1, _, h4⟩ := Out.bind_eq_ok h3
       simp only [Out.ok.injEq, Prod.mk.injEq] at h4; obtain ⟨rfl, _⟩ := h4; rfl)
  · unfold addPairH at h2
    obtain ⟨x, h3, h4⟩ := Out.bind_eq_ok h2
    exact (adjustH_kept (ho' := x.1) (h' := x.2) h3).trans (storeH_kept h4)

theorem setKvNumH_keeps (A : Allocator) (conv : Str → Option MapStore) : KeepsH (setKvNumH A conv) := by
  intro ho h s st ho' h' e
  unfold setKvNumH at e
  split at e
  · simp only [Out.ok.injEq, Prod.mk.injEq] at e; obtain ⟨_, rfl, _⟩ := e; rfl
  · split at e
    · simp at e
    · split at e
      · simp only [Out.ok.injEq, Prod.mk.injEq] at e; obtain ⟨_, rfl, _⟩ := e; rfl
      · obtain ⟨x, h1, h2⟩ := Out.bind_eq_ok e
        simp only [Out.ok.injEq, Prod.mk.injEq] at h2; obtain ⟨_, rfl⟩ := h2
        exact putPairH_kept h1

theorem setKvStringH_keeps (A : Allocator) : KeepsH (setKvStringH A) := by
  intro ho h s st ho' h' e
  unfold setKvStringH at e
  split at e
  · simp only [Out.ok.injEq, Prod.mk.injEq] at e; obtain ⟨_, rfl, _⟩ := e; rfl
  · split at e
    · simp at e
    · split at e
      · simp at e
      · obtain ⟨x, h1, h2⟩ := Out.bind_eq_ok e
        simp only [Out.ok.injEq, Prod.mk.injEq] at h2; obtain ⟨_, rfl⟩ := h2
        exact putPairH_kept h1

theorem setAllH_kept {f : HOpt → Heap → Str → Out MRes} (hf : KeepsH f) (p : Nat) : ∀ (fuel i : Nat) {ho ho' : HOpt}
    {h h' : Heap} {st : Int}, setAllH f p fuel i ho h = .ok (st, ho', h') → Kept ho ho'
  | 0, i, ho, ho', h, h', st, e => by simp [setAllH] at e
  | fuel + 1, i, ho, ho', h, h', st, e => by
    unfold setAllH at e
    obtain ⟨c, _, h2⟩ := Out.bind_eq_ok e
    split at h2
    · simp only [Out.ok.injEq, Prod.mk.injEq] at h2; obtain ⟨_, rfl, _⟩ := h2; rfl
    · obtain ⟨w, _, h3⟩ := Out.bind_eq_ok h2
      split at h3
      · simp at h3
      · obtain ⟨r, h4, h5⟩ := Out.bind_eq_ok h3
        have k1 := hf _ _ _ r.1 r.2.1 r.2.2 h4
        split at h5
        · simp only [Out.ok.injEq] at h5; rw [h5] at k1; exact k1
        · exact k1.trans (setAllH_kept hf p fuel (i + 1) h5)

theorem storePartsH_keeps (A : Allocator) {f : HOpt → Heap → Str → Out MRes} (hf : KeepsH f) : KeepsH (storePartsH A f) := by
  intro ho h s st ho' h' e
  unfold storePartsH at e
  split at e
  · obtain ⟨x, _, h2⟩ := Out.bind_eq_ok e
    split at h2
    · simp only [Out.ok.injEq, Prod.mk.injEq] at h2; obtain ⟨_, rfl, _⟩ := h2; rfl
    · obtain ⟨r, h3, h4⟩ := Out.bind_eq_ok h2
      obtain ⟨h5, _, h6⟩ := Out.bind_eq_ok h4
      simp only [Out.ok.injEq, Prod.mk.injEq] at h6; obtain ⟨_, rfl, _⟩ := h6
      exact setAllH_kept hf _ _ _ (st := r.1) (h' := r.2.2) h3
  · exact hf _ _ _ _ _ _ e

theorem arrayFlagsH_kept {W : World} {ho ho' : HOpt} {h h' : Heap} (e : arrayFlagsH W ho h = .ok (ho', h')) : Kept ho ho' := by
  unfold arrayFlagsH at e
  split at e
  · simp only [Out.ok.injEq, Prod.mk.injEq] at e; obtain ⟨rfl, _⟩ := e; rfl
  · split at e
    · simp only [Out.ok.injEq, Prod.mk.injEq] at e; obtain ⟨rfl, _⟩ := e; rfl
    · obtain ⟨x, _, h2⟩ := Out.bind_eq_ok e
      unfold uniqueH at h2
      split at h2
      · obtain ⟨b, _, h3⟩ := Out.bind_eq_ok h2
        split at h3
        · simp only [Out.ok.injEq, Prod.mk.injEq] at h3; obtain ⟨rfl, _⟩ := h3; rfl
        · obtain ⟨r, _, h4⟩ := Out.bind_eq_ok h3
          simp only [Out.ok.injEq, Prod.mk.injEq] at h4; obtain ⟨rfl, _⟩ := h4; rfl
      · simp only [Out.ok.injEq, Prod.mk.injEq] at h2; obtain ⟨rfl, _⟩ := h2; rfl

theorem mapFlagsH_kept {W : World} {A : Allocator} {ho ho' : HOpt} {h h' : Heap} (e : mapFlagsH W A ho h = .ok (ho', h')) :
    Kept ho ho' := by
  unfold mapFlagsH at e
  split at e
  · simp only [Out.ok.injEq, Prod.mk.injEq] at e; obtain ⟨rfl, _⟩ := e; rfl
  · obtain ⟨x, h1, h2⟩ := Out.bind_eq_ok e
    obtain ⟨y, _, h3⟩ := Out.bind_eq_ok h2
    simp only [Out.ok.injEq, Prod.mk.injEq] at h3; obtain ⟨rfl, _⟩ := h3
    unfold mapUniqueH at h1
    split at h1
    · unfold uniquePairsH at h1
      obtain ⟨b, _, h4⟩ := Out.bind_eq_ok h1
      split at h4
      · simp only [Out.ok.injEq] at h4; rw [← h4]; rfl
      · obtain ⟨ws, _, h5⟩ := Out.bind_eq_ok h4
        obtain ⟨r, _, h6⟩ := Out.bind_eq_ok h5
        obtain ⟨h7, _, h8⟩ := Out.bind_eq_ok h6
        simp only [Out.ok.injEq] at h8; rw [← h8]; rfl
    · simp only [Out.ok.injEq] at h1; rw [← h1]; rfl

/-- One occurrence. -/
theorem collectH_kept {store : HOpt → Heap → Str → Out MRes} {flags : HOpt → Heap → Out (HOpt × Heap)} (hs : KeepsH store)
    (hf : ∀ ho h ho' h', flags ho h = .ok (ho', h') → Kept ho ho') {ho ho' : HOpt} {h h' : Heap} {v : Str} {st : Int}
    (e : collectH store flags ho h v = .ok (st, ho', h')) :
    (st ≠ Err.success ∧ Kept ho ho') ∨
    (st = Err.success ∧ ∃ x : HOpt, Kept ho x ∧ ho' = ⟨{ x.o with isAllocated := true }, x.ptr⟩) := by
  unfold collectH at e
  obtain ⟨r, h1, h2⟩ := Out.bind_eq_ok e
  have k1 := hs _ _ _ r.1 r.2.1 r.2.2 h1
  split at h2
  · rename_i hr
    simp only [Out.ok.injEq] at h2
    rw [h2] at hr k1
    exact .inl ⟨hr, k1⟩
  · obtain ⟨x, h3, h4⟩ := Out.bind_eq_ok h2
    simp only [Out.ok.injEq, Prod.mk.injEq] at h4
    obtain ⟨rfl, rfl, rfl⟩ := h4
    exact .inr ⟨rfl, x.1, k1.trans (hf _ _ _ x.2 h3), rfl⟩

end Argus
