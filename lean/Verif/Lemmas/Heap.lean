import Verif.Spec.Heap
import Verif.Lemmas.Stream
import Verif.Lemmas.State
import Verif.Lemmas.Arrays
import Verif.Lemmas.MapFlags

/-!
# Lemmas: the heap

`Part base h own`: the live blocks of `h` are those of `base`, unchanged, and the blocks `own`.
-/

set_option autoImplicit false

namespace Argus

/-- The blocks `own` besides those of `base`. -/
structure Part (base : Nat → Option Blk) (h : Heap) (own : List Nat) : Prop where
  nodup : own.Nodup
  fresh : ∀ x, h.next ≤ x → h.live x = none
  here : ∀ x ∈ own, h.live x ≠ none
  apart : ∀ x ∈ own, base x = none
  rest : ∀ x, x ∉ own → h.live x = base x

theorem Part.perm {base : Nat → Option Blk} {h : Heap} {own own' : List Nat} (p : Part base h own)
    (hp : own'.Perm own) : Part base h own' :=
  ⟨hp.nodup_iff.2 p.nodup, p.fresh, fun x hx => p.here x (hp.mem_iff.1 hx), fun x hx => p.apart x (hp.mem_iff.1 hx),
    fun x hx => p.rest x (fun h' => hx (hp.mem_iff.2 h'))⟩

theorem Part.live_base {base : Nat → Option Blk} {h : Heap} {own : List Nat} (p : Part base h own) {x : Nat}
    (hx : base x ≠ none) : x ∉ own ∧ h.live x = base x := by
  have : x ∉ own := fun h' => hx (p.apart x h')
  exact ⟨this, p.rest x this⟩

theorem Part.next_free {base : Nat → Option Blk} {h : Heap} {own : List Nat} (p : Part base h own) :
    h.next ∉ own ∧ base h.next = none := by
  have h1 : h.next ∉ own := fun h' => p.here _ h' (p.fresh _ (Nat.le_refl _))
  exact ⟨h1, by rw [← p.rest _ h1]; exact p.fresh _ (Nat.le_refl _)⟩

theorem Part.calls {base : Nat → Option Blk} {h : Heap} {own : List Nat} (p : Part base h own) (n : Nat) :
    Part base { h with calls := n } own := ⟨p.nodup, p.fresh, p.here, p.apart, p.rest⟩

theorem upd_notin {α : Type} {f : Nat → α} {i : Nat} {v : α} {own : List Nat} (h : i ∉ own) {x : Nat} (hx : x ∈ own) :
    upd f i v x = f x := upd_ne _ _ (fun e => h (by rw [← e]; exact hx))

theorem upd_upd {α : Type} (f : Nat → α) (i : Nat) (v w : α) : upd (upd f i v) i w = upd f i w := by
  funext j; unfold upd; split <;> rfl

theorem upd_same {α : Type} (f : Nat → α) (i : Nat) (v : α) (h : f i = v) : upd f i v = f := by
  funext j
  unfold upd
  split
  · rename_i e; rw [e, h]
  · rfl

/-- A new block counts as one of the others at first. -/
theorem Part.malloc {base : Nat → Option Blk} {h : Heap} {own : List Nat} (p : Part base h own) (b : Blk) (n : Nat) :
    Part (upd base h.next (some b)) ⟨upd h.live h.next (some b), h.next + 1, n⟩ own := by
  obtain ⟨h1, h2⟩ := p.next_free
  refine ⟨p.nodup, fun x hx => ?_, fun x hx => ?_, fun x hx => ?_, fun x hx => ?_⟩
  · show upd _ _ _ x = none
    rw [upd_ne _ _ (by show x ≠ h.next; have : h.next + 1 ≤ x := hx; omega)]
    exact p.fresh x (by have : h.next + 1 ≤ x := hx; omega)
  · show upd _ _ _ x ≠ none
    rw [upd_notin h1 hx]
    exact p.here x hx
  · rw [upd_notin h1 hx]; exact p.apart x hx
  · show upd _ _ _ x = upd _ _ _ x
    by_cases e : x = h.next
    · rw [e, upd_self, upd_self]
    · rw [upd_ne _ _ e, upd_ne _ _ e]; exact p.rest x hx

theorem malloc_cases (A : Allocator) (h : Heap) (b : Blk) :
    (A.malloc h.calls = true ∧
      h.malloc A b = (some h.next, ⟨upd h.live h.next (some b), h.next + 1, h.calls + 1⟩)) ∨
    (A.malloc h.calls = false ∧ h.malloc A b = (none, { h with calls := h.calls + 1 })) := by
  unfold Heap.malloc
  cases hc : A.malloc h.calls with
  | true => exact .inl ⟨rfl, by simp⟩
  | false => exact .inr ⟨rfl, by simp⟩

/-- One of the other blocks is released. -/
theorem Part.free_base {base : Nat → Option Blk} {h : Heap} {own : List Nat} (p : Part base h own) {x : Nat}
    (hx : base x ≠ none) : h.free (.addr x) = .ok { h with live := upd h.live x none } ∧
      Part (upd base x none) { h with live := upd h.live x none } own := by
  obtain ⟨h1, h2⟩ := p.live_base hx
  refine ⟨?_, p.nodup, fun y hy => ?_, fun y hy => ?_, fun y hy => ?_, fun y hy => ?_⟩
  · unfold Heap.free
    cases hb : base x with
    | none => exact absurd hb hx
    | some b => simp only [h2, hb]
  · show upd _ _ _ y = none
    by_cases e : y = x
    · rw [e, upd_self]
    · rw [upd_ne _ _ e]; exact p.fresh y hy
  · show upd _ _ _ y ≠ none
    rw [upd_notin h1 hy]; exact p.here y hy
  · rw [upd_notin h1 hy]; exact p.apart y hy
  · show upd _ _ _ y = upd _ _ _ y
    by_cases e : y = x
    · rw [e, upd_self, upd_self]
    · rw [upd_ne _ _ e, upd_ne _ _ e]; exact p.rest y hy

/-- An own block is released. -/
theorem Part.free_own {base : Nat → Option Blk} {h : Heap} {own : List Nat} {x : Nat} (p : Part base h (x :: own)) :
    h.free (.addr x) = .ok { h with live := upd h.live x none } ∧
      Part base { h with live := upd h.live x none } own := by
  have hn := List.nodup_cons.1 p.nodup
  refine ⟨?_, hn.2, fun y hy => ?_, fun y hy => ?_, fun y hy => p.apart y (by simp [hy]), fun y hy => ?_⟩
  · unfold Heap.free
    cases hb : h.live x with
    | none => exact absurd hb (p.here x (by simp))
    | some b => simp only [hb]
  · show upd _ _ _ y = none
    by_cases e : y = x
    · rw [e, upd_self]
    · rw [upd_ne _ _ e]; exact p.fresh y hy
  · show upd _ _ _ y ≠ none
    rw [upd_notin hn.1 hy]; exact p.here y (by simp [hy])
  · show upd _ _ _ y = base y
    by_cases e : y = x
    · rw [e, upd_self, p.apart x (by simp)]
    · rw [upd_ne _ _ e]; exact p.rest y (by simp [e, hy])

/-- An own block is written. -/
theorem Part.write {base : Nat → Option Blk} {h : Heap} {own : List Nat} (p : Part base h own) {x : Nat} (hx : x ∈ own)
    (b : Blk) : Part base { h with live := upd h.live x (some b) } own := by
  refine ⟨p.nodup, fun y hy => ?_, fun y hy => ?_, p.apart, fun y hy => ?_⟩
  · show upd _ _ _ y = none
    have : y ≠ x := fun e => p.here x hx (e ▸ p.fresh y hy)
    rw [upd_ne _ _ this]; exact p.fresh y hy
  · show upd _ _ _ y ≠ none
    by_cases e : y = x
    · rw [e, upd_self]; simp
    · rw [upd_ne _ _ e]; exact p.here y hy
  · show upd _ _ _ y = base y
    rw [upd_ne _ _ (fun e => hy (by rw [e]; exact hx))]; exact p.rest y hy

/-- Another block becomes an own one. -/
theorem Part.absorb {base : Nat → Option Blk} {h : Heap} {own : List Nat} (p : Part base h own) {x : Nat}
    (hx : base x ≠ none) : Part (upd base x none) h (x :: own) := by
  obtain ⟨h1, h2⟩ := p.live_base hx
  refine ⟨List.nodup_cons.2 ⟨h1, p.nodup⟩, p.fresh, fun y hy => ?_, fun y hy => ?_, fun y hy => ?_⟩
  · rcases List.mem_cons.1 hy with rfl | hy
    · rw [h2]; exact hx
    · exact p.here y hy
  · rcases List.mem_cons.1 hy with rfl | hy
    · rw [upd_self]
    · rw [upd_notin h1 hy]; exact p.apart y hy
  · simp only [List.mem_cons, not_or] at hy
    rw [upd_ne _ _ hy.1]; exact p.rest y hy.2

/-! ## Elements -/

/-- The address in a cell. -/
def Cell.addr? : Cell → Option Nat
  | .addr a => some a
  | .data _ => none

/-- The addresses in an element. -/
def Row.addrs (r : Row) : List Nat := r.filterMap Cell.addr?

/-- The addresses in several elements. -/
def addrsOf (l : List Row) : List Nat := l.flatMap Row.addrs

/-- The elements hold these words. -/
def Words (h : Heap) (l : List Row) (v : List (List Word)) : Prop :=
  l.map (fun r => r.map (Cell.word h)) = v.map (fun ws => ws.map Out.ok)

theorem word_congr {h h' : Heap} {c : Cell} (he : ∀ x, c = .addr x → h'.live x = h.live x) :
    c.word h' = c.word h := by
  cases c with
  | data w => rfl
  | addr a => simp only [Cell.word, he a rfl]

theorem row_congr {h h' : Heap} {r : Row} (he : ∀ x ∈ r.addrs, h'.live x = h.live x) :
    r.map (Cell.word h') = r.map (Cell.word h) := by
  refine List.map_congr_left (fun c hc => word_congr (fun x hx => he x ?_))
  subst hx
  exact List.mem_filterMap.2 ⟨_, hc, rfl⟩

theorem Words.congr {h h' : Heap} {l : List Row} {v : List (List Word)} (w : Words h l v)
    (he : ∀ x ∈ addrsOf l, h'.live x = h.live x) : Words h' l v := by
  unfold Words at *
  rw [← w]
  refine List.map_congr_left (fun r hr => row_congr (fun x hx => he x ?_))
  exact List.mem_flatMap.2 ⟨r, hr, hx⟩

theorem Words.length {h : Heap} {l : List Row} {v : List (List Word)} (w : Words h l v) : l.length = v.length := by
  have := congrArg List.length w
  simpa using this

theorem Words.append {h : Heap} {l l' : List Row} {v v' : List (List Word)} (w : Words h l v) (w' : Words h l' v') :
    Words h (l ++ l') (v ++ v') := by
  unfold Words at *
  rw [List.map_append, List.map_append, w, w']

theorem Words.cons_iff {h : Heap} {r : Row} {l : List Row} {ws : List Word} {v : List (List Word)} :
    Words h (r :: l) (ws :: v) ↔ r.map (Cell.word h) = ws.map Out.ok ∧ Words h l v := by
  unfold Words
  simp only [List.map_cons, List.cons.injEq]

theorem addrsOf_append (l l' : List Row) : addrsOf (l ++ l') = addrsOf l ++ addrsOf l' := by
  unfold addrsOf; rw [List.flatMap_append]

theorem addrsOf_cons (r : Row) (l : List Row) : addrsOf (r :: l) = r.addrs ++ addrsOf l := by
  unfold addrsOf; rw [List.flatMap_cons]

theorem addrsOf_perm {l l' : List Row} (hp : l.Perm l') : (addrsOf l).Perm (addrsOf l') := List.Perm.flatMap_right _ hp

/-- How elements are made up: `n` of the first cells are addresses, and there are no others. -/
def Shape : Nat → Row → Prop
  | 0, r => ∃ w, r = [.data w]
  | 1, r => ∃ a t, r = .addr a :: t ∧ Row.addrs t = []
  | _, r => ∃ a b, r = [.addr a, .addr b]

/-- A kind of collection: how an abstract element is stored, the abstract value, the number of addresses in an element
    and a condition on elements. -/
structure Coll (γ : Type) where
  enc : γ → List Word
  val : List γ → Val
  n : Nat
  good : γ → Prop

variable {γ : Type}

/-- The option holds the elements `cs`, in blocks of its own besides those of `base`. -/
structure Rep (K : Coll γ) (base : Nat → Option Blk) (h : Heap) (ho : HOpt) (cs : List γ) : Prop where
  count : ho.o.valueCount = cs.length
  good : ∀ c ∈ cs, K.good c
  mem : (ho.ptr = none ∧ cs = [] ∧ Part base h []) ∨
    ∃ a l, ho.ptr = some a ∧ h.live a = some (.rows l) ∧ l.length = ho.o.valueCapacity ∧ 0 < ho.o.valueCapacity ∧
      cs.length ≤ l.length ∧ Part base h (a :: addrsOf (l.take cs.length)) ∧
      Words h (l.take cs.length) (cs.map K.enc) ∧ ∀ r ∈ l.take cs.length, Shape K.n r

/-- The same option in the model without memory. -/
def HOpt.abs (ho : HOpt) (K : Coll γ) (cs : List γ) : Opt :=
  { ho.o with value := match ho.ptr with | none => .null | some _ => K.val cs }

theorem take_grow {α : Type} (l : List α) (e : List α) (n m : Nat) (h1 : n ≤ l.length) (h2 : l.length ≤ m) :
    (l.take m ++ e).take n = l.take n := by
  rw [List.take_of_length_le h2, List.take_append_of_le_length h1]

/-- `adjust_array_size`, `adjust_map_size`. -/
theorem adjustH_rep {K : Coll γ} {A : Allocator} {base : Nat → Option Blk} {h : Heap} {ho : HOpt} {cs : List γ}
    (hA : A.Grows) (r : Rep K base h ho cs) : ∃ ho' h', adjustH A ho h = .ok (ho', h') ∧ Rep K base h' ho' cs ∧
      ho'.o = { ho.o with valueCapacity := ho'.o.valueCapacity } ∧
      ((ho'.ptr ≠ none ∧ cs.length < ho'.o.valueCapacity ∧
          ho'.o.valueCapacity = (if ho.ptr = none then initialCapacity
            else if ho.o.valueCount ≥ ho.o.valueCapacity then ho.o.valueCapacity * 2 else ho.o.valueCapacity)) ∨
        (ho.ptr = none ∧ ho'.ptr = none ∧ ho'.o.valueCapacity = 0 ∧ ∃ i, A.malloc i = false)) := by
  unfold adjustH
  rcases r.mem with ⟨h1, h2, h3⟩ | ⟨a, l, h1, h2, h3, h4, h5, h6, h7, h8⟩
  · rw [h1]
    subst h2
    simp only
    rcases malloc_cases A h (.rows (List.replicate initialCapacity [])) with ⟨hm, e⟩ | ⟨hm, e⟩
    · rw [e]
      refine ⟨_, _, rfl, ⟨r.count, r.good, .inr ⟨h.next, List.replicate initialCapacity [], rfl, upd_self _ _ _, ?_, ?_,
        Nat.zero_le _, ?_, rfl, by simp⟩⟩, rfl, .inl ⟨by simp, ?_, by simp⟩⟩
      · simp
      · show 0 < initialCapacity; decide
      · have := (h3.malloc (.rows (List.replicate initialCapacity [])) (h.calls + 1)).absorb (x := h.next)
          (by rw [upd_self]; simp)
        rw [upd_upd, upd_same base h.next none h3.next_free.2] at this
        exact this
      · show 0 < initialCapacity; decide
    · rw [e]
      exact ⟨_, _, rfl, ⟨r.count, r.good, .inl ⟨rfl, rfl, h3.calls _⟩⟩, rfl, .inr ⟨by simp, rfl, rfl, _, hm⟩⟩
  · rw [h1]
    simp only
    split
    · rename_i hc
      have hn : a ∉ addrsOf (l.take cs.length) := (List.nodup_cons.1 h6.nodup).1
      have hcl : cs.length = l.length := by rw [r.count, ← h3] at hc; omega
      have e1 : (l.take (ho.o.valueCapacity * 2) ++ List.replicate (ho.o.valueCapacity * 2 - l.length) []).take cs.length =
          l.take cs.length := take_grow _ _ _ _ h5 (by omega)
      have e2 : (l.take (ho.o.valueCapacity * 2) ++ List.replicate (ho.o.valueCapacity * 2 - l.length) []).length =
          ho.o.valueCapacity * 2 := by
        simp only [List.length_append, List.length_take, List.length_replicate]; omega
      unfold Heap.reallocRows
      rw [h2]
      simp only [hA h.calls, Bool.true_eq_false, if_false]
      by_cases hm : A.moves h.calls = true
      · rw [if_pos hm]
        obtain ⟨n1, n2⟩ := h6.next_free
        simp only [List.mem_cons, not_or] at n1
        refine ⟨_, _, rfl, ⟨r.count, r.good, .inr ⟨h.next, _, rfl, upd_self _ _ _, e2, ?_, ?_, ?_, ?_, ?_⟩⟩, rfl,
          .inl ⟨by simp, ?_, by simp⟩⟩
        · show 0 < ho.o.valueCapacity * 2; omega
        · rw [e2]; omega
        · rw [e1]
          have p1 := h6.free_own.2
          have p2 := (p1.malloc (.rows (l.take (ho.o.valueCapacity * 2) ++
            List.replicate (ho.o.valueCapacity * 2 - l.length) [])) (h.calls + 1)).absorb (x := h.next)
            (by show upd base h.next _ h.next ≠ none; rw [upd_self]; simp)
          rw [show ({ h with live := upd h.live a none } : Heap).next = h.next from rfl, upd_upd,
            upd_same base h.next none n2] at p2
          exact p2
        · rw [e1]
          refine h7.congr (fun x hx => ?_)
          show upd _ _ _ x = _
          rw [upd_notin n1.2 hx, upd_notin hn hx]
        · rw [e1]; exact h8
        · show cs.length < ho.o.valueCapacity * 2; omega
      · rw [if_neg hm]
        refine ⟨_, _, rfl, ⟨r.count, r.good, .inr ⟨a, _, rfl, upd_self _ _ _, e2, ?_, ?_, ?_, ?_, ?_⟩⟩, rfl,
          .inl ⟨by simp, ?_, by simp⟩⟩
        · show 0 < ho.o.valueCapacity * 2; omega
        · rw [e2]; omega
        · rw [e1]
          exact (h6.write (by simp) _).calls _
        · rw [e1]
          refine h7.congr (fun x hx => ?_)
          show upd _ _ _ x = _
          rw [upd_notin hn hx]
        · rw [e1]; exact h8
        · show cs.length < ho.o.valueCapacity * 2; omega
    · rename_i hc
      refine ⟨_, _, rfl, r, rfl, .inl ⟨by rw [h1]; simp, ?_, by simp⟩⟩
      rw [r.count] at hc
      omega

theorem Rep.block {K : Coll γ} {base : Nat → Option Blk} {h : Heap} {ho : HOpt} {cs : List γ} (r : Rep K base h ho cs)
    (hp : ho.ptr ≠ none) : ∃ a l, ho.ptr = some a ∧ ho.block h = .ok (a, l) ∧ h.live a = some (.rows l) ∧
      l.length = ho.o.valueCapacity ∧ 0 < ho.o.valueCapacity ∧
      cs.length ≤ l.length ∧ Part base h (a :: addrsOf (l.take cs.length)) ∧
      Words h (l.take cs.length) (cs.map K.enc) ∧ ∀ r ∈ l.take cs.length, Shape K.n r := by
  rcases r.mem with ⟨h1, _⟩ | ⟨a, l, h1, h2, h3⟩
  · exact absurd h1 hp
  · refine ⟨a, l, h1, ?_, h2, h3⟩
    unfold HOpt.block
    rw [h1]
    simp only [h2]

/-- The blocks of `base` without some addresses. -/
def less (base : Nat → Option Blk) (xs : List Nat) : Nat → Option Blk := xs.foldl (fun b x => upd b x none) base

theorem less_eq (xs : List Nat) : ∀ (base : Nat → Option Blk) (y : Nat),
    less base xs y = if y ∈ xs then none else base y := by
  induction xs with
  | nil => intro base y; simp [less]
  | cons x xs ih =>
    intro base y
    show less (upd base x none) xs y = _
    rw [ih]
    by_cases h1 : y ∈ xs
    · simp [h1]
    · by_cases h2 : y = x
      · subst h2; simp [h1, upd_self]
      · simp [h1, h2, upd_ne]

theorem Part.absorbs : ∀ (xs : List Nat) {base : Nat → Option Blk} {h : Heap} {own : List Nat}, Part base h own →
    xs.Nodup → (∀ x ∈ xs, base x ≠ none) → Part (less base xs) h (own ++ xs)
  | [], base, h, own, p, _, _ => by rw [List.append_nil]; exact p
  | x :: xs, base, h, own, p, hn, hx => by
    have hn' := List.nodup_cons.1 hn
    have p1 := p.absorb (hx x (by simp))
    have p2 := Part.absorbs xs p1 hn'.2 (fun y hy => by
      rw [upd_notin hn'.1 hy]; exact hx y (by simp [hy]))
    refine p2.perm ?_
    exact List.perm_middle

/-- A new element. -/
theorem storeH_rep {K : Coll γ} {base : Nat → Option Blk} {h : Heap} {ho : HOpt} {cs : List γ} (r : Rep K base h ho cs)
    (hp : ho.ptr ≠ none) (hc : cs.length < ho.o.valueCapacity) (row : Row) (c : γ)
    (hw : row.map (Cell.word h) = (K.enc c).map Out.ok) (hs : Shape K.n row) (hg : K.good c) (hn : row.addrs.Nodup)
    (hb : ∀ x ∈ row.addrs, base x ≠ none) :
    ∃ h', storeH ho h row = .ok ({ ho with o := { ho.o with valueCount := ho.o.valueCount + 1 } }, h') ∧
      Rep K (less base row.addrs) h' { ho with o := { ho.o with valueCount := ho.o.valueCount + 1 } } (cs ++ [c]) := by
  obtain ⟨a, l, h1, h2, h3, h4, h5, h6, h7, h8, h9⟩ := r.block hp
  have hl : cs.length < l.length := by omega
  have htake : (l.set cs.length row).take (cs ++ [c]).length = l.take cs.length ++ [row] := by
    have : (cs ++ [c]).length = cs.length + 1 := by simp
    rw [this, List.take_add_one, List.take_set_of_le (Nat.le_refl _)]
    simp [hl]
  have ha : a ∉ row.addrs := fun hx => hb a hx (h7.apart a (by simp))
  have ha' : a ∉ addrsOf (l.take cs.length) := (List.nodup_cons.1 h7.nodup).1
  unfold storeH
  rw [h2]
  simp only [Out.ok_bind, r.count, if_pos hl]
  refine ⟨_, rfl, ⟨by simp, fun d hd => ?_, .inr ⟨a, _, h1, upd_self _ _ _, ?_, h5, ?_, ?_, ?_, ?_⟩⟩⟩
  · rcases List.mem_append.1 hd with hd | hd
    · exact r.good d hd
    · simp only [List.mem_singleton] at hd; exact hd ▸ hg
  · rw [List.length_set]; exact h4
  · rw [List.length_set]; simp; omega
  · rw [htake, addrsOf_append]
    have p := (h7.absorbs row.addrs hn hb).write (x := a) (by simp) (.rows (l.set cs.length row))
    refine p.perm ?_
    rw [List.cons_append]
    simp [addrsOf]
  · rw [htake, List.map_append]
    refine Words.append (h8.congr (fun x hx => upd_notin ha' hx)) ?_
    show Words _ [row] [K.enc c]
    rw [Words.cons_iff]
    refine ⟨?_, rfl⟩
    rw [← hw]
    exact row_congr (fun x hx => upd_notin ha hx)
  · rw [htake]
    intro d hd
    rcases List.mem_append.1 hd with hd | hd
    · exact h9 d hd
    · simp only [List.mem_singleton] at hd; exact hd ▸ hs

/-! ## The model without memory -/

/-- Arrays and variadic positionals: `n` is 1 for strings and 0 for numbers. -/
def arrColl (k : CellKind) (n : Nat) : Coll Word := ⟨fun w => [w], .arr, n, fun w => k.readable w = true⟩

/-- Maps: `n` is 2 for strings and 1 for other values. -/
def mapColl (k : CellKind) (n : Nat) : Coll (Str × Word) :=
  ⟨fun e => [.ptr e.1, e.2], .map, n, fun e => k.readable e.2 = true⟩

theorem HOpt.abs_some {ho : HOpt} {K : Coll γ} {cs : List γ} (h : ho.ptr ≠ none) :
    ho.abs K cs = { ho.o with value := K.val cs } := by
  unfold HOpt.abs
  cases hp : ho.ptr with
  | none => exact absurd hp h
  | some a => rfl

theorem HOpt.abs_none {ho : HOpt} {K : Coll γ} {cs : List γ} (h : ho.ptr = none) :
    ho.abs K cs = { ho.o with value := .null } := by
  unfold HOpt.abs
  rw [h]

theorem Allocator.Never.grows {A : Allocator} (h : A.Never) : A.Grows := fun i => (h i).2

/-- `adjust_array_size` when nothing fails. -/
theorem adjustH_arr {k : CellKind} {n : Nat} {A : Allocator} {base : Nat → Option Blk} {h : Heap} {ho : HOpt}
    {cs : List Word} (hA : A.Never) (r : Rep (arrColl k n) base h ho cs) : ∃ ho' h', adjustH A ho h = .ok (ho', h') ∧
      Rep (arrColl k n) base h' ho' cs ∧ ho'.ptr ≠ none ∧ cs.length < ho'.o.valueCapacity ∧
      adjustArray (ho.abs (arrColl k n) cs) = .ok (ho'.abs (arrColl k n) cs) := by
  obtain ⟨ho', h', e1, e2, e3, e4⟩ := adjustH_rep hA.grows r
  rcases e4 with ⟨e4, e5, e6⟩ | ⟨_, _, _, i, hi⟩
  · refine ⟨ho', h', e1, e2, e4, e5, ?_⟩
    rw [HOpt.abs_some e4, e3, e6]
    by_cases hp : ho.ptr = none
    · rw [HOpt.abs_none hp, if_pos hp]
      rcases r.mem with ⟨_, h2, _⟩ | ⟨a, l, h1, _⟩
      · subst h2; rfl
      · rw [hp] at h1; simp at h1
    · rw [HOpt.abs_some hp, if_neg hp]
      unfold adjustArray
      simp only [arrColl]
      split <;> rfl
  · rw [(hA i).1] at hi; simp at hi

theorem storeCell_abs {k : CellKind} {n : Nat} {ho : HOpt} {cs : List Word} (hp : ho.ptr ≠ none)
    (hc : ho.o.valueCount = cs.length) (hcap : cs.length < ho.o.valueCapacity) (w : Word) :
    storeCell (ho.abs (arrColl k n) cs) w =
      .ok (({ ho with o := { ho.o with valueCount := ho.o.valueCount + 1 } } : HOpt).abs (arrColl k n) (cs ++ [w])) := by
  rw [HOpt.abs_some hp, HOpt.abs_some (by exact hp)]
  unfold storeCell
  simp only [arrColl, writeCell, hc]
  rw [if_neg (by omega), if_neg (by omega)]
  simp

theorem readable_bits (x : F64) : CellKind.float.readable (.bits x) = true := rfl

/-- One number is added to an array. -/
theorem pushData_sim {k : CellKind} {A : Allocator} {base : Nat → Option Blk} {h : Heap} {ho : HOpt}
    {cs : List Word} (hA : A.Never) (r : Rep (arrColl k 0) base h ho cs) (w : Word) (hw : k.readable w = true) :
    ∃ ho1 h1 ho2 h2, adjustH A ho h = .ok (ho1, h1) ∧ ho1.o.valueCapacity ≠ 0 ∧
      adjustArray (ho.abs (arrColl k 0) cs) = .ok (ho1.abs (arrColl k 0) cs) ∧
      Rep (arrColl k 0) base h1 ho1 cs ∧
      storeH ho1 h1 [.data w] = .ok (ho2, h2) ∧
      storeCell (ho1.abs (arrColl k 0) cs) w = .ok (ho2.abs (arrColl k 0) (cs ++ [w])) ∧
      Rep (arrColl k 0) base h2 ho2 (cs ++ [w]) := by
  obtain ⟨ho1, h1, e1, e2, e3, e4, e5⟩ := adjustH_arr hA r
  obtain ⟨h2, e6, e7⟩ := storeH_rep e2 e3 e4 [.data w] w rfl ⟨w, rfl⟩ hw List.nodup_nil
    (fun x hx => nomatch hx)
  exact ⟨ho1, h1, _, h2, e1, by omega, e5, e2, e6, storeCell_abs e3 e2.count e4 w, e7⟩

/-! ## What is left behind -/

theorem Left.refl (b : Nat → Option Blk) : Left [] b b := ⟨[], rfl, by simp, by simp, fun _ _ => rfl⟩

theorem Left.nil {b b' : Nat → Option Blk} (h : Left [] b b') : b' = b := by
  obtain ⟨xs, h1, _, _, h4⟩ := h
  rw [List.map_eq_nil_iff] at h1
  subst h1
  exact funext (fun y => h4 y (by simp))

theorem Left.trans {ks ks' : List Str} {b b' b'' : Nat → Option Blk} (h : Left ks b b') (h' : Left ks' b' b'') :
    Left (ks ++ ks') b b'' := by
  obtain ⟨xs, h1, h2, h3, h4⟩ := h
  obtain ⟨ys, g1, g2, g3, g4⟩ := h'
  have hd : ∀ x ∈ xs.map Prod.fst, x ∉ ys.map Prod.fst := by
    intro x hx hy
    obtain ⟨p, hp, rfl⟩ := List.mem_map.1 hx
    obtain ⟨q, hq, e⟩ := List.mem_map.1 hy
    have := (g3 q hq).1
    rw [e, (h3 p hp).2] at this
    simp at this
  refine ⟨xs ++ ys, by rw [List.map_append, h1, g1], ?_, ?_, ?_⟩
  · rw [List.map_append, List.nodup_append]
    exact ⟨h2, g2, fun x hx y hy e => hd x hx (e ▸ hy)⟩
  · intro x hx
    rcases List.mem_append.1 hx with hx | hx
    · refine ⟨(h3 x hx).1, ?_⟩
      rw [g4 x.1 (hd x.1 (List.mem_map.2 ⟨x, hx, rfl⟩))]
      exact (h3 x hx).2
    · refine ⟨?_, (g3 x hx).2⟩
      rw [← (g3 x hx).1]
      refine (h4 x.1 (fun h' => hd x.1 h' (List.mem_map.2 ⟨x, hx, rfl⟩))).symm
  · intro y hy
    rw [List.map_append, List.mem_append, not_or] at hy
    rw [g4 y hy.2, h4 y hy.1]

theorem Left.malloc {b : Nat → Option Blk} {x : Nat} (hx : b x = none) (s : Str) : Left [s] b (upd b x (some (.text s))) :=
  ⟨[(x, s)], rfl, by simp, by simp [hx, upd_self], fun y hy => upd_ne _ _ (by simpa using hy)⟩

/-- Temporary blocks are released afterwards. -/
theorem Left.less {ks : List Str} {b b1 b2 : Nat → Option Blk} {xs : List Nat} (h : Left ks b1 b2)
    (hb : b = Argus.less b1 xs) (hx : ∀ x ∈ xs, b1 x ≠ none) : Left ks b (Argus.less b2 xs) := by
  obtain ⟨ys, h1, h2, h3, h4⟩ := h
  have hd : ∀ y ∈ ys, y.1 ∉ xs := fun y hy hyx => hx y.1 hyx (h3 y hy).1
  refine ⟨ys, h1, h2, fun y hy => ?_, fun y hy => ?_⟩
  · rw [hb, less_eq, less_eq, if_neg (hd y hy), if_neg (hd y hy)]
    exact h3 y hy
  · rw [hb, less_eq, less_eq]
    split
    · rfl
    · exact h4 y hy

/-- One piece of text is stored in the same way with and without memory; `T` are the texts considered, `lost` the copies
    of keys that stay behind after several pieces. -/
def StoreSim (K : Coll γ) (T : Str → Prop) (lost : List γ → List Str → List Str) (f : Opt → Str → Out HRes)
    (fH : HOpt → Heap → Str → Out MRes) : Prop :=
  ∀ (base : Nat → Option Blk) (h : Heap) (ho : HOpt) (cs : List γ) (s : Str), Rep K base h ho cs → T s →
    ∃ st ho' h' cs' base' ev ks, f (ho.abs K cs) s = .ok (st, ho'.abs K cs', ev) ∧ fH ho h s = .ok (st, ho', h') ∧
      Rep K base' h' ho' cs' ∧ Left ks base base' ∧
      (st = Err.success → ∀ ss, lost cs (s :: ss) = ks ++ lost cs' ss) ∧
      (st ≠ Err.success → ∀ ss, lost cs (s :: ss) = ks)

/-- Arrays leave nothing behind. -/
def noLost {γ : Type} : List γ → List Str → List Str := fun _ _ => []

theorem setString_sim {A : Allocator} (hA : A.Never) :
    StoreSim (arrColl .string 1) (fun _ => True) noLost setValueString (setStringH A) := by
  intro base h ho cs s r _
  obtain ⟨ho1, h1, e1, e2, e3, e4, e5⟩ := adjustH_arr hA r
  rcases e2.mem with ⟨m1, _⟩ | ⟨a, l, m1, m2, m3, m4, m5, m6, m7, m8⟩
  · exact absurd m1 e3
  obtain ⟨n1, n2⟩ := m6.next_free
  simp only [List.mem_cons, not_or] at n1
  have r1 : Rep (arrColl .string 1) (upd base h1.next (some (.text s)))
      ⟨upd h1.live h1.next (some (.text s)), h1.next + 1, h1.calls + 1⟩ ho1 cs :=
    ⟨e2.count, e2.good, .inr ⟨a, l, m1, by show upd _ _ _ a = _; rw [upd_ne _ _ (fun e => n1.1 e.symm)]; exact m2, m3, m4, m5,
      m6.malloc _ _, m7.congr (fun x hx => upd_notin n1.2 hx), m8⟩⟩
  have hl : less (upd base h1.next (some (Blk.text s))) (Row.addrs [.addr h1.next]) = base := by
    show upd (upd base h1.next _) h1.next none = base
    rw [upd_upd, upd_same _ _ _ n2]
  obtain ⟨h2, e6, e7⟩ := storeH_rep r1 e3 e4 [.addr h1.next] (.ptr s)
    (by simp [Cell.word, upd_self, arrColl]) ⟨h1.next, [], rfl, rfl⟩ rfl (by simp [Row.addrs, Cell.addr?])
    (by simp [Row.addrs, Cell.addr?, upd_self])
  rw [hl] at e7
  refine ⟨Err.success, _, h2, _, base, [], [], ?_, ?_, e7, Left.refl _, fun _ _ => rfl, fun _ _ => rfl⟩
  · unfold setValueString pushCell
    rw [e5, Out.ok_bind, storeCell_abs e3 e2.count e4, Out.ok_bind]
  · unfold setStringH
    rw [e1, Out.ok_bind, if_neg (by show ho1.o.valueCapacity ≠ 0; omega)]
    have hm : h1.malloc A (.text s) = (some h1.next, ⟨upd h1.live h1.next (some (.text s)), h1.next + 1, h1.calls + 1⟩) := by
      rcases malloc_cases A h1 (.text s) with ⟨_, e⟩ | ⟨hf, _⟩
      · exact e
      · rw [(hA _).1] at hf; simp at hf
    simp only [hm, e6, Out.ok_bind]

theorem setFloat_sim (W : World) {A : Allocator} (hA : A.Never) :
    StoreSim (arrColl .float 0) (fun _ => True) noLost (setValueFloat W) (setFloatH W A) := by
  intro base h ho cs s r _
  obtain ⟨ho1, h1, ho2, h2, e1, _, e3, _, e5, e6, e7⟩ := pushData_sim hA r (.bits (W.strtof s)) rfl
  refine ⟨Err.success, ho2, h2, _, base, [], [], ?_, ?_, e7, Left.refl _, fun _ _ => rfl, fun _ _ => rfl⟩
  · unfold setValueFloat pushCell
    rw [e3, Out.ok_bind, e6, Out.ok_bind]
  · unfold setFloatH
    rw [e1, Out.ok_bind, e5, Out.ok_bind]

theorem addRangeLoop_sim {A : Allocator} (hA : A.Never) : ∀ (n : Nat) (i : Int) {base : Nat → Option Blk} {h : Heap}
    {ho : HOpt} {cs : List Word}, Rep (arrColl .int 0) base h ho cs → ∃ ho' h' cs',
      addRangeLoop n i (ho.abs (arrColl .int 0) cs) = .ok (ho'.abs (arrColl .int 0) cs') ∧
      addRangeLoopH A n i ho h = .ok (ho', h') ∧ Rep (arrColl .int 0) base h' ho' cs'
  | 0, _, base, h, ho, cs, r => ⟨ho, h, cs, rfl, rfl, r⟩
  | n + 1, i, base, h, ho, cs, r => by
    obtain ⟨ho1, h1, ho2, h2, e1, _, e3, _, e5, e6, e7⟩ := pushData_sim hA r (.low (BitVec.ofInt 32 i)) rfl
    obtain ⟨ho3, h3, cs3, g1, g2, g3⟩ := addRangeLoop_sim hA n (i + 1) e7
    refine ⟨ho3, h3, cs3, ?_, ?_, g3⟩
    · unfold addRangeLoop pushCell
      rw [e3, Out.ok_bind, e6, Out.ok_bind, g1]
    · unfold addRangeLoopH
      rw [e1, Out.ok_bind, e5, Out.ok_bind, g2]

/-- The text is no number or range that ends at INT_MAX. -/
def NoTop (s : Str) : Prop := ∀ r, parseIntRange s = some r → r.2 ≠ intMax

theorem setInt_sim {A : Allocator} (hA : A.Never) :
    StoreSim (arrColl .int 0) NoTop noLost setValueInt (setIntH A) := by
  intro base h ho cs s r ht
  unfold setValueInt setIntH
  cases hp : parseIntRange s with
  | none =>
    exact ⟨_, ho, h, cs, base, _, [], rfl, rfl, r, Left.refl _, fun _ _ => rfl, fun _ _ => rfl⟩
  | some q =>
    obtain ⟨ho1, h1, cs1, e1, e2, e3⟩ := addRangeLoop_sim hA (q.2 - q.1 + 1).toNat q.1 r
    refine ⟨Err.success, ho1, h1, cs1, base, [], [], ?_, ?_, e3, Left.refl _, fun _ _ => rfl, fun _ _ => rfl⟩
    · simp only [addRange]
      rw [e1, Out.ok_bind, if_neg (ht q hp), Out.ok_bind]
    · simp only
      rw [e2, Out.ok_bind, if_neg (ht q hp)]

/-! ## split -/

theorem malloc_never {A : Allocator} (hA : A.Never) (h : Heap) (b : Blk) :
    h.malloc A b = (some h.next, ⟨upd h.live h.next (some b), h.next + 1, h.calls + 1⟩) := by
  rcases malloc_cases A h b with ⟨_, e⟩ | ⟨hf, _⟩
  · exact e
  · rw [(hA _).1] at hf; simp at hf

/-- The blocks do not concern the option. -/
theorem Rep.other {K : Coll γ} {base base' : Nat → Option Blk} {h h' : Heap} {ho : HOpt} {cs : List γ} (r : Rep K base h ho cs)
    (hp : ∀ own, Part base h own → Part base' h' own) (hl : ∀ own, Part base h own → ∀ x ∈ own, h'.live x = h.live x) :
    Rep K base' h' ho cs := by
  refine ⟨r.count, r.good, ?_⟩
  rcases r.mem with ⟨h1, h2, h3⟩ | ⟨a, l, h1, h2, h3, h4, h5, h6, h7, h8⟩
  · exact .inl ⟨h1, h2, hp _ h3⟩
  · refine .inr ⟨a, l, h1, ?_, h3, h4, h5, hp _ h6, h7.congr (fun x hx => hl _ h6 x (by simp [hx])), h8⟩
    rw [hl _ h6 a (by simp)]; exact h2

/-- A new block that is not part of the option. -/
theorem Rep.malloc {K : Coll γ} {base : Nat → Option Blk} {h : Heap} {ho : HOpt} {cs : List γ} (r : Rep K base h ho cs)
    (b : Blk) (n : Nat) : Rep K (upd base h.next (some b)) ⟨upd h.live h.next (some b), h.next + 1, n⟩ ho cs :=
  r.other (fun _ p => p.malloc b n) (fun _ p _ hx => upd_notin p.next_free.1 hx)

theorem Rep.part {K : Coll γ} {base : Nat → Option Blk} {h : Heap} {ho : HOpt} {cs : List γ} (r : Rep K base h ho cs) :
    ∃ own, Part base h own := by
  rcases r.mem with ⟨_, _, h3⟩ | ⟨a, l, _, _, _, _, _, h6, _⟩
  · exact ⟨_, h3⟩
  · exact ⟨_, h6⟩

/-- A block that is not part of the option is released. -/
theorem Rep.free {K : Coll γ} {base : Nat → Option Blk} {h : Heap} {ho : HOpt} {cs : List γ} (r : Rep K base h ho cs)
    {x : Nat} (hx : base x ≠ none) : h.free (.addr x) = .ok { h with live := upd h.live x none } ∧
      Rep K (upd base x none) { h with live := upd h.live x none } ho cs := by
  obtain ⟨own, p⟩ := r.part
  exact ⟨(p.free_base hx).1, r.other (fun _ p => (p.free_base hx).2) (fun _ p _ hy => upd_notin (p.live_base hx).1 hy)⟩

/-- A block that is not part of the option is written. -/
theorem Rep.writeBase {K : Coll γ} {base : Nat → Option Blk} {h : Heap} {ho : HOpt} {cs : List γ} (r : Rep K base h ho cs)
    {x : Nat} (hx : base x ≠ none) (b : Blk) :
    Rep K (upd base x (some b)) { h with live := upd h.live x (some b) } ho cs := by
  refine r.other (fun own p => ?_) (fun _ p _ hy => upd_notin (p.live_base hx).1 hy)
  obtain ⟨h1, h2⟩ := p.live_base hx
  refine ⟨p.nodup, fun y hy => ?_, fun y hy => ?_, fun y hy => ?_, fun y hy => ?_⟩
  · show upd _ _ _ y = none
    have : y ≠ x := fun e => hx (by rw [← h2, ← e]; exact p.fresh y hy)
    rw [upd_ne _ _ this]; exact p.fresh y hy
  · show upd _ _ _ y ≠ none
    rw [upd_notin h1 hy]; exact p.here y hy
  · rw [upd_notin h1 hy]; exact p.apart y hy
  · show upd _ _ _ y = upd _ _ _ y
    by_cases e : y = x
    · rw [e, upd_self, upd_self]
    · rw [upd_ne _ _ e, upd_ne _ _ e]; exact p.rest y hy

theorem Rep.base_free {K : Coll γ} {base : Nat → Option Blk} {h : Heap} {ho : HOpt} {cs : List γ} (r : Rep K base h ho cs) :
    ∀ x, h.next ≤ x → base x = none := by
  obtain ⟨own, p⟩ := r.part
  intro x hx
  have := p.fresh x hx
  by_cases ho : x ∈ own
  · exact p.apart x ho
  · rw [← p.rest x ho]; exact this

theorem Rep.live_base {K : Coll γ} {base : Nat → Option Blk} {h : Heap} {ho : HOpt} {cs : List γ} (r : Rep K base h ho cs)
    {x : Nat} (hx : base x ≠ none) : h.live x = base x := by
  obtain ⟨own, p⟩ := r.part
  exact (p.live_base hx).2

/-- The blocks of `base` with copies of the strings at these addresses. -/
structure Texts (base base' : Nat → Option Blk) (ws : List Str) (as : List Nat) : Prop where
  nodup : as.Nodup
  texts : as.map base' = ws.map (fun w => some (.text w))
  new : ∀ a ∈ as, base a = none
  rest : ∀ x, x ∉ as → base' x = base x

theorem Texts.nil (base : Nat → Option Blk) : Texts base base [] [] := ⟨by simp, rfl, by simp, fun _ _ => rfl⟩

theorem Texts.live {base base' : Nat → Option Blk} {ws : List Str} {as : List Nat} (t : Texts base base' ws as) {a : Nat}
    (ha : a ∈ as) : base' a ≠ none := by
  have : base' a ∈ ws.map (fun w => some (Blk.text w)) := by rw [← t.texts]; exact List.mem_map.2 ⟨a, ha, rfl⟩
  obtain ⟨w, _, e⟩ := List.mem_map.1 this
  rw [← e]; simp

theorem Texts.snoc {base base' : Nat → Option Blk} {ws : List Str} {as : List Nat} (t : Texts base base' ws as) {a : Nat}
    (ha : base' a = none) (w : Str) : Texts base (upd base' a (some (.text w))) (ws ++ [w]) (as ++ [a]) := by
  have hn : a ∉ as := fun h => t.live h ha
  refine ⟨?_, ?_, ?_, ?_⟩
  · rw [List.nodup_append]
    exact ⟨t.nodup, by simp, fun x hx y hy e => hn (by simp at hy; rw [← hy, ← e]; exact hx)⟩
  · rw [List.map_append, List.map_append, ← t.texts]
    congr 1
    · exact List.map_congr_left (fun x hx => upd_notin hn hx)
    · simp [upd_self]
  · intro x hx
    rcases List.mem_append.1 hx with hx | hx
    · exact t.new x hx
    · simp only [List.mem_singleton] at hx
      rw [hx, ← t.rest a hn]; exact ha
  · intro x hx
    rw [List.mem_append, not_or, List.mem_singleton] at hx
    rw [upd_ne _ _ hx.2]; exact t.rest x hx.1

theorem Texts.less {base base' : Nat → Option Blk} {ws : List Str} {as : List Nat} (t : Texts base base' ws as) :
    Argus.less base' as = base := by
  funext y
  rw [less_eq]
  split
  · rename_i h; rw [t.new y h]
  · rename_i h; exact t.rest y h

/-- Blocks that are not part of the option are released one after the other. -/
theorem cleanupSplit_rep {K : Coll γ} : ∀ (as : List Nat) {base : Nat → Option Blk} {h : Heap} {ho : HOpt} {cs : List γ},
    Rep K base h ho cs → as.Nodup → (∀ a ∈ as, base a ≠ none) →
    ∃ h', cleanupSplit as h = .ok h' ∧ Rep K (less base as) h' ho cs
  | [], base, h, ho, cs, r, _, _ => ⟨h, rfl, r⟩
  | a :: as, base, h, ho, cs, r, hn, ha => by
    have hn' := List.nodup_cons.1 hn
    obtain ⟨e1, r1⟩ := r.free (ha a (by simp))
    obtain ⟨h', e2, r2⟩ := cleanupSplit_rep as r1 hn'.2 (fun b hb => by rw [upd_notin hn'.1 hb]; exact ha b (by simp [hb]))
    refine ⟨h', ?_, r2⟩
    unfold cleanupSplit
    rw [e1, Out.ok_bind, e2]

theorem splitLoopH_rep {K : Coll γ} (A : Allocator) : ∀ (ws : List Str) {base0 base : Nat → Option Blk} {h : Heap} {ho : HOpt}
    {cs : List γ} {ws0 : List Str} {as0 : List Nat}, Rep K base h ho cs → Texts base0 base ws0 as0 →
    (∃ as h' base', splitLoopH A ws as0 h = .ok (some as, h') ∧ Texts base0 base' (ws0 ++ ws) as ∧ Rep K base' h' ho cs) ∨
    (∃ h' i, A.malloc i = false ∧ splitLoopH A ws as0 h = .ok (none, h') ∧ Rep K base0 h' ho cs)
  | [], base0, base, h, ho, cs, ws0, as0, r, t => .inl ⟨as0, h, base, rfl, by rw [List.append_nil]; exact t, r⟩
  | w :: ws, base0, base, h, ho, cs, ws0, as0, r, t => by
    unfold splitLoopH
    rcases malloc_cases A h (.text w) with ⟨_, e⟩ | ⟨hf, e⟩
    · rw [e]
      have t1 := t.snoc (r.base_free h.next (Nat.le_refl _)) w
      rcases splitLoopH_rep A ws (r.malloc (.text w) (h.calls + 1)) t1 with ⟨as, h', base', e1, e2, e3⟩ | ⟨h', i, e1, e2, e3⟩
      · exact .inl ⟨as, h', base', e1, by rw [List.append_cons]; exact e2, e3⟩
      · exact .inr ⟨h', i, e1, e2, e3⟩
    · rw [e]
      have r1 : Rep K base { h with calls := h.calls + 1 } ho cs := r.other (fun _ p => p.calls _) (fun _ _ _ _ => rfl)
      obtain ⟨h', e1, r2⟩ := cleanupSplit_rep as0 r1 t.nodup (fun a ha => t.live ha)
      rw [t.less] at r2
      refine .inr ⟨h', _, hf, ?_, r2⟩
      simp only [e1, Out.ok_bind]

/-- The blocks of a finished `split`. -/
structure SplitAt (base base' : Nat → Option Blk) (ws : List Str) (p : Nat) (as : List Nat) : Prop where
  nodup : (p :: as).Nodup
  words : base' p = some (.words (as.map .addr ++ [.data .null]))
  texts : as.map base' = ws.map (fun w => some (.text w))
  less : Argus.less base' (p :: as) = base
  live : ∀ a ∈ p :: as, base' a ≠ none

theorem splitH_rep {K : Coll γ} (A : Allocator) (ws : List Str) {base : Nat → Option Blk} {h : Heap} {ho : HOpt}
    {cs : List γ} (r : Rep K base h ho cs) :
    (∃ p as h' base', splitH A ws h = .ok (some p, h') ∧ SplitAt base base' ws p as ∧ Rep K base' h' ho cs) ∨
    (∃ h' i, A.malloc i = false ∧ splitH A ws h = .ok (none, h') ∧ Rep K base h' ho cs) := by
  unfold splitH
  rcases malloc_cases A h (.words []) with ⟨_, e⟩ | ⟨hf, e⟩
  · rw [e]
    have hb := r.base_free h.next (Nat.le_refl _)
    rcases splitLoopH_rep A ws (r.malloc (.words []) (h.calls + 1)) (Texts.nil _) with
      ⟨as, h', base', e1, e2, e3⟩ | ⟨h', i, hf, e2, e3⟩
    · rw [List.nil_append] at e2
      have hp : h.next ∉ as := fun hx => by
        have := e2.new _ hx
        rw [upd_self] at this
        simp at this
      have hpb : base' h.next = some (.words []) := by rw [e2.rest _ hp, upd_self]
      refine .inl ⟨h.next, as, _, _, ?_, ?_, e3.writeBase (x := h.next) (by rw [hpb]; simp)
        (.words (as.map .addr ++ [.data .null]))⟩
      · simp only [e1, Out.ok_bind]
      · refine ⟨List.nodup_cons.2 ⟨hp, e2.nodup⟩, upd_self _ _ _, ?_, ?_, ?_⟩
        · rw [← e2.texts]
          exact List.map_congr_left (fun x hx => upd_notin hp hx)
        · funext y
          rw [less_eq]
          by_cases hy : y ∈ as
          · rw [if_pos (by simp [hy])]
            have := e2.new y hy
            rw [upd_notin hp hy] at this
            exact this.symm
          · by_cases hyp : y = h.next
            · rw [if_pos (by simp [hyp]), hyp, hb]
            · rw [if_neg (by simp [hyp, hy]), upd_ne _ _ hyp, e2.rest y hy, upd_ne _ _ hyp]
        · intro a ha
          rcases List.mem_cons.1 ha with rfl | ha
          · rw [upd_self]; simp
          · rw [upd_notin hp ha]; exact e2.live ha
    · have r4 := e3.free (x := h.next) (by rw [upd_self]; simp)
      rw [upd_upd, upd_same _ _ _ hb] at r4
      refine .inr ⟨_, _, hf, ?_, r4.2⟩
      simp only [e2, Out.ok_bind, r4.1]
  · rw [e]
    exact .inr ⟨_, _, hf, rfl, r.other (fun _ p => p.calls _) (fun _ _ _ _ => rfl)⟩

theorem splitAt_word {base base' : Nat → Option Blk} {ws : List Str} {p : Nat} {as : List Nat} (s : SplitAt base base' ws p as)
    (i : Nat) : (∀ w, ws[i]? = some w → ∃ a, as[i]? = some a ∧ base' a = some (.text w)) := by
  intro w hw
  have := congrArg (fun l => l[i]?) s.texts
  simp only [List.getElem?_map, hw, Option.map_some, Option.map_eq_some_iff] at this
  exact this

/-- The words are still there after leftovers were added. -/
theorem SplitAt.mono {base base' base'' : Nat → Option Blk} {ws : List Str} {p : Nat} {as : List Nat} {ks : List Str}
    (hl : Left ks base' base'') {x : Nat} (hx : base' x ≠ none) : base'' x = base' x := by
  obtain ⟨ys, _, _, h3, h4⟩ := hl
  refine h4 x (fun hy => ?_)
  obtain ⟨q, hq, rfl⟩ := List.mem_map.1 hy
  exact hx (h3 q hq).1

theorem drop_cons {α : Type} {l : List α} {i : Nat} {x : α} {r : List α} (h : l.drop i = x :: r) :
    l[i]? = some x ∧ l.drop (i + 1) = r := by
  have h1 := congrArg (fun l => l[0]?) h
  simp only [List.getElem?_drop, Nat.add_zero, List.getElem?_cons_zero] at h1
  refine ⟨h1, ?_⟩
  rw [← List.drop_drop, h]; rfl

theorem drop_nil_le {α : Type} {l : List α} {i : Nat} (h : l.drop i = []) : l.length ≤ i := by
  have := congrArg List.length h
  simp at this; omega

theorem wordAt_split {base base' : Nat → Option Blk} {ws : List Str} {p : Nat} {as : List Nat} (s : SplitAt base base' ws p as)
    {h : Heap} (hp : h.live p = base' p) (i : Nat) :
    (∀ a, as[i]? = some a → wordAt h p i = .ok (.addr a)) ∧ (i = as.length → wordAt h p i = .ok (.data .null)) := by
  unfold wordAt
  rw [hp, s.words]
  refine ⟨fun a ha => ?_, fun hi => ?_⟩
  · have hlt : i < as.length := (List.getElem?_eq_some_iff.1 ha).1
    simp only [List.getElem?_append_left (l₁ := as.map Cell.addr) (l₂ := [Cell.data .null]) (i := i) (by simpa using hlt),
      List.getElem?_map, ha, Option.map_some]
  · subst hi
    simp

/-- The loop over the words. -/
theorem setAllH_sim {K : Coll γ} {T : Str → Prop} {lost : List γ → List Str → List Str} {f : Opt → Str → Out HRes}
    {fH : HOpt → Heap → Str → Out MRes} (hf : StoreSim K T lost f fH) (h0 : ∀ cs, lost cs [] = []) {ws : List Str}
    {p : Nat} {as : List Nat} {base0 base1 : Nat → Option Blk} (hs : SplitAt base0 base1 ws p as) (hT : ∀ s ∈ ws, T s) :
    ∀ (rest : List Str) (i fuel : Nat) (ks0 : List Str) {base : Nat → Option Blk} {h : Heap} {ho : HOpt} {cs : List γ},
    ws.drop i = rest → i ≤ ws.length → rest.length < fuel → Left ks0 base1 base → Rep K base h ho cs →
    ∃ st ho' h' cs' base' ev, setAll f (ho.abs K cs) rest = .ok (st, ho'.abs K cs', ev) ∧
      setAllH fH p fuel i ho h = .ok (st, ho', h') ∧ Rep K base' h' ho' cs' ∧ Left (ks0 ++ lost cs rest) base1 base'
  | [], i, fuel, ks0, base, h, ho, cs, hd, hi, hfu, hl, r => by
    obtain ⟨fuel, rfl⟩ : ∃ n, fuel = n + 1 := ⟨fuel - 1, by simp at hfu; omega⟩
    have hlen : as.length = ws.length := by simpa using congrArg List.length hs.texts
    have hpl : h.live p = base1 p := by
      rw [r.live_base (by rw [SplitAt.mono (base := base0) (ws := ws) (p := p) (as := as) hl (hs.live p (by simp))]
                          exact hs.live p (by simp)),
        SplitAt.mono (base := base0) (ws := ws) (p := p) (as := as) hl (hs.live p (by simp))]
    refine ⟨Err.success, ho, h, cs, base, [], rfl, ?_, r, by rw [h0, List.append_nil]; exact hl⟩
    unfold setAllH
    rw [(wordAt_split hs hpl i).2 (by have := drop_nil_le hd; omega), Out.ok_bind, if_pos rfl]
  | s :: rest, i, fuel, ks0, base, h, ho, cs, hd, hi, hfu, hl, r => by
    obtain ⟨fuel, rfl⟩ : ∃ n, fuel = n + 1 := ⟨fuel - 1, by simp at hfu; omega⟩
    obtain ⟨hi1, hd1⟩ := drop_cons hd
    have hlen : as.length = ws.length := by simpa using congrArg List.length hs.texts
    have hmono : ∀ x, base1 x ≠ none → h.live x = base1 x := fun x hx => by
      have := SplitAt.mono (base := base0) (ws := ws) (p := p) (as := as) hl hx
      rw [r.live_base (by rw [this]; exact hx), this]
    obtain ⟨a, ha, hab⟩ := splitAt_word hs i s hi1
    have hw := (wordAt_split hs (hmono p (hs.live p (by simp))) i).1 a ha
    have hc : (Cell.addr a).word h = .ok (.ptr s) := by
      simp only [Cell.word, hmono a (by rw [hab]; simp), hab]
    obtain ⟨st, ho1, h1, cs1, base2, ev, ks, e1, e2, e3, e4, e5, e6⟩ := hf base h ho cs s r
      (hT s (List.mem_of_getElem? hi1))
    have hstep : setAllH fH p (fuel + 1) i ho h =
        if st ≠ Err.success then .ok (st, ho1, h1) else setAllH fH p fuel (i + 1) ho1 h1 := by
      rw [setAllH, hw, Out.ok_bind, if_neg (by simp), hc, Out.ok_bind]
      simp only [Word.strD, Word.asString, e2, Out.ok_bind]
    rw [hstep]
    by_cases hst : st = Err.success
    · obtain ⟨st2, ho2, h2, cs2, base3, ev2, g1, g2, g3, g4⟩ := setAllH_sim hf h0 hs hT rest (i + 1) fuel (ks0 ++ ks) hd1
        (by have := (List.getElem?_eq_some_iff.1 hi1).1; omega) (by simp at hfu; omega) (hl.trans e4) e3
      refine ⟨st2, ho2, h2, cs2, base3, ev ++ ev2, ?_, ?_, g3, ?_⟩
      · simp only [setAll, e1, Out.ok_bind]
        rw [if_neg (by simpa using hst)]
        simp only [g1, Out.ok_bind]
      · rw [if_neg (by simpa using hst), g2]
      · rw [e5 hst rest, ← List.append_assoc]; exact g4
    · refine ⟨st, ho1, h1, cs1, base2, ev, ?_, ?_, e3, ?_⟩
      · simp only [setAll, e1, Out.ok_bind]
        rw [if_pos hst]
      · rw [if_pos hst]
      · rw [e6 hst rest]; exact hl.trans e4

/-- `free_split`. -/
theorem freeSplitLoop_rep {K : Coll γ} {p : Nat} {as : List Nat} : ∀ (rest : List Nat) (i fuel : Nat)
    {base : Nat → Option Blk} {h : Heap} {ho : HOpt} {cs : List γ}, as.drop i = rest → i ≤ as.length →
    rest.length < fuel → base p = some (.words (as.map .addr ++ [.data .null])) → p ∉ rest → rest.Nodup →
    (∀ a ∈ rest, base a ≠ none) → Rep K base h ho cs →
    ∃ h', freeSplitLoop p fuel i h = .ok h' ∧ Rep K (less base rest) h' ho cs
  | [], i, fuel, base, h, ho, cs, hd, hi, hfu, hb, hp, hn, hx, r => by
    obtain ⟨fuel, rfl⟩ : ∃ n, fuel = n + 1 := ⟨fuel - 1, by simp at hfu; omega⟩
    refine ⟨h, ?_, r⟩
    unfold freeSplitLoop wordAt
    rw [r.live_base (by rw [hb]; simp), hb]
    have : i = as.length := by have := drop_nil_le hd; omega
    subst this
    simp
  | a :: rest, i, fuel, base, h, ho, cs, hd, hi, hfu, hb, hp, hn, hx, r => by
    obtain ⟨fuel, rfl⟩ : ∃ n, fuel = n + 1 := ⟨fuel - 1, by simp at hfu; omega⟩
    obtain ⟨hi1, hd1⟩ := drop_cons hd
    have hlt : i < as.length := (List.getElem?_eq_some_iff.1 hi1).1
    simp only [List.mem_cons, not_or] at hp
    have hn' := List.nodup_cons.1 hn
    obtain ⟨e1, r1⟩ := r.free (hx a (by simp))
    obtain ⟨h', e2, r2⟩ := freeSplitLoop_rep rest (i + 1) fuel hd1 (by omega) (by simp at hfu; omega)
      (by rw [upd_ne _ _ hp.1]; exact hb) hp.2 hn'.2 (fun b hb => by rw [upd_notin hn'.1 hb]; exact hx b (by simp [hb])) r1
    refine ⟨h', ?_, r2⟩
    unfold freeSplitLoop wordAt
    rw [r.live_base (by rw [hb]; simp), hb]
    simp only [List.getElem?_append_left (l₁ := as.map Cell.addr) (l₂ := [Cell.data .null]) (i := i) (by simpa using hlt),
      List.getElem?_map, hi1, Option.map_some, Out.ok_bind]
    rw [if_neg (by simp), e1, Out.ok_bind, e2]

theorem freeSplitH_rep {K : Coll γ} {p : Nat} {as : List Nat} {n : Nat} {base : Nat → Option Blk} {h : Heap} {ho : HOpt}
    {cs : List γ} (hn : as.length < n) (hb : base p = some (.words (as.map .addr ++ [.data .null])))
    (hd : (p :: as).Nodup) (hx : ∀ a ∈ as, base a ≠ none) (r : Rep K base h ho cs) :
    ∃ h', freeSplitH p n h = .ok h' ∧ Rep K (less base (p :: as)) h' ho cs := by
  have hd' := List.nodup_cons.1 hd
  obtain ⟨h1, e1, r1⟩ := freeSplitLoop_rep as 0 n rfl (Nat.zero_le _) hn hb hd'.1 hd'.2 hx r
  obtain ⟨e2, r2⟩ := r1.free (x := p) (by rw [less_eq, if_neg hd'.1, hb]; simp)
  refine ⟨{ h1 with live := upd h1.live p none }, ?_, ?_⟩
  · unfold freeSplitH
    rw [e1, Out.ok_bind, e2]
  · have : upd (less base as) p none = less base (p :: as) := by
      funext y
      rw [less_eq]
      by_cases hy : y = p
      · rw [hy, upd_self, if_pos (by simp)]
      · rw [upd_ne _ _ hy, less_eq]; simp [hy]
    rw [← this]; exact r2

theorem storePartsH_sim {K : Coll γ} {T : Str → Prop} {lost : List γ → List Str → List Str} {f : Opt → Str → Out HRes}
    {fH : HOpt → Heap → Str → Out MRes} {A : Allocator} (hA : A.Never) (hf : StoreSim K T lost f fH)
    (h0 : ∀ cs, lost cs [] = []) (v : Str) (hT : ∀ s ∈ pieces v, T s) {base : Nat → Option Blk} {h : Heap} {ho : HOpt}
    {cs : List γ} (r : Rep K base h ho cs) :
    ∃ st ho' h' cs' base' ev, storeParts f (ho.abs K cs) v = .ok (st, ho'.abs K cs', ev) ∧
      storePartsH A fH ho h v = .ok (st, ho', h') ∧ Rep K base' h' ho' cs' ∧ Left (lost cs (pieces v)) base base' := by
  unfold storeParts storePartsH
  unfold pieces at hT ⊢
  by_cases hc : 44 ∈ v
  · rw [if_pos hc] at hT ⊢
    rw [if_pos (by simpa using hc), if_pos (by simpa using hc), split_comma]
    rcases splitH_rep A ((fields (· == 44) v).filter (· ≠ [])) r with ⟨p, as, h1, base1, e1, e2, e3⟩ | ⟨_, i, hi, _⟩
    · rw [e1]
      obtain ⟨st, ho', h2, cs', base2, ev, g1, g2, g3, g4⟩ := setAllH_sim hf h0 e2 hT _ 0
        (((fields (· == 44) v).filter (· ≠ [])).length + 1) [] rfl (Nat.zero_le _) (Nat.lt_succ_self _) (Left.refl _) e3
      rw [List.nil_append] at g4
      have hm : ∀ x ∈ p :: as, base2 x = base1 x := fun x hx =>
        SplitAt.mono (base := base) (ws := []) (p := p) (as := as) g4 (e2.live x hx)
      have hlen : as.length = ((fields (· == 44) v).filter (· ≠ [])).length := by
        simpa using congrArg List.length e2.texts
      obtain ⟨h3, e4, r4⟩ := freeSplitH_rep (n := ((fields (· == 44) v).filter (· ≠ [])).length + 1) (by omega)
        (by rw [hm p (by simp)]; exact e2.words) e2.nodup
        (fun a ha => by rw [hm a (by simp [ha])]; exact e2.live a (by simp [ha])) g3
      refine ⟨st, ho', h3, cs', _, ev, g1, ?_, r4, g4.less e2.less.symm e2.live⟩
      simp only [Out.ok_bind, g2, e4]
    · rw [(hA i).1] at hi; simp at hi
  · rw [if_neg hc] at hT ⊢
    rw [if_neg (by simpa using hc), if_neg (by simpa using hc)]
    obtain ⟨st, ho', h', cs', base', ev, ks, e1, e2, e3, e4, e5, e6⟩ := hf base h ho cs v r (hT v (by simp))
    refine ⟨st, ho', h', cs', base', ev, e1, e2, e3, ?_⟩
    by_cases hst : st = Err.success
    · rw [e5 hst, h0, List.append_nil]; exact e4
    · rw [e6 hst]; exact e4

end Argus
