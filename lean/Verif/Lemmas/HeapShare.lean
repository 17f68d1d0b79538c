import Verif.Model.HeapParse
import Verif.Lemmas.HeapEnd

/-!
# Lemmas: several options in one memory
-/

set_option autoImplicit false

namespace Argus

variable {γ : Type}

/-- Each option `p` has blocks of its own, those that are in `h` but not in `base p`. No block belongs to two options, and
    the blocks that belong to none are those of `B`. -/
structure Shares (base : Ptr → Nat → Option Blk) (B : Nat → Option Blk) (h : Heap) : Prop where
  fresh : h.Sound
  part : ∀ p, ∃ own, Part (base p) h own
  disjoint : ∀ p q x, p ≠ q → h.live x = base p x ∨ h.live x = base q x
  rest : ∀ x, (∀ p, h.live x = base p x) → h.live x = B x
  apart : ∀ p x, h.live x ≠ base p x → B x = none

/-- The blocks that are not an option's own, after a change of the others. -/
def others (base : Nat → Option Blk) (h h' : Heap) : Nat → Option Blk :=
  fun x => if h.live x = base x then h'.live x else none

theorem Part.own_iff {base : Nat → Option Blk} {h : Heap} {own : List Nat} (p : Part base h own) (x : Nat) :
    x ∈ own ↔ h.live x ≠ base x := by
  constructor
  · intro hx e
    exact p.here x hx (e.trans (p.apart x hx))
  · intro hx
    by_cases h1 : x ∈ own
    · exact h1
    · exact absurd (p.rest x h1) hx

theorem Part.own_live {base : Nat → Option Blk} {h : Heap} {own : List Nat} (p : Part base h own) {x : Nat}
    (hx : h.live x ≠ base x) : h.live x ≠ none ∧ base x = none :=
  ⟨p.here x ((p.own_iff x).2 hx), p.apart x ((p.own_iff x).2 hx)⟩

/-- Blocks stay an option's own while others change. -/
theorem Part.move {base : Nat → Option Blk} {h h' : Heap} {own : List Nat} (p : Part base h own) (hs : h'.Sound)
    (hk : ∀ x, h.live x ≠ base x → h'.live x = h.live x) : Part (others base h h') h' own := by
  refine ⟨p.nodup, hs, fun x hx => ?_, fun x hx => ?_, fun x hx => ?_⟩
  · rw [hk x ((p.own_iff x).1 hx)]; exact p.here x hx
  · unfold others; rw [if_neg ((p.own_iff x).1 hx)]
  · unfold others; rw [if_pos (p.rest x hx)]

/-- The blocks of one option change. -/
theorem Shares.step {base : Ptr → Nat → Option Blk} {B : Nat → Option Blk} {h : Heap} (s : Shares base B h) (p : Ptr)
    {b' : Nat → Option Blk} {h' : Heap} {ks : List Str} (pt : ∃ own, Part b' h' own) (l : Left ks (base p) b') :
    ∃ B', Left ks B B' ∧ Shares (fun q => if q = p then b' else others (base q) h h') B' h' ∧
      ∀ q, q ≠ p → ∀ x, h.live x ≠ base q x → h'.live x = h.live x := by
  obtain ⟨own', pt⟩ := pt
  obtain ⟨ownp, pp⟩ := s.part p
  obtain ⟨xs, l1, l2, l3, l4⟩ := l
  -- what was there is still there
  have stay : ∀ x, base p x ≠ none → b' x = base p x := by
    intro x hx
    refine l4 x (fun hm => ?_)
    obtain ⟨y, hy, rfl⟩ := List.mem_map.1 hm
    exact hx (l3 y hy).1
  have keep : ∀ q, q ≠ p → ∀ x, h.live x ≠ base q x → h'.live x = h.live x := by
    intro q hq x hx
    obtain ⟨ownq, pq⟩ := s.part q
    have h1 : h.live x = base p x := by
      rcases s.disjoint p q x (Ne.symm hq) with h1 | h1
      · exact h1
      · exact absurd h1 hx
    have h2 := (pq.own_live hx).1
    have h3 : base p x ≠ none := by rw [← h1]; exact h2
    have h4 := stay x h3
    rw [(pt.live_base (x := x) (by rw [h4]; exact h3)).2, h4, h1]
  have none_of : ∀ x, base p x = none → B x = none := by
    intro x hx
    by_cases ho : h.live x = base p x
    · rw [← s.rest x (fun q => ?_), ho, hx]
      by_cases hq : h.live x = base q x
      · exact hq
      · obtain ⟨ownq, pq⟩ := s.part q
        exact absurd (ho.trans hx) (pq.own_live hq).1
    · exact s.apart p x ho
  refine ⟨fun y => if y ∈ xs.map Prod.fst then b' y else B y, ⟨xs, l1, l2, fun x hx => ⟨none_of _ (l3 x hx).1, ?_⟩, fun y hy => ?_⟩,
    ⟨pt.fresh, fun q => ?_, fun q r x hqr => ?_, fun x hx => ?_, fun q x hx => ?_⟩, keep⟩
  · show (if x.1 ∈ xs.map Prod.fst then b' x.1 else B x.1) = _
    rw [if_pos (List.mem_map_of_mem hx)]; exact (l3 x hx).2
  · show (if y ∈ xs.map Prod.fst then b' y else B y) = _
    rw [if_neg hy]
  · by_cases hq : q = p
    · exact ⟨own', by simp only [if_pos hq]; exact pt⟩
    · obtain ⟨ownq, pq⟩ := s.part q
      exact ⟨ownq, by simp only [if_neg hq]; exact pq.move pt.fresh (keep q hq)⟩
  · -- disjoint
    have other : ∀ q, q ≠ p → h'.live x = b' x ∨ h'.live x = others (base q) h h' x := by
      intro q hq
      by_cases ho : h.live x = base q x
      · right; unfold others; rw [if_pos ho]
      · left
        obtain ⟨ownq, pq⟩ := s.part q
        have h1 : h.live x = base p x := (s.disjoint p q x (Ne.symm hq)).resolve_right ho
        have h3 : base p x ≠ none := by rw [← h1]; exact (pq.own_live ho).1
        have h4 := stay x h3
        exact (pt.live_base (x := x) (by rw [h4]; exact h3)).2
    by_cases hq : q = p
    · have hr : r ≠ p := fun e => hqr (hq.trans e.symm)
      simp only [if_pos hq, if_neg hr]; exact other r hr
    · by_cases hr : r = p
      · simp only [if_pos hr, if_neg hq]; exact (other q hq).symm
      · simp only [if_neg hr, if_neg hq]
        rcases s.disjoint q r x hqr with h1 | h1
        · left; unfold others; rw [if_pos h1]
        · right; unfold others; rw [if_pos h1]
  · -- rest
    have hp : h'.live x = b' x := by have := hx p; simpa using this
    have noq : ∀ q, q ≠ p → h.live x = base q x := by
      intro q hq
      by_cases ho : h.live x = base q x
      · exact ho
      · have h1 := hx q
        simp only [if_neg hq, others, if_neg ho] at h1
        obtain ⟨ownq, pq⟩ := s.part q
        rw [keep q hq x ho] at h1
        exact absurd h1 (pq.own_live ho).1
    show h'.live x = if x ∈ xs.map Prod.fst then b' x else B x
    by_cases hm : x ∈ xs.map Prod.fst
    · rw [if_pos hm]; exact hp
    · rw [if_neg hm, hp, l4 x hm]
      by_cases ho : h.live x = base p x
      · rw [← ho]
        refine s.rest x (fun q => ?_)
        by_cases hq : q = p
        · rw [hq]; exact ho
        · exact noq q hq
      · rw [(pp.own_live ho).2, s.apart p x ho]
  · -- apart
    show (if x ∈ xs.map Prod.fst then b' x else B x) = none
    by_cases hq : q = p
    · simp only [if_pos hq] at hx
      have h1 := (pt.own_live hx).2
      have hm : x ∉ xs.map Prod.fst := by
        intro hm
        obtain ⟨y, hy, rfl⟩ := List.mem_map.1 hm
        rw [(l3 y hy).2] at h1; simp at h1
      rw [if_neg hm]
      refine none_of x ?_
      rw [← l4 x hm]; exact h1
    · simp only [if_neg hq, others] at hx
      by_cases ho : h.live x = base q x
      · rw [if_pos ho] at hx; exact absurd rfl hx
      · obtain ⟨ownq, pq⟩ := s.part q
        have h1 : h.live x = base p x := (s.disjoint p q x (Ne.symm hq)).resolve_right ho
        have hm : x ∉ xs.map Prod.fst := by
          intro hm
          obtain ⟨y, hy, rfl⟩ := List.mem_map.1 hm
          rw [(l3 y hy).1] at h1
          exact (pq.own_live ho).1 h1
        rw [if_neg hm]
        exact s.apart q x ho

theorem Shares.start {h : Heap} (hs : h.Sound) : Shares (fun _ => h.live) h.live h :=
  ⟨hs, fun _ => ⟨[], ⟨List.nodup_nil, hs, by simp, by simp, fun _ _ => rfl⟩⟩, fun _ _ _ _ => .inl rfl, fun _ _ => rfl,
    fun _ _ hx => absurd rfl hx⟩

/-- An option in memory and the same without. -/
inductive Entry (base : Nat → Option Blk) (h : Heap) (ho : HOpt) (o : Opt) : Prop
  | plain : (∀ hd, o.handler = some hd → hd.isCollection = false) → o.isAllocated = false → ho.o = o → ho.ptr = none →
      Part base h [] → Entry base h ho o
  | arr (hd : Handler) (fh : FreeHandler) (k : CellKind) (n : Nat) (cs : List Word) : ArrHandler hd ho.o.valueType fh k n →
      ho.o.handler = some hd → ho.o.freeHandler = some fh → Rep (arrColl k n) base h ho cs → o = ho.abs (arrColl k n) cs →
      Entry base h ho o
  | map (hd : Handler) (fh : FreeHandler) (k : CellKind) (n : Nat) (cs : List (Str × Word)) :
      MapHandler hd ho.o.valueType fh k n →
      ho.o.handler = some hd → ho.o.freeHandler = some fh → Rep (mapColl k n) base h ho cs → o = ho.abs (mapColl k n) cs →
      Entry base h ho o

theorem Entry.part {base : Nat → Option Blk} {h : Heap} {ho : HOpt} {o : Opt} (e : Entry base h ho o) :
    ∃ own, Part base h own := by
  cases e with
  | plain _ _ _ _ p => exact ⟨_, p⟩
  | arr _ _ _ _ _ _ _ _ r _ => exact r.part
  | map _ _ _ _ _ _ _ _ r _ => exact r.part

theorem Entry.move {base : Nat → Option Blk} {h h' : Heap} {ho : HOpt} {o : Opt} (e : Entry base h ho o) (hs : h'.Sound)
    (hk : ∀ x, h.live x ≠ base x → h'.live x = h.live x) : Entry (others base h h') h' ho o := by
  cases e with
  | plain h1 h2 h3 h4 p => exact .plain h1 h2 h3 h4 (p.move hs hk)
  | arr hd fh k n cs H h1 h2 r h3 =>
    exact .arr hd fh k n cs H h1 h2 (r.other (fun _ p => p.move hs hk) (fun _ p x hx => hk x ((p.own_iff x).1 hx))) h3
  | map hd fh k n cs H h1 h2 r h3 =>
    exact .map hd fh k n cs H h1 h2 (r.other (fun _ p => p.move hs hk) (fun _ p x hx => hk x ((p.own_iff x).1 hx))) h3

theorem Entry.meta {base : Nat → Option Blk} {h : Heap} {ho : HOpt} {o : Opt} (e : Entry base h ho o) : ho.o.meta = o.meta := by
  cases e with
  | plain _ _ h3 _ _ => rw [h3]
  | arr _ _ _ _ _ _ _ _ _ h3 => rw [h3]; rfl
  | map _ _ _ _ _ _ _ _ _ h3 => rw [h3]; rfl

theorem Entry.set {base : Nat → Option Blk} {h : Heap} {ho : HOpt} {o : Opt} (e : Entry base h ho o) : ho.o.isSet = o.isSet := by
  cases e with
  | plain _ _ h3 _ _ => rw [h3]
  | arr _ _ _ _ _ _ _ _ _ h3 => rw [h3]; rfl
  | map _ _ _ _ _ _ _ _ _ h3 => rw [h3]; rfl

theorem Entry.same_but {base : Nat → Option Blk} {h : Heap} {ho : HOpt} {o : Opt} (e : Entry base h ho o) :
    { ho.o with value := o.value } = o := by
  cases e with
  | plain _ _ h3 _ _ => rw [h3]
  | arr _ _ _ _ _ _ _ _ _ h3 => rw [h3]; rfl
  | map _ _ _ _ _ _ _ _ _ h3 => rw [h3]; rfl

/-- What `set_kv_pair` loses when an option is given a text. -/
def Losing (W : World) (o : Opt) (arg : Option Str) (ks : List Str) : Prop :=
  ks = [] ∨ ∃ t, arg = some t ∧ IsMapOption o o.valueType ∧ LostKeys W o.valueType o.keys (pieces t) ks

theorem Sound.plain {o : Opt} (hs : Sound o) {hd : Handler} (hh : o.handler = some hd) (hc : hd.isCollection = false) :
    o.isAllocated = false ∧ ∃ w, o.value = .word w := by
  have := hs.holds hd hh
  cases hd <;> simp only [Handler.isCollection, Bool.true_eq_false] at hc <;> simp only [Carries] at this
  case string =>
    refine ⟨this.1, ?_⟩
    rcases this.2 with ⟨s, h⟩ | ⟨h, _⟩
    · exact ⟨_, h⟩
    · exact ⟨_, h⟩
  case int => obtain ⟨h1, b, h2⟩ := this; exact ⟨h1, _, h2⟩
  case float => obtain ⟨h1, b, h2⟩ := this; exact ⟨h1, _, h2⟩
  case flag => exact this
  case bool => exact this
  case help => exact this
  case version => exact this

theorem runHandler_elsewhere {W : World} {a b : Argus} {hd : Handler} (hc : hd.isCollection = false) {o o' : Opt} {arg : Option Str}
    {st : Int} {ev : List Event} (h : runHandler W a hd o arg = .ok (st, o', ev)) (hb : ∃ t, b.activeOptions = .ok t) :
    ∃ ev', runHandler W b hd o arg = .ok (st, o', ev') := by
  obtain ⟨t, hb⟩ := hb
  cases hd <;> simp only [Handler.isCollection, Bool.true_eq_false] at hc
  case help =>
    unfold runHandler at h ⊢
    obtain ⟨t', _, h2⟩ := Out.bind_eq_ok h
    simp only [Out.ok.injEq, Prod.mk.injEq] at h2
    simp only [hb, Out.ok_bind]
    exact ⟨_, by rw [h2.1, h2.2.1]⟩
  all_goals exact ⟨ev, h⟩

theorem ArrHandler.coll {hd : Handler} {vt : ValueType} {fh : FreeHandler} {k : CellKind} {n : Nat} (H : ArrHandler hd vt fh k n) :
    hd.isCollection = true := by cases H <;> rfl

theorem MapHandler.coll {hd : Handler} {vt : ValueType} {fh : FreeHandler} {k : CellKind} {n : Nat} (H : MapHandler hd vt fh k n) :
    hd.isCollection = true := by cases H <;> rfl

/-- A handler in memory beside the same without. -/
theorem Entry.handle (W : World) {A : Allocator} (hA : A.Never) {base : Nat → Option Blk} {h : Heap} {ho : HOpt} {o : Opt}
    (e : Entry base h ho o) (hs : Sound o) {hd : Handler} (hh : o.handler = some hd) {arg : Option Str}
    (harg : arg = none → o.valueType = .flag) (hT : ∀ v, arg = some v → HarmlessTo o hd v) {a b : Argus}
    (hact : ∃ t, a.activeOptions = .ok t) (hact' : ∃ t, b.activeOptions = .ok t) :
    ∃ st o' ev ho' h' base' ks, runHandler W a hd o arg = .ok (st, o', ev) ∧
      callHandlerH W A b hd ho h arg = .ok (st, ho', h') ∧ Left ks base base' ∧ Losing W o arg ks ∧
      Entry base' h' ho' o' ∧ (st = Err.success → Entry base' h' ho'.mark o'.markSet) ∧
      (st = Err.success → ho'.ptr ≠ none → ho'.o.isAllocated = true) ∧
      (ho.o.isAllocated = true → ho'.o.isAllocated = true) := by
  obtain ⟨⟨st, o', ev⟩, g1, g2, g3⟩ := runHandler_sound W a hs hh harg hT hact
  have hm := runHandler_meta g1
  have hh' : o'.handler = some hd := (congrArg Opt.handler hm : o'.meta.handler = o.meta.handler).trans hh
  cases e with
  | plain h1 h2 h3 h4 p =>
    have hc := h1 hd hh
    obtain ⟨ev', g4⟩ := runHandler_elsewhere hc g1 hact'
    have hal : o'.isAllocated = false := (g2.plain hh' hc).1
    have hpl : ∀ x, o'.handler = some x → x.isCollection = false := by
      intro x hx; rw [hh'] at hx; simp only [Option.some.injEq] at hx; subst hx; exact hc
    refine ⟨st, o', ev, ⟨o', ho.ptr⟩, h, base, [], g1, ?_, Left.refl _, .inl rfl, .plain hpl hal rfl h4 p,
      fun _ => .plain hpl hal rfl h4 p, fun _ hp => absurd h4 hp, fun hx => ?_⟩
    · unfold callHandlerH
      rw [if_neg (by simp [hc]), h3, g4, Out.ok_bind]
    · rw [h3, h2] at hx; simp at hx
  | arr hd' fh k n cs H h1 h2 r h3 =>
    have hhd : hd' = hd := by
      have : o.handler = some hd' := by rw [h3]; exact h1
      rw [hh] at this; simpa using this.symm
    subst hhd
    cases arg with
    | none =>
      have : ho.o.valueType = .flag := by have := harg rfl; rw [h3] at this; exact this
      rw [this] at H; cases H
    | some v =>
      subst h3
      obtain ⟨st1, ho1, h1', cs1, base1, ev1, e1, e2, e3, e4, e5⟩ := arr_step W hA H a base h ho cs v r rfl (hT v rfl).2
      rw [g1] at e1
      simp only [Out.ok.injEq, Prod.mk.injEq] at e1
      obtain ⟨rfl, rfl, rfl⟩ := e1
      have H1 : ArrHandler hd' ho1.o.valueType fh k n := by rw [e5.fixed.type]; exact H
      have hh1 : ho1.o.handler = some hd' := e5.fixed.handler.trans h1
      have hf1 : ho1.o.freeHandler = some fh := e5.fixed.free.trans h2
      refine ⟨st, _, ev, ho1, h1', base1, _, g1, ?_, e4, .inl rfl, .arr hd' fh k n cs1 H1 hh1 hf1 e3 rfl, fun hst => ?_, fun hst _ => ?_,
        e5.fixed.alloc⟩
      · unfold callHandlerH
        rw [if_pos H.coll]; exact e2
      · have hne := arr_ne H1 ho1 cs1 (g3 hst) hh1
        have hvc : ho1.o.valueCount ≠ 0 := by rw [e3.count]; exact fun h => hne (List.length_eq_zero_iff.1 h)
        exact .arr hd' fh k n cs1 H1 hh1 hf1 (e3.same rfl
          (by show (if ho1.o.valueCount = 0 then 1 else ho1.o.valueCount) = ho1.o.valueCount; rw [if_neg hvc]) rfl) rfl
      · subst hst; exact e5.alloc
  | map hd' fh k n cs H h1 h2 r h3 =>
    have hhd : hd' = hd := by
      have : o.handler = some hd' := by rw [h3]; exact h1
      rw [hh] at this; simpa using this.symm
    subst hhd
    cases arg with
    | none =>
      have : ho.o.valueType = .flag := by have := harg rfl; rw [h3] at this; exact this
      rw [this] at H; cases H
    | some v =>
      subst h3
      obtain ⟨st1, ho1, h1', cs1, base1, ev1, e1, e2, e3, e4, e5⟩ := map_step W hA H a base h ho cs v r rfl (hT v rfl).2
      rw [g1] at e1
      simp only [Out.ok.injEq, Prod.mk.injEq] at e1
      obtain ⟨rfl, rfl, rfl⟩ := e1
      have H1 : MapHandler hd' ho1.o.valueType fh k n := by rw [e5.fixed.type]; exact H
      have hh1 : ho1.o.handler = some hd' := e5.fixed.handler.trans h1
      have hf1 : ho1.o.freeHandler = some fh := e5.fixed.free.trans h2
      refine ⟨st, _, ev, ho1, h1', base1, _, g1, ?_, e4, .inr ⟨v, rfl, H.isMap h1 rfl, ?_⟩,
        .map hd' fh k n cs1 H1 hh1 hf1 e3 rfl, fun hst => ?_, fun hst _ => ?_, e5.fixed.alloc⟩
      · unfold callHandlerH
        rw [if_pos H.coll]; exact e2
      · rw [keys_abs (fun hp => (r.null hp).1)]
        exact lostIn_lostKeys H.types _ _
      · have hne := map_ne H1 ho1 cs1 (g3 hst) hh1
        have hvc : ho1.o.valueCount ≠ 0 := by rw [e3.count]; exact fun h => hne (List.length_eq_zero_iff.1 h)
        exact .map hd' fh k n cs1 H1 hh1 hf1 (e3.same rfl
          (by show (if ho1.o.valueCount = 0 then 1 else ho1.o.valueCount) = ho1.o.valueCount; rw [if_neg hvc]) rfl) rfl
      · subst hst; exact e5.alloc

end Argus
