import Verif.Lemmas.HeapParse

/-!
# Lemmas: releasing a whole program
-/

set_option autoImplicit false

namespace Argus

/-- An option `argus_free` can deal with. -/
def Relable (base : Nat → Option Blk) (h : Heap) (ho : HOpt) : Prop :=
  (∃ o, Entry base h ho o) ∨ (ho.ptr = none ∧ ho.o.isAllocated = false ∧ Part base h [])

theorem Relable.part {base : Nat → Option Blk} {h : Heap} {ho : HOpt} (e : Relable base h ho) : ∃ own, Part base h own := by
  rcases e with ⟨o, e⟩ | ⟨_, _, p⟩
  · exact e.part
  · exact ⟨_, p⟩

theorem Relable.move {base : Nat → Option Blk} {h h' : Heap} {ho : HOpt} (e : Relable base h ho) (hs : h'.Sound)
    (hk : ∀ x, h.live x ≠ base x → h'.live x = h.live x) : Relable (others base h h') h' ho := by
  rcases e with ⟨o, e⟩ | ⟨h1, h2, p⟩
  · exact .inl ⟨o, e.move hs hk⟩
  · exact .inr ⟨h1, h2, p.move hs hk⟩

theorem Relable.null {base : Nat → Option Blk} {h : Heap} {ho : HOpt} (e : Relable base h ho) (hp : ho.ptr = none) : h.live = base := by
  have : Part base h [] := by
    rcases e with ⟨o, e⟩ | ⟨_, _, p⟩
    · cases e with
      | plain _ _ _ _ p => exact p
      | arr _ _ _ _ _ _ _ _ r _ => exact (r.null hp).2
      | map _ _ _ _ _ _ _ _ r _ => exact (r.null hp).2
    · exact p
  exact funext fun x => this.rest x (by simp)

/-- The free handler of an option that holds blocks. -/
theorem Relable.free {base : Nat → Option Blk} {h : Heap} {ho : HOpt} (e : Relable base h ho)
    (hp : ho.ptr ≠ none ∨ ho.o.isAllocated = true) :
    ∃ fh h', ho.o.freeHandler = some fh ∧ runFreeH (some fh) ho h = .ok h' ∧ Part base h' [] := by
  rcases e with ⟨o, e⟩ | ⟨h1, h2, _⟩
  · cases e with
    | plain _ h2 h3 h4 _ =>
      rcases hp with hp | hp
      · exact absurd h4 hp
      · rw [h3, h2] at hp; cases hp
    | arr hd fh k n cs H _ h2 r _ => obtain ⟨h', g1, g2⟩ := arr_free H r; exact ⟨fh, h', h2, g1, g2⟩
    | map hd fh k n cs H _ h2 r _ => obtain ⟨h', g1, g2⟩ := map_free H r; exact ⟨fh, h', h2, g1, g2⟩
  · rcases hp with hp | hp
    · exact absurd h1 hp
    · rw [h2] at hp; cases hp

/-- A program on its way to being released: blocks belong to options with `D`, which `argus_free` has not come to yet, and to
    those with `lk`. -/
structure Rel (D lk : Ptr → Prop) (base : Ptr → Nat → Option Blk) (B : Nat → Option Blk) (c : MemArgus) : Prop where
  each : ∀ p ho, c.opt p = .ok ho → Relable (base p) c.heap ho
  kept : ∀ p ho, c.opt p = .ok ho → ho.ptr ≠ none → (ho.o.isAllocated = true ∧ D p) ∨ lk p
  absent : ∀ p, (∀ ho, c.opt p ≠ .ok ho) → base p = c.heap.live
  shares : Shares base B c.heap

theorem Rel.narrow {D D' lk : Ptr → Prop} {base : Ptr → Nat → Option Blk} {B : Nat → Option Blk} {c : MemArgus}
    (R : Rel D lk base B c) (h : ∀ p ho, c.opt p = .ok ho → D p → D' p) : Rel D' lk base B c :=
  ⟨R.each, fun p ho e hp => (R.kept p ho e hp).imp (fun x => ⟨x.1, h p ho e x.2⟩) id, R.absent, R.shares⟩

theorem Held.rel {base : Ptr → Nat → Option Blk} {B : Nat → Option Blk} {sel : List Nat} {lk : Ptr → Prop} {c : MemArgus} {a : Argus}
    (H : Held base B sel lk c a) : Rel (fun p => p.tbl ∈ sel) lk base B c := by
  have ex : ∀ {p ho}, c.opt p = .ok ho → ∃ o, a.getOpt p = .ok o := by
    intro p ho e
    obtain ⟨o, h1, _⟩ := shape_getOpt H.shape.symm (opt_ok e).1
    exact ⟨o, h1⟩
  refine ⟨fun p ho e => ?_, fun p ho e hp => ?_, fun p hp => ?_, H.shares⟩
  · obtain ⟨o, h1⟩ := ex e
    obtain ⟨x, g1, g2, _⟩ := H.each p o h1
    rw [e] at g1; simp only [Out.ok.injEq] at g1; subst g1
    exact .inl ⟨o, g2⟩
  · obtain ⟨o, h1⟩ := ex e
    obtain ⟨x, g1, _, g3, g4⟩ := H.each p o h1
    rw [e] at g1; simp only [Out.ok.injEq] at g1; subst g1
    exact (g3 hp).imp (fun h => ⟨h, g4 hp⟩) id
  · refine H.absent p (fun o ho => ?_)
    obtain ⟨x, g1, _⟩ := H.each p o ho
    exact hp x g1

theorem Rel.step {D lk : Ptr → Prop} {base : Ptr → Nat → Option Blk} {B : Nat → Option Blk} {c : MemArgus} (R : Rel D lk base B c)
    {p : Ptr} {ho ho' : HOpt} {h' : Heap} (e : c.opt p = .ok ho) (r : Relable (base p) h' ho')
    (hk : ho'.ptr ≠ none → lk p) :
    ∃ base', Rel (fun q => D q ∧ q ≠ p) lk base' B (c.put p ho' h') := by
  obtain ⟨B', l1, s1, keep⟩ := R.shares.step p r.part (Left.refl _)
  have := l1.nil
  subst this
  refine ⟨_, ⟨fun q y hy => ?_, fun q y hy hp => ?_, fun q hq => ?_, s1⟩⟩
  · by_cases hqp : q = p
    · subst hqp
      rw [opt_put_self e] at hy
      simp only [Out.ok.injEq] at hy; subst hy
      simp only [if_true]; exact r
    · rw [opt_put_ne hqp] at hy
      simp only [if_neg hqp]
      exact (R.each q y hy).move s1.fresh (keep q hqp)
  · by_cases hqp : q = p
    · subst hqp
      rw [opt_put_self e] at hy
      simp only [Out.ok.injEq] at hy; subst hy
      exact .inr (hk hp)
    · rw [opt_put_ne hqp] at hy
      exact (R.kept q y hy hp).imp (fun x => ⟨x.1, x.2, hqp⟩) id
  · by_cases hqp : q = p
    · subst hqp
      exact absurd (opt_put_self e) (hq ho')
    · have := R.absent q (fun y hy => hq y (by rw [opt_put_ne hqp]; exact hy))
      simp only [if_neg hqp]
      funext x
      unfold others
      rw [if_pos (by rw [this])]
      rfl

/-- What stays as it is. -/
structure SameFrame (c c' : MemArgus) : Prop where
  shape : c'.a.shape = c.a.shape
  stack : c'.a.stack = c.a.stack
  root : c'.a.root = c.a.root

theorem SameFrame.refl (c : MemArgus) : SameFrame c c := ⟨rfl, rfl, rfl⟩

theorem SameFrame.trans {c d e : MemArgus} (h : SameFrame c d) (h' : SameFrame d e) : SameFrame c e :=
  ⟨h'.shape.trans h.shape, h'.stack.trans h.stack, h'.root.trans h.root⟩

theorem SameFrame.opt {c c' : MemArgus} (h : SameFrame c c') {p : Ptr} {ho : HOpt} (e : c.opt p = .ok ho) :
    ∃ ho', c'.opt p = .ok ho' ∧ ho'.o.meta = ho.o.meta := by
  obtain ⟨o, h1, h2⟩ := shape_getOpt h.shape (opt_ok e).1
  exact ⟨_, opt_of h1, h2⟩

theorem SameFrame.table {c c' : MemArgus} (h : SameFrame c c') {k : Nat} {os : List Opt} (e : c.a.table (some k) = .ok os) :
    ∃ os', c'.a.table (some k) = .ok os' ∧ os'.length = os.length := by
  obtain ⟨_, hk, h1⟩ := table_eq_ok.1 e
  simp only [Option.some.injEq] at hk
  subst hk
  have h2 : (c'.a.shape)[k]? = (c.a.shape)[k]? := by rw [h.shape]
  unfold Argus.shape at h2
  rw [List.getElem?_map, List.getElem?_map, h1] at h2
  cases h3 : c'.a.tables[k]? with
  | none => rw [h3] at h2; cases h2
  | some os' =>
    rw [h3] at h2
    simp only [Option.map_some, Option.some.injEq] at h2
    exact ⟨os', table_eq_ok.2 ⟨k, rfl, h3⟩, by have := congrArg List.length h2; simpa using this⟩

/-- `free_option_value` on one option. -/
theorem Rel.free {D lk : Ptr → Prop} {base : Ptr → Nat → Option Blk} {B : Nat → Option Blk} {c : MemArgus} (R : Rel D lk base B c)
    {p : Ptr} {ho : HOpt} (e : c.opt p = .ok ho) :
    ∃ r base', freeOptionH ho c.heap = .ok r ∧ Rel (fun q => D q ∧ q ≠ p) lk base' B (c.put p r.1 r.2) ∧
      SameFrame c (c.put p r.1 r.2) := by
  have fr : ∀ {ho' : HOpt} {h' : Heap}, ho'.o.meta = ho.o.meta → SameFrame c (c.put p ho' h') :=
    fun hm => ⟨shape_setOpt (opt_ok e).1 hm, rfl, rfl⟩
  unfold freeOptionH
  cases hal : ho.o.isAllocated with
  | false =>
    obtain ⟨base', h1⟩ := R.step e (ho' := ho) (h' := c.heap) (R.each p ho e) (fun hp => by
      rcases R.kept p ho e hp with ⟨h, _⟩ | h
      · rw [hal] at h; cases h
      · exact h)
    exact ⟨(ho, c.heap), base', if_pos rfl, h1, fr rfl⟩
  | true =>
    obtain ⟨fh, h', g1, g2, g3⟩ := (R.each p ho e).free (.inr hal)
    obtain ⟨base', h1⟩ := R.step e (ho' := ⟨{ ho.o with isAllocated := false }, none⟩) (h' := h') (.inr ⟨rfl, rfl, g3⟩)
      (fun hp => absurd rfl hp)
    refine ⟨(⟨{ ho.o with isAllocated := false }, none⟩, h'), base', ?_, h1, fr rfl⟩
    rw [if_neg (by simp), g1, g2, Out.ok_bind]

theorem Rel.freeLoop {lk : Ptr → Prop} {B : Nat → Option Blk} {k : Nat} : ∀ (n i : Nat) {D : Ptr → Prop}
    {base : Ptr → Nat → Option Blk} {c : MemArgus}, Rel D lk base B c → (∀ j, j < i + n → ∃ ho, c.opt ⟨k, j⟩ = .ok ho) →
    ∃ c' base', freeLoopH k n i c = .ok c' ∧ Rel (fun q => D q ∧ ¬ (q.tbl = k ∧ i ≤ q.idx ∧ q.idx < i + n)) lk base' B c' ∧ SameFrame c c'
  | 0, i, D, base, c, R, _ => ⟨c, base, rfl, R.narrow (fun p _ _ hp => ⟨hp, by omega⟩), .refl c⟩
  | n + 1, i, D, base, c, R, hget => by
    obtain ⟨ho, e⟩ := hget i (by omega)
    obtain ⟨r, base1, g1, g2, g3⟩ := R.free e
    unfold freeLoopH
    rw [e, Out.ok_bind, g1, Out.ok_bind]
    obtain ⟨c', base', f1, f2, f3⟩ := Rel.freeLoop n (i + 1) g2 (fun j hj => by
      obtain ⟨y, hy⟩ := hget j (by omega)
      obtain ⟨y', hy', _⟩ := g3.opt hy
      exact ⟨y', hy'⟩)
    refine ⟨c', base', f1, f2.narrow (fun q _ _ hq => ⟨hq.1.1, fun hx => ?_⟩), g3.trans f3⟩
    obtain ⟨⟨_, hne⟩, hq⟩ := hq
    obtain ⟨x1, x2, x3⟩ := hx
    by_cases hi : q.idx = i
    · exact hne (by cases q; simp only at x1 hi; subst x1; subst hi; rfl)
    · exact hq ⟨x1, by omega, by omega⟩

theorem Rel.freeTable {lk : Ptr → Prop} {B : Nat → Option Blk} {k : Nat} {D : Ptr → Prop}
    {base : Ptr → Nat → Option Blk} {c : MemArgus} (R : Rel D lk base B c) {os : List Opt} (hos : c.a.table (some k) = .ok os) :
    ∃ c' base', freeTableH c (some k) = .ok c' ∧ Rel (fun q => D q ∧ q.tbl ≠ k) lk base' B c' ∧ SameFrame c c' := by
  unfold freeTableH
  rw [hos, Out.ok_bind]
  obtain ⟨c', base', f1, f2, f3⟩ := R.freeLoop (k := k) os.length 0 (fun j hj => by
    obtain ⟨o, ho, _⟩ := findIn_get hos (i := j) (by omega)
    exact ⟨_, opt_of ho⟩)
  refine ⟨c', base', f1, f2.narrow (fun q ho e hq => ⟨hq.1, fun hx => hq.2 ⟨hx, by omega, ?_⟩⟩), f3⟩
  obtain ⟨os', h1, h2⟩ := f3.table hos
  obtain ⟨os1, h3, h4⟩ := getOpt_eq_ok.1 (opt_ok e).1
  obtain ⟨_, hk, h5⟩ := table_eq_ok.1 h1
  simp only [Option.some.injEq] at hk
  subst hk
  rw [hx, h5] at h3
  simp only [Option.some.injEq] at h3
  subst h3
  have := (List.getElem?_eq_some_iff.1 h4).1
  omega

theorem Rel.freeStack {lk : Ptr → Prop} {B : Nat → Option Blk} : ∀ (ps : List Ptr) {D : Ptr → Prop}
    {base : Ptr → Nat → Option Blk} {c : MemArgus}, Rel D lk base B c →
    (∀ p ∈ ps, ∃ o k os, c.a.getOpt p = .ok o ∧ o.subOptions = some k ∧ c.a.table (some k) = .ok os) →
    ∃ c' base', freeStackH c ps = .ok c' ∧ Rel (fun q => D q ∧ ∀ p ∈ ps, tableBelow c.a.tables p ≠ some q.tbl) lk base' B c' ∧ SameFrame c c'
  | [], D, base, c, R, _ => ⟨c, base, rfl, R.narrow (fun p _ _ hp => ⟨hp, by simp⟩), .refl c⟩
  | p :: ps, D, base, c, R, hp => by
    obtain ⟨o, k, os, h1, h2, h3⟩ := hp p (by simp)
    obtain ⟨c1, base1, g1, g2, g3⟩ := R.freeTable h3
    unfold freeStackH
    rw [h1, Out.ok_bind, h2, g1, Out.ok_bind]
    obtain ⟨c', base', f1, f2, f3⟩ := Rel.freeStack ps g2 (fun q hq => by
      obtain ⟨o, k, os, h1, h2, h3⟩ := hp q (by simp [hq])
      obtain ⟨os', k1, _⟩ := g3.table h3
      obtain ⟨o', k2, k3⟩ := shape_getOpt g3.shape h1
      exact ⟨o', k, os', k2, (congrArg Opt.subOptions k3 : o'.meta.subOptions = o.meta.subOptions).trans h2, k1⟩)
    refine ⟨c', base', f1, f2.narrow (fun q _ _ hq => ⟨hq.1.1, fun r hr => ?_⟩), g3.trans f3⟩
    rcases List.mem_cons.1 hr with rfl | hr
    · rw [tableBelow_subOf, subOf_eq h1, h2]
      exact fun hx => hq.1.2 (by simpa using hx.symm)
    · have := hq.2 r hr
      rw [tableBelow_shape g3.shape] at this
      exact this

/-- `argus_free`. -/
theorem Held.free {S : List (List Opt)} {root : Nat} (hS : Closed S root) {base : Ptr → Nat → Option Blk} {B : Nat → Option Blk}
    {lk : Ptr → Prop} {c : MemArgus} {a : Argus} (H : Held base B (pathTables a a.stack) lk c a) (hG : Good S root a) :
    ∃ c' base', argusFreeH c = .ok c' ∧ Rel (fun _ => False) lk base' B c' ∧ SameFrame c c' := by
  obtain ⟨os0, h0⟩ := hG.table (k := a.root) (by rw [hG.root]; exact hS.root)
  obtain ⟨os, h1, _⟩ := H.table_len h0
  obtain ⟨c1, base1, g1, g2, g3⟩ := H.rel.freeTable h1
  unfold argusFreeH
  rw [H.root, g1, Out.ok_bind, g3.stack]
  obtain ⟨c', base', f1, f2, f3⟩ := g2.freeStack c.a.stack (fun p hp => by
    obtain ⟨o, j, k1, k2, k3, _⟩ := hG.stack p (by rw [← H.stack]; exact hp)
    obtain ⟨os1, k4⟩ := hG.table k3
    obtain ⟨os2, k5, _⟩ := H.table_len k4
    obtain ⟨os3, k6, _⟩ := g3.table k5
    obtain ⟨o', k7, k8⟩ := shape_getOpt (g3.shape.trans H.shape) k1
    exact ⟨o', j, os3, k7, (congrArg Opt.subOptions k8 : o'.meta.subOptions = o.meta.subOptions).trans k2, k6⟩)
  refine ⟨c', base', f1, f2.narrow (fun q _ _ hq => ?_), g3.trans f3⟩
  obtain ⟨⟨hq1, hq2⟩, hq3⟩ := hq
  unfold pathTables at hq1
  rcases List.mem_cons.1 hq1 with hq1 | hq1
  · exact hq2 hq1
  · obtain ⟨p, hp, hb⟩ := List.mem_filterMap.1 hq1
    refine hq3 p (by rw [H.stack]; exact hp) ?_
    rw [tableBelow_shape (g3.shape.trans H.shape)]; exact hb

/-- Nothing is left. -/
theorem Rel.nothing {base : Ptr → Nat → Option Blk} {B : Nat → Option Blk} {c : MemArgus}
    (R : Rel (fun _ => False) (fun _ => False) base B c) : c.heap.live = B := by
  funext x
  refine R.shares.rest x (fun p => ?_)
  cases hp : c.opt p with
  | ub u => rw [R.absent p (fun ho e => by rw [hp] at e; cases e)]
  | ok ho =>
    have hn : ho.ptr = none := by
      cases hq : ho.ptr with
      | none => rfl
      | some y =>
        rcases R.kept p ho hp (by simp [hq]) with h | h
        · exact h.2.elim
        · exact h.elim
    rw [(R.each p ho hp).null hn]

/-- What is left after `argus_free`. -/
theorem Rel.end {base : Ptr → Nat → Option Blk} {B : Nat → Option Blk} {c : MemArgus} {leak : Option Ptr}
    (R : Rel (fun _ => False) (fun q => leak = some q) base B c) :
    c.heap.live = B ∨ ∃ q ho fh h', leak = some q ∧ c.opt q = .ok ho ∧ ho.ptr ≠ none ∧ ho.o.freeHandler = some fh ∧
      runFreeH (some fh) ho c.heap = .ok h' ∧ h'.live = B := by
  by_cases hx : ∃ q ho, c.opt q = .ok ho ∧ ho.ptr ≠ none
  · obtain ⟨q, ho, e, hp⟩ := hx
    have hl : leak = some q := (R.kept q ho e hp).resolve_left (fun h => h.2)
    obtain ⟨fh, h', g1, g2, g3⟩ := (R.each q ho e).free (.inl hp)
    refine .inr ⟨q, ho, fh, h', hl, e, hp, g1, g2, ?_⟩
    obtain ⟨base', R'⟩ := R.step e (ho' := ⟨{ ho.o with isAllocated := false }, none⟩) (h' := h') (.inr ⟨rfl, rfl, g3⟩)
      (fun hp => absurd rfl hp)
    refine Rel.nothing (c := c.put q ⟨{ ho.o with isAllocated := false }, none⟩ h') (base := base')
      ⟨R'.each, fun p y hy hpy => ?_, R'.absent, R'.shares⟩
    rcases R'.kept p y hy hpy with h | h
    · exact h.2.1.elim
    · have hqp : p = q := by rw [hl] at h; simpa using h.symm
      subst hqp
      rw [opt_put_self e] at hy
      simp only [Out.ok.injEq] at hy; subst hy
      exact absurd rfl hpy
  · refine .inl (Rel.nothing (base := base) ⟨R.each, fun p y hy hpy => absurd ⟨p, y, hy, hpy⟩ hx, R.absent, R.shares⟩)

end Argus
