import Verif.Model.HelpMem
import Verif.Lemmas.Heap
import Verif.Lemmas.Help

/-! # The linked lists of the help hold the lists of Model/Display -/

set_option autoImplicit false

namespace Argus

theorem length_le_of_lt : ∀ (n : Nat) (L : List Nat), L.Nodup → (∀ a ∈ L, a < n) → L.length ≤ n
  | 0, L, _, h => by
    cases L with
    | nil => simp
    | cons a L => exact absurd (h a (by simp)) (by omega)
  | n + 1, L, hn, h => by
    have h1 := length_le_of_lt n (L.erase n) (hn.erase n) (fun a ha => by
      have hne : a ≠ n := fun e => by subst e; exact (List.Nodup.not_mem_erase hn) ha
      have := h a (List.mem_of_mem_erase ha)
      omega)
    have h2 : L.length ≤ (L.erase n).length + 1 := by
      rw [List.length_erase]; split <;> omega
    omega

@[simp] theorem Ends.bind_ok {α β : Type} (a : α) (f : α → Out (Option β)) : Ends.bind (.ok (some a)) f = f a := rfl

/-! ### Lists of entries -/

/-- The entries `xs` at the addresses `L`, reached from `p`. -/
inductive Chain (live : Nat → Option HNode) : Option Nat → List Nat → List Nat → Prop
  | nil : Chain live none [] []
  | cons {a i : Nat} {nx : Option Nat} {L xs : List Nat} :
    live a = some (.entry i nx) → Chain live nx L xs → Chain live (some a) (a :: L) (i :: xs)

theorem Chain.congr {live live' : Nat → Option HNode} {p : Option Nat} {L xs : List Nat} (c : Chain live p L xs)
    (h : ∀ a ∈ L, live' a = live a) : Chain live' p L xs := by
  induction c with
  | nil => exact .nil
  | cons e _ ih => exact .cons (by rw [h _ (by simp), e]) (ih fun a ha => h a (by simp [ha]))

theorem Chain.isNone {live : Nat → Option HNode} {L xs : List Nat} (c : Chain live none L xs) : L = [] ∧ xs = [] := by
  cases c; exact ⟨rfl, rfl⟩

/-- The last node, and what linking a further one to it does. -/
theorem Chain.last {m : HMem} {a : Nat} {L xs : List Nat} (c : Chain m.live (some a) L xs) :
    ∀ {f : Nat}, L.length ≤ f → ∃ l i, lastEntry m f a = .ok (some l) ∧ l ∈ L ∧ m.live l = some (.entry i none) ∧
      ∀ {b j : Nat} {live' : Nat → Option HNode}, L.Nodup → b ∉ L → live' l = some (.entry i (some b)) →
        live' b = some (.entry j none) → (∀ x ∈ L, x ≠ l → live' x = m.live x) →
        Chain live' (some a) (L ++ [b]) (xs ++ [j]) := by
  generalize hp : some a = p at c
  induction c generalizing a with
  | nil => cases hp
  | @cons a' i nx L xs e c ih =>
    cases hp
    intro f hf
    obtain ⟨f, rfl⟩ : ∃ g, f = g + 1 := ⟨f - 1, by simp at hf; omega⟩
    cases c with
    | nil =>
      refine ⟨a', i, by simp [lastEntry, e], by simp, e, ?_⟩
      intro b j live' _ hb h1 h2 h3
      exact .cons h1 (.cons h2 .nil)
    | @cons a2 i2 nx2 L xs e2 c2 =>
      obtain ⟨l, il, h1, h2, h3, h4⟩ := ih rfl (f := f) (by simp at hf ⊢; omega)
      refine ⟨l, il, by simp only [lastEntry, e]; exact h1, by simp [h2], h3, ?_⟩
      intro b j live' hn hb g1 g2 g3
      have hn' := List.nodup_cons.1 hn
      refine .cons (nx := some a2) ?_ (h4 hn'.2 (fun hm => hb (by simp [hm])) g1 g2 (fun x hx => g3 x (by simp [hx])))
      rw [g3 a' (by simp) (fun e => hn'.1 (by rw [e]; exact h2)), e]

theorem Chain.read {m : HMem} {p : Option Nat} {L xs : List Nat} (c : Chain m.live p L xs) :
    ∀ {f : Nat}, L.length ≤ f → readEntries m f p = .ok (some xs) := by
  induction c with
  | nil => intro f _; cases f <;> rfl
  | cons e _ ih =>
    intro f hf
    obtain ⟨f, rfl⟩ : ∃ g, f = g + 1 := ⟨f - 1, by simp at hf; omega⟩
    simp only [readEntries, e]
    rw [ih (f := f) (by simp at hf; omega)]
    rfl

/-- Releasing a list. -/
theorem Chain.free {live : Nat → Option HNode} {p : Option Nat} {L xs : List Nat} (c : Chain live p L xs) :
    ∀ {f : Nat} {m : HMem}, L.length ≤ f → L.Nodup → (∀ a ∈ L, m.live a = live a) →
      ∃ m1, freeEntries f p m = .ok (some m1) ∧ m1.next = m.next ∧ m1.calls = m.calls ∧
        ∀ a, m1.live a = if a ∈ L then none else m.live a := by
  induction c with
  | nil => intro f m _ _ _; exact ⟨m, by cases f <;> rfl, rfl, rfl, by simp⟩
  | @cons a i nx L xs e c ih =>
    intro f m hf hn hl
    obtain ⟨f, rfl⟩ : ∃ g, f = g + 1 := ⟨f - 1, by simp at hf; omega⟩
    have hn' := List.nodup_cons.1 hn
    have hla : m.live a = some (.entry i nx) := by rw [hl a (by simp), e]
    obtain ⟨m1, h1, h2, h3, h4⟩ := ih (f := f) (m := { m with live := upd m.live a none }) (by simp at hf; omega) hn'.2
      (fun x hx => by
        show upd m.live a none x = _
        rw [upd_ne _ _ (show x ≠ a from fun e => hn'.1 (by rw [← e]; exact hx))]; exact hl x (by simp [hx]))
    refine ⟨m1, ?_, h2, h3, ?_⟩
    · simp only [freeEntries, hla, HMem.free, Out.bind]; exact h1
    · intro x
      rw [h4]
      by_cases hx : x = a
      · subst hx; simp [hn'.1, upd]
      · simp [hx, upd]

/-! ### Groups -/

/-- A group in memory: its address, its name and its list of entries. -/
structure GRec where
  addr : Nat
  name : Str
  root : Option Nat

/-- The groups `G`, reached from `p`. -/
inductive GChain (live : Nat → Option HNode) : Option Nat → List GRec → Prop
  | nil : GChain live none []
  | cons {g : GRec} {nx : Option Nat} {G : List GRec} :
    live g.addr = some (.group g.name g.root nx) → GChain live nx G → GChain live (some g.addr) (g :: G)

theorem GChain.congr {live live' : Nat → Option HNode} {p : Option Nat} {G : List GRec} (c : GChain live p G)
    (h : ∀ g ∈ G, live' g.addr = live g.addr) : GChain live' p G := by
  induction c with
  | nil => exact .nil
  | cons e _ ih => exact .cons (by rw [h _ (by simp), e]) (ih fun a ha => h a (by simp [ha]))

theorem GChain.isNone {live : Nat → Option HNode} {G : List GRec} (c : GChain live none G) : G = [] := by
  cases c; rfl

theorem GChain.at {live : Nat → Option HNode} {p : Option Nat} {G : List GRec} (c : GChain live p G) {g : GRec} (h : g ∈ G) :
    ∃ nx, live g.addr = some (.group g.name g.root nx) := by
  induction c with
  | nil => simp at h
  | @cons g' nx G e _ ih =>
    rcases List.mem_cons.1 h with rfl | h
    · exact ⟨nx, e⟩
    · exact ih h

theorem GChain.search {m : HMem} {p : Option Nat} {G : List GRec} (c : GChain m.live p G) (name : Str) :
    ∀ {f : Nat}, G.length ≤ f →
      searchGroup m name f p = .ok (some ((G.find? fun g => strcmp g.name name = 0).map (·.addr))) := by
  induction c with
  | nil => intro f _; cases f <;> rfl
  | @cons g nx G e _ ih =>
    intro f hf
    obtain ⟨f, rfl⟩ : ∃ g, f = g + 1 := ⟨f - 1, by simp at hf; omega⟩
    simp only [searchGroup, e]
    by_cases hs : strcmp g.name name = 0
    · simp [hs]
    · rw [if_neg hs, ih (f := f) (by simp at hf; omega)]
      simp [hs]

theorem GChain.last {m : HMem} {a : Nat} {G : List GRec} (c : GChain m.live (some a) G) :
    ∀ {f : Nat}, G.length ≤ f → ∃ l, lastGroup m f a = .ok (some l.addr) ∧ l ∈ G ∧
      m.live l.addr = some (.group l.name l.root none) ∧
      ∀ {g : GRec} {live' : Nat → Option HNode}, (G.map (·.addr)).Nodup → g.addr ∉ G.map (·.addr) →
        live' l.addr = some (.group l.name l.root (some g.addr)) →
        live' g.addr = some (.group g.name g.root none) → (∀ x ∈ G, x.addr ≠ l.addr → live' x.addr = m.live x.addr) →
        GChain live' (some a) (G ++ [g]) := by
  generalize hp : some a = p at c
  induction c generalizing a with
  | nil => cases hp
  | @cons g nx G e c ih =>
    cases hp
    intro f hf
    obtain ⟨f, rfl⟩ : ∃ g, f = g + 1 := ⟨f - 1, by simp at hf; omega⟩
    cases c with
    | nil =>
      refine ⟨g, by simp [lastGroup, e], by simp, e, ?_⟩
      intro b live' _ hb h1 h2 h3
      exact .cons h1 (.cons h2 .nil)
    | @cons g2 nx2 G e2 c2 =>
      obtain ⟨l, h1, h2, h3, h4⟩ := ih rfl (f := f) (by simp at hf ⊢; omega)
      refine ⟨l, by simp only [lastGroup, e]; exact h1, by simp [h2], h3, ?_⟩
      intro b live' hn hb q1 q2 q3
      rw [List.map_cons] at hn hb
      have hn' := List.nodup_cons.1 hn
      refine .cons (nx := some g2.addr) ?_ (h4 hn'.2 (fun hm => hb (List.mem_cons_of_mem _ hm)) q1 q2
        (fun x hx => q3 x (by simp [hx])))
      rw [q3 g (by simp) (fun e => hn'.1 (by rw [e]; exact List.mem_map_of_mem h2)), e]

/-- Writing `group->options`. -/
theorem GChain.setRoot {live : Nat → Option HNode} {p : Option Nat} {G : List GRec} (c : GChain live p G) :
    ∀ {k : Nat} {g : GRec} {nx r : Option Nat} {live' : Nat → Option HNode}, G[k]? = some g → (G.map (·.addr)).Nodup →
      live g.addr = some (.group g.name g.root nx) → live' g.addr = some (.group g.name r nx) →
      (∀ x ∈ G, x.addr ≠ g.addr → live' x.addr = live x.addr) →
      GChain live' p (G.set k { g with root := r }) := by
  induction c with
  | nil => intro k g nx r live' hk; simp at hk
  | @cons g' nx' G e c ih =>
    intro k g nx r live' hk hn hl hl' hr
    rw [List.map_cons] at hn
    have hn' := List.nodup_cons.1 hn
    cases k with
    | zero =>
      simp only [List.getElem?_cons_zero, Option.some.injEq] at hk
      subst hk
      rw [e] at hl
      cases hl
      refine GChain.cons (g := { g' with root := r }) hl' (c.congr fun x hx => hr x (by simp [hx]) ?_)
      exact fun e => hn'.1 (by rw [← e]; exact List.mem_map_of_mem hx)
    | succ k =>
      simp only [List.getElem?_cons_succ] at hk
      have hgm : g ∈ G := List.mem_of_getElem? hk
      refine GChain.cons (nx := nx') ?_ (ih hk hn'.2 hl hl' fun x hx => hr x (by simp [hx]))
      rw [hr g' (by simp) (fun e => hn'.1 (by rw [e]; exact List.mem_map_of_mem hgm)), e]

end Argus
