import Verif.Spec.DescMem
import Verif.Props.Choices
import Verif.Lemmas.Heap
import Verif.Lemmas.HelpMem

/-! # Blocks of text in memory -/

set_option autoImplicit false

namespace Argus

attribute [local irreducible] sizeAdd

/-- Memory has exactly the blocks `base`. -/
structure DHeap.Is (base : Nat → Option Mem) (h : DHeap) : Prop where
  live : h.live = base
  sound : ∀ x, h.next ≤ x → base x = none

/-- Memory has the blocks `base` and at `p` a block that holds `s`. -/
structure DHeap.Has (base : Nat → Option Mem) (h : DHeap) (p : Nat) (s : Str) : Prop where
  sound : ∀ x, h.next ≤ x → base x = none
  fresh : base p = none
  lt : p < h.next
  block : ∃ m : Mem, HoldsStr m s ∧ m.length < 2 ^ 63 ∧ h.live = upd base p (some m)

/-- The allocator may refuse a call for `n` bytes. -/
def Refuses (A : DAlloc) (n : Nat) : Prop := A.Full → 2 ^ 63 ≤ n

/-- The result is NULL, or a block that holds `s`; there is nothing else new in memory. -/
def Got (A : DAlloc) (base : Nat → Option Mem) (n : Nat) (s : Str) (x : Out (Option Nat × DHeap)) : Prop :=
  (∃ h', x = .ok (none, h') ∧ h'.Is base ∧ Refuses A n) ∨ ∃ p h', x = .ok (some p, h') ∧ h'.Has base p s

theorem HoldsStr.text {m : Mem} {s : Str} (h : HoldsStr m s) : cText m = .ok s := by
  obtain ⟨h0, rest, rfl⟩ := h
  induction s with
  | nil => simp [cText]
  | cons b s ih =>
    simp only [List.mem_cons, not_or] at h0
    simp only [List.cons_append, cText]
    rw [if_neg (Ne.symm h0.1), ih h0.2]; rfl

theorem HoldsStr.strlen {m : Mem} {s : Str} (h : HoldsStr m s) : cStrlen m = .ok s.length := by
  obtain ⟨h0, rest, rfl⟩ := h
  exact cStrlen_append s rest h0

theorem HoldsStr.lt {m : Mem} {s : Str} (h : HoldsStr m s) : s.length < m.length := by
  obtain ⟨_, rest, rfl⟩ := h
  simp

theorem DHeap.Has.text {base : Nat → Option Mem} {h : DHeap} {p : Nat} {s : Str} (H : h.Has base p s) : h.text p = .ok s := by
  obtain ⟨m, hm, _, hl⟩ := H.block
  unfold DHeap.text DHeap.block
  rw [hl, upd_self]
  exact hm.text

theorem DHeap.Has.free {base : Nat → Option Mem} {h : DHeap} {p : Nat} {s : Str} (H : h.Has base p s) :
    ∃ h', h.free (some p) = .ok h' ∧ h'.Is base := by
  obtain ⟨m, hm, _, hl⟩ := H.block
  refine ⟨{ h with live := upd h.live p none }, ?_, ?_, H.sound⟩
  · unfold DHeap.free
    simp only [hl, upd_self]
  · simp only [hl, upd_upd]
    exact upd_same _ _ _ H.fresh

/-- All blocks count as `base`. -/
theorem DHeap.Has.is {base : Nat → Option Mem} {h : DHeap} {p : Nat} {s : Str} (H : h.Has base p s) : h.Is h.live := by
  obtain ⟨m, hm, _, hl⟩ := H.block
  refine ⟨rfl, fun x hx => ?_⟩
  rw [hl, upd_ne _ _ (by have := H.lt; omega)]
  exact H.sound x hx

/-- The block is still there when memory is as before. -/
theorem DHeap.Has.again {base : Nat → Option Mem} {h h' : DHeap} {p : Nat} {s : Str} (H : h.Has base p s)
    (h1 : h'.Is h.live) : h'.Has base p s := by
  obtain ⟨m, hm, hlen, hl⟩ := H.block
  have hp : p < h'.next := by
    refine Nat.lt_of_not_le fun hx => ?_
    have := h1.sound p hx
    rw [hl, upd_self] at this
    cases this
  refine ⟨fun x hx => ?_, H.fresh, hp, m, hm, hlen, by rw [h1.live, hl]⟩
  have := h1.sound x hx
  rwa [hl, upd_ne _ _ (by omega)] at this

theorem malloc_spec (A : DAlloc) {base : Nat → Option Mem} {h : DHeap} (H : h.Is base) (n : Nat) :
    (∃ h', h.malloc A n = (none, h') ∧ h'.Is base ∧ Refuses A n) ∨
    ∃ (p : Nat) (h' : DHeap) (m : Mem), h.malloc A n = (some p, h') ∧ m.length = n ∧ n < 2 ^ 63 ∧ base p = none ∧ p < h'.next ∧
      (∀ x, h'.next ≤ x → base x = none) ∧ h'.live = upd base p (some m) := by
  unfold DHeap.malloc
  cases hA : A h.calls with
  | none => exact .inl ⟨_, rfl, ⟨H.live, H.sound⟩, fun hf => absurd hA (hf _)⟩
  | some g =>
    simp only
    by_cases hn : n < 2 ^ 63
    · rw [if_pos hn]
      refine .inr ⟨_, _, (List.range n).map g, rfl, by simp, hn, H.sound _ (Nat.le_refl _), by simp, fun x hx => ?_, ?_⟩
      · exact H.sound x (by simp only at hx; omega)
      · simp only [H.live]
    · rw [if_neg hn]
      exact .inl ⟨_, rfl, ⟨H.live, H.sound⟩, fun _ => by omega⟩

theorem make_spec (A : DAlloc) {base : Nat → Option Mem} {h : DHeap} (H : h.Is base) (n : Nat) (f : Mem → Out Mem) (s : Str)
    (hf : ∀ m : Mem, m.length = n → n < 2 ^ 63 → ∃ m1 : Mem, f m = .ok m1 ∧ HoldsStr m1 s ∧ m1.length = n) :
    Got A base n s (h.make A n f) := by
  unfold DHeap.make
  rcases malloc_spec A H n with ⟨h', e, h1, h2⟩ | ⟨p, h', m, e, hm, hn, h1, h2, h3, h4⟩
  · rw [e]
    exact .inl ⟨h', rfl, h1, h2⟩
  · rw [e]
    obtain ⟨m1, f1, f2, f3⟩ := hf m hm hn
    refine .inr ⟨p, h'.store p m1, ?_, h3, h1, h2, m1, f2, by omega, ?_⟩
    · simp only [DHeap.fill, DHeap.block, h4, upd_self, Out.ok_bind, f1]
    · simp only [DHeap.store, h4, upd_upd]

theorem copy_holds {s : Str} (h0 : 0 ∉ s) {m : Mem} (hm : s.length < m.length) :
    ∃ m1 : Mem, cCopy m 0 (s ++ [0]) = .ok m1 ∧ HoldsStr m1 s ∧ m1.length = m.length := by
  have e := cCopy_append s [] [] (m.take (s.length + 1)) (m.drop (s.length + 1)) h0 (by simp; omega)
  simp only [List.nil_append, List.length_nil, List.take_append_drop] at e
  exact ⟨_, e, ⟨h0, _, rfl⟩, by simp; omega⟩

theorem strdupD_spec (A : DAlloc) {base : Nat → Option Mem} {h : DHeap} (H : h.Is base) {s : Str} (h0 : 0 ∉ s) :
    Got A base (s.length + 1) s (strdupD A h s) :=
  make_spec A H _ _ _ fun m hm _ => by
    obtain ⟨m1, a, b, c⟩ := copy_holds h0 (m := m) (by omega)
    exact ⟨m1, a, b, by omega⟩

theorem zero_take {s : Str} (h : 0 ∉ s) (n : Nat) : 0 ∉ s.take n := fun hx => h (List.mem_of_mem_take hx)

theorem snprintfD_spec (A : DAlloc) {base : Nat → Option Mem} {h : DHeap} (H : h.Is base) {s : Str} (h0 : 0 ∉ s) :
    Got A base 32 (snprintf 32 s) (snprintfD A h s) :=
  make_spec A H _ _ _ fun m hm _ => by
    obtain ⟨m1, a, b, c⟩ := copy_holds (zero_take h0 31) (m := m) (by simp; omega)
    exact ⟨m1, a, b, by omega⟩

theorem copyD_spec (A : DAlloc) {base : Nat → Option Mem} {h : DHeap} (H : h.Is base) {s : Str} (h0 : 0 ∉ s)
    (hl : s.length < 2 ^ 62) : Got A base (s.length + 1) s (copyD A h s) := by
  have e : sizeAdd s.length 1 = s.length + 1 := sizeAdd_eq (by omega)
  unfold copyD
  rw [e]
  refine make_spec A H _ _ _ fun m hm _ => ?_
  rcases C49_strcpy m (s ++ [0]) (s.length + 1) s (by omega) ⟨h0, [], rfl⟩ with ⟨_, d, hd, hw⟩ | ⟨h1, _⟩
  · refine ⟨d, ?_, hw.holds, by rw [hw.length, hm]⟩
    simp only [keepD, hd, Out.ok_bind, Option.getD_some]
  · omega

theorem choicesWrite_join {α : Type} (f : α → Str) (size : Nat) (h63 : size < 2 ^ 63) :
    ∀ (cs : List α) (m : Mem) (pre : Str), (∀ x ∈ cs, 0 ∉ f x ∧ (f x).length < 2 ^ 62) → m.length = size →
      HoldsStr m pre →
      ∃ r, choicesWrite f size (some m) cs = .ok (some r) ∧ r.length = size ∧ HoldsStr r (choicesJoin size pre (cs.map f))
  | [], m, pre, _, hm, hp => ⟨m, rfl, hm, by simpa [choicesJoin] using hp⟩
  | x :: xs, m, pre, hf, hm, hp => by
    obtain ⟨h0, hl⟩ := hf x (by simp)
    have step : ∀ (m : Mem) (pre s : Str), m.length = size → HoldsStr m pre → 0 ∉ s → s.length < 2 ^ 62 →
        ∃ r : Mem, ∃ b : Bool, safeStrcat (some m) size (some (s ++ [0])) = .ok (b, some r) ∧ r.length = size ∧
          HoldsStr r (catFit size pre s) := by
      intro m pre s hm hp h0 hl
      unfold catFit
      rcases C49_strcat m (s ++ [0]) size pre s (by omega) hp ⟨h0, [], rfl⟩ (by simp; omega) with ⟨h1, r, e, hw⟩ | ⟨h1, e⟩
      · rw [if_neg (by omega)]
        exact ⟨r, _, e, by rw [hw.length, hm], hw.holds⟩
      · rw [if_pos (by omega)]
        exact ⟨m, _, e, hm, hp⟩
    obtain ⟨r, b, e1, r1, r2⟩ := step m pre (f x) hm hp h0 hl
    simp only [choicesWrite, e1, Out.ok_bind, List.map_cons, choicesJoin]
    cases xs with
    | nil =>
      simp only [List.isEmpty_nil, if_true, List.map_nil, choicesWrite, choicesJoin]
      exact ⟨r, rfl, r1, r2⟩
    | cons y ys =>
      obtain ⟨r', b', e2, r3, r4⟩ := step r _ c!"|" r1 r2 (by decide) (by decide)
      simp only [List.isEmpty_cons, Bool.false_eq_true, if_false, List.map_cons, e2, Out.ok_bind]
      have := choicesWrite_join f size h63 (y :: ys) r' _ (fun z hz => hf z (by simp [hz])) r3 r4
      simpa using this

theorem reserved_eq {α : Type} (w : α → Nat) : ∀ cs : List α, reserved w cs + 1 = choicesSize (cs.map w)
  | [] => rfl
  | [x] => by simp [reserved, choicesSize]
  | x :: y :: ys => by
    have := reserved_eq w (y :: ys)
    simp only [reserved, choicesSize, List.map_cons, List.sum_cons, List.length_cons] at this ⊢
    omega

theorem choicesD_spec {α : Type} (A : DAlloc) {base : Nat → Option Mem} {h : DHeap} (H : h.Is base) (w : α → Nat) (f : α → Str)
    (cs : List α) (hf : ∀ x ∈ cs, 0 ∉ f x ∧ (f x).length < 2 ^ 62) (hw : choicesSize (cs.map w) < 2 ^ 63) :
    Got A base (choicesSize (cs.map w)) (choicesJoin (choicesSize (cs.map w)) [] (cs.map f)) (choicesD A h w f cs) := by
  have h1 := choicesLength_eq w cs 0 (by rw [← reserved_eq] at hw; omega)
  rw [Nat.zero_add] at h1
  have h2 : sizeAdd (choicesLength w 0 cs) 1 = choicesSize (cs.map w) := by
    rw [h1, ← reserved_eq]
    exact sizeAdd_eq (by rw [← reserved_eq] at hw; omega)
  unfold choicesD
  rw [h2]
  refine make_spec A H _ _ _ fun m hm _ => ?_
  have hpos : 0 < choicesSize (cs.map w) := by unfold choicesSize; omega
  obtain ⟨b, m', rfl⟩ : ∃ b m', m = b :: m' := by
    cases m with
    | nil => simp only [List.length_nil] at hm; omega
    | cons b m' => exact ⟨b, m', rfl⟩
  have hwr : Mem.write (b :: m') 0 0 = .ok (0 :: m') := Mem.write_at (p := [])
  obtain ⟨r, hr, hrl, hrh⟩ := choicesWrite_join f (choicesSize (cs.map w)) hw cs (0 :: m') [] hf (by simpa using hm)
    ⟨by simp, m', rfl⟩
  refine ⟨r, ?_, hrh, hrl⟩
  rw [choicesFill, hwr, Out.ok_bind, hr]
  rfl

theorem natDigits_zero (k : Nat) : (0 : Byte) ∉ natDigits k := by
  intro hk
  have := (natDigits_spec k).2.1 0 hk
  exact absurd this (by decide)

theorem showInt_zero (n : Int) : 0 ∉ showInt n := by
  unfold showInt
  split
  · simp only [List.mem_cons, not_or]
    exact ⟨by decide, natDigits_zero _⟩
  · exact natDigits_zero _

theorem interval_zero (mn mx : Int) : 0 ∉ showInt mn ++ c!"-" ++ showInt mx := by
  simp only [List.mem_append, not_or]
  exact ⟨⟨showInt_zero _, by decide⟩, showInt_zero _⟩

/-- The text of a constraint: NULL where Model/Display has none, else a block with that text or no memory. -/
theorem formatD_spec (A : DAlloc) (F : Fmt) {base : Nat → Option Mem} {h : DHeap} (H : h.Is base) {k : VKind} (hk : k.Plain F) :
    (formatter F k = none ∧ formatD A F h k = .ok (none, h)) ∨
    ∃ s n, formatter F k = some s ∧ n < 2 ^ 63 ∧ Got A base n s (formatD A F h k) := by
  cases k with
  | range mn mx => exact .inr ⟨_, 32, rfl, by decide, snprintfD_spec A H (interval_zero mn mx)⟩
  | count mn mx => exact .inr ⟨_, 32, rfl, by decide, snprintfD_spec A H (interval_zero mn mx)⟩
  | length mn mx =>
    refine .inr ⟨_, 32, rfl, by decide, snprintfD_spec A H ?_⟩
    rw [List.mem_append, not_or]
    exact ⟨interval_zero mn mx, by decide⟩
  | choiceStr cs =>
    obtain ⟨h0, hl⟩ := hk
    have hle : ∀ s ∈ cs, s.length ≤ (cs.map List.length).sum := by
      clear h0 hl
      induction cs with
      | nil => simp
      | cons x xs ih =>
        intro s hs
        rw [List.map_cons, List.sum_cons]
        rcases List.mem_cons.1 hs with rfl | hs
        · omega
        · have := ih s hs; omega
    have hsz : choicesSize (cs.map List.length) < 2 ^ 63 := by
      unfold choicesSize; rw [List.length_map]; omega
    have := choicesD_spec A H List.length id cs (fun s hs => ⟨h0 s hs, by have := hle s hs; simp only [id]; omega⟩) hsz
    rw [List.map_id] at this
    exact .inr ⟨_, _, rfl, hsz, this⟩
  | choiceInt cs =>
    have hk : cs.length < 2 ^ 56 := hk
    have hsum : ∀ cs : List Int, (cs.map fun _ => 20).sum = 20 * cs.length := by
      intro cs; induction cs with
      | nil => rfl
      | cons x xs ih => simp only [List.map_cons, List.sum_cons, List.length_cons, ih]; omega
    have hsz : choicesSize (cs.map fun _ => 20) < 2 ^ 63 := by
      unfold choicesSize; rw [List.length_map, hsum]; omega
    exact .inr ⟨_, _, rfl, hsz, choicesD_spec A H (fun _ => 20) (fun n => snprintf 32 (showInt n)) cs
      (fun n _ => ⟨zero_take (showInt_zero n) _, by unfold snprintf; rw [List.length_take]; omega⟩) hsz⟩
  | choiceFloat cs =>
    obtain ⟨h0, hk⟩ := hk
    have hsum : ∀ cs : List F64, (cs.map fun _ => 20).sum = 20 * cs.length := by
      intro cs; induction cs with
      | nil => rfl
      | cons x xs ih => simp only [List.map_cons, List.sum_cons, List.length_cons, ih]; omega
    have hsz : choicesSize (cs.map fun _ => 20) < 2 ^ 63 := by
      unfold choicesSize; rw [List.length_map, hsum]; omega
    exact .inr ⟨_, _, rfl, hsz, choicesD_spec A H (fun _ => 20) (fun x => snprintf 32 (F.g2 x)) cs
      (fun x hx => ⟨zero_take (h0 x hx) _, by unfold snprintf; rw [List.length_take]; omega⟩) hsz⟩
  | regex p t =>
    obtain ⟨hp, ht, hl⟩ := hk
    right
    simp only [formatter, formatD, regexD, formatRegex]
    by_cases h1 : t.getD [] ≠ []
    · rw [if_pos h1, if_pos h1]
      exact ⟨_, _, rfl, by omega, copyD_spec A H ht hl⟩
    · rw [if_neg h1, if_neg h1]
      by_cases h2 : p.getD [] ≠ [] ∧ (p.getD []).length ≤ 15
      · rw [if_pos h2, if_pos h2]
        exact ⟨_, _, rfl, by omega, copyD_spec A H hp (by omega)⟩
      · rw [if_neg h2, if_neg h2]
        exact ⟨_, _, rfl, by decide, strdupD_spec A H (by decide)⟩
  | custom id =>
    obtain ⟨h0, hl⟩ := hk
    simp only [formatter, formatD]
    cases hc : F.custom id with
    | none => exact .inl ⟨rfl, rfl⟩
    | some s =>
      rw [hc, Option.getD_some] at h0 hl
      exact .inr ⟨s, s.length + 1, rfl, by omega, strdupD_spec A H h0⟩

end Argus
