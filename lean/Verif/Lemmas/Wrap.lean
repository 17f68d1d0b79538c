import Verif.Model.Display
import Verif.Spec.Wrap
import Verif.Lemmas.Buffer

/-! # Wrapping -/

set_option autoImplicit false

namespace Argus

/-- What the scanning loop finds, from offset `n` with the last space at `sp`: it reads `k` bytes. -/
theorem wrapScan_spec (w : Nat) : ∀ (r : Str) (n sp : Nat), n ≤ w →
    ∃ k, (wrapScan w n sp r).1 = n + k ∧ k ≤ r.length ∧ n + k ≤ w ∧ 10 ∉ r.take k ∧
      (n + k = w ∨ k = r.length ∨ (r.drop k).head? = some 10) ∧
      (((wrapScan w n sp r).2 = sp ∧ 32 ∉ r.take k) ∨
       ∃ j, j < k ∧ (wrapScan w n sp r).2 = n + j ∧ r[j]? = some 32 ∧ 32 ∉ (r.take k).drop (j + 1))
  | [], n, sp, h => ⟨0, by simp [wrapScan, h]⟩
  | c :: r, n, sp, h => by
    unfold wrapScan
    by_cases hc : n < w ∧ c ≠ 10
    · rw [if_pos hc]
      obtain ⟨k, h1, h2, h3, h4, h5, h6⟩ := wrapScan_spec w r (n + 1) (if c = 32 then n else sp) (by omega)
      refine ⟨k + 1, by rw [h1]; omega, by simp; omega, by omega, ?_, ?_, ?_⟩
      · simp only [List.take_succ_cons, List.mem_cons, not_or]
        exact ⟨fun e => hc.2 e.symm, h4⟩
      · rcases h5 with h5 | h5 | h5
        · left; omega
        · right; left; simp [h5]
        · right; right; simpa using h5
      · rcases h6 with ⟨h6, h7⟩ | ⟨j, hj, h6, h7, h8⟩
        · by_cases e : c = 32
          · right
            refine ⟨0, by omega, ?_, by simp [e], by simpa using h7⟩
            rw [h6, if_pos e]; omega
          · left
            rw [if_neg e] at h6
            refine ⟨by rw [if_neg e]; exact h6, ?_⟩
            simp only [List.take_succ_cons, List.mem_cons, not_or]
            exact ⟨fun e' => e e'.symm, h7⟩
        · right
          exact ⟨j + 1, by omega, by rw [h6]; omega, by simpa using h7, by simpa using h8⟩
    · rw [if_neg hc]
      refine ⟨0, by simp, by omega, by omega, by simp, ?_, .inl ⟨rfl, by simp⟩⟩
      by_cases hn : n < w
      · right; right
        have : c = 10 := Classical.byContradiction fun e => hc ⟨hn, e⟩
        simp [this]
      · left; omega

theorem printed_nil_iff {w : Nat} (hw : 1 ≤ w) {b : Broken} (h : ∀ p ∈ b.lines, BreakOk w p) :
    b.text = [] ↔ (b.lines = [] ∧ b.last = []) := by
  constructor
  · intro ht
    unfold Broken.text at ht
    rw [List.append_eq_nil_iff] at ht
    refine ⟨?_, ht.2⟩
    cases hl : b.lines with
    | nil => rfl
    | cons p ps =>
      exfalso
      rw [hl] at ht
      simp only [List.flatMap_cons, List.append_eq_nil_iff] at ht
      obtain ⟨_, h2, h3⟩ := h p (by rw [hl]; simp)
      rcases h3 with h3 | h3 | h3
      · rw [h3] at ht; simp at ht
      · rw [h3] at ht; simp at ht
      · have := h3.2.1
        rw [ht.1.1.1] at this
        simp at this; omega
  · rintro ⟨h1, h2⟩
    simp [Broken.text, h1, h2]

theorem wrapLoop_cons (w : Nat) (pad : Str) (fuel : Nat) (c : Byte) (r : Str) :
    wrapLoop w pad (fuel + 1) (c :: r) =
      if (wrapScan w 0 0 (c :: r)).1 < (c :: r).length ∧
          ((c :: r).drop (wrapScan w 0 0 (c :: r)).1).head? = some 10 then
        (wrapLoop w pad fuel ((c :: r).drop ((wrapScan w 0 0 (c :: r)).1 + 1))).map fun out =>
          (c :: r).take (wrapScan w 0 0 (c :: r)).1 ++ [10] ++
            (if (c :: r).drop ((wrapScan w 0 0 (c :: r)).1 + 1) ≠ [] then pad else []) ++ out
      else if (wrapScan w 0 0 (c :: r)).1 ≥ w then
        if (wrapScan w 0 0 (c :: r)).2 > 0 then
          (wrapLoop w pad fuel ((c :: r).drop ((wrapScan w 0 0 (c :: r)).2 + 1))).map fun out =>
            (c :: r).take (wrapScan w 0 0 (c :: r)).2 ++ [10] ++
              (if (c :: r).drop ((wrapScan w 0 0 (c :: r)).2 + 1) ≠ [] then pad else []) ++ out
        else
          (wrapLoop w pad fuel ((c :: r).drop (wrapScan w 0 0 (c :: r)).1)).map fun out =>
            (c :: r).take (wrapScan w 0 0 (c :: r)).1 ++ [10] ++
              (if (c :: r).drop (wrapScan w 0 0 (c :: r)).1 ≠ [] then pad else []) ++ out
      else some (c :: r) := by
  rw [wrapLoop]
  simp

theorem wrapLoop_ok (w : Nat) (pad : Str) (hw : 1 ≤ w) : ∀ (fuel : Nat) (rest : Str), rest.length ≤ fuel →
    ∃ b : Broken, b.text = rest ∧ wrapLoop w pad fuel rest = some (printedLines pad b.lines b.last) ∧
      (∀ p ∈ b.lines, BreakOk w p) ∧ 10 ∉ b.last ∧ b.last.length < w
  | fuel, [], _ => ⟨⟨[], []⟩, rfl, by simp [wrapLoop, printedLines], by simp, by simp, hw⟩
  | 0, c :: r, h => by simp at h
  | fuel + 1, c :: r, h => by
    obtain ⟨k, h1, h2, h3, h4, h5, h6⟩ := wrapScan_spec w (c :: r) 0 0 (by omega)
    rw [Nat.zero_add] at h1 h3 h5
    -- a line followed by the rest of the text
    have step : ∀ (l sep tl : Str), c :: r = l ++ sep ++ tl → 1 ≤ (l ++ sep).length → BreakOk w (l, sep) →
        ∃ b : Broken, b.text = c :: r ∧
          (wrapLoop w pad fuel tl).map (fun out => l ++ [10] ++ (if tl ≠ [] then pad else []) ++ out) =
            some (printedLines pad b.lines b.last) ∧
          (∀ p ∈ b.lines, BreakOk w p) ∧ 10 ∉ b.last ∧ b.last.length < w := by
      intro l sep tl ht hl hb
      have hlen : tl.length ≤ fuel := by
        have := congrArg List.length ht
        rw [List.length_append] at this
        simp only [List.length_cons] at this h
        omega
      obtain ⟨b, b1, b2, b3, b4, b5⟩ := wrapLoop_ok w pad hw fuel tl hlen
      refine ⟨⟨(l, sep) :: b.lines, b.last⟩, ?_, ?_, ?_, b4, b5⟩
      · rw [ht, ← b1]; simp [Broken.text]
      · rw [b2]
        simp only [Option.map_some, printedLines]
        have hiff := printed_nil_iff hw b3
        rw [b1] at hiff
        by_cases e : tl = []
        · rw [if_neg (by simpa using e), if_pos (hiff.1 e)]
        · rw [if_pos e, if_neg (fun e' => e (hiff.2 e'))]
      · intro p hp
        rcases List.mem_cons.1 hp with rfl | hp
        · exact hb
        · exact b3 p hp
    rw [wrapLoop_cons]
    simp only [h1]
    split
    · rename_i hnl
      have hd : (c :: r).drop k = 10 :: (c :: r).drop (k + 1) := by
        cases hdk : (c :: r).drop k with
        | nil => rw [hdk] at hnl; simp at hnl
        | cons x xs =>
          rw [hdk] at hnl
          simp only [List.head?_cons, Option.some.injEq] at hnl
          rw [← List.drop_drop, hdk, hnl.2]; rfl
      refine step ((c :: r).take k) [10] _ ?_ (by simp) ⟨h4, ?_, .inl rfl⟩
      · rw [List.append_assoc, List.singleton_append, ← hd, List.take_append_drop]
      · simp only [List.length_take]; omega
    · rename_i hnl
      split
      · rename_i hge
        have hkw : k = w := by omega
        split
        · rename_i hsp
          rcases h6 with ⟨h6, _⟩ | ⟨j, hj, h6, h7, h8⟩
          · omega
          · rw [Nat.zero_add] at h6
            rw [h6]
            have hjl : j < (c :: r).length := by omega
            have hd : (c :: r).drop j = 32 :: (c :: r).drop (j + 1) := by
              rw [List.drop_eq_getElem_cons hjl]
              rw [List.getElem?_eq_getElem hjl] at h7
              rw [Option.some.inj h7]
            refine step ((c :: r).take j) [32] _ ?_ (by simp) ⟨?_, ?_, .inr (.inl rfl)⟩
            · rw [List.append_assoc, List.singleton_append, ← hd, List.take_append_drop]
            · intro hm
              apply h4
              have : (c :: r).take j = ((c :: r).take k).take j := by rw [List.take_take, Nat.min_eq_left (by omega)]
              simp only [this] at hm
              exact List.mem_of_mem_take hm
            · simp only [List.length_take]; omega
        · rename_i hsp
          have hsp0 : 32 ∉ ((c :: r).take k).drop 1 := by
            rcases h6 with ⟨_, h7⟩ | ⟨j, hj, h6, h7, h8⟩
            · intro hm; exact h7 (List.mem_of_mem_drop hm)
            · have : j = 0 := by omega
              subst this
              exact h8
          refine step ((c :: r).take k) [] _ ?_ ?_ ⟨h4, ?_, .inr (.inr ⟨rfl, ?_, hsp0⟩)⟩
          · rw [List.append_nil, List.take_append_drop]
          · rw [List.append_nil, List.length_take]; omega
          · simp only [List.length_take]; omega
          · simp only [List.length_take]; omega
      · rename_i hge
        have hk : k = (c :: r).length := by
          rcases h5 with h5 | h5 | h5
          · omega
          · exact h5
          · exfalso
            apply hnl
            refine ⟨?_, h5⟩
            rcases Nat.lt_or_ge k (c :: r).length with hlt | hge'
            · exact hlt
            · rw [List.drop_eq_nil_of_le hge'] at h5; simp at h5
        refine ⟨⟨[], c :: r⟩, rfl, by simp [printedLines], by simp, ?_, ?_⟩
        · rw [hk, List.take_length] at h4; exact h4
        · show (c :: r).length < w
          omega

theorem wrapWidth_eq {indent lineWidth : Nat} (h1 : indent + 2 ≤ lineWidth) (h2 : lineWidth < 2 ^ 64) :
    wrapWidth indent lineWidth = lineWidth - indent - 2 := by
  unfold wrapWidth
  have e1 : sizeSub lineWidth indent = lineWidth - indent := sizeSub_eq (by omega) h2
  rw [e1]
  exact sizeSub_eq (by omega) (by omega)

/-- More rounds change nothing. -/
theorem wrapLoop_mono (w : Nat) (pad : Str) : ∀ (fuel fuel' : Nat) (rest out : Str), fuel ≤ fuel' →
    wrapLoop w pad fuel rest = some out → wrapLoop w pad fuel' rest = some out
  | fuel, fuel', [], out, _, h => by simpa [wrapLoop] using h
  | 0, fuel', c :: r, out, _, h => by simp [wrapLoop] at h
  | fuel + 1, 0, c :: r, out, hf, h => by omega
  | fuel + 1, fuel' + 1, c :: r, out, hf, h => by
    have ih := fun tl o => wrapLoop_mono w pad fuel fuel' tl o (by omega)
    rw [wrapLoop_cons] at h ⊢
    have map_ok : ∀ (tl : Str) (f : Str → Str), (wrapLoop w pad fuel tl).map f = some out →
        (wrapLoop w pad fuel' tl).map f = some out := by
      intro tl f hm
      rw [Option.map_eq_some_iff] at hm ⊢
      obtain ⟨o, h1, h2⟩ := hm
      exact ⟨o, ih tl o h1, h2⟩
    split at h
    · rename_i hc
      rw [if_pos hc]
      exact map_ok _ _ h
    · rename_i hc
      rw [if_neg hc]
      split at h
      · rename_i hc2
        rw [if_pos hc2]
        split at h
        · rename_i hc3
          rw [if_pos hc3]
          exact map_ok _ _ h
        · rename_i hc3
          rw [if_neg hc3]
          exact map_ok _ _ h
      · rename_i hc2
        rw [if_neg hc2]
        exact h

theorem wrapScan_zero (sp : Nat) (r : Str) : wrapScan 0 0 sp r = (0, sp) := by
  cases r with
  | nil => rfl
  | cons c r => simp [wrapScan]

/-- With no room on a line the loop ends only for a text of newlines. -/
theorem wrapLoop_zero (pad : Str) : ∀ (fuel : Nat) (rest out : Str), wrapLoop 0 pad fuel rest = some out →
    rest.all (· == 10) = true
  | fuel, [], out, _ => rfl
  | 0, c :: r, out, h => by simp [wrapLoop] at h
  | fuel + 1, c :: r, out, h => by
    rw [wrapLoop_cons] at h
    simp only [wrapScan_zero] at h
    split at h
    · rename_i hc
      simp only [List.drop_zero, List.head?_cons, Option.some.injEq] at hc
      rw [Option.map_eq_some_iff] at h
      obtain ⟨o, h1, _⟩ := h
      have := wrapLoop_zero pad fuel _ o h1
      simp only [Nat.zero_add, List.drop_succ_cons, List.drop_zero] at this
      simp [hc.2, this]
    · rename_i hc
      rw [if_pos (by omega), if_neg (by omega), Option.map_eq_some_iff] at h
      obtain ⟨o, h1, _⟩ := h
      exact wrapLoop_zero pad fuel _ o h1

theorem wrapLoop_newlines (pad : Str) : ∀ (rest : Str), rest.all (· == 10) = true →
    ∃ out, wrapLoop 0 pad rest.length rest = some out
  | [], _ => ⟨[], by simp [wrapLoop]⟩
  | c :: r, h => by
    simp only [List.all_cons, Bool.and_eq_true, beq_iff_eq] at h
    obtain ⟨out, ho⟩ := wrapLoop_newlines pad r h.2
    rw [List.length_cons, wrapLoop_cons]
    simp only [wrapScan_zero]
    rw [if_pos (by simp [h.1])]
    simp [ho]

/-- `text.length` rounds are enough for every text on which the loop ends. -/
theorem wrapText_fuel (text : Str) (indent lineWidth : Nat) :
    (∃ fuel out, wrapLoop (wrapWidth indent lineWidth) (spaces (indent + 2)) fuel text = some out) ↔
    ∃ out, wrapText text indent lineWidth = some out := by
  constructor
  · rintro ⟨fuel, out, h⟩
    unfold wrapText
    generalize wrapWidth indent lineWidth = w at h ⊢
    rcases Nat.eq_zero_or_pos w with rfl | hw
    · exact wrapLoop_newlines _ _ (wrapLoop_zero _ _ _ _ h)
    · obtain ⟨b, _, h2, _⟩ := wrapLoop_ok w (spaces (indent + 2)) hw text.length text (Nat.le_refl _)
      exact ⟨_, h2⟩
  · rintro ⟨out, h⟩
    exact ⟨_, _, h⟩

end Argus
