import Verif.Lemmas.Wrap

/-!
# C44: wrapping

`Broken`, `printedLines`, `BreakOk` and `linesOf` are in Spec/Wrap. The theorems marked partial need a line width of at
least the indentation plus 3; C44_endless and C44_narrow show what happens below that.
-/

set_option autoImplicit false

namespace Argus

/-- **C44** (for a width above indentation plus 2) Wrapping ends. The text is a sequence of lines with single spaces,
    single newlines or (inside a word that fills a line) nothing between them; printed are exactly these lines, each but
    the first after the indentation and two spaces. -/
theorem C44_wrap_partial (text : Str) (indent lineWidth : Nat) (h1 : indent + 3 ≤ lineWidth) (h2 : lineWidth < 2 ^ 64) :
    ∃ b : Broken, b.text = text ∧
      wrapText text indent lineWidth = some (printedLines (List.replicate (indent + 2) 32) b.lines b.last) ∧
      (∀ p ∈ b.lines, BreakOk (lineWidth - indent - 2) p) ∧
      10 ∉ b.last ∧ b.last.length < lineWidth - indent - 2 := by
  unfold wrapText
  rw [wrapWidth_eq (by omega) h2]
  exact wrapLoop_ok _ _ (by omega) text.length text (Nat.le_refl _)

example : (1 : Nat) + 3 ≤ 9 ∧ (9 : Nat) < 2 ^ 64 ∧
    wrapText c!"a bc\nabcdefghij k" 1 9 = some c!"a bc\n   abcdef\n   ghij\n   k" := by decide +kernel

theorem linesOf_plain : ∀ {l : Str}, 10 ∉ l → linesOf l = [l]
  | [], _ => rfl
  | c :: l, h => by
    simp only [List.mem_cons, not_or] at h
    rw [linesOf, if_neg (fun e => h.1 e.symm), linesOf_plain h.2]

theorem linesOf_append : ∀ {l : Str} (s : Str), 10 ∉ l → linesOf (l ++ 10 :: s) = l :: linesOf s
  | [], s, _ => by simp [linesOf]
  | c :: l, s, h => by
    simp only [List.mem_cons, not_or] at h
    rw [List.cons_append, linesOf, if_neg (fun e => h.1 e.symm), linesOf_append s h.2]

theorem linesOf_pad (k : Nat) (s : Str) : ∃ l ls, linesOf s = l :: ls ∧
    linesOf (List.replicate k 32 ++ s) = (List.replicate k 32 ++ l) :: ls := by
  have hne : ∀ s : Str, ∃ l ls, linesOf s = l :: ls := by
    intro s
    cases s with
    | nil => exact ⟨[], [], rfl⟩
    | cons c s =>
      rw [linesOf]
      split
      · exact ⟨_, _, rfl⟩
      · split <;> exact ⟨_, _, rfl⟩
  obtain ⟨l, ls, h⟩ := hne s
  refine ⟨l, ls, h, ?_⟩
  induction k with
  | zero => simpa using h
  | succ k ih =>
    rw [List.replicate_succ, List.cons_append, linesOf, if_neg (by decide), ih]; rfl

theorem printedLines_width (k w : Nat) : ∀ (ls : List (Str × Str)) (last : Str), (∀ p ∈ ls, BreakOk w p) →
    10 ∉ last → last.length ≤ w →
    ∃ l ls', linesOf (printedLines (List.replicate k 32) ls last) = l :: ls' ∧ l.length ≤ w ∧
      ∀ m ∈ ls', m.length ≤ k + w
  | [], last, _, h1, h2 => ⟨last, [], linesOf_plain h1, h2, by simp⟩
  | (l, sep) :: ls, last, hb, h1, h2 => by
    obtain ⟨m, ms, e, hm, hms⟩ := printedLines_width k w ls last (fun p hp => hb p (by simp [hp])) h1 h2
    obtain ⟨hl1, hl2, _⟩ := hb (l, sep) (by simp)
    rw [printedLines, List.append_assoc, List.append_assoc, List.singleton_append, linesOf_append _ hl1]
    refine ⟨l, _, rfl, hl2, ?_⟩
    intro x hx
    split at hx
    · rw [List.nil_append, e] at hx
      rcases List.mem_cons.1 hx with rfl | hx
      · omega
      · exact hms x hx
    · obtain ⟨m', ms', e1, e2⟩ := linesOf_pad k (printedLines (List.replicate k 32) ls last)
      rw [e] at e1
      simp only [List.cons.injEq] at e1
      obtain ⟨rfl, rfl⟩ := e1
      rw [e2] at hx
      rcases List.mem_cons.1 hx with rfl | hx
      · simp only [List.length_append, List.length_replicate]; omega
      · exact hms x hx

/-- **C44** (for a width above indentation plus 2) No printed line is longer than the width; the first line, printed
    after the indentation and two more bytes, has room for them. -/
theorem C44_width_partial (text : Str) (indent lineWidth : Nat) (h1 : indent + 3 ≤ lineWidth) (h2 : lineWidth < 2 ^ 64) :
    ∃ out first rest, wrapText text indent lineWidth = some out ∧ linesOf out = first :: rest ∧
      indent + 2 + first.length ≤ lineWidth ∧ ∀ l ∈ rest, l.length ≤ lineWidth := by
  obtain ⟨b, _, e, hb, hl, hw⟩ := C44_wrap_partial text indent lineWidth h1 h2
  obtain ⟨l, ls, e2, hl2, hls⟩ := printedLines_width (indent + 2) (lineWidth - indent - 2) b.lines b.last hb hl
    (Nat.le_of_lt hw)
  refine ⟨_, l, ls, e, e2, by omega, fun m hm => ?_⟩
  have := hls m hm
  omega

/-- **C44** fails for a width of exactly the indentation plus 2: no number of rounds of the loop is enough, unless the
    text has only newlines. -/
theorem C44_endless (text : Str) (indent lineWidth : Nat) (h1 : lineWidth = indent + 2) (h2 : lineWidth < 2 ^ 64)
    (ht : ∃ c ∈ text, c ≠ 10) :
    ∀ fuel, wrapLoop (wrapWidth indent lineWidth) (List.replicate (indent + 2) 32) fuel text = none := by
  intro fuel
  rw [wrapWidth_eq (by omega) h2, show lineWidth - indent - 2 = 0 by omega]
  cases h : wrapLoop 0 (List.replicate (indent + 2) 32) fuel text with
  | none => rfl
  | some out =>
    exfalso
    obtain ⟨c, hc, hne⟩ := ht
    have := List.all_eq_true.1 (wrapLoop_zero _ _ _ _ h) c hc
    exact hne (by simpa using this)

example : (12 : Nat) = 10 + 2 ∧ (12 : Nat) < 2 ^ 64 ∧ ∃ c ∈ c!"text", c ≠ 10 := by decide

theorem wrapScan_all (w : Nat) (r : Str) (h : 10 ∉ r) (hl : r.length < w) : (wrapScan w 0 0 r).1 = r.length := by
  obtain ⟨k, h1, h2, h3, h4, h5, _⟩ := wrapScan_spec w r 0 0 (by omega)
  rw [h1]
  rcases h5 with h5 | h5 | h5
  · omega
  · omega
  · exfalso
    apply h
    cases hd : r.drop k with
    | nil => rw [hd] at h5; simp at h5
    | cons x xs =>
      rw [hd] at h5
      simp only [List.head?_cons, Option.some.injEq] at h5
      subst h5
      exact List.mem_of_mem_drop (i := k) (by rw [hd]; simp)

theorem mod_wrap (N a b : Nat) (h : a < b) (hb : b ≤ N) (hN : 0 < N) : (a + N - b) % N = a + N - b :=
  Nat.mod_eq_of_lt (by omega)

theorem wrapWidth_huge {indent lineWidth : Nat} (h1 : lineWidth < indent + 2) (h2 : indent < 2 ^ 62) :
    2 ^ 63 ≤ wrapWidth indent lineWidth := by
  unfold wrapWidth
  rcases Nat.lt_or_ge lineWidth indent with h | h
  · have e1 : sizeSub lineWidth indent = lineWidth + 2 ^ 64 - indent := mod_wrap _ _ _ h (by omega) (by omega)
    rw [e1, sizeSub_eq (by omega) (by omega)]
    omega
  · have e1 : sizeSub lineWidth indent = lineWidth - indent := sizeSub_eq h (by omega)
    have e2 : sizeSub (lineWidth - indent) 2 = lineWidth - indent + 2 ^ 64 - 2 :=
      mod_wrap _ _ _ (by omega) (by omega) (by omega)
    rw [e1, e2]
    omega

/-- **C44** fails for a width below the indentation plus 2: a text of one line is printed as it is, however long. -/
theorem C44_narrow (text : Str) (indent lineWidth : Nat) (h1 : lineWidth < indent + 2) (h2 : indent < 2 ^ 62)
    (h3 : text.length < 2 ^ 63) (h4 : 10 ∉ text) : wrapText text indent lineWidth = some text := by
  have hw := wrapWidth_huge h1 h2
  unfold wrapText
  generalize wrapWidth indent lineWidth = w at hw ⊢
  cases text with
  | nil => simp [wrapLoop]
  | cons c r =>
    rw [List.length_cons, wrapLoop_cons, wrapScan_all w (c :: r) h4 (by omega)]
    rw [if_neg (by omega), if_neg (by omega)]

/-- A line of 16 bytes for a width of 10. -/
example : (10 : Nat) < 9 + 2 ∧ (9 : Nat) < 2 ^ 62 ∧ 10 ∉ c!"more than ten by" ∧ c!"more than ten by".length = 16 := by
  decide

theorem wrapWidth_pos {indent lineWidth : Nat} (h1 : lineWidth ≠ indent + 2) (h2 : indent < 2 ^ 62)
    (h3 : lineWidth < 2 ^ 64) : 1 ≤ wrapWidth indent lineWidth := by
  rcases Nat.lt_or_ge lineWidth (indent + 2) with h | h
  · have := wrapWidth_huge h h2
    omega
  · rw [wrapWidth_eq h h3]
    omega

/-- **C44** Nothing is lost, at any width but the one of `C44_endless`: what is printed are the characters of the text
    in order, broken only at a space, at a newline or inside a word, with the indentation before every line but the
    first. -/
theorem C44_nothing_lost (text : Str) (indent lineWidth : Nat) (h1 : lineWidth ≠ indent + 2) (h2 : indent < 2 ^ 62)
    (h3 : lineWidth < 2 ^ 64) :
    ∃ b : Broken, b.text = text ∧
      wrapText text indent lineWidth = some (printedLines (List.replicate (indent + 2) 32) b.lines b.last) := by
  obtain ⟨b, e1, e2, _⟩ := wrapLoop_ok (wrapWidth indent lineWidth) (List.replicate (indent + 2) 32)
    (wrapWidth_pos h1 h2 h3) text.length text (Nat.le_refl _)
  exact ⟨b, e1, e2⟩

/-- A width below the indentation. -/
example : (5 : Nat) ≠ 20 + 2 ∧ wrapText c!"a bc\nabcdefghij k" 20 5 =
    some (c!"a bc\n" ++ List.replicate 22 32 ++ c!"abcdefghij k") := by
  refine ⟨by decide, by decide +kernel⟩

/-- **C44** Wrapping ends exactly if the width is not the indentation plus 2, or the text has only newlines. -/
theorem C44_ends_iff (text : Str) (indent lineWidth : Nat) (h2 : indent < 2 ^ 62) (h3 : lineWidth < 2 ^ 64) :
    (∃ fuel out, wrapLoop (wrapWidth indent lineWidth) (List.replicate (indent + 2) 32) fuel text = some out) ↔
      lineWidth ≠ indent + 2 ∨ ∀ c ∈ text, c = 10 := by
  constructor
  · rintro ⟨fuel, out, h⟩
    by_cases h1 : lineWidth = indent + 2
    · refine .inr (fun c hc => Classical.not_not.1 (fun hne => ?_))
      rw [C44_endless text indent lineWidth h1 h3 ⟨c, hc, hne⟩] at h
      cases h
    · exact .inl h1
  · intro h
    by_cases h1 : lineWidth = indent + 2
    · have ht : ∀ c ∈ text, c = 10 := h.resolve_left (fun hne => hne h1)
      rw [wrapWidth_eq (by omega) h3, show lineWidth - indent - 2 = 0 by omega]
      obtain ⟨out, ho⟩ := wrapLoop_newlines (List.replicate (indent + 2) 32) text (by
        rw [List.all_eq_true]; intro c hc; simp [ht c hc])
      exact ⟨_, out, ho⟩
    · obtain ⟨b, _, e⟩ := C44_nothing_lost text indent lineWidth h1 h2 h3
      exact ⟨_, _, e⟩

end Argus
