import Verif.Lemmas.PatternsIpv6
import Verif.Lemmas.Split
import Verif.Spec.Ipv6

/-!
# Texts by their colons
-/

set_option autoImplicit false

namespace Argus

/-- The fields between colons. -/
def colons (m : Str) : List Str := fields (· == 58) m

theorem colons_inj {a b : Str} (h : colons a = colons b) : a = b := by
  rw [← fields_join 58 a, ← fields_join 58 b]
  exact congrArg _ h

theorem colons_word {w : Str} (h : (58 : Byte) ∉ w) : colons w = [w] := by
  have := fields_word (· == 58) w [] (by
    intro c hc
    simp only [beq_eq_false_iff_ne, ne_eq]
    exact fun e => h (e ▸ hc))
  simpa [fields, colons] using this

theorem colons_append : ∀ (x y : Str), colons (x ++ 58 :: y) = colons x ++ colons y
  | [], y => by simp [colons, fields]
  | c :: x, y => by
    have ih := colons_append x y
    unfold colons at ih ⊢
    rw [List.cons_append, fields, fields, ih]
    split
    · rfl
    · cases h : fields (fun x => x == 58) x with
      | nil => exact absurd h (fields_ne_nil _ _)
      | cons w ws => rfl

/-- The fields of one side of a `::`. -/
def side (gs : List Str) : List Str := if gs = [] then [[]] else gs

theorem colons_joined : ∀ (gs : List Str), (∀ g ∈ gs, (58 : Byte) ∉ g) → colons (joined c!":" gs) = side gs
  | [], _ => rfl
  | [x], h => by
    show colons x = _
    rw [colons_word (h x (by simp))]
    rfl
  | x :: y :: gs, h => by
    have ih := colons_joined (y :: gs) (fun g hg => h g (List.mem_cons_of_mem _ hg))
    show colons (x ++ c!":" ++ joined c!":" (y :: gs)) = _
    rw [List.append_assoc]
    show colons (x ++ 58 :: joined c!":" (y :: gs)) = _
    rw [colons_append, ih, colons_word (h x (by simp))]
    rfl

theorem colons_compressed {l r : List Str} (hl : ∀ g ∈ l, (58 : Byte) ∉ g) (hr : ∀ g ∈ r, (58 : Byte) ∉ g) :
    colons (joined c!":" l ++ c!"::" ++ joined c!":" r) = side l ++ [] :: side r := by
  rw [List.append_assoc]
  show colons (joined c!":" l ++ 58 :: ([] ++ 58 :: joined c!":" r)) = _
  rw [colons_append, colons_append, colons_joined l hl, colons_joined r hr]
  rfl

theorem side_snoc (gs : List Str) (q : Str) : side (gs ++ [q]) = gs ++ [q] := if_neg (by simp)

theorem side_of {gs : List Str} (h : gs ≠ []) : side gs = gs := if_neg h

/-! ### What the parts are made of -/

theorem hex_not {x : Byte} (h : HexDigit x) : x ≠ 58 ∧ x ≠ 46 ∧ x ≠ 37 := by
  unfold HexDigit Digit at h
  refine ⟨?_, ?_, ?_⟩ <;> rintro rfl <;> revert h <;> decide

theorem digit_not {x : Byte} (h : Digit x) : x ≠ 58 ∧ x ≠ 37 := by
  unfold Digit at h
  refine ⟨?_, ?_⟩ <;> rintro rfl <;> revert h <;> decide

theorem group_ne_nil {g : Str} (h : IsGroup g) : g ≠ [] := by
  rintro rfl; exact absurd h.1 (by decide)

theorem group_no {g : Str} (h : IsGroup g) : (58 : Byte) ∉ g ∧ (46 : Byte) ∉ g ∧ (37 : Byte) ∉ g :=
  ⟨fun hc => (hex_not (h.2.2 _ hc)).1 rfl, fun hc => (hex_not (h.2.2 _ hc)).2.1 rfl, fun hc => (hex_not (h.2.2 _ hc)).2.2 rfl⟩

theorem quad_dot {q : Str} (h : IsIpv4 q) : (46 : Byte) ∈ q := by
  obtain ⟨a, b, c, d, rfl, _⟩ := h; simp

theorem quad_no {q : Str} (h : IsIpv4 q) : (58 : Byte) ∉ q ∧ (37 : Byte) ∉ q := by
  obtain ⟨a, b, c, d, rfl, ha, hb, hc, hd⟩ := h
  have no : ∀ {o : Str}, IsOctet o → (58 : Byte) ∉ o ∧ (37 : Byte) ∉ o := fun ho =>
    ⟨fun h => (digit_not (ho.2.2.1 _ h)).1 rfl, fun h => (digit_not (ho.2.2.1 _ h)).2 rfl⟩
  simp [no ha, no hb, no hc, no hd]

theorem quad_ne_nil {q : Str} (h : IsIpv4 q) : q ≠ [] := by
  rintro rfl; exact absurd (quad_dot h) (by simp)

theorem quad6_quad {q : Str} (h : IsQuad6 q) : IsIpv4 q := by
  obtain ⟨a, b, c, d, e, ha, hb, hc, hd⟩ := h
  exact ⟨a, b, c, d, e, ha.1, hb.1, hc.1, hd.1⟩

theorem mem_joined {x : Byte} : ∀ {gs : List Str}, x ∈ joined c!":" gs → x = 58 ∨ ∃ g ∈ gs, x ∈ g
  | [], h => absurd h (by simp [joined])
  | [g], h => .inr ⟨g, by simp, h⟩
  | g :: g' :: gs, h => by
    have h' : x ∈ g ++ c!":" ++ joined c!":" (g' :: gs) := h
    rcases List.mem_append.1 h' with h1 | h1
    · rcases List.mem_append.1 h1 with h2 | h2
      · exact .inr ⟨g, by simp, h2⟩
      · exact .inl (by simpa using h2)
    · rcases mem_joined h1 with h2 | ⟨k, hk, h2⟩
      · exact .inl h2
      · exact .inr ⟨k, List.mem_cons_of_mem _ hk, h2⟩

theorem joined_mem {x : Byte} : ∀ {gs : List Str} {g : Str}, g ∈ gs → x ∈ g → x ∈ joined c!":" gs
  | [_], _, hg, h => by simp only [List.mem_singleton] at hg; subst hg; exact h
  | k :: k' :: gs, g, hg, h => by
    show x ∈ k ++ c!":" ++ joined c!":" (k' :: gs)
    rcases List.mem_cons.1 hg with rfl | hg
    · simp [h]
    · exact List.mem_append_right _ (joined_mem hg h)

theorem groups_no_dot {m : Str} (h : IsIpv6Groups m) : (46 : Byte) ∉ m ∧ (37 : Byte) ∉ m := by
  have key : ∀ {gs : List Str}, (∀ g ∈ gs, IsGroup g) → ∀ {x : Byte}, x ∈ joined c!":" gs → x ≠ 46 ∧ x ≠ 37 := by
    intro gs hgs x hx
    rcases mem_joined hx with rfl | ⟨g, hg, hx⟩
    · decide
    · exact ⟨fun e => (group_no (hgs g hg)).2.1 (e ▸ hx), fun e => (group_no (hgs g hg)).2.2 (e ▸ hx)⟩
  have all : ∀ x ∈ m, x ≠ 46 ∧ x ≠ 37 := by
    intro x hx
    rcases h with ⟨gs, rfl, _, hgs⟩ | ⟨l, r, rfl, _, hgs⟩
    · exact key hgs hx
    · rcases List.mem_append.1 hx with h1 | h1
      · rcases List.mem_append.1 h1 with h2 | h2
        · exact key (fun g hg => hgs g (List.mem_append_left _ hg)) h2
        · simp only [List.mem_cons, List.not_mem_nil, or_false, or_self] at h2; subst h2; decide
      · exact key (fun g hg => hgs g (List.mem_append_right _ hg)) h1
  exact ⟨fun h => (all _ h).1 rfl, fun h => (all _ h).2 rfl⟩

theorem text_no_percent {m : Str} (h : IsIpv6Text m) : (37 : Byte) ∉ m := by
  intro hp
  have key : ∀ {gs : List Str} {q : Str}, (∀ g ∈ gs, IsGroup g) → IsIpv4 q → (37 : Byte) ∉ joined c!":" (gs ++ [q]) := by
    intro gs q hgs hq hx
    rcases mem_joined hx with h | ⟨g, hg, h3⟩
    · exact absurd h (by decide)
    · rcases List.mem_append.1 hg with hg | hg
      · exact (group_no (hgs g hg)).2.2 h3
      · simp only [List.mem_singleton] at hg; subst hg
        exact (quad_no hq).2 h3
  rcases h with h | ⟨gs, q, rfl, _, hgs, hq⟩ | ⟨l, r, q, rfl, _, hgs, hq⟩
  · exact (groups_no_dot h).2 hp
  · exact key hgs hq hp
  · rcases List.mem_append.1 hp with h1 | h1
    · rcases List.mem_append.1 h1 with h2 | h2
      · rcases mem_joined h2 with h3 | ⟨g, hg, h3⟩
        · exact absurd h3 (by decide)
        · exact (group_no (hgs g (List.mem_append_left _ hg))).2.2 h3
      · exact absurd h2 (by decide)
    · exact key (fun g hg => hgs g (List.mem_append_right _ hg)) hq h1

theorem dotted_no_percent {m : Str} (h : IsIpv6Dotted m) : (37 : Byte) ∉ m := by
  obtain ⟨q, hq, h⟩ := h
  have q2 := (quad_no (quad6_quad hq)).2
  rcases h with rfl | rfl | ⟨z, rfl, _, _, hz⟩ | ⟨gs, rfl, _, _, hgs⟩
  · simp [q2]
  · simp [q2]
  · have : (37 : Byte) ∉ z := fun h => absurd (hz _ h) (by decide)
    simp [q2, this]
  · intro hp
    rcases List.mem_append.1 hp with h1 | h1
    · rcases List.mem_append.1 h1 with h2 | h2
      · rcases mem_joined h2 with h3 | ⟨g, hg, h3⟩
        · exact absurd h3 (by decide)
        · exact (group_no (hgs g hg)).2.2 h3
      · exact absurd h2 (by decide)
    · exact q2 h1

theorem zone_percent {m : Str} (h : IsIpv6Zone m) : (37 : Byte) ∈ m := by
  obtain ⟨gs, z, rfl, _⟩ := h; simp

/-- A text splits at its first `c` in one way. -/
theorem splits_first {c : Byte} : ∀ {a b x y : Str}, c ∉ a → c ∉ b → a ++ c :: x = b ++ c :: y → a = b ∧ x = y
  | [], [], _, _, _, _, h => by simpa using h
  | [], b :: bs, _, _, _, hb, h => by
    simp only [List.nil_append, List.cons_append, List.cons.injEq] at h
    exact absurd (h.1 ▸ List.mem_cons_self) hb
  | a :: as, [], _, _, ha, _, h => by
    simp only [List.nil_append, List.cons_append, List.cons.injEq] at h
    exact absurd (h.1 ▸ List.mem_cons_self) ha
  | a :: as, b :: bs, x, y, ha, hb, h => by
    simp only [List.cons_append, List.cons.injEq] at h
    obtain ⟨h1, h2⟩ := splits_first (fun hc => ha (List.mem_cons_of_mem _ hc)) (fun hc => hb (List.mem_cons_of_mem _ hc)) h.2
    exact ⟨by rw [h.1, h1], h2⟩

/-- A list splits at its first empty field in one way. -/
theorem split_empty {a b x y : List Str} (ha : ∀ g ∈ a, g ≠ []) (hb : ∀ g ∈ b, g ≠ [])
    (h : a ++ [] :: x = b ++ [] :: y) : a = b ∧ x = y := by
  induction a generalizing b with
  | nil =>
    cases b with
    | nil => simpa using h
    | cons g b =>
      simp only [List.nil_append, List.cons_append, List.cons.injEq] at h
      exact absurd h.1.symm (hb g (by simp))
  | cons f a ih =>
    cases b with
    | nil =>
      simp only [List.nil_append, List.cons_append, List.cons.injEq] at h
      exact absurd h.1 (ha f (by simp))
    | cons g b =>
      simp only [List.cons_append, List.cons.injEq] at h
      obtain ⟨h1, h2⟩ := ih (fun k hk => ha k (List.mem_cons_of_mem _ hk)) (fun k hk => hb k (List.mem_cons_of_mem _ hk)) h.2
      exact ⟨by rw [h.1, h1], h2⟩

end Argus
