import Verif.Lemmas.PatternsLook

/-!
# Reading the predefined patterns: strict email addresses, semantic versions, IPv6 addresses
-/

set_option autoImplicit false

namespace Argus

/-! ### Strict email addresses -/

/-- `[a-zA-Z0-9]`. -/
def cAlnum : Cls := ⟨false, [(97, 122), (65, 90), (48, 57)]⟩
/-- `[a-zA-Z0-9-]`. -/
def cLabel' : Cls := ⟨false, [(97, 122), (65, 90), (48, 57), (45, 45)]⟩
/-- ``[a-zA-Z0-9.!#$%&'*+/=?^_`{|}~-]``. -/
def cStrictUser : Cls := ⟨false, [(97, 122), (65, 90), (48, 57), (46, 46), (33, 33), (35, 35), (36, 36), (37, 37),
  (38, 38), (39, 39), (42, 42), (43, 43), (47, 47), (61, 61), (63, 63), (94, 94), (95, 95), (96, 96), (123, 123),
  (124, 124), (125, 125), (126, 126), (45, 45)]⟩

theorem cAlnum_has (x : Byte) : cAlnum.has x = true ↔ Letter x ∨ Digit x := by
  simp [Cls.has, cAlnum, Letter, Digit]; grind

theorem cLabel_has' (x : Byte) : cLabel'.has x = true ↔ Letter x ∨ Digit x ∨ x = 45 := by
  simp [Cls.has, cLabel', Letter, Digit, byte_nat, UInt8.le_iff_toNat_le]; omega

theorem single_has (b x : Byte) : (decide (b ≤ x) && decide (x ≤ b)) = true ↔ x = b := by
  have h1 := byte_has b x
  simpa only [Cls.has, List.any_cons, List.any_nil, Bool.or_false, Bool.false_bne] using h1

theorem cStrictUser_has (x : Byte) :
    cStrictUser.has x = true ↔ Letter x ∨ Digit x ∨ x ∈ c!".!#$%&'*+/=?^_`{|}~-" := by
  simp only [Cls.has, cStrictUser, List.any_cons, List.any_nil, Bool.or_false, Bool.false_bne, Bool.or_eq_true, single_has]
  simp only [Letter, Digit, Bool.and_eq_true, decide_eq_true_eq, List.mem_cons, List.not_mem_nil, or_false]
  grind

def labelRe : List Re :=
  [.cls cAlnum, .rep (Re.ofList [.rep (.cls cLabel') 0 (some 61), .cls cAlnum]) 0 (some 1)]

theorem alnum_iff (x : Byte) : Letter x ∨ Digit x ↔ (Letter x ∨ Digit x ∨ x = 45) ∧ x ≠ 45 := by
  constructor
  · intro h
    refine ⟨h.elim .inl (fun h => .inr (.inl h)), ?_⟩
    rintro rfl
    rcases h with h | h
    · have := letter_ne h; simp at this
    · have := digit_nat.1 h; simp at this
  · rintro ⟨h | h | h, h1⟩
    · exact .inl h
    · exact .inr h
    · exact absurd h h1

theorem lang_label (m : Str) : (Re.ofList labelRe).Lang m ↔ IsLabel m := by
  have e : ∀ y, (Re.rep (Re.ofList [.rep (.cls cLabel') 0 (some 61), .cls cAlnum]) 0 (some 1)).Lang y ↔
      y = [] ∨ ∃ u z, y = u ++ [z] ∧ u.length ≤ 61 ∧ (∀ x ∈ u, Letter x ∨ Digit x ∨ x = 45) ∧ (Letter z ∨ Digit z) := by
    intro y
    rw [lang_opt]
    simp only [lang_cons (.rep _ _ _), lang_rep_cls, lang_cls_cons, lang_nil, some_le, cAlnum_has, cLabel_has']
    refine or_congr Iff.rfl ⟨?_, ?_⟩
    · rintro ⟨u, _, rfl, ⟨_, h2, h3⟩, z, _, rfl, h4, rfl⟩; exact ⟨u, z, rfl, h2, h3, h4⟩
    · rintro ⟨u, z, rfl, h2, h3, h4⟩; exact ⟨u, _, rfl, ⟨by omega, h2, h3⟩, z, _, rfl, h4, rfl⟩
  simp only [labelRe, lang_cls_cons, lang_single, e, cAlnum_has, IsLabel]
  clear e
  constructor
  · rintro ⟨x, y, rfl, h1, rfl | ⟨u, z, rfl, h2, h3, h4⟩⟩
    · have := (alnum_iff x).1 h1
      refine ⟨by simp, by simp, ?_, ?_, ?_⟩
      · simp; exact this.1
      · simp; exact this.2
      · simp; exact this.2
    · have hx := (alnum_iff x).1 h1
      have hz := (alnum_iff z).1 h4
      refine ⟨by simp, by simp; omega, ?_, ?_, ?_⟩
      · intro w hw
        simp only [List.mem_cons, List.mem_append, List.not_mem_nil, or_false] at hw
        rcases hw with rfl | hw | rfl
        · exact hx.1
        · exact h3 w hw
        · exact hz.1
      · simp; exact hx.2
      · have : (x :: (u ++ [z])).getLast? = some z := by
          rw [← List.cons_append, List.getLast?_append]; rfl
        rw [this, ne_eq, Option.some.injEq]; exact hz.2
  · rintro ⟨h1, h2, h3, h4, h5⟩
    rcases m with _ | ⟨x, y⟩
    · simp at h1
    have hx : Letter x ∨ Digit x := (alnum_iff x).2 ⟨h3 x (by simp), by simpa using h4⟩
    refine ⟨x, y, rfl, hx, ?_⟩
    by_cases hy : y = []
    · exact .inl hy
    · have e := List.dropLast_concat_getLast hy
      have e1 : (x :: y).getLast? = some (y.getLast hy) := by
        rw [List.getLast?_eq_some_getLast (by simp), List.getLast_cons hy]
      rw [e1, ne_eq, Option.some.injEq] at h5
      have hl := congrArg List.length e
      simp at hl h2
      refine .inr ⟨y.dropLast, y.getLast hy, e.symm, by simp; omega, ?_, ?_⟩
      · intro w hw
        have hw' : w ∈ y.dropLast ++ [y.getLast hy] := by simp [hw]
        rw [e] at hw'
        exact h3 w (by simp [hw'])
      · exact (alnum_iff _).2 ⟨h3 _ (by simp [List.getLast_mem hy]), h5⟩

theorem parse_emailStrict : Re.parse reEmailStrict = some (.seq .bol (Re.ofList
    (([.rep (.cls cStrictUser) 1 none, Re.byte 64] ++ (labelRe ++ [.rep (Re.ofList (Re.byte 46 :: labelRe)) 0 none])) ++
      [.eol]))) := by decide +kernel

theorem found_emailStrict {r : Re} (h : Re.parse reEmailStrict = some r) (s : Str) :
    r.Found s ↔ ∃ m, Line s m ∧ IsStrictEmail m := by
  rw [parse_emailStrict, Option.some.injEq] at h; subst h
  rw [Re.found_anchored (by decide)]
  simp only [lang_append [.rep (.cls cStrictUser) 1 none, Re.byte 64], lang_joined lang_label rfl, lang_cons (.rep _ _ _),
    lang_byte_cons, lang_nil, lang_rep_cls, cStrictUser_has, length_pos_iff_ne, IsStrictEmail]
  constructor
  · rintro ⟨m, h, _, _, rfl, ⟨u, _, rfl, ⟨h1, _, h2⟩, _, rfl, rfl⟩, ls, h3, rfl, h4⟩
    exact ⟨_, h, u, ls, by simp, h1, h2, h3, h4⟩
  · rintro ⟨m, h, u, ls, rfl, h1, h2, h3, h4⟩
    exact ⟨_, h, u ++ c!"@", _, rfl, ⟨u, _, rfl, ⟨h1, by simp, h2⟩, _, rfl, rfl⟩, ls, h3, rfl, h4⟩

/-! ### Semantic versions -/

/-- `0|[1-9]\d*`. -/
def numeralRe : Re := .alt (Re.ofList [Re.byte 48]) (Re.ofList [.cls ⟨false, [(49, 57)]⟩, .rep (.cls cDigit) 0 none])

theorem lang_numeral (m : Str) : numeralRe.Lang m ↔ ∃ n : Nat, m = natDigits n := by
  simp only [numeralRe, lang_alt, lang_single, lang_byte, lang_posNumeral]
  rw [numeral_iff, posNumeral_iff]

/-- `[0-9a-zA-Z-]`. -/
def cIdent : Cls := ⟨false, [(48, 57), (97, 122), (65, 90), (45, 45)]⟩
/-- `[a-zA-Z-]`. -/
def cIdentAlpha : Cls := ⟨false, [(97, 122), (65, 90), (45, 45)]⟩

theorem cIdent_has (x : Byte) : cIdent.has x = true ↔ Letter x ∨ Digit x ∨ x = 45 := by
  simp [Cls.has, cIdent, Letter, Digit, byte_nat, UInt8.le_iff_toNat_le]; omega
theorem cIdentAlpha_has (x : Byte) : cIdentAlpha.has x = true ↔ Letter x ∨ x = 45 := by
  simp [Cls.has, cIdentAlpha, Letter, byte_nat, UInt8.le_iff_toNat_le]; omega

def releaseRe : Re := .alt (Re.ofList [Re.byte 48]) (.alt (Re.ofList [.cls ⟨false, [(49, 57)]⟩, .rep (.cls cDigit) 0 none])
  (Re.ofList [.rep (.cls cDigit) 0 none, .cls cIdentAlpha, .rep (.cls cIdent) 0 none]))

theorem alpha_not_digit {x : Byte} (h : Letter x ∨ x = 45) : ¬ Digit x := by
  intro hd
  have := digit_nat.1 hd
  rcases h with h | rfl
  · have := letter_ne h; omega
  · simp at this

theorem split_digits : ∀ (m : Str), (∀ x ∈ m, Digit x) ∨
    ∃ u x v, m = u ++ x :: v ∧ (∀ y ∈ u, Digit y) ∧ ¬ Digit x
  | [] => .inl (by simp)
  | x :: m => by
    by_cases hx : Digit x
    · rcases split_digits m with h | ⟨u, y, v, rfl, h1, h2⟩
      · left
        intro y hy
        rcases List.mem_cons.1 hy with rfl | hy
        · exact hx
        · exact h y hy
      · right
        refine ⟨x :: u, y, v, rfl, ?_, h2⟩
        intro y hy
        rcases List.mem_cons.1 hy with rfl | hy
        · exact hx
        · exact h1 y hy
    · right; exact ⟨[], x, m, rfl, by simp, hx⟩

theorem lang_release (m : Str) : releaseRe.Lang m ↔ IsReleaseIdent m := by
  have e : releaseRe.Lang m ↔ (∃ n : Nat, m = natDigits n) ∨
      (Re.ofList [.rep (.cls cDigit) 0 none, .cls cIdentAlpha, .rep (.cls cIdent) 0 none]).Lang m := by
    rw [← lang_numeral]; simp only [releaseRe, numeralRe, lang_alt, or_assoc]
  rw [e]
  simp only [lang_cons (.rep _ _ _), lang_cls_cons, lang_nil, lang_rep_cls, cDigit_has, cIdent_has, cIdentAlpha_has]
  unfold IsReleaseIdent IsVersionIdent
  constructor
  · rintro (⟨n, rfl⟩ | ⟨u, _, rfl, ⟨_, _, h1⟩, x, _, rfl, h2, v, _, rfl, ⟨_, _, h3⟩, rfl⟩)
    · refine ⟨⟨(natDigits_spec n).1, ?_⟩, fun _ => ⟨n, rfl⟩⟩
      intro x hx
      exact .inr (.inl ((digit_iff x).2 ((natDigits_spec n).2.1 x hx)))
    · refine ⟨⟨by simp, ?_⟩, ?_⟩
      · intro y hy
        simp only [List.mem_append, List.mem_cons, List.not_mem_nil, or_false] at hy
        rcases hy with hy | rfl | hy
        · exact .inr (.inl (h1 y hy))
        · rcases h2 with h2 | h2
          · exact .inl h2
          · exact .inr (.inr h2)
        · exact h3 y hy
      · intro h; exact absurd (h x (by simp)) (alpha_not_digit h2)
  · rintro ⟨⟨h1, h2⟩, h3⟩
    rcases split_digits m with h | ⟨u, x, v, rfl, h4, h5⟩
    · exact .inl (h3 h)
    · refine .inr ⟨u, _, rfl, ⟨by omega, by simp, h4⟩, x, _, rfl, ?_, v, [], (List.append_nil v).symm, ⟨by omega, by simp, ?_⟩, rfl⟩
      · rcases h2 x (by simp) with h | h | h
        · exact .inl h
        · exact absurd h h5
        · exact .inr h
      · intro y hy; exact h2 y (by simp [hy])

theorem lang_ident (m : Str) : (Re.ofList [.rep (.cls cIdent) 1 none]).Lang m ↔ IsVersionIdent m := by
  simp only [lang_single, lang_rep_cls, cIdent_has, IsVersionIdent, length_pos_iff_ne]
  constructor
  · rintro ⟨h1, _, h2⟩; exact ⟨h1, h2⟩
  · rintro ⟨h1, h2⟩; exact ⟨h1, by simp, h2⟩

theorem lang_release_list (m : Str) : (Re.ofList [releaseRe]).Lang m ↔ IsReleaseIdent m := by
  rw [lang_single, lang_release]

theorem parse_semver : Re.parse reSemver = some (.seq .bol (Re.ofList
    ([numeralRe, Re.byte 46, numeralRe, Re.byte 46, numeralRe,
      .rep (Re.ofList [Re.byte 45, Re.ofList ([releaseRe] ++ [.rep (Re.ofList [Re.byte 46, releaseRe]) 0 none])]) 0 (some 1),
      .rep (Re.ofList [Re.byte 43, Re.ofList ([.rep (.cls cIdent) 1 none] ++
        [.rep (Re.ofList [Re.byte 46, .rep (.cls cIdent) 1 none]) 0 none])]) 0 (some 1)] ++
      [.eol]))) := by decide +kernel

theorem found_semver {r : Re} (h : Re.parse reSemver = some r) (s : Str) : r.Found s ↔ ∃ m, Line s m ∧ IsSemver m := by
  rw [parse_semver, Option.some.injEq] at h; subst h
  rw [Re.found_anchored (by decide)]
  have e1 : ∀ m, (Re.ofList [Re.byte 45, Re.ofList ([releaseRe] ++ [.rep (Re.ofList [Re.byte 46, releaseRe]) 0 none])]).Lang m ↔
      ∃ ids, ids ≠ [] ∧ m = c!"-" ++ joined c!"." ids ∧ ∀ i ∈ ids, IsReleaseIdent i := by
    intro m
    rw [lang_byte_cons]
    simp only [lang_single (Re.ofList _), lang_joined lang_release_list rfl]
    constructor
    · rintro ⟨_, rfl, ids, h1, rfl, h2⟩; exact ⟨ids, h1, rfl, h2⟩
    · rintro ⟨ids, h1, rfl, h2⟩; exact ⟨_, rfl, ids, h1, rfl, h2⟩
  have e2 : ∀ m, (Re.ofList [Re.byte 43, Re.ofList ([.rep (.cls cIdent) 1 none] ++
        [.rep (Re.ofList [Re.byte 46, .rep (.cls cIdent) 1 none]) 0 none])]).Lang m ↔
      ∃ ids, ids ≠ [] ∧ m = c!"+" ++ joined c!"." ids ∧ ∀ i ∈ ids, IsVersionIdent i := by
    intro m
    rw [lang_byte_cons]
    simp only [lang_single (Re.ofList _), lang_joined lang_ident rfl]
    constructor
    · rintro ⟨_, rfl, ids, h1, rfl, h2⟩; exact ⟨ids, h1, rfl, h2⟩
    · rintro ⟨ids, h1, rfl, h2⟩; exact ⟨_, rfl, ids, h1, rfl, h2⟩
  simp only [lang_cons numeralRe, lang_byte_cons 46, lang_cons (.rep _ _ _), lang_opt, lang_nil, e1, e2, lang_numeral]
  unfold IsSemver
  constructor
  · rintro ⟨m, h, _, _, rfl, ⟨a, rfl⟩, _, rfl, _, _, rfl, ⟨b, rfl⟩, _, rfl, _, _, rfl, ⟨c, rfl⟩, p, _, rfl, hp, q, _, rfl, hq, rfl⟩
    exact ⟨_, h, a, b, c, p, q, by simp, hp, hq⟩
  · rintro ⟨m, h, a, b, c, p, q, rfl, hp, hq⟩
    exact ⟨_, h, natDigits a, _, by simp, ⟨a, rfl⟩, _, rfl, natDigits b, _, rfl, ⟨b, rfl⟩, _, rfl, natDigits c, _, rfl, ⟨c, rfl⟩,
      p, _, rfl, hp, q, [], (List.append_nil q).symm, hq, rfl⟩

end Argus
