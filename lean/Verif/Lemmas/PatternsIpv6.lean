import Verif.Lemmas.PatternsParts

/-!
# Reading the predefined patterns: IPv6 addresses
-/

set_option autoImplicit false

namespace Argus

/-! ### Groups -/

/-- `[0-9a-fA-F]{1,4}`. -/
def groupRe : Re := .rep (.cls cHex) 1 (some 4)

theorem lang_group (m : Str) : groupRe.Lang m ↔ IsGroup m := by
  simp only [groupRe, lang_rep_cls, some_le, cHex_has, IsGroup]

/-- Groups, each followed by a colon. -/
def leftRe (lo hi : Nat) : Re := .rep (Re.ofList [groupRe, Re.byte 58]) lo (some hi)
/-- Groups, each after a colon. -/
def rightRe (lo hi : Nat) : Re := .rep (Re.ofList [Re.byte 58, groupRe]) lo (some hi)

/-- Groups, each followed by a colon. -/
def lefts (gs : List Str) : Str := (gs.map (· ++ c!":")).flatten
/-- Groups, each after a colon. -/
def rights (gs : List Str) : Str := (gs.map (c!":" ++ ·)).flatten

theorem lang_left (lo hi : Nat) (m : Str) : (leftRe lo hi).Lang m ↔
    ∃ gs, m = lefts gs ∧ lo ≤ gs.length ∧ gs.length ≤ hi ∧ ∀ g ∈ gs, IsGroup g := by
  have e : ∀ x, (Re.ofList [groupRe, Re.byte 58]).Lang x ↔ ∃ g, x = g ++ c!":" ∧ IsGroup g := by
    intro x
    simp only [lang_cons groupRe, lang_byte_cons, lang_nil, lang_group]
    constructor
    · rintro ⟨g, _, rfl, h, _, rfl, rfl⟩; exact ⟨g, rfl, h⟩
    · rintro ⟨g, rfl, h⟩; exact ⟨g, _, rfl, h, _, rfl, rfl⟩
  simp only [leftRe, lang_rep, some_le, e, forall_exists_map]
  constructor
  · rintro ⟨ms, rfl, h1, h2, gs, rfl, h3⟩; exact ⟨gs, rfl, by simpa using h1, by simpa using h2, h3⟩
  · rintro ⟨gs, rfl, h1, h2, h3⟩; exact ⟨_, rfl, by simpa using h1, by simpa using h2, gs, rfl, h3⟩

theorem lang_right (lo hi : Nat) (m : Str) : (rightRe lo hi).Lang m ↔
    ∃ gs, m = rights gs ∧ lo ≤ gs.length ∧ gs.length ≤ hi ∧ ∀ g ∈ gs, IsGroup g := by
  have e : ∀ x, (Re.ofList [Re.byte 58, groupRe]).Lang x ↔ ∃ g, x = c!":" ++ g ∧ IsGroup g := by
    intro x
    simp only [lang_byte_cons, lang_single, lang_group]
    constructor
    · rintro ⟨g, rfl, h⟩; exact ⟨g, rfl, h⟩
    · rintro ⟨g, rfl, h⟩; exact ⟨g, rfl, h⟩
  simp only [rightRe, lang_rep, some_le, e, forall_exists_map]
  constructor
  · rintro ⟨ms, rfl, h1, h2, gs, rfl, h3⟩; exact ⟨gs, rfl, by simpa using h1, by simpa using h2, h3⟩
  · rintro ⟨gs, rfl, h1, h2, h3⟩; exact ⟨_, rfl, by simpa using h1, by simpa using h2, gs, rfl, h3⟩

theorem lefts_joined {gs : List Str} (h : gs ≠ []) : lefts gs = joined c!":" gs ++ c!":" := by
  rw [← List.dropLast_concat_getLast h, joined_snoc]
  simp [lefts]

theorem rights_joined {gs : List Str} (h : gs ≠ []) : rights gs = c!":" ++ joined c!":" gs := by
  rcases gs with _ | ⟨x, gs⟩
  · exact absurd rfl h
  rw [joined_cons]
  simp [rights]

/-- The nine alternatives that consist of groups. -/
def groupsRe (rest : Re) : Re :=
  .alt (Re.ofList [leftRe 7 7, groupRe])
  (.alt (Re.ofList [leftRe 1 7, Re.byte 58])
  (.alt (Re.ofList [leftRe 1 6, Re.byte 58, groupRe])
  (.alt (Re.ofList [leftRe 1 5, rightRe 1 2])
  (.alt (Re.ofList [leftRe 1 4, rightRe 1 3])
  (.alt (Re.ofList [leftRe 1 3, rightRe 1 4])
  (.alt (Re.ofList [leftRe 1 2, rightRe 1 5])
  (.alt (Re.ofList [groupRe, Re.byte 58, Re.ofList [rightRe 1 6]])
  (.alt (Re.ofList [Re.byte 58, .alt (Re.ofList [rightRe 1 7]) (Re.ofList [Re.byte 58])])
    rest))))))))

/-- Some groups, `::`, some groups. -/
theorem lang_mid (a b c d : Nat) (m : Str) : (Re.ofList [leftRe a b, rightRe c d]).Lang m ↔
    ∃ l r, m = lefts l ++ rights r ∧ a ≤ l.length ∧ l.length ≤ b ∧ c ≤ r.length ∧ r.length ≤ d ∧
      ∀ g ∈ l ++ r, IsGroup g := by
  simp only [lang_cons, lang_nil, lang_left, lang_right]
  constructor
  · rintro ⟨_, _, rfl, ⟨l, rfl, h1, h2, h3⟩, _, _, rfl, ⟨r, rfl, h4, h5, h6⟩, rfl⟩
    refine ⟨l, r, by simp, h1, h2, h4, h5, ?_⟩
    intro g hg
    rcases List.mem_append.1 hg with hg | hg
    · exact h3 g hg
    · exact h6 g hg
  · rintro ⟨l, r, rfl, h1, h2, h4, h5, h6⟩
    exact ⟨_, _, rfl, ⟨l, rfl, h1, h2, fun g hg => h6 g (by simp [hg])⟩, _, [], (List.append_nil _).symm,
      ⟨r, rfl, h4, h5, fun g hg => h6 g (by simp [hg])⟩, rfl⟩

/-- The groups of an address with `::`. -/
theorem shortened {l r : List Str} {m : Str} (hl : l ≠ []) (hr : r ≠ []) (h : l.length + r.length ≤ 7)
    (hg : ∀ g ∈ l ++ r, IsGroup g) (e : m = lefts l ++ rights r) : IsIpv6Groups m := by
  refine .inr ⟨l, r, ?_, h, hg⟩
  rw [e, lefts_joined hl, rights_joined hr]
  simp

theorem ne_of_len {gs : List Str} (h : 1 ≤ gs.length) : gs ≠ [] := by
  rintro rfl; simp at h

theorem lang_groups (rest : Re) (m : Str) : (groupsRe rest).Lang m ↔ IsIpv6Groups m ∨ rest.Lang m := by
  have e1 : (Re.ofList [leftRe 7 7, groupRe]).Lang m ↔ ∃ gs, m = joined c!":" gs ∧ gs.length = 8 ∧ ∀ g ∈ gs, IsGroup g := by
    simp only [lang_cons, lang_nil, lang_left, lang_group]
    constructor
    · rintro ⟨_, _, rfl, ⟨gs, rfl, h1, h2, h3⟩, g, _, rfl, h4, rfl⟩
      refine ⟨gs ++ [g], by rw [joined_snoc]; simp [lefts], by simp; omega, ?_⟩
      intro x hx
      rcases List.mem_append.1 hx with hx | hx
      · exact h3 x hx
      · simp at hx; subst hx; exact h4
    · rintro ⟨gs, rfl, h1, h2⟩
      have hne : gs ≠ [] := by rintro rfl; simp at h1
      have e := List.dropLast_concat_getLast hne
      have hlen := congrArg List.length e
      simp at hlen
      refine ⟨lefts gs.dropLast, gs.getLast hne, ?_, ⟨gs.dropLast, rfl, by simp; omega, by simp; omega, ?_⟩, _, [],
        (List.append_nil _).symm, h2 _ (List.getLast_mem hne), rfl⟩
      · conv => lhs; rw [← e]
        rw [joined_snoc]; rfl
      · intro g hg; exact h2 g (by rw [← e]; exact List.mem_append_left _ hg)
  have e2 : (Re.ofList [leftRe 1 7, Re.byte 58]).Lang m ↔
      ∃ gs, m = lefts gs ++ c!":" ∧ 1 ≤ gs.length ∧ gs.length ≤ 7 ∧ ∀ g ∈ gs, IsGroup g := by
    simp only [lang_cons (leftRe _ _), lang_byte_cons, lang_nil, lang_left]
    constructor
    · rintro ⟨_, _, rfl, ⟨gs, rfl, h⟩, _, rfl, rfl⟩; exact ⟨gs, rfl, h⟩
    · rintro ⟨gs, rfl, h⟩; exact ⟨_, _, rfl, ⟨gs, rfl, h⟩, _, rfl, rfl⟩
  have e3 : (Re.ofList [leftRe 1 6, Re.byte 58, groupRe]).Lang m ↔
      ∃ l r, m = lefts l ++ rights r ∧ 1 ≤ l.length ∧ l.length ≤ 6 ∧ r.length = 1 ∧ ∀ g ∈ l ++ r, IsGroup g := by
    simp only [lang_cons (leftRe _ _), lang_byte_cons, lang_single, lang_left, lang_group]
    constructor
    · rintro ⟨_, _, rfl, ⟨l, rfl, h1, h2, h3⟩, g, rfl, h4⟩
      refine ⟨l, [g], by simp [rights], h1, h2, rfl, ?_⟩
      intro x hx
      rcases List.mem_append.1 hx with hx | hx
      · exact h3 x hx
      · simp at hx; subst hx; exact h4
    · rintro ⟨l, r, rfl, h1, h2, h3, h4⟩
      rcases r with _ | ⟨g, _ | ⟨g', r⟩⟩ <;> simp at h3
      exact ⟨_, _, rfl, ⟨l, rfl, h1, h2, fun x hx => h4 x (by simp [hx])⟩, g, by simp [rights], h4 g (by simp)⟩
  have e8 : (Re.ofList [groupRe, Re.byte 58, Re.ofList [rightRe 1 6]]).Lang m ↔
      ∃ l r, m = lefts l ++ rights r ∧ l.length = 1 ∧ 1 ≤ r.length ∧ r.length ≤ 6 ∧ ∀ g ∈ l ++ r, IsGroup g := by
    simp only [lang_cons groupRe, lang_byte_cons, lang_single, lang_right, lang_group]
    constructor
    · rintro ⟨g, _, rfl, h4, _, rfl, r, rfl, h1, h2, h3⟩
      refine ⟨[g], r, by simp [lefts], rfl, h1, h2, ?_⟩
      intro x hx
      rcases List.mem_append.1 hx with hx | hx
      · simp at hx; subst hx; exact h4
      · exact h3 x hx
    · rintro ⟨l, r, rfl, h1, h2, h3, h4⟩
      rcases l with _ | ⟨g, _ | ⟨g', l⟩⟩ <;> simp at h1
      exact ⟨g, 58 :: rights r, by simp [lefts], h4 g (by simp), _, rfl, r, rfl, h2, h3, fun x hx => h4 x (by simp [hx])⟩
  have e9 : (Re.ofList [Re.byte 58, .alt (Re.ofList [rightRe 1 7]) (Re.ofList [Re.byte 58])]).Lang m ↔
      (∃ r, m = c!":" ++ rights r ∧ 1 ≤ r.length ∧ r.length ≤ 7 ∧ ∀ g ∈ r, IsGroup g) ∨ m = c!"::" := by
    rw [lang_byte_cons]
    simp only [lang_single, lang_alt, lang_right, lang_byte]
    constructor
    · rintro ⟨_, rfl, ⟨r, rfl, h⟩ | rfl⟩
      · exact .inl ⟨r, rfl, h⟩
      · exact .inr rfl
    · rintro (⟨r, rfl, h⟩ | rfl)
      · exact ⟨_, rfl, .inl ⟨r, rfl, h⟩⟩
      · exact ⟨_, rfl, .inr rfl⟩
  simp only [groupsRe, lang_alt, e1, e2, e3, e8, e9, lang_mid]
  constructor
  · rintro (h | ⟨gs, rfl, h1, h2, h3⟩ | ⟨l, r, e, h1, h2, h3, h4⟩ | ⟨l, r, e, h1, h2, h3, h4, h5⟩ | ⟨l, r, e, h1, h2, h3, h4, h5⟩ |
      ⟨l, r, e, h1, h2, h3, h4, h5⟩ | ⟨l, r, e, h1, h2, h3, h4, h5⟩ | ⟨l, r, e, h1, h2, h3, h4⟩ |
      (⟨r, rfl, h1, h2, h3⟩ | rfl) | h)
    · exact .inl (.inl h)
    · refine .inl (.inr ⟨gs, [], ?_, by simpa using h2, by simpa using h3⟩)
      rw [lefts_joined (ne_of_len h1)]; simp [joined]
    · exact .inl (shortened (ne_of_len h1) (ne_of_len (by omega)) (by omega) h4 e)
    · exact .inl (shortened (ne_of_len h1) (ne_of_len h3) (by omega) h5 e)
    · exact .inl (shortened (ne_of_len h1) (ne_of_len h3) (by omega) h5 e)
    · exact .inl (shortened (ne_of_len h1) (ne_of_len h3) (by omega) h5 e)
    · exact .inl (shortened (ne_of_len h1) (ne_of_len h3) (by omega) h5 e)
    · exact .inl (shortened (ne_of_len (by omega)) (ne_of_len h2) (by omega) h4 e)
    · refine .inl (.inr ⟨[], r, ?_, by simpa using h2, by simpa using h3⟩)
      rw [rights_joined (ne_of_len h1)]; rfl
    · exact .inl (.inr ⟨[], [], rfl, by simp, by simp⟩)
    · exact .inr h
  · rintro ((h | ⟨l, r, rfl, h1, h2⟩) | h)
    · exact .inl h
    · by_cases hl : l = []
      · subst hl
        by_cases hr : r = []
        · subst hr
          exact .inr (.inr (.inr (.inr (.inr (.inr (.inr (.inr (.inl (.inr rfl)))))))))
        · refine .inr (.inr (.inr (.inr (.inr (.inr (.inr (.inr (.inl (.inl ⟨r, ?_, ?_, by simpa using h1, by simpa using h2⟩)))))))))
          · rw [rights_joined hr]; rfl
          · cases r
            · exact absurd rfl hr
            · simp
      · have hl1 : 1 ≤ l.length := by
          cases l
          · exact absurd rfl hl
          · simp
        by_cases hr : r = []
        · subst hr
          refine .inr (.inl ⟨l, ?_, hl1, by simpa using h1, by simpa using h2⟩)
          rw [lefts_joined hl]; simp [joined]
        · have hr1 : 1 ≤ r.length := by
            cases r
            · exact absurd rfl hr
            · simp
          have e : joined c!":" l ++ c!"::" ++ joined c!":" r = lefts l ++ rights r := by
            rw [lefts_joined hl, rights_joined hr]; simp
          by_cases k6 : l.length = 6
          · exact .inr (.inr (.inl ⟨l, r, e, by omega, by omega, by omega, h2⟩))
          by_cases k5 : l.length = 5
          · exact .inr (.inr (.inr (.inl ⟨l, r, e, by omega, by omega, by omega, by omega, h2⟩)))
          by_cases k4 : l.length = 4
          · exact .inr (.inr (.inr (.inr (.inl ⟨l, r, e, by omega, by omega, by omega, by omega, h2⟩))))
          by_cases k3 : l.length = 3
          · exact .inr (.inr (.inr (.inr (.inr (.inl ⟨l, r, e, by omega, by omega, by omega, by omega, h2⟩)))))
          by_cases k2 : l.length = 2
          · exact .inr (.inr (.inr (.inr (.inr (.inr (.inl ⟨l, r, e, by omega, by omega, by omega, by omega, h2⟩))))))
          · exact .inr (.inr (.inr (.inr (.inr (.inr (.inr (.inl ⟨l, r, e, by omega, by omega, by omega, h2⟩)))))))
    · exact .inr (.inr (.inr (.inr (.inr (.inr (.inr (.inr (.inr h))))))))

/-! ### Zones -/

/-- `[0-9a-zA-Z]`. -/
def cZone : Cls := ⟨false, [(48, 57), (97, 122), (65, 90)]⟩

theorem cZone_has (x : Byte) : cZone.has x = true ↔ Letter x ∨ Digit x := by
  simp [Cls.has, cZone, Letter, Digit]; grind

def zoneRe : Re := Re.ofList [Re.byte 102, Re.byte 101, Re.byte 56, Re.byte 48, Re.byte 58,
  .rep (Re.ofList [Re.byte 58, .rep (.cls cHex) 0 (some 4)]) 0 (some 4), Re.byte 37, .rep (.cls cZone) 1 none]

theorem lang_zone (m : Str) : zoneRe.Lang m ↔ IsIpv6Zone m := by
  have e : ∀ x, (Re.ofList [Re.byte 58, .rep (.cls cHex) 0 (some 4)]).Lang x ↔
      ∃ g, x = c!":" ++ g ∧ (g.length ≤ 4 ∧ ∀ z ∈ g, HexDigit z) := by
    intro x
    simp only [lang_byte_cons, lang_single, lang_rep_cls, some_le, cHex_has]
    constructor
    · rintro ⟨g, rfl, _, h⟩; exact ⟨g, rfl, h⟩
    · rintro ⟨g, rfl, h⟩; exact ⟨g, rfl, by omega, h⟩
  have e' : ∀ x, (Re.rep (Re.ofList [Re.byte 58, .rep (.cls cHex) 0 (some 4)]) 0 (some 4)).Lang x ↔
      ∃ gs : List Str, x = (gs.map (c!":" ++ ·)).flatten ∧ gs.length ≤ 4 ∧ ∀ g ∈ gs, g.length ≤ 4 ∧ ∀ z ∈ g, HexDigit z := by
    intro x
    rw [lang_rep]
    simp only [some_le, e, forall_exists_map]
    constructor
    · rintro ⟨ms, rfl, _, h2, gs, rfl, h3⟩; exact ⟨gs, rfl, by simpa using h2, h3⟩
    · rintro ⟨gs, rfl, h2, h3⟩; exact ⟨_, rfl, by omega, by simpa using h2, gs, rfl, h3⟩
  simp only [zoneRe, lang_byte_cons, lang_cons (.rep _ _ _), lang_nil, e']
  simp only [lang_rep_cls, cZone_has, length_pos_iff_ne, IsIpv6Zone]
  constructor
  · rintro ⟨_, rfl, _, rfl, _, rfl, _, rfl, _, rfl, _, _, rfl, ⟨gs, rfl, h1, h2⟩, _, rfl, z, _, rfl, ⟨h3, _, h4⟩, rfl⟩
    exact ⟨gs, z, by simp, h1, h2, h3, h4⟩
  · rintro ⟨gs, z, rfl, h1, h2, h3, h4⟩
    exact ⟨_, rfl, _, rfl, _, rfl, _, rfl, _, rfl, _, c!"%" ++ z, by simp, ⟨gs, rfl, h1, h2⟩, _, rfl, z, [],
      (List.append_nil z).symm, ⟨h3, by simp, h4⟩, rfl⟩

/-! ### Dotted endings -/

/-- `25[0-5]|(2[0-4]|1{0,1}[0-9]){0,1}[0-9]`. -/
def octet6Re : Re :=
  .alt (Re.ofList [Re.byte 50, Re.byte 53, .cls ⟨false, [(48, 53)]⟩])
    (Re.ofList [.rep (.alt (Re.ofList [Re.byte 50, .cls ⟨false, [(48, 52)]⟩])
      (Re.ofList [.rep (Re.byte 49) 0 (some 1), .cls cDigit])) 0 (some 1), .cls cDigit])

theorem lang_octet6 (m : Str) : octet6Re.Lang m ↔ IsOctet6 m := by
  have e : ∀ x, (Re.rep (.alt (Re.ofList [Re.byte 50, .cls ⟨false, [(48, 52)]⟩])
      (Re.ofList [.rep (Re.byte 49) 0 (some 1), .cls cDigit])) 0 (some 1)).Lang x ↔
      x = [] ∨ (∃ a, x = [50, a] ∧ 48 ≤ a.toNat ∧ a.toNat ≤ 52) ∨ (∃ a, x = [a] ∧ Digit a) ∨ ∃ a, x = [49, a] ∧ Digit a := by
    intro x
    rw [lang_opt, lang_alt, lang_byte_cons, lang_cons]
    simp only [lang_opt, lang_byte, lang_cls_cons, lang_nil, range_has, cDigit_has, UInt8.reduceToNat]
    constructor
    · rintro (h | ⟨_, rfl, a, _, rfl, h, rfl⟩ | ⟨_, _, rfl, rfl | rfl, a, _, rfl, h, rfl⟩)
      · exact .inl h
      · exact .inr (.inl ⟨a, rfl, h⟩)
      · exact .inr (.inr (.inl ⟨a, rfl, h⟩))
      · exact .inr (.inr (.inr ⟨a, rfl, h⟩))
    · rintro (h | ⟨a, rfl, h⟩ | ⟨a, rfl, h⟩ | ⟨a, rfl, h⟩)
      · exact .inl h
      · exact .inr (.inl ⟨_, rfl, a, _, rfl, h, rfl⟩)
      · exact .inr (.inr ⟨[], _, rfl, .inl rfl, a, _, rfl, h, rfl⟩)
      · exact .inr (.inr ⟨[49], _, rfl, .inr rfl, a, _, rfl, h, rfl⟩)
  simp only [octet6Re, lang_alt, lang_byte_cons, lang_cls_cons, lang_cons (.rep _ _ _), lang_nil, e, range_has,
    cDigit_has, digit_nat, UInt8.reduceToNat]
  clear e
  unfold IsOctet6 IsOctet
  constructor
  · rintro (⟨_, rfl, _, rfl, a, _, rfl, h1, rfl⟩ | ⟨_, _, rfl, h0, b, _, rfl, h1, rfl⟩)
    · refine ⟨⟨by simp, by simp, ?_, ?_⟩, by simp⟩
      · simp [digit_nat]; omega
      · simp [digitsVal]; omega
    · rcases h0 with rfl | ⟨a, rfl, h0⟩ | ⟨a, rfl, h0⟩ | ⟨a, rfl, h0⟩ <;> refine ⟨⟨by simp, by simp, ?_, ?_⟩, by simp⟩
      all_goals first
        | (simp [digit_nat]; omega)
        | (simp [digitsVal]; omega)
  · rintro ⟨⟨h1, h2, h3, h4⟩, h5⟩
    rcases m with _ | ⟨a, _ | ⟨b, _ | ⟨c, _ | ⟨d, t⟩⟩⟩⟩
    · simp at h1
    · simp [digit_nat] at h3
      exact .inr ⟨[], _, rfl, .inl rfl, a, _, rfl, h3, rfl⟩
    · simp [digit_nat] at h3
      exact .inr ⟨[a], _, rfl, .inr (.inr (.inl ⟨a, rfl, h3.1⟩)), b, _, rfl, h3.2, rfl⟩
    · simp [digit_nat] at h3
      simp [digitsVal] at h4
      simp [byte_nat] at h5
      by_cases k1 : a.toNat = 49
      · have ha : a = 49 := by rw [byte_nat]; simpa using k1
        subst ha
        exact .inr ⟨[49, b], _, rfl, .inr (.inr (.inr ⟨b, rfl, h3.2.1⟩)), c, _, rfl, h3.2.2, rfl⟩
      have ha : a = 50 := by rw [byte_nat]; simp; omega
      subst ha
      simp at h4
      by_cases k2 : b.toNat ≤ 52
      · exact .inr ⟨[50, b], _, rfl, .inr (.inl ⟨b, rfl, by omega⟩), c, _, rfl, h3.2.2, rfl⟩
      have hb : b = 53 := by rw [byte_nat]; simp; omega
      subst hb
      simp at h4
      exact .inl ⟨_, rfl, _, rfl, c, _, rfl, by omega, rfl⟩
    · simp at h2

/-- A dotted address. -/
def quad6Re : List Re := [.rep (Re.ofList [octet6Re, Re.byte 46]) 3 (some 3), octet6Re]

theorem lang_quad6 (m : Str) : (Re.ofList quad6Re).Lang m ↔ IsQuad6 m := lang_quad lang_octet6 m

/-- `(ffff(:0{1,4}){0,1}:){0,1}`. -/
def mappedRe : Re := .rep (Re.ofList [Re.byte 102, Re.byte 102, Re.byte 102, Re.byte 102,
  .rep (Re.ofList [Re.byte 58, .rep (Re.byte 48) 1 (some 4)]) 0 (some 1), Re.byte 58]) 0 (some 1)

theorem lang_mapped (m : Str) : mappedRe.Lang m ↔ m = [] ∨ m = c!"ffff:" ∨
    ∃ z, m = c!"ffff:" ++ z ++ c!":" ∧ 1 ≤ z.length ∧ z.length ≤ 4 ∧ ∀ x ∈ z, x = 48 := by
  have e : ∀ x, (Re.ofList [Re.byte 58, .rep (Re.byte 48) 1 (some 4)]).Lang x ↔
      ∃ z, x = c!":" ++ z ∧ 1 ≤ z.length ∧ z.length ≤ 4 ∧ ∀ x ∈ z, x = 48 := by
    intro x
    have : ∀ z, (Re.rep (Re.byte 48) 1 (some 4)).Lang z ↔ 1 ≤ z.length ∧ z.length ≤ 4 ∧ ∀ x ∈ z, x = 48 := by
      intro z
      show (Re.rep (.cls ⟨false, [(48, 48)]⟩) 1 (some 4)).Lang z ↔ _
      simp only [lang_rep_cls, some_le, byte_has]
    simp only [lang_byte_cons, lang_single, this]
    constructor
    · rintro ⟨z, rfl, h⟩; exact ⟨z, rfl, h⟩
    · rintro ⟨z, rfl, h⟩; exact ⟨z, rfl, h⟩
  have e1 : ∀ x, (Re.rep (Re.ofList [Re.byte 58, .rep (Re.byte 48) 1 (some 4)]) 0 (some 1)).Lang x ↔
      x = [] ∨ ∃ z, x = c!":" ++ z ∧ 1 ≤ z.length ∧ z.length ≤ 4 ∧ ∀ x ∈ z, x = 48 := by
    intro x; rw [lang_opt, e]
  rw [mappedRe, lang_opt]
  simp only [lang_byte_cons, lang_cons (.rep _ _ _), lang_nil, e1]
  constructor
  · rintro (h | ⟨_, rfl, _, rfl, _, rfl, _, rfl, _, _, rfl, rfl | ⟨z, rfl, h⟩, _, rfl, rfl⟩)
    · exact .inl h
    · exact .inr (.inl rfl)
    · exact .inr (.inr ⟨z, by simp, h⟩)
  · rintro (h | rfl | ⟨z, rfl, h⟩)
    · exact .inl h
    · exact .inr ⟨_, rfl, _, rfl, _, rfl, _, rfl, [], _, rfl, .inl rfl, _, rfl, rfl⟩
    · exact .inr ⟨_, rfl, _, rfl, _, rfl, _, rfl, c!":" ++ z, c!":", by simp, .inr ⟨z, rfl, h⟩, _, rfl, rfl⟩

def dottedRe : Re := .alt (Re.ofList ([Re.byte 58, Re.byte 58, mappedRe] ++ quad6Re))
  (Re.ofList ([leftRe 1 4, Re.byte 58] ++ quad6Re))

theorem lang_dotted (m : Str) : dottedRe.Lang m ↔ IsIpv6Dotted m := by
  simp only [dottedRe, lang_alt, lang_append, lang_quad6, lang_byte_cons, lang_cons (leftRe _ _), lang_single, lang_mapped,
    lang_left, lang_byte, IsIpv6Dotted]
  constructor
  · rintro (⟨_, q, rfl, ⟨_, rfl, _, rfl, rfl | rfl | ⟨z, rfl, h⟩⟩, hq⟩ | ⟨_, q, rfl, ⟨_, _, rfl, ⟨gs, rfl, h1, h2, h3⟩, rfl⟩, hq⟩)
    · exact ⟨q, hq, .inl rfl⟩
    · exact ⟨q, hq, .inr (.inl rfl)⟩
    · exact ⟨q, hq, .inr (.inr (.inl ⟨z, by simp, h⟩))⟩
    · refine ⟨q, hq, .inr (.inr (.inr ⟨gs, ?_, h1, h2, h3⟩))⟩
      rw [lefts_joined (ne_of_len h1)]; simp
  · rintro ⟨q, hq, rfl | rfl | ⟨z, rfl, h⟩ | ⟨gs, rfl, h1, h2, h3⟩⟩
    · exact .inl ⟨c!"::", q, rfl, ⟨_, rfl, _, rfl, .inl rfl⟩, hq⟩
    · exact .inl ⟨c!"::ffff:", q, rfl, ⟨_, rfl, _, rfl, .inr (.inl rfl)⟩, hq⟩
    · exact .inl ⟨c!"::ffff:" ++ z ++ c!":", q, rfl, ⟨_, rfl, _, rfl, .inr (.inr ⟨z, rfl, h⟩)⟩, hq⟩
    · refine .inr ⟨lefts gs ++ c!":", q, ?_, ⟨_, _, rfl, ⟨gs, rfl, h1, h2, h3⟩, rfl⟩, hq⟩
      rw [lefts_joined (ne_of_len h1)]; simp

theorem parse_ipv6 : Re.parse reIpv6 =
    some (.seq .bol (Re.ofList ([groupsRe (.alt zoneRe dottedRe)] ++ [.eol]))) := by decide +kernel

theorem found_ipv6 {r : Re} (h : Re.parse reIpv6 = some r) (s : Str) :
    r.Found s ↔ ∃ m, Line s m ∧ (IsIpv6Groups m ∨ IsIpv6Zone m ∨ IsIpv6Dotted m) := by
  rw [parse_ipv6, Option.some.injEq] at h; subst h
  rw [Re.found_anchored (by decide)]
  simp only [lang_single (groupsRe _), lang_groups, lang_alt, lang_zone, lang_dotted]

end Argus
