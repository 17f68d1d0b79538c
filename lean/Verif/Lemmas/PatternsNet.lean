import Verif.Lemmas.PatternsFixed

/-!
# Reading the predefined patterns: URLs, addresses, paths, passwords
-/

set_option autoImplicit false

namespace Argus

/-! ### URLs -/

/-- `[^\s/$.?#]`. -/
def cUrlFirst : Cls := ⟨true, [(9, 13), (32, 32), (47, 47), (36, 36), (46, 46), (63, 63), (35, 35)]⟩
/-- `.` -/
def cDot : Cls := ⟨true, [(10, 10)]⟩
/-- `[^\s]`. -/
def cNoSpace : Cls := ⟨true, [(9, 13), (32, 32)]⟩
/-- `[a-zA-Z0-9+.-]`. -/
def cScheme : Cls := ⟨false, [(97, 122), (65, 90), (48, 57), (43, 43), (46, 46), (45, 45)]⟩

theorem cUrlFirst_has (x : Byte) : cUrlFirst.has x = true ↔ ¬ Space x ∧ x ∉ c!"/$.?#" := by
  simp [Cls.has, cUrlFirst, Space, byte_nat, UInt8.le_iff_toNat_le, UInt8.lt_iff_toNat_lt]; omega

theorem cDot_has (x : Byte) : cDot.has x = true ↔ x ≠ 10 := by
  simp [Cls.has, cDot, byte_nat, UInt8.le_iff_toNat_le, UInt8.lt_iff_toNat_lt]; omega

theorem cNoSpace_has (x : Byte) : cNoSpace.has x = true ↔ ¬ Space x := by
  simp [Cls.has, cNoSpace, Space, byte_nat, UInt8.le_iff_toNat_le, UInt8.lt_iff_toNat_lt]; omega

theorem cScheme_has (x : Byte) : cScheme.has x = true ↔ Letter x ∨ Digit x ∨ x ∈ c!"+.-" := by
  simp [Cls.has, cScheme, Letter, Digit, byte_nat, UInt8.le_iff_toNat_le]; omega

def urlRestRe : List Re := [.cls cUrlFirst, .cls cDot, .rep (.cls cNoSpace) 0 none]

theorem lang_urlRest (m : Str) : (Re.ofList urlRestRe).Lang m ↔ IsUrlRest m := by
  simp only [urlRestRe, lang_cls_cons, lang_single, lang_rep_cls, cUrlFirst_has, cDot_has, cNoSpace_has, IsUrlRest]
  constructor
  · rintro ⟨x, _, rfl, ⟨h1, h2⟩, y, t, rfl, h3, _, _, h4⟩; exact ⟨x, y, t, rfl, h1, h2, h3, h4⟩
  · rintro ⟨x, y, t, rfl, h1, h2, h3, h4⟩; exact ⟨x, _, rfl, ⟨h1, h2⟩, y, t, rfl, h3, by omega, by simp, h4⟩

theorem parse_http : Re.parse reHttp = some (.seq .bol (Re.ofList
    (([Re.byte 104, Re.byte 116, Re.byte 116, Re.byte 112, .rep (Re.byte 115) 0 (some 1), Re.byte 58, Re.byte 47,
      Re.byte 47] ++ urlRestRe) ++ [.eol]))) := by decide +kernel

theorem found_http {r : Re} (h : Re.parse reHttp = some r) (s : Str) : r.Found s ↔ ∃ m, Line s m ∧ IsHttpUrl m := by
  rw [parse_http, Option.some.injEq] at h; subst h
  rw [Re.found_anchored (by decide)]
  simp only [lang_append, lang_urlRest, lang_byte_cons, lang_cons (.rep _ _ _), lang_opt, lang_byte, lang_nil, IsHttpUrl]
  constructor
  · rintro ⟨m, h, _, y, rfl, ⟨_, rfl, _, rfl, _, rfl, _, rfl, o, _, rfl, h1, _, rfl, _, rfl, _, rfl, rfl⟩, h2⟩
    refine ⟨_, h, c!"http" ++ o, y, by simp, ?_, h2⟩
    rcases h1 with rfl | rfl
    · left; rfl
    · right; rfl
  · rintro ⟨m, h, sc, y, rfl, h1, h2⟩
    refine ⟨_, h, sc ++ c!"://", y, by simp, ?_, h2⟩
    rcases h1 with rfl | rfl
    · exact ⟨_, rfl, _, rfl, _, rfl, _, rfl, [], _, rfl, .inl rfl, _, rfl, _, rfl, _, rfl, rfl⟩
    · exact ⟨_, rfl, _, rfl, _, rfl, _, rfl, [115], _, rfl, .inr rfl, _, rfl, _, rfl, _, rfl, rfl⟩

theorem parse_url : Re.parse reUrl = some (.seq .bol (Re.ofList
    (([Re.ofList [.cls cLetter', .rep (.cls cScheme) 0 none], Re.byte 58, Re.byte 47,
      Re.byte 47] ++ urlRestRe) ++ [.eol]))) := by decide +kernel

theorem found_url {r : Re} (h : Re.parse reUrl = some r) (s : Str) : r.Found s ↔ ∃ m, Line s m ∧ IsUrl m := by
  rw [parse_url, Option.some.injEq] at h; subst h
  rw [Re.found_anchored (by decide)]
  simp only [lang_append, lang_urlRest, lang_cons (Re.ofList _), lang_cls_cons, lang_byte_cons, lang_single, lang_rep_cls,
    cLetter_has', cScheme_has, lang_byte, IsUrl]
  constructor
  · rintro ⟨m, h, _, y, rfl, ⟨_, _, rfl, ⟨x, sc, rfl, h1, _, _, h2⟩, _, rfl, _, rfl, rfl⟩, h3⟩
    exact ⟨_, h, x, sc, y, by simp, h1, h2, h3⟩
  · rintro ⟨m, h, x, sc, y, rfl, h1, h2, h3⟩
    exact ⟨_, h, x :: sc ++ c!"://", y, by simp, ⟨x :: sc, _, rfl, ⟨x, sc, rfl, h1, by omega, by simp, h2⟩, _, rfl, _, rfl,
      rfl⟩, h3⟩

/-! ### Email addresses -/

/-- `[a-zA-Z0-9._%+-]`. -/
def cMailUser : Cls := ⟨false, [(97, 122), (65, 90), (48, 57), (46, 46), (95, 95), (37, 37), (43, 43), (45, 45)]⟩
/-- `[a-zA-Z0-9.-]`. -/
def cMailHost : Cls := ⟨false, [(97, 122), (65, 90), (48, 57), (46, 46), (45, 45)]⟩

theorem cMailUser_has (x : Byte) : cMailUser.has x = true ↔ Letter x ∨ Digit x ∨ x ∈ c!"._%+-" := by
  simp [Cls.has, cMailUser, Letter, Digit, byte_nat, UInt8.le_iff_toNat_le]; omega

theorem cMailHost_has (x : Byte) : cMailHost.has x = true ↔ Letter x ∨ Digit x ∨ x = 46 ∨ x = 45 := by
  simp [Cls.has, cMailHost, Letter, Digit, byte_nat, UInt8.le_iff_toNat_le]; omega

theorem parse_email : Re.parse reEmail = some (.seq .bol (Re.ofList
    ([.rep (.cls cMailUser) 1 none, Re.byte 64, .rep (.cls cMailHost) 1 none, Re.byte 46, .rep (.cls cLetter') 2 none] ++
      [.eol]))) := by decide +kernel

theorem found_email {r : Re} (h : Re.parse reEmail = some r) (s : Str) : r.Found s ↔ ∃ m, Line s m ∧ IsEmail m := by
  rw [parse_email, Option.some.injEq] at h; subst h
  rw [Re.found_anchored (by decide)]
  simp only [lang_cons (.rep _ _ _), lang_byte_cons, lang_nil, lang_rep_cls, cMailUser_has, cMailHost_has, cLetter_has',
    length_pos_iff_ne, IsEmail]
  constructor
  · rintro ⟨m, h, u, _, rfl, ⟨h1, _, h2⟩, _, rfl, ho, _, rfl, ⟨h3, _, h4⟩, _, rfl, t, _, rfl, ⟨h5, _, h6⟩, rfl⟩
    exact ⟨_, h, u, ho, t, by simp, h1, h2, h3, h4, h5, h6⟩
  · rintro ⟨m, h, u, ho, t, rfl, h1, h2, h3, h4, h5, h6⟩
    exact ⟨_, h, u, _, by simp, ⟨h1, by simp, h2⟩, _, rfl, ho, _, rfl, ⟨h3, by simp, h4⟩, _, rfl, t, [],
      (List.append_nil t).symm, ⟨h5, by simp, h6⟩, rfl⟩

/-! ### IPv4 -/

/-- `25[0-5]|2[0-4][0-9]|[01]?[0-9][0-9]?`. -/
def octetRe : Re :=
  .alt (Re.ofList [Re.byte 50, Re.byte 53, .cls ⟨false, [(48, 53)]⟩])
  (.alt (Re.ofList [Re.byte 50, .cls ⟨false, [(48, 52)]⟩, .cls cDigit])
    (Re.ofList [.rep (.cls ⟨false, [(48, 48), (49, 49)]⟩) 0 (some 1), .cls cDigit, .rep (.cls cDigit) 0 (some 1)]))

theorem c01_has (x : Byte) : (Cls.mk false [(48, 48), (49, 49)]).has x = true ↔ 48 ≤ x.toNat ∧ x.toNat ≤ 49 := by
  simp [Cls.has, UInt8.le_iff_toNat_le]; omega

theorem lang_opt_cls (c : Cls) (m : Str) : (Re.rep (.cls c) 0 (some 1)).Lang m ↔ m = [] ∨ ∃ x, m = [x] ∧ c.has x = true :=
  lang_opt _ _

theorem lang_octet (m : Str) : octetRe.Lang m ↔ IsOctet m := by
  simp only [octetRe, lang_alt, lang_byte_cons, lang_cls_cons, lang_cons (.rep _ _ _), lang_opt_cls, lang_nil, range_has,
    cDigit_has, c01_has, digit_nat, UInt8.reduceToNat]
  unfold IsOctet
  constructor
  · rintro (⟨_, rfl, _, rfl, a, _, rfl, h1, rfl⟩ | ⟨_, rfl, a, _, rfl, h1, b, _, rfl, h2, rfl⟩ |
      ⟨_, _, rfl, h0, a, _, rfl, h1, o, _, rfl, h2, rfl⟩)
    · refine ⟨by simp, by simp, ?_, ?_⟩
      · simp [digit_nat]; omega
      · simp [digitsVal]; omega
    · refine ⟨by simp, by simp, ?_, ?_⟩
      · simp [digit_nat]; omega
      · simp [digitsVal]; omega
    · rcases h0 with rfl | ⟨x, rfl, hx⟩ <;> rcases h2 with rfl | ⟨y, rfl, hy⟩ <;> refine ⟨by simp, by simp, ?_, ?_⟩
      all_goals first
        | (simp [digit_nat]; omega)
        | (simp [digitsVal]; omega)
  · rintro ⟨h1, h2, h3, h4⟩
    rcases m with _ | ⟨a, _ | ⟨b, _ | ⟨c, _ | ⟨d, t⟩⟩⟩⟩
    · simp at h1
    · simp [digit_nat] at h3
      exact .inr (.inr ⟨[], _, rfl, .inl rfl, a, _, rfl, h3, [], [], rfl, .inl rfl, rfl⟩)
    · simp [digit_nat] at h3
      exact .inr (.inr ⟨[], _, rfl, .inl rfl, a, _, rfl, h3.1, [b], [], rfl, .inr ⟨b, rfl, h3.2⟩, rfl⟩)
    · simp [digit_nat] at h3
      simp [digitsVal] at h4
      by_cases k1 : a.toNat ≤ 49
      · exact .inr (.inr ⟨[a], _, rfl, .inr ⟨a, rfl, by omega, k1⟩, b, _, rfl, h3.2.1, [c], [], rfl, .inr ⟨c, rfl, h3.2.2⟩, rfl⟩)
      have ha : a = 50 := by rw [byte_nat]; simp; omega
      subst ha
      simp at h4
      by_cases k2 : b.toNat ≤ 52
      · exact .inr (.inl ⟨_, rfl, b, _, rfl, by omega, c, _, rfl, h3.2.2, rfl⟩)
      have hb : b = 53 := by rw [byte_nat]; simp; omega
      subst hb
      simp at h4
      exact .inl ⟨_, rfl, _, rfl, c, _, rfl, by omega, rfl⟩
    · simp at h2

/-- A repetition a fixed number of times, three. -/
theorem lang_three (r : Re) (m : Str) : (Re.rep r 3 (some 3)).Lang m ↔
    ∃ x y z, m = x ++ y ++ z ∧ r.Lang x ∧ r.Lang y ∧ r.Lang z := by
  rw [lang_rep]
  simp only [some_le]
  constructor
  · rintro ⟨ms, rfl, h1, h2, h3⟩
    rcases ms with _ | ⟨a, _ | ⟨b, _ | ⟨c, _ | ⟨d, t⟩⟩⟩⟩ <;> simp at h1 h2 h3
    exact ⟨a, b, c, by simp, h3.1, h3.2.1, h3.2.2⟩
  · rintro ⟨x, y, z, rfl, h1, h2, h3⟩
    exact ⟨[x, y, z], by simp, by simp, by simp, by simp; exact ⟨h1, h2, h3⟩⟩

/-- Four parts with dots between them. -/
theorem lang_quad {L : Str → Prop} {r : Re} (h : ∀ m, r.Lang m ↔ L m) (m : Str) :
    (Re.ofList [.rep (Re.ofList [r, Re.byte 46]) 3 (some 3), r]).Lang m ↔
      ∃ a b c d, m = a ++ c!"." ++ b ++ c!"." ++ c ++ c!"." ++ d ∧ L a ∧ L b ∧ L c ∧ L d := by
  simp only [lang_cons (.rep _ _ _), lang_three, lang_single, h]
  have e : ∀ x, (Re.ofList [r, Re.byte 46]).Lang x ↔ ∃ y, x = y ++ c!"." ∧ L y := by
    intro x
    simp only [lang_cons r, lang_byte_cons, lang_nil, h]
    constructor
    · rintro ⟨y, _, rfl, h1, _, rfl, rfl⟩; exact ⟨y, rfl, h1⟩
    · rintro ⟨y, rfl, h1⟩; exact ⟨y, _, rfl, h1, _, rfl, rfl⟩
  simp only [e]
  constructor
  · rintro ⟨_, d, rfl, ⟨_, _, _, rfl, ⟨a, rfl, ha⟩, ⟨b, rfl, hb⟩, ⟨c, rfl, hc⟩⟩, hd⟩
    exact ⟨a, b, c, d, by simp, ha, hb, hc, hd⟩
  · rintro ⟨a, b, c, d, rfl, ha, hb, hc, hd⟩
    exact ⟨_, d, rfl, ⟨_, _, _, by simp, ⟨a, rfl, ha⟩, ⟨b, rfl, hb⟩, ⟨c, rfl, hc⟩⟩, hd⟩

theorem parse_ipv4 : Re.parse reIpv4 = some (.seq .bol (Re.ofList
    [.rep (Re.ofList [octetRe, Re.byte 46]) 3 (some 3), octetRe])) := by decide +kernel

/-- The pattern for IPv4 does not end in `$`: an address at the front is enough. -/
theorem found_ipv4 {r : Re} (h : Re.parse reIpv4 = some r) (s : Str) : r.Found s ↔ ∃ m rest, s = m ++ rest ∧ IsIpv4 m := by
  rw [parse_ipv4, Option.some.injEq] at h; subst h
  rw [Re.found_bol]
  simp only [Re.M_plain (Re.ofList [Re.rep (Re.ofList [octetRe, Re.byte 46]) 3 (some 3), octetRe]) (by decide),
    lang_quad lang_octet, IsIpv4]

/-! ### Paths -/

/-- `[^/ ]`. -/
def cPath : Cls := ⟨true, [(47, 47), (32, 32)]⟩

theorem cPath_has (x : Byte) : cPath.has x = true ↔ x ≠ 47 ∧ x ≠ 32 := by
  simp [Cls.has, cPath, byte_nat, UInt8.le_iff_toNat_le, UInt8.lt_iff_toNat_lt]; omega

theorem parse_unixPath : Re.parse reUnixPath = some (.seq .bol (Re.ofList
    ([.rep (Re.ofList [Re.byte 47, .rep (.cls cPath) 0 none]) 1 none, .rep (Re.byte 47) 0 (some 1)] ++ [.eol]))) := by
  decide +kernel

theorem path_pieces : ∀ (t : Str), (32 : Byte) ∉ t → ∃ q ms, 47 :: t = (47 :: q) ++ List.flatten ms ∧
    (∀ x ∈ q, x ≠ 47 ∧ x ≠ 32) ∧ ∀ p ∈ ms, ∃ q', p = (47 : Byte) :: q' ∧ ∀ x ∈ q', x ≠ 47 ∧ x ≠ 32
  | [], _ => ⟨[], [], rfl, by simp, by simp⟩
  | x :: t, h => by
    simp only [List.mem_cons, not_or] at h
    obtain ⟨q, ms, e, h1, h2⟩ := path_pieces t h.2
    by_cases hx : x = 47
    · subst hx
      refine ⟨[], (47 :: q) :: ms, by rw [e]; simp, by simp, ?_⟩
      intro p hp
      rcases List.mem_cons.1 hp with rfl | hp
      · exact ⟨q, rfl, h1⟩
      · exact h2 p hp
    · simp only [List.cons_append, List.cons.injEq, true_and] at e
      refine ⟨x :: q, ms, by rw [e]; simp, ?_, h2⟩
      intro y hy
      rcases List.mem_cons.1 hy with rfl | hy
      · exact ⟨hx, fun e => h.1 e.symm⟩
      · exact h1 y hy

theorem found_unixPath {r : Re} (h : Re.parse reUnixPath = some r) (s : Str) :
    r.Found s ↔ ∃ m, Line s m ∧ IsUnixPath m := by
  rw [parse_unixPath, Option.some.injEq] at h; subst h
  rw [Re.found_anchored (by decide)]
  have e : ∀ m, (Re.ofList [Re.byte 47, .rep (.cls cPath) 0 none]).Lang m ↔
      ∃ q, m = 47 :: q ∧ ∀ x ∈ q, x ≠ 47 ∧ x ≠ 32 := by
    intro m
    simp only [lang_byte_cons, lang_single, lang_rep_cls, cPath_has]
    constructor
    · rintro ⟨q, rfl, _, _, h⟩; exact ⟨q, rfl, h⟩
    · rintro ⟨q, rfl, h⟩; exact ⟨q, rfl, by omega, by simp, h⟩
  simp only [lang_cons (.rep _ _ _), lang_nil, lang_opt, lang_byte, IsUnixPath]
  simp only [lang_rep, e]
  constructor
  · rintro ⟨m, h, _, _, rfl, ⟨ms, rfl, h1, _, h2⟩, o, _, rfl, h3, rfl⟩
    refine ⟨_, h, ?_⟩
    have key : ∀ p ∈ ms, (32 : Byte) ∉ p := by
      intro p hp hc
      obtain ⟨q, rfl, hq⟩ := h2 p hp
      rcases List.mem_cons.1 hc with hc | hc
      · exact absurd hc (by decide)
      · exact (hq _ hc).2 rfl
    rcases ms with _ | ⟨p, ms⟩
    · simp at h1
    obtain ⟨q, rfl, hq⟩ := h2 p (by simp)
    refine ⟨q ++ ms.flatten ++ (o ++ []), by simp, ?_⟩
    simp only [List.mem_append, not_or, List.append_nil]
    refine ⟨⟨fun hc => (hq _ hc).2 rfl, ?_⟩, ?_⟩
    · intro hc
      obtain ⟨p, hp, hc⟩ := List.mem_flatten.1 hc
      exact key p (by simp [hp]) hc
    · rcases h3 with rfl | rfl
      · simp
      · decide
  · rintro ⟨m, h, t, rfl, h1⟩
    obtain ⟨q, ms, e1, h2, h3⟩ := path_pieces t h1
    refine ⟨_, h, 47 :: t, [], by simp, ⟨(47 :: q) :: ms, by rw [e1]; simp, by simp, by simp, ?_⟩, [], [], rfl, .inl rfl, rfl⟩
    intro p hp
    rcases List.mem_cons.1 hp with rfl | hp
    · exact ⟨q, rfl, h2⟩
    · exact h3 p hp

end Argus
