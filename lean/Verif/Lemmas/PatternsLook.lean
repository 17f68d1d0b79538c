import Verif.Lemmas.PatternsNet

/-!
# Reading the predefined patterns: passwords, domain names, strict email addresses
-/

set_option autoImplicit false

namespace Argus

/-! ### Assertions -/

theorem Re.M_eps_iff (b m a : Str) : (Re.ofList []).M b m a ↔ m = [] := Iff.rfl

/-- A look-ahead in front. -/
theorem Re.M_ahead_cons (neg : Bool) (r : Re) (rs : List Re) (b m a : Str) :
    (Re.ofList (.ahead neg r :: rs)).M b m a ↔
      ((∃ x y, m ++ a = x ++ y ∧ r.M b x y) ↔ neg = false) ∧ (Re.ofList rs).M b m a := by
  simp only [Re.ofList, Re.M]
  constructor
  · rintro ⟨x, y, rfl, ⟨rfl, h1⟩, h2⟩
    simp only [List.append_nil] at h2
    exact ⟨h1, h2⟩
  · rintro ⟨h1, h2⟩
    exact ⟨[], m, rfl, ⟨rfl, h1⟩, by simpa using h2⟩

/-- A look-behind in front. -/
theorem Re.M_behind_cons (neg : Bool) (r : Re) (rs : List Re) (b m a : Str) :
    (Re.ofList (.behind neg r :: rs)).M b m a ↔
      ((∃ x y, b = x ++ y ∧ r.M x y (m ++ a)) ↔ neg = false) ∧ (Re.ofList rs).M b m a := by
  simp only [Re.ofList, Re.M]
  constructor
  · rintro ⟨x, y, rfl, ⟨rfl, h1⟩, h2⟩
    simp only [List.append_nil] at h2
    exact ⟨h1, h2⟩
  · rintro ⟨h1, h2⟩
    exact ⟨[], m, rfl, ⟨rfl, h1⟩, by simpa using h2⟩

/-- An expression without assertions in front. -/
theorem Re.M_plain_cons {r : Re} (h : r.plain = true) (rs : List Re) (b m a : Str) :
    (Re.ofList (r :: rs)).M b m a ↔ ∃ x y, m = x ++ y ∧ r.Lang x ∧ (Re.ofList rs).M (b ++ x) y a := by
  simp only [Re.ofList, Re.M, Re.M_plain r h]

theorem Re.M_eol (b m a : Str) : (Re.ofList [.eol]).M b m a ↔ m = [] ∧ (a = [] ∨ a = [10]) := by
  simp only [Re.ofList, Re.M]
  constructor
  · rintro ⟨x, y, rfl, ⟨rfl, h⟩, rfl⟩; exact ⟨rfl, by simpa using h⟩
  · rintro ⟨rfl, h⟩; exact ⟨[], [], rfl, ⟨rfl, by simpa using h⟩, rfl⟩

theorem line_iff (s m : Str) : Line s m ↔ ∃ a, s = m ++ a ∧ (a = [] ∨ a = [10]) := by
  unfold Line
  constructor
  · rintro (rfl | rfl)
    · exact ⟨[], by simp, .inl rfl⟩
    · exact ⟨[10], rfl, .inr rfl⟩
  · rintro ⟨a, rfl, rfl | rfl⟩
    · left; simp
    · right; rfl

/-! ### Passwords -/

/-- `[A-Za-z\d]`. -/
def cPass : Cls := ⟨false, [(65, 90), (97, 122), (48, 57)]⟩

theorem cPass_has (x : Byte) : cPass.has x = true ↔ Letter x ∨ Digit x := by
  simp [Cls.has, cPass, Letter, Digit]; grind

theorem parse_passwd : Re.parse rePasswd = some (.seq .bol (Re.ofList
    [.ahead false (Re.ofList [.rep (.cls cDot) 0 none, .cls cLetter]),
     .ahead false (Re.ofList [.rep (.cls cDot) 0 none, .cls cDigit]), .rep (.cls cPass) 8 none, .eol])) := by decide +kernel

/-- A look-ahead for a byte of a class, on a line of bytes other than newlines. -/
theorem ahead_somewhere {c : Cls} (hc : c.has 10 = false) {m a b : Str} (ha : a = [] ∨ a = [10]) (hm : (10 : Byte) ∉ m) :
    (∃ x y, m ++ a = x ++ y ∧ (Re.ofList [.rep (.cls cDot) 0 none, .cls c]).M b x y) ↔ ∃ x ∈ m, c.has x = true := by
  have hp : (Re.ofList [Re.rep (.cls cDot) 0 none, .cls c]).plain = true := rfl
  simp only [Re.M_plain _ hp, lang_cons (.rep _ _ _), lang_rep_cls, lang_cls_cons, lang_nil, cDot_has]
  constructor
  · rintro ⟨_, y, e, u, _, rfl, _, x, _, rfl, hx, rfl⟩
    have : x ∈ m ++ a := by rw [e]; simp
    rcases List.mem_append.1 this with h | h
    · exact ⟨x, h, hx⟩
    · rcases ha with rfl | rfl
      · simp at h
      · simp at h; subst h; rw [hc] at hx; cases hx
  · rintro ⟨x, hx, h⟩
    obtain ⟨u, v, rfl⟩ := List.append_of_mem hx
    refine ⟨u ++ [x], v ++ a, by simp, u, [x], rfl, ⟨by omega, by simp, ?_⟩, x, [], rfl, h, rfl⟩
    intro z hz e
    exact hm (by simp [← e, hz])

theorem letter_ne {x : Byte} (h : Letter x) : 65 ≤ x.toNat := by
  unfold Letter at h
  simp only [UInt8.le_iff_toNat_le, UInt8.reduceToNat] at h
  omega

theorem alnum_ne_nl {m : Str} (h : ∀ x ∈ m, Letter x ∨ Digit x) : (10 : Byte) ∉ m := by
  intro hc
  rcases h _ hc with h | h
  · have := letter_ne h; simp at this
  · have := digit_nat.1 h; simp at this

theorem found_passwd {r : Re} (h : Re.parse rePasswd = some r) (s : Str) : r.Found s ↔ ∃ m, Line s m ∧ IsPassword m := by
  rw [parse_passwd, Option.some.injEq] at h; subst h
  rw [Re.found_bol]
  have hp : (Re.rep (.cls cPass) 8 none).plain = true := rfl
  simp only [Re.M_ahead_cons, Re.M_plain_cons hp, Re.M_eol, lang_rep_cls, cPass_has, line_iff, iff_true]
  constructor
  · rintro ⟨_, a, rfl, h1, h2, m, _, rfl, ⟨h3, _, h4⟩, rfl, h5⟩
    simp only [List.append_nil] at h1 h2 ⊢
    rw [ahead_somewhere (by decide) h5 (alnum_ne_nl h4)] at h1 h2
    simp only [cLetter_has, cDigit_has] at h1 h2
    exact ⟨m, ⟨a, rfl, h5⟩, h3, h4, h1, h2⟩
  · rintro ⟨m, ⟨a, rfl, h5⟩, h3, h4, h1, h2⟩
    refine ⟨m, a, rfl, ?_, ?_, m, [], by simp, ⟨h3, by simp, h4⟩, rfl, h5⟩
    · rw [ahead_somewhere (by decide) h5 (alnum_ne_nl h4)]; simp only [cLetter_has]; exact h1
    · rw [ahead_somewhere (by decide) h5 (alnum_ne_nl h4)]; simp only [cDigit_has]; exact h2

/-! ### Texts with separators -/

theorem forall_exists_map {α β : Type} {f : β → α} {L : β → Prop} : ∀ {ms : List α},
    (∀ x ∈ ms, ∃ l, x = f l ∧ L l) ↔ ∃ ls : List β, ms = ls.map f ∧ ∀ l ∈ ls, L l
  | [] => by
    constructor
    · intro _; exact ⟨[], rfl, by simp⟩
    · intro _; simp
  | x :: ms => by
    have ih := forall_exists_map (f := f) (L := L) (ms := ms)
    constructor
    · intro h
      obtain ⟨l, rfl, hl⟩ := h x (by simp)
      obtain ⟨ls, rfl, h1⟩ := ih.1 (fun y hy => h y (by simp [hy]))
      refine ⟨l :: ls, rfl, ?_⟩
      intro z hz
      rcases List.mem_cons.1 hz with rfl | hz
      · exact hl
      · exact h1 z hz
    · rintro ⟨ls, e, h⟩ y hy
      rw [e] at hy
      obtain ⟨l, hl, rfl⟩ := List.mem_map.1 hy
      exact ⟨l, rfl, h l hl⟩

theorem joined_snoc (sep t : Str) : ∀ (ls : List Str), joined sep (ls ++ [t]) = (ls.map (· ++ sep)).flatten ++ t
  | [] => rfl
  | [x] => by simp [joined]
  | x :: y :: ls => by
    have ih := joined_snoc sep t (y :: ls)
    simp only [List.cons_append] at ih ⊢
    simp only [joined, ih, List.map_cons, List.flatten_cons, List.append_assoc]

theorem joined_cons (sep : Str) : ∀ (x : Str) (ls : List Str), joined sep (x :: ls) = x ++ (ls.map (sep ++ ·)).flatten
  | x, [] => by simp [joined]
  | x, y :: ls => by
    have ih := joined_cons sep y ls
    simp only [joined, ih, List.map_cons, List.flatten_cons, List.append_assoc]

/-- A part, and any number of parts after a separator. -/
theorem lang_joined {L : Str → Prop} {rs q : List Re} {c : Byte} (h : ∀ m, (Re.ofList rs).Lang m ↔ L m)
    (hq : q = Re.byte c :: rs) (m : Str) :
    (Re.ofList (rs ++ [.rep (Re.ofList q) 0 none])).Lang m ↔ ∃ ls, ls ≠ [] ∧ m = joined [c] ls ∧ ∀ l ∈ ls, L l := by
  subst hq
  rw [lang_append]
  simp only [lang_single, lang_rep, lang_byte_cons, h]
  constructor
  · rintro ⟨x, _, rfl, hx, ms, rfl, _, _, h1⟩
    obtain ⟨ls, rfl, h2⟩ := forall_exists_map.1 h1
    refine ⟨x :: ls, by simp, by rw [joined_cons]; rfl, ?_⟩
    intro z hz
    rcases List.mem_cons.1 hz with rfl | hz
    · exact hx
    · exact h2 z hz
  · rintro ⟨ls, h0, rfl, h1⟩
    rcases ls with _ | ⟨x, ls⟩
    · exact absurd rfl h0
    refine ⟨x, (ls.map ([c] ++ ·)).flatten, by rw [joined_cons], h1 x (by simp), _, rfl, by omega, by simp, ?_⟩
    intro z hz
    obtain ⟨l, hl, rfl⟩ := List.mem_map.1 hz
    exact ⟨l, rfl, h1 l (by simp [hl])⟩

/-! ### Labels and domain names -/

/-- `[A-Za-z0-9-]`. -/
def cLabel : Cls := ⟨false, [(65, 90), (97, 122), (48, 57), (45, 45)]⟩

theorem cLabel_has (x : Byte) : cLabel.has x = true ↔ Letter x ∨ Digit x ∨ x = 45 := by
  simp [Cls.has, cLabel, Letter, Digit, byte_nat, UInt8.le_iff_toNat_le]; omega

def labelDotRe : Re := Re.ofList [.ahead true (Re.ofList [Re.byte 45]), .rep (.cls cLabel) 1 (some 63),
  .behind true (Re.ofList [Re.byte 45]), Re.byte 46]

theorem head_ne_iff {m a : Str} (h : m ≠ []) : ¬ (∃ x y, m ++ a = x ++ y ∧ x = [(45 : Byte)]) ↔ m.head? ≠ some 45 := by
  rcases m with _ | ⟨z, m⟩
  · exact absurd rfl h
  simp only [List.cons_append, List.head?_cons, ne_eq, Option.some.injEq]
  refine not_congr ⟨?_, ?_⟩
  · rintro ⟨_, y, e, rfl⟩
    simp only [List.cons_append, List.cons.injEq] at e
    exact e.1
  · rintro rfl; exact ⟨[45], m ++ a, rfl, rfl⟩

theorem last_ne_iff {b m : Str} (h : m ≠ []) : ¬ (∃ x y, b ++ m = x ++ y ∧ y = [(45 : Byte)]) ↔ m.getLast? ≠ some 45 := by
  refine not_congr ⟨?_, ?_⟩
  · rintro ⟨x, _, e, rfl⟩
    have := congrArg List.getLast? e
    rw [List.getLast?_append, List.getLast?_eq_some_getLast h] at this
    rw [List.getLast?_eq_some_getLast h]
    simpa using this
  · intro e
    have e1 := List.dropLast_concat_getLast h
    rw [List.getLast?_eq_some_getLast h, Option.some.injEq] at e
    rw [e] at e1
    exact ⟨b ++ m.dropLast, [45], by rw [List.append_assoc, e1], rfl⟩

theorem M_labelDot (b m a : Str) : labelDotRe.M b m a ↔ ∃ l, m = l ++ c!"." ∧ IsLabel l := by
  unfold labelDotRe
  have hp : (Re.rep (.cls cLabel) 1 (some 63)).plain = true := rfl
  have hb : (Re.ofList [Re.byte 45]).plain = true := rfl
  have hd : (Re.byte 46).plain = true := rfl
  simp only [Re.M_ahead_cons, Re.M_plain_cons hp, Re.M_behind_cons, Re.M_plain_cons hd, Re.M_plain _ hb, lang_single,
    lang_byte, lang_rep_cls, cLabel_has, some_le, Re.M_eps_iff]
  simp only [Bool.true_eq_false, iff_false]
  constructor
  · rintro ⟨h1, l, _, rfl, ⟨h2, h3, h4⟩, h5, _, _, rfl, rfl, rfl⟩
    have hl : l ≠ [] := by rw [← length_pos_iff_ne]; exact h2
    refine ⟨l, by simp, h2, h3, h4, ?_, (last_ne_iff hl).1 h5⟩
    refine (head_ne_iff (a := c!"." ++ a) hl).1 ?_
    simpa using h1
  · rintro ⟨l, rfl, h2, h3, h4, h1, h5⟩
    have hl : l ≠ [] := by rw [← length_pos_iff_ne]; exact h2
    refine ⟨?_, l, c!".", rfl, ⟨h2, h3, h4⟩, (last_ne_iff hl).2 h5, [46], [], rfl, rfl, rfl⟩
    have := (head_ne_iff (a := c!"." ++ a) hl).2 h1
    simpa using this

theorem parse_domain : Re.parse reDomain = some (.seq .bol (Re.ofList
    [.ahead false (Re.ofList [.rep (.cls cDot) 1 (some 253), .eol]), .rep labelDotRe 1 none,
      .rep (.cls cLetter) 2 none, .eol])) := by decide +kernel

theorem domain_no_nl {ls : List Str} {t : Str} (h6 : ∀ l ∈ ls, IsLabel l) (h8 : ∀ x ∈ t, Letter x) :
    (10 : Byte) ∉ (ls.map (· ++ c!".")).flatten ++ t := by
  intro hx
  rcases List.mem_append.1 hx with hx | hx
  · obtain ⟨p, hp, hx⟩ := List.mem_flatten.1 hx
    obtain ⟨l, hl, rfl⟩ := List.mem_map.1 hp
    rcases List.mem_append.1 hx with hx | hx
    · rcases (h6 l hl).2.2.1 _ hx with h | h | h
      · have := letter_ne h; simp at this
      · have := digit_nat.1 h; simp at this
      · exact absurd h (by decide)
    · simp at hx
  · have := letter_ne (h8 _ hx); simp at this

theorem found_domain {r : Re} (h : Re.parse reDomain = some r) (s : Str) : r.Found s ↔ ∃ m, Line s m ∧ IsDomain m := by
  rw [parse_domain, Option.some.injEq] at h; subst h
  rw [Re.found_bol]
  have hp : (Re.rep (.cls cLetter) 2 none).plain = true := rfl
  have hd : (Re.rep (.cls cDot) 1 (some 253)).plain = true := rfl
  have hr : ∀ (rs : List Re) (b m a : Str), (Re.ofList (.rep labelDotRe 1 none :: rs)).M b m a ↔
      ∃ x y, m = x ++ y ∧ (∃ ls : List Str, ls ≠ [] ∧ x = (ls.map (· ++ c!".")).flatten ∧ ∀ l ∈ ls, IsLabel l) ∧
        (Re.ofList rs).M (b ++ x) y a := by
    intro rs b m a
    show (∃ x y, m = x ++ y ∧ (∃ n, 1 ≤ n ∧ (∀ k ∈ none, n ≤ k) ∧ Reps labelDotRe.M n b x (y ++ a)) ∧ _) ↔ _
    simp only [Reps_plain M_labelDot, forall_exists_map]
    constructor
    · rintro ⟨x, y, rfl, ⟨n, h1, _, ms, rfl, h2, ls, rfl, h3⟩, h4⟩
      refine ⟨_, y, rfl, ⟨ls, ?_, rfl, h3⟩, h4⟩
      rintro rfl
      simp at h2; omega
    · rintro ⟨x, y, rfl, ⟨ls, h1, rfl, h3⟩, h4⟩
      refine ⟨_, y, rfl, ⟨ls.length, ?_, by simp, _, rfl, by simp, ls, rfl, h3⟩, h4⟩
      cases ls
      · exact absurd rfl h1
      · simp
  simp only [Re.M_ahead_cons, hr, Re.M_plain_cons hp, Re.M_plain_cons hd, Re.M_eol, lang_rep_cls, cLetter_has, cDot_has,
    some_le, line_iff, iff_true]
  constructor
  · rintro ⟨_, a, rfl, ⟨_, y, e, x, _, rfl, ⟨h1, h2, h3⟩, rfl, h4⟩, _, _, rfl, ⟨ls, h5, rfl, h6⟩, t, _, rfl, ⟨h7, _, h8⟩, rfl, h9⟩
    refine ⟨joined c!"." (ls ++ [t]), ⟨a, by rw [joined_snoc]; simp, h9⟩, ?_, ls, t, h5, rfl, h6, h7, h8⟩
    rw [joined_snoc]
    simp only [List.append_nil] at e ⊢
    have hnl := domain_no_nl h6 h8
    generalize (ls.map (· ++ c!".")).flatten ++ t = m at e hnl ⊢
    -- the line before the newline is no longer than the text seen ahead
    have hlen := congrArg List.length e
    simp only [List.length_append] at hlen
    rcases h4 with rfl | rfl <;> rcases h9 with rfl | rfl <;> simp at hlen <;> try omega
    exfalso
    simp only [List.append_nil] at e
    exact hnl (by rw [e]; simp)
  · rintro ⟨m, ⟨a, rfl, h9⟩, h10, ls, t, h5, rfl, h6, h7, h8⟩
    refine ⟨_, a, rfl, ?_, (ls.map (· ++ c!".")).flatten, t, by rw [joined_snoc], ⟨ls, h5, rfl, h6⟩, t, [], by simp,
      ⟨h7, by simp, h8⟩, rfl, h9⟩
    refine ⟨_, a, rfl, _, [], (List.append_nil _).symm, ⟨?_, h10, ?_⟩, rfl, h9⟩
    · rw [joined_snoc, List.length_append]; omega
    · rw [joined_snoc]
      intro x hx e
      subst e
      exact domain_no_nl h6 h8 hx

end Argus
