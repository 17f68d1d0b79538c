import Verif.Lemmas.Patterns

/-!
# Reading the predefined patterns: ports, dates, addresses, identities
-/

set_option autoImplicit false

namespace Argus

theorem lang_cls_cons' (c : Cls) (rs : List Re) (x : Byte) (m : Str) :
    (Re.ofList (.cls c :: rs)).Lang (x :: m) ↔ c.has x = true ∧ (Re.ofList rs).Lang m := by
  rw [lang_cls_cons]
  constructor
  · rintro ⟨_, _, h, h1, h2⟩; cases h; exact ⟨h1, h2⟩
  · rintro ⟨h1, h2⟩; exact ⟨x, m, rfl, h1, h2⟩

theorem lang_cls_nil (c : Cls) (rs : List Re) : (Re.ofList (.cls c :: rs)).Lang [] ↔ False := by
  rw [lang_cls_cons]; simp

theorem lang_byte_cons' (b : Byte) (rs : List Re) (x : Byte) (m : Str) :
    (Re.ofList (Re.byte b :: rs)).Lang (x :: m) ↔ x = b ∧ (Re.ofList rs).Lang m := by
  rw [lang_byte_cons]
  constructor
  · rintro ⟨_, h, h1⟩; cases h; exact ⟨rfl, h1⟩
  · rintro ⟨rfl, h2⟩; exact ⟨m, rfl, h2⟩

theorem lang_byte_nil (b : Byte) (rs : List Re) : (Re.ofList (Re.byte b :: rs)).Lang [] ↔ False := by
  rw [lang_byte_cons]; simp

/-- A class, repeated a fixed number of times, in front. -/
theorem lang_times_cons (c : Cls) (n : Nat) (rs : List Re) (m : Str) :
    (Re.ofList (.rep (.cls c) n (some n) :: rs)).Lang m ↔
      ∃ x y, m = x ++ y ∧ x.length = n ∧ (∀ z ∈ x, c.has z = true) ∧ (Re.ofList rs).Lang y := by
  rw [lang_cons]
  simp only [lang_rep_cls]
  constructor
  · rintro ⟨x, y, e, ⟨h1, h2, h3⟩, h4⟩
    have := h2 n rfl
    exact ⟨x, y, e, by omega, h3, h4⟩
  · rintro ⟨x, y, e, h1, h3, h4⟩
    exact ⟨x, y, e, ⟨by omega, fun k hk => by simp only [Option.mem_def, Option.some.injEq] at hk; omega, h3⟩, h4⟩

theorem lang_last_times (c : Cls) (n : Nat) (m : Str) :
    (Re.ofList [.rep (.cls c) n (some n)]).Lang m ↔ m.length = n ∧ ∀ z ∈ m, c.has z = true := by
  rw [lang_times_cons]
  constructor
  · rintro ⟨x, y, rfl, h1, h2, h3⟩
    rw [lang_nil] at h3; subst h3
    simpa using ⟨h1, h2⟩
  · rintro ⟨h1, h2⟩; exact ⟨m, [], by simp, h1, h2, by rw [lang_nil]⟩

theorem byte_nat (x b : Byte) : x = b ↔ x.toNat = b.toNat := UInt8.toNat_inj.symm

/-! ### Ports -/

theorem digitsVal_lower {x : Byte} {m : Str} (h : Digit x) (h0 : x ≠ 48) : 10 ^ m.length ≤ digitsVal (x :: m) := by
  have hx : 1 ≤ x.toNat - 48 := by
    have := digit_nat.1 h
    have : x.toNat ≠ 48 := fun e => h0 (UInt8.toNat_inj.1 e)
    omega
  have key : ∀ (m : Str) (k : Nat), k * 10 ^ m.length ≤ m.foldl (fun acc d => 10 * acc + (d.toNat - 48)) k := by
    intro m
    induction m with
    | nil => intro k; simp
    | cons y m ih =>
      intro k
      simp only [List.foldl_cons, List.length_cons]
      refine Nat.le_trans ?_ (ih _)
      rw [Nat.pow_succ, Nat.mul_comm (10 ^ m.length) 10, ← Nat.mul_assoc]
      exact Nat.mul_le_mul_right _ (by omega)
  unfold digitsVal
  simp only [List.foldl_cons]
  refine Nat.le_trans ?_ (key m _)
  rw [← Nat.one_mul (10 ^ m.length)]
  exact Nat.mul_le_mul (by omega) (by simp)

theorem isPort_iff (m : Str) : IsPort m ↔
    ∃ x t, m = x :: t ∧ Digit x ∧ x ≠ 48 ∧ (∀ y ∈ t, Digit y) ∧ digitsVal m ≤ 65535 := by
  unfold IsPort
  constructor
  · rintro ⟨n, h1, h2, rfl⟩
    obtain ⟨x, t, e, h3, h4, h5⟩ := natDigits_head n n (Nat.le_refl n) h1
    exact ⟨x, t, e, h3, h4, h5, by rw [(natDigits_spec n).2.2]; exact h2⟩
  · rintro ⟨x, t, rfl, h1, h2, h3, h4⟩
    exact ⟨_, digitsVal_pos h1 h2, h4, (natDigits_digitsVal _ x t rfl h1 h2 h3).symm⟩

/-- The alternatives of the port pattern. -/
def portRe : Re :=
  .alt (Re.ofList [.cls ⟨false, [(49, 57)]⟩, .rep (.cls cDigit) 0 (some 3)])
  (.alt (Re.ofList [.cls ⟨false, [(49, 53)]⟩, .rep (.cls cDigit) 4 (some 4)])
  (.alt (Re.ofList [Re.byte 54, .cls ⟨false, [(48, 52)]⟩, .rep (.cls cDigit) 3 (some 3)])
  (.alt (Re.ofList [Re.byte 54, Re.byte 53, .cls ⟨false, [(48, 52)]⟩, .rep (.cls cDigit) 2 (some 2)])
  (.alt (Re.ofList [Re.byte 54, Re.byte 53, Re.byte 53, .cls ⟨false, [(48, 50)]⟩, .cls cDigit])
    (Re.ofList [Re.byte 54, Re.byte 53, Re.byte 53, Re.byte 51, .cls ⟨false, [(48, 53)]⟩])))))

theorem parse_port : Re.parse rePort = some (.seq .bol (Re.ofList ([portRe] ++ [.eol]))) := by decide +kernel

theorem some_le (n k : Nat) : (∀ j ∈ (some k : Option Nat), n ≤ j) ↔ n ≤ k := by simp

theorem isPort_cons (x : Byte) (t : Str) : IsPort (x :: t) ↔
    Digit x ∧ x ≠ 48 ∧ (∀ y ∈ t, Digit y) ∧ digitsVal (x :: t) ≤ 65535 := by
  rw [isPort_iff]
  constructor
  · rintro ⟨_, _, h, h1⟩; cases h; exact h1
  · intro h; exact ⟨x, t, rfl, h⟩

theorem digitsVal_from : ∀ (m : Str) (k : Nat),
    m.foldl (fun acc d => 10 * acc + (d.toNat - 48)) k = k * 10 ^ m.length + digitsVal m
  | [], k => by simp [digitsVal]
  | x :: m, k => by
    unfold digitsVal
    simp only [List.foldl_cons, List.length_cons]
    rw [digitsVal_from m, digitsVal_from m (10 * 0 + _), Nat.pow_succ, Nat.add_mul, Nat.mul_comm 10 k, Nat.mul_assoc,
      Nat.mul_comm 10 (10 ^ m.length)]
    simp only [Nat.mul_zero, Nat.zero_add]
    omega

theorem digitsVal_cons (x : Byte) (m : Str) : digitsVal (x :: m) = (x.toNat - 48) * 10 ^ m.length + digitsVal m := by
  show (x :: m).foldl _ 0 = _
  simp only [List.foldl_cons]
  rw [digitsVal_from]
  simp

theorem digitsVal_upper : ∀ {m : Str}, (∀ x ∈ m, Digit x) → digitsVal m < 10 ^ m.length
  | [], _ => by simp [digitsVal]
  | x :: m, h => by
    have ih := digitsVal_upper (m := m) (fun y hy => h y (by simp [hy]))
    have hx := digit_nat.1 (h x (by simp))
    rw [digitsVal_cons, List.length_cons, Nat.pow_succ]
    have : (x.toNat - 48) * 10 ^ m.length ≤ 9 * 10 ^ m.length := Nat.mul_le_mul_right _ (by omega)
    omega

/-- All digits of an explicit list. -/
theorem all_cons {P : Byte → Prop} {x : Byte} {m : Str} (h : ∀ y ∈ x :: m, P y) : P x ∧ ∀ y ∈ m, P y :=
  ⟨h x (by simp), fun y hy => h y (by simp [hy])⟩

theorem lang_port (m : Str) : portRe.Lang m ↔ IsPort m := by
  rcases m with _ | ⟨a, t⟩
  · rw [isPort_iff]
    simp only [portRe, lang_alt, lang_cls_nil, lang_byte_nil]; simp
  rw [isPort_cons]
  simp only [portRe, lang_alt, lang_cls_cons', lang_byte_cons', lang_single, lang_rep_cls, some_le, cDigit_has, range_has]
  simp only [UInt8.reduceToNat, digit_nat, byte_nat, ne_eq]
  constructor
  · rintro (⟨h1, _, h2, h3⟩ | ⟨h1, h2, h2', h3⟩ | ⟨h1, h2⟩ | ⟨h1, h2⟩ | ⟨h1, h2⟩ | ⟨h1, h2⟩)
    · refine ⟨by omega, by omega, h3, ?_⟩
      have h4 := digitsVal_upper (m := a :: t) (by
        intro x hx; rw [digit_nat]
        rcases List.mem_cons.1 hx with rfl | hx
        · omega
        · exact h3 x hx)
      have h5 : 10 ^ (a :: t).length ≤ 10 ^ 4 := Nat.pow_le_pow_right (by omega) (by simp; omega)
      omega
    · refine ⟨by omega, by omega, h3, ?_⟩
      have h4 := digitsVal_upper (m := t) (fun x hx => digit_nat.2 (h3 x hx))
      have h5 : t.length = 4 := by omega
      rw [digitsVal_cons]
      rw [h5] at h4 ⊢
      omega
    all_goals
      rcases t with _ | ⟨b, _ | ⟨c, _ | ⟨d, _ | ⟨e, _ | ⟨f, t⟩⟩⟩⟩⟩
      all_goals
        simp only [lang_cls_cons', lang_byte_cons', lang_cls_nil, lang_byte_nil, lang_nil, lang_last_times, cDigit_has,
          range_has, digit_nat, List.length_cons, List.length_nil, UInt8.reduceToNat, byte_nat, and_false] at h2
      all_goals first
        | exact h2.elim
        | omega
        | skip
      all_goals
        simp [digitsVal] at h2 ⊢
        try omega
  · rintro ⟨h1, h2, h3, h4⟩
    have h5 := digitsVal_lower (x := a) (m := t) (digit_nat.2 h1) (by rw [ne_eq, byte_nat]; exact h2)
    have h6 : t.length ≤ 4 := by
      apply Classical.byContradiction
      intro hc
      have : 10 ^ 5 ≤ 10 ^ t.length := Nat.pow_le_pow_right (by omega) (by omega)
      omega
    by_cases h7 : t.length ≤ 3
    · exact .inl ⟨by omega, by omega, h7, h3⟩
    have h8 : t.length = 4 := by omega
    refine .inr ?_
    by_cases h9 : a.toNat ≤ 53
    · exact .inl ⟨by omega, by omega, by omega, h3⟩
    refine .inr ?_
    rcases t with _ | ⟨b, _ | ⟨c, _ | ⟨d, _ | ⟨e, _ | ⟨f, t⟩⟩⟩⟩⟩
    all_goals simp only [List.length_cons, List.length_nil] at h8
    all_goals first
      | omega
      | skip
    simp only [lang_cls_cons', lang_byte_cons', lang_cls_nil, lang_byte_nil, lang_nil, lang_last_times, cDigit_has,
      range_has, digit_nat, List.length_cons, List.length_nil, UInt8.reduceToNat, byte_nat]
    simp only [List.forall_mem_cons] at h3 ⊢
    simp only [digitsVal, List.foldl_cons, List.foldl_nil] at h4
    obtain ⟨hb, hc, hd, he, _⟩ := h3
    by_cases k1 : b.toNat ≤ 52
    · exact .inl ⟨by omega, by omega, by omega, hc, hd, he, by simp⟩
    by_cases k2 : c.toNat ≤ 52
    · exact .inr (.inl ⟨by omega, by omega, by omega, by omega, hd, he, by simp⟩)
    by_cases k3 : d.toNat ≤ 50
    · exact .inr (.inr (.inl ⟨by omega, by omega, by omega, by omega, he, trivial⟩))
    · exact .inr (.inr (.inr ⟨by omega, by omega, by omega, by omega, by omega, trivial⟩))

theorem found_port {r : Re} (h : Re.parse rePort = some r) (s : Str) : r.Found s ↔ ∃ m, Line s m ∧ IsPort m := by
  rw [parse_port, Option.some.injEq] at h; subst h
  rw [Re.found_anchored (by decide)]
  simp only [lang_single, lang_port]

/-! ### User names, UUIDs -/

/-- `[a-zA-Z0-9_-]`. -/
def cUser : Cls := ⟨false, [(97, 122), (65, 90), (48, 57), (95, 95), (45, 45)]⟩

theorem cUser_has (x : Byte) : cUser.has x = true ↔ Letter x ∨ Digit x ∨ x = 95 ∨ x = 45 := by
  simp [Cls.has, cUser, Letter, Digit, byte_nat, UInt8.le_iff_toNat_le]; omega

theorem parse_user : Re.parse reUser = some (.seq .bol (Re.ofList ([.rep (.cls cUser) 3 (some 20)] ++ [.eol]))) := by
  decide +kernel

theorem found_user {r : Re} (h : Re.parse reUser = some r) (s : Str) : r.Found s ↔ ∃ m, Line s m ∧ IsUser m := by
  rw [parse_user, Option.some.injEq] at h; subst h
  rw [Re.found_anchored (by decide)]
  simp only [lang_single, lang_rep_cls, some_le, cUser_has, IsUser]

/-- `[89abAB]`. -/
def cVariant : Cls := ⟨false, [(56, 56), (57, 57), (97, 97), (98, 98), (65, 65), (66, 66)]⟩

theorem cVariant_has (x : Byte) : cVariant.has x = true ↔ x ∈ c!"89abAB" := by
  simp [Cls.has, cVariant, byte_nat, UInt8.le_iff_toNat_le]; omega

theorem parse_uuid : Re.parse reUuid = some (.seq .bol (Re.ofList
    ([.rep (.cls cHex) 8 (some 8), Re.byte 45, .rep (.cls cHex) 4 (some 4), Re.byte 45, Re.byte 52,
      .rep (.cls cHex) 3 (some 3), Re.byte 45, .cls cVariant, .rep (.cls cHex) 3 (some 3), Re.byte 45,
      .rep (.cls cHex) 12 (some 12)] ++ [.eol]))) := by decide +kernel

theorem found_uuid {r : Re} (h : Re.parse reUuid = some r) (s : Str) : r.Found s ↔ ∃ m, Line s m ∧ IsUuid m := by
  rw [parse_uuid, Option.some.injEq] at h; subst h
  rw [Re.found_anchored (by decide)]
  simp only [lang_times_cons, lang_byte_cons, lang_cls_cons, lang_nil, cHex_has, cVariant_has, IsUuid]
  constructor
  · rintro ⟨m, h1, a, _, rfl, ha, ha', _, rfl, b, _, rfl, hb, hb', _, rfl, _, rfl, c, _, rfl, hc, hc', _, rfl, y, _, rfl,
      hy, d, _, rfl, hd, hd', _, rfl, e, _, rfl, he, he', rfl⟩
    refine ⟨_, h1, a, b, c, y, d, e, by simp, ha, hb, hc, hy, hd, he, ?_⟩
    simp only [List.mem_append]
    rintro x ((((h | h) | h) | h) | h)
    · exact ha' x h
    · exact hb' x h
    · exact hc' x h
    · exact hd' x h
    · exact he' x h
  · rintro ⟨m, h1, a, b, c, y, d, e, rfl, ha, hb, hc, hy, hd, he, hx⟩
    simp only [List.mem_append] at hx
    refine ⟨_, h1, a, _, by simp, ha, fun z hz => hx z (by simp [hz]), _, rfl, b, _, rfl, hb,
      fun z hz => hx z (by simp [hz]), _, rfl, _, rfl, c, _, rfl, hc, fun z hz => hx z (by simp [hz]), _, rfl, y, _, rfl,
      hy, d, _, rfl, hd, fun z hz => hx z (by simp [hz]), _, rfl, e, [], (List.append_nil e).symm, he, fun z hz => hx z (by simp [hz]), rfl⟩

/-! ### Dates and times -/

theorem digits2_iff (lo hi : Nat) (m : Str) : Digits 2 lo hi m ↔ ∃ a b, m = [a, b] ∧ Digit a ∧ Digit b ∧
    lo ≤ 10 * (a.toNat - 48) + (b.toNat - 48) ∧ 10 * (a.toNat - 48) + (b.toNat - 48) ≤ hi := by
  unfold Digits
  constructor
  · rintro ⟨h1, h2, h3, h4⟩
    rcases m with _ | ⟨a, _ | ⟨b, _ | ⟨c, t⟩⟩⟩ <;> simp at h1
    simp [digitsVal] at h2 h3 h4
    exact ⟨a, b, rfl, h2.1, h2.2, h3, h4⟩
  · rintro ⟨a, b, rfl, h1, h2, h3, h4⟩
    exact ⟨rfl, by simp; exact ⟨h1, h2⟩, by simp [digitsVal]; exact h3, by simp [digitsVal]; exact h4⟩

theorem two_cls (c d : Cls) (m : Str) : (Re.ofList [.cls c, .cls d]).Lang m ↔
    ∃ a b, m = [a, b] ∧ c.has a = true ∧ d.has b = true := by
  simp only [lang_cls_cons, lang_nil]
  constructor
  · rintro ⟨a, _, rfl, h1, b, _, rfl, h2, rfl⟩; exact ⟨a, b, rfl, h1, h2⟩
  · rintro ⟨a, b, rfl, h1, h2⟩; exact ⟨a, _, rfl, h1, b, _, rfl, h2, rfl⟩

def monthRe : Re := .alt (Re.ofList [.cls ⟨false, [(48, 48)]⟩, .cls ⟨false, [(49, 57)]⟩])
  (Re.ofList [.cls ⟨false, [(49, 49)]⟩, .cls ⟨false, [(48, 50)]⟩])
def dayRe : Re := .alt (Re.ofList [.cls ⟨false, [(48, 48)]⟩, .cls ⟨false, [(49, 57)]⟩])
  (.alt (Re.ofList [.cls ⟨false, [(49, 50)]⟩, .cls ⟨false, [(48, 57)]⟩])
    (Re.ofList [.cls ⟨false, [(51, 51)]⟩, .cls ⟨false, [(48, 49)]⟩]))
def hourRe : Re := .alt (Re.ofList [.cls ⟨false, [(48, 48)]⟩, .cls ⟨false, [(48, 57)]⟩])
  (.alt (Re.ofList [.cls ⟨false, [(49, 49)]⟩, .cls ⟨false, [(48, 57)]⟩])
    (Re.ofList [.cls ⟨false, [(50, 50)]⟩, .cls ⟨false, [(48, 51)]⟩]))
def sixtyRe : Re := Re.ofList [.cls ⟨false, [(48, 53)]⟩, .cls ⟨false, [(48, 57)]⟩]

theorem lang_month (m : Str) : monthRe.Lang m ↔ Digits 2 1 12 m := by
  simp only [monthRe, lang_alt, two_cls, range_has, digits2_iff, digit_nat, UInt8.reduceToNat]
  constructor
  · rintro (⟨a, b, rfl, h1, h2⟩ | ⟨a, b, rfl, h1, h2⟩) <;> exact ⟨a, b, rfl, by omega, by omega, by omega, by omega⟩
  · rintro ⟨a, b, rfl, h1, h2, h3, h4⟩
    by_cases k : a.toNat = 48
    · exact .inl ⟨a, b, rfl, by omega, by omega⟩
    · exact .inr ⟨a, b, rfl, by omega, by omega⟩

theorem lang_day (m : Str) : dayRe.Lang m ↔ Digits 2 1 31 m := by
  simp only [dayRe, lang_alt, two_cls, range_has, digits2_iff, digit_nat, UInt8.reduceToNat]
  constructor
  · rintro (⟨a, b, rfl, h1, h2⟩ | ⟨a, b, rfl, h1, h2⟩ | ⟨a, b, rfl, h1, h2⟩) <;>
      exact ⟨a, b, rfl, by omega, by omega, by omega, by omega⟩
  · rintro ⟨a, b, rfl, h1, h2, h3, h4⟩
    by_cases k : a.toNat = 48
    · exact .inl ⟨a, b, rfl, by omega, by omega⟩
    by_cases k : a.toNat ≤ 50
    · exact .inr (.inl ⟨a, b, rfl, by omega, by omega⟩)
    · exact .inr (.inr ⟨a, b, rfl, by omega, by omega⟩)

theorem lang_hour (m : Str) : hourRe.Lang m ↔ Digits 2 0 23 m := by
  simp only [hourRe, lang_alt, two_cls, range_has, digits2_iff, digit_nat, UInt8.reduceToNat]
  constructor
  · rintro (⟨a, b, rfl, h1, h2⟩ | ⟨a, b, rfl, h1, h2⟩ | ⟨a, b, rfl, h1, h2⟩) <;>
      exact ⟨a, b, rfl, by omega, by omega, by omega, by omega⟩
  · rintro ⟨a, b, rfl, h1, h2, h3, h4⟩
    by_cases k : a.toNat = 48
    · exact .inl ⟨a, b, rfl, by omega, by omega⟩
    by_cases k : a.toNat = 49
    · exact .inr (.inl ⟨a, b, rfl, by omega, by omega⟩)
    · exact .inr (.inr ⟨a, b, rfl, by omega, by omega⟩)

theorem lang_sixty (m : Str) : sixtyRe.Lang m ↔ Digits 2 0 59 m := by
  simp only [sixtyRe, two_cls, range_has, digits2_iff, digit_nat, UInt8.reduceToNat]
  constructor
  · rintro ⟨a, b, rfl, h1, h2⟩; exact ⟨a, b, rfl, by omega, by omega, by omega, by omega⟩
  · rintro ⟨a, b, rfl, h1, h2, h3, h4⟩; exact ⟨a, b, rfl, by omega, by omega⟩

/-- `\d{4}`. -/
theorem digits4_iff (m : Str) : Digits 4 0 9999 m ↔ m.length = 4 ∧ ∀ x ∈ m, Digit x := by
  unfold Digits
  constructor
  · rintro ⟨h1, h2, _⟩; exact ⟨h1, h2⟩
  · rintro ⟨h1, h2⟩
    have := digitsVal_upper h2
    rw [h1] at this
    exact ⟨h1, h2, by omega, by omega⟩

/-- The parts of a date. -/
def dateRe : List Re := [.rep (.cls cDigit) 4 (some 4), Re.byte 45, monthRe, Re.byte 45, dayRe]

theorem lang_append : ∀ (rs ss : List Re) (m : Str), (Re.ofList (rs ++ ss)).Lang m ↔
    ∃ x y, m = x ++ y ∧ (Re.ofList rs).Lang x ∧ (Re.ofList ss).Lang y
  | [], ss, m => by
    simp only [List.nil_append, lang_nil]
    constructor
    · intro h; exact ⟨[], m, rfl, rfl, h⟩
    · rintro ⟨_, y, rfl, rfl, h⟩; exact h
  | r :: rs, ss, m => by
    simp only [List.cons_append, lang_cons, lang_append rs ss]
    constructor
    · rintro ⟨x, _, rfl, h1, y, z, rfl, h2, h3⟩; exact ⟨x ++ y, z, by simp, ⟨x, y, rfl, h1, h2⟩, h3⟩
    · rintro ⟨_, z, rfl, ⟨x, y, rfl, h1, h2⟩, h3⟩; exact ⟨x, y ++ z, by simp, h1, y, z, rfl, h2, h3⟩

theorem lang_date (m : Str) : (Re.ofList dateRe).Lang m ↔ IsDate m := by
  simp only [dateRe, lang_times_cons, lang_byte_cons, lang_cons monthRe, lang_single, lang_month, lang_day, cDigit_has,
    IsDate, digits4_iff]
  constructor
  · rintro ⟨y, _, rfl, h1, h2, _, rfl, mo, _, rfl, h3, d, rfl, h4⟩
    exact ⟨y, mo, d, by simp, ⟨h1, h2⟩, h3, h4⟩
  · rintro ⟨y, mo, d, rfl, ⟨h1, h2⟩, h3, h4⟩
    exact ⟨y, _, by simp, h1, h2, _, rfl, mo, _, rfl, h3, d, rfl, h4⟩

theorem parse_isoDate : Re.parse reIsoDate = some (.seq .bol (Re.ofList (dateRe ++ [.eol]))) := by decide +kernel

theorem found_isoDate {r : Re} (h : Re.parse reIsoDate = some r) (s : Str) : r.Found s ↔ ∃ m, Line s m ∧ IsDate m := by
  rw [parse_isoDate, Option.some.injEq] at h; subst h
  rw [Re.found_anchored (by decide)]
  simp only [lang_date]

theorem parse_isoTime : Re.parse reIsoTime = some (.seq .bol (Re.ofList
    ((dateRe ++ [Re.byte 84, hourRe, Re.byte 58, sixtyRe, Re.byte 58, sixtyRe]) ++ [.eol]))) := by decide +kernel

theorem found_isoTime {r : Re} (h : Re.parse reIsoTime = some r) (s : Str) :
    r.Found s ↔ ∃ m, Line s m ∧ IsDateTime m := by
  rw [parse_isoTime, Option.some.injEq] at h; subst h
  rw [Re.found_anchored (by decide)]
  simp only [lang_append, lang_date, lang_byte_cons, lang_cons hourRe, lang_cons sixtyRe, lang_nil, lang_hour, lang_sixty,
    IsDateTime]
  constructor
  · rintro ⟨m, h, d, _, rfl, hd, _, rfl, hh, _, rfl, h1, _, rfl, mi, _, rfl, h2, _, rfl, se, _, rfl, h3, rfl⟩
    exact ⟨_, h, d, hh, mi, se, by simp, hd, h1, h2, h3⟩
  · rintro ⟨m, h, d, hh, mi, se, rfl, hd, h1, h2, h3⟩
    exact ⟨_, h, d, _, by simp, hd, _, rfl, hh, _, rfl, h1, _, rfl, mi, _, rfl, h2, _, rfl, se, [],
      (List.append_nil se).symm, h3, rfl⟩

/-! ### File names -/

/-- `[\w,\s-]`. -/
def cFile : Cls := ⟨false, [(48, 57), (65, 90), (95, 95), (97, 122), (44, 44), (9, 13), (32, 32), (45, 45)]⟩

theorem cFile_has (x : Byte) : cFile.has x = true ↔ Letter x ∨ Digit x ∨ Space x ∨ x ∈ c!"_,-" := by
  simp [Cls.has, cFile, Letter, Digit, Space, byte_nat, UInt8.le_iff_toNat_le]; omega

/-- `[A-Za-z]`. -/
def cLetter : Cls := ⟨false, [(65, 90), (97, 122)]⟩
/-- `[a-zA-Z]`. -/
def cLetter' : Cls := ⟨false, [(97, 122), (65, 90)]⟩

theorem cLetter_has (x : Byte) : cLetter.has x = true ↔ Letter x := by
  simp [Cls.has, cLetter, Letter]
theorem cLetter_has' (x : Byte) : cLetter'.has x = true ↔ Letter x := by
  simp [Cls.has, cLetter', Letter]; exact Or.comm

theorem parse_filename : Re.parse reFilename = some (.seq .bol (Re.ofList
    ([.rep (.cls cFile) 1 none, Re.byte 46, .rep (.cls cLetter) 1 (some 5)] ++ [.eol]))) := by decide +kernel

theorem found_filename {r : Re} (h : Re.parse reFilename = some r) (s : Str) :
    r.Found s ↔ ∃ m, Line s m ∧ IsFilename m := by
  rw [parse_filename, Option.some.injEq] at h; subst h
  rw [Re.found_anchored (by decide)]
  simp only [lang_cons (.rep (.cls cFile) 1 none), lang_byte_cons, lang_single, lang_rep_cls, some_le, cFile_has, cLetter_has,
    IsFilename, length_pos_iff_ne]
  constructor
  · rintro ⟨m, h, b, _, rfl, ⟨h1, _, h2⟩, e, rfl, h3, h4, h5⟩
    exact ⟨_, h, b, e, by simp, h1, h2, h3, h4, h5⟩
  · rintro ⟨m, h, b, e, rfl, h1, h2, h3, h4, h5⟩
    exact ⟨_, h, b, _, by simp, ⟨h1, by simp, h2⟩, e, rfl, h3, h4, h5⟩

end Argus
