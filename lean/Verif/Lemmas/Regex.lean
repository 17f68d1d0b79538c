import Verif.Model.Regex

/-!
# Reading regular expressions

Expressions without anchors and without look-around match independently of what surrounds the match; `Re.Lang` is what they
match.
-/

set_option autoImplicit false

namespace Argus

/-- No anchors, no look-around. -/
def Re.plain : Re → Bool
  | .eps => true
  | .cls _ => true
  | .seq r s => r.plain && s.plain
  | .alt r s => r.plain && s.plain
  | .rep r _ _ => r.plain
  | _ => false

/-- What a plain expression matches. -/
def Re.Lang : Re → Str → Prop
  | .eps, m => m = []
  | .cls c, m => ∃ x, m = [x] ∧ c.has x = true
  | .seq r s, m => ∃ x y, m = x ++ y ∧ r.Lang x ∧ s.Lang y
  | .alt r s, m => r.Lang m ∨ s.Lang m
  | .rep r lo hi, m => ∃ ms : List Str, m = ms.flatten ∧ lo ≤ ms.length ∧ (∀ k ∈ hi, ms.length ≤ k) ∧ ∀ x ∈ ms, r.Lang x
  | _, _ => False

theorem Reps_plain {P : Str → Str → Str → Prop} {L : Str → Prop} (h : ∀ b m a, P b m a ↔ L m) :
    ∀ (n : Nat) (b m a : Str), Reps P n b m a ↔ ∃ ms : List Str, m = ms.flatten ∧ ms.length = n ∧ ∀ x ∈ ms, L x
  | 0, b, m, a => by
    simp only [Reps]
    constructor
    · rintro rfl; exact ⟨[], rfl, rfl, by simp⟩
    · rintro ⟨ms, rfl, h0, _⟩; rw [List.length_eq_zero_iff.1 h0]; rfl
  | n + 1, b, m, a => by
    simp only [Reps]
    constructor
    · rintro ⟨x, y, rfl, h1, h2⟩
      obtain ⟨ms, rfl, h3, h4⟩ := (Reps_plain h n _ _ _).1 h2
      refine ⟨x :: ms, by simp, by simp [h3], ?_⟩
      intro z hz
      rcases List.mem_cons.1 hz with rfl | hz
      · exact (h _ _ _).1 h1
      · exact h4 z hz
    · rintro ⟨ms, rfl, h3, h4⟩
      cases ms with
      | nil => simp at h3
      | cons x ms =>
        refine ⟨x, ms.flatten, by simp, (h _ _ _).2 (h4 x (by simp)), (Reps_plain h n _ _ _).2 ⟨ms, rfl, by simpa using h3, ?_⟩⟩
        exact fun z hz => h4 z (by simp [hz])

theorem Re.M_plain : ∀ (r : Re), r.plain = true → ∀ (b m a : Str), r.M b m a ↔ r.Lang m
  | .eps, _, _, _, _ => Iff.rfl
  | .cls _, _, _, _, _ => Iff.rfl
  | .seq r s, h, b, m, a => by
    simp only [Re.plain, Bool.and_eq_true] at h
    simp only [Re.M, Re.Lang]
    constructor
    · rintro ⟨x, y, e, h1, h2⟩
      exact ⟨x, y, e, (M_plain r h.1 _ _ _).1 h1, (M_plain s h.2 _ _ _).1 h2⟩
    · rintro ⟨x, y, e, h1, h2⟩
      exact ⟨x, y, e, (M_plain r h.1 _ _ _).2 h1, (M_plain s h.2 _ _ _).2 h2⟩
  | .alt r s, h, b, m, a => by
    simp only [Re.plain, Bool.and_eq_true] at h
    simp only [Re.M, Re.Lang, M_plain r h.1, M_plain s h.2]
  | .rep r lo hi, h, b, m, a => by
    simp only [Re.plain] at h
    simp only [Re.M, Re.Lang]
    constructor
    · rintro ⟨n, h1, h2, h3⟩
      obtain ⟨ms, e, h4, h5⟩ := (Reps_plain (M_plain r h) _ _ _ _).1 h3
      subst h4
      exact ⟨ms, e, h1, h2, h5⟩
    · rintro ⟨ms, e, h1, h2, h5⟩
      exact ⟨ms.length, h1, h2, (Reps_plain (M_plain r h) _ _ _ _).2 ⟨ms, e, rfl, h5⟩⟩

/-! ### Shapes -/

/-- A sequence of expressions, as the parser builds it. -/
def Re.ofList : List Re → Re
  | [] => .eps
  | r :: rs => .seq r (Re.ofList rs)

theorem Re.ofList_plain : ∀ {rs : List Re}, rs.all Re.plain = true → (Re.ofList rs).plain = true
  | [], _ => rfl
  | r :: rs, h => by
    simp only [List.all_cons, Bool.and_eq_true] at h
    simp only [Re.ofList, Re.plain, h.1, Re.ofList_plain h.2, Bool.and_self]

theorem Re.M_append : ∀ (rs ss : List Re) (b m a : Str),
    (Re.ofList (rs ++ ss)).M b m a ↔ ∃ x y, m = x ++ y ∧ (Re.ofList rs).M b x (y ++ a) ∧ (Re.ofList ss).M (b ++ x) y a
  | [], ss, b, m, a => by
    simp only [List.nil_append, Re.ofList, Re.M]
    constructor
    · intro h; exact ⟨[], m, rfl, rfl, by simpa using h⟩
    · rintro ⟨x, y, rfl, rfl, h⟩; simpa using h
  | r :: rs, ss, b, m, a => by
    simp only [List.cons_append, Re.ofList, Re.M]
    constructor
    · rintro ⟨x, y, rfl, h1, h2⟩
      obtain ⟨x', y', rfl, h3, h4⟩ := (M_append rs ss _ _ _).1 h2
      exact ⟨x ++ x', y', by simp, ⟨x, x', rfl, by simpa using h1, h3⟩, by simpa using h4⟩
    · rintro ⟨x, y, rfl, ⟨x', y', rfl, h1, h2⟩, h3⟩
      refine ⟨x', y' ++ y, by simp, by simpa using h1, (M_append rs ss _ _ _).2 ⟨y', y, rfl, h2, by simpa using h3⟩⟩

/-- A pattern that begins with `^`. -/
theorem Re.found_bol (r : Re) (s : Str) : (Re.seq .bol r).Found s ↔ ∃ m a, s = m ++ a ∧ r.M [] m a := by
  unfold Re.Found
  simp only [Re.M]
  constructor
  · rintro ⟨b, m, a, e, x, y, rfl, ⟨rfl, rfl⟩, h⟩
    exact ⟨y, a, by simpa using e, by simpa using h⟩
  · rintro ⟨m, a, e, h⟩
    exact ⟨[], m, a, by simpa using e, [], m, rfl, ⟨rfl, rfl⟩, by simpa using h⟩

/-- The text, or the text with a newline at its end. -/
def Line (s m : Str) : Prop := s = m ∨ s = m ++ [10]

/-- `^...$` with a plain middle. -/
theorem Re.found_anchored {rs : List Re} (h : rs.all Re.plain = true) (s : Str) :
    (Re.seq .bol (Re.ofList (rs ++ [.eol]))).Found s ↔ ∃ m, Line s m ∧ (Re.ofList rs).Lang m := by
  rw [Re.found_bol]
  simp only [Re.M_append, Re.M_plain _ (Re.ofList_plain h)]
  constructor
  · rintro ⟨m, a, rfl, x, y, rfl, h1, h2⟩
    simp only [Re.ofList, Re.M] at h2
    obtain ⟨u, v, rfl, ⟨rfl, h3⟩, rfl⟩ := h2
    refine ⟨x, ?_, h1⟩
    simp only [List.append_nil] at h3 ⊢
    rcases h3 with h3 | h3
    · left; simp at h3; simp [h3]
    · right; simp at h3; simp [h3]
  · rintro ⟨m, h1 | h1, h2⟩
    · exact ⟨m, [], by simp [h1], m, [], by simp, h2, [], [], rfl, ⟨rfl, .inl rfl⟩, rfl⟩
    · exact ⟨m, [10], by simp [h1], m, [], by simp, h2, [], [], rfl, ⟨rfl, .inr rfl⟩, rfl⟩

/-! ### Languages -/

theorem lang_nil (m : Str) : (Re.ofList []).Lang m ↔ m = [] := Iff.rfl

theorem lang_cons (r : Re) (rs : List Re) (m : Str) :
    (Re.ofList (r :: rs)).Lang m ↔ ∃ x y, m = x ++ y ∧ r.Lang x ∧ (Re.ofList rs).Lang y := Iff.rfl

theorem lang_single (r : Re) (m : Str) : (Re.ofList [r]).Lang m ↔ r.Lang m := by
  rw [lang_cons]
  constructor
  · rintro ⟨x, y, rfl, h, rfl⟩; simpa using h
  · intro h; exact ⟨m, [], by simp, h, rfl⟩

theorem lang_cls_cons (c : Cls) (rs : List Re) (m : Str) :
    (Re.ofList (.cls c :: rs)).Lang m ↔ ∃ x y, m = x :: y ∧ c.has x = true ∧ (Re.ofList rs).Lang y := by
  rw [lang_cons]
  constructor
  · rintro ⟨_, y, rfl, ⟨x, rfl, h1⟩, h2⟩; exact ⟨x, y, rfl, h1, h2⟩
  · rintro ⟨x, y, rfl, h1, h2⟩; exact ⟨[x], y, rfl, ⟨x, rfl, h1⟩, h2⟩

theorem byte_has (x y : Byte) : (Cls.mk false [(x, x)]).has y = true ↔ y = x := by
  simp only [Cls.has, List.any_cons, List.any_nil, Bool.or_false, Bool.false_bne, Bool.and_eq_true, decide_eq_true_eq]
  constructor
  · rintro ⟨h1, h2⟩; exact UInt8.le_antisymm h2 h1
  · rintro rfl; exact ⟨UInt8.le_refl _, UInt8.le_refl _⟩

theorem lang_byte (x : Byte) (m : Str) : (Re.byte x).Lang m ↔ m = [x] := by
  show (∃ y, m = [y] ∧ _) ↔ _
  constructor
  · rintro ⟨y, rfl, h⟩; rw [(byte_has x y).1 h]
  · rintro rfl; exact ⟨x, rfl, (byte_has x x).2 rfl⟩

theorem lang_byte_cons (x : Byte) (rs : List Re) (m : Str) :
    (Re.ofList (Re.byte x :: rs)).Lang m ↔ ∃ y, m = x :: y ∧ (Re.ofList rs).Lang y := by
  rw [lang_cons]
  constructor
  · rintro ⟨u, y, rfl, h1, h2⟩; rw [lang_byte] at h1; subst h1; exact ⟨y, rfl, h2⟩
  · rintro ⟨y, rfl, h2⟩; exact ⟨[x], y, rfl, (lang_byte x _).2 rfl, h2⟩

theorem flatten_singles {ms : List Str} {P : Byte → Prop} (h : ∀ x ∈ ms, ∃ y, x = [y] ∧ P y) :
    ms.flatten.length = ms.length ∧ ∀ y ∈ ms.flatten, P y := by
  induction ms with
  | nil => simp
  | cons x ms ih =>
    obtain ⟨y, rfl, hy⟩ := h x (by simp)
    obtain ⟨h1, h2⟩ := ih (fun z hz => h z (by simp [hz]))
    refine ⟨by simp only [List.flatten_cons, List.length_append, h1, List.length_cons, List.length_nil]; omega, ?_⟩
    intro z hz
    simp only [List.flatten_cons, List.cons_append, List.nil_append, List.mem_cons] at hz
    rcases hz with rfl | hz
    · exact hy
    · exact h2 z hz

/-- Repetitions of a class. -/
theorem lang_rep_cls (c : Cls) (lo : Nat) (hi : Option Nat) (m : Str) :
    (Re.rep (.cls c) lo hi).Lang m ↔ lo ≤ m.length ∧ (∀ k ∈ hi, m.length ≤ k) ∧ ∀ x ∈ m, c.has x = true := by
  simp only [Re.Lang]
  constructor
  · rintro ⟨ms, rfl, h1, h2, h3⟩
    obtain ⟨h4, h5⟩ := flatten_singles h3
    rw [h4]; exact ⟨h1, h2, h5⟩
  · rintro ⟨h1, h2, h3⟩
    have e : (m.map (fun x => [x])).flatten = m := by
      clear h1 h2 h3
      induction m with
      | nil => rfl
      | cons x m ih => simp only [List.map_cons, List.flatten_cons, ih, List.cons_append, List.nil_append]
    refine ⟨m.map (fun x => [x]), e.symm, by simpa using h1, by simpa using h2, ?_⟩
    intro z hz
    obtain ⟨x, hx, rfl⟩ := List.mem_map.1 hz
    exact ⟨x, rfl, h3 x hx⟩

/-- `r?`. -/
theorem lang_opt (r : Re) (m : Str) : (Re.rep r 0 (some 1)).Lang m ↔ m = [] ∨ r.Lang m := by
  simp only [Re.Lang]
  constructor
  · rintro ⟨ms, rfl, _, h2, h3⟩
    have := h2 1 rfl
    match ms, this with
    | [], _ => left; rfl
    | [x], _ => right; simpa using h3 x (by simp)
  · rintro (rfl | h)
    · exact ⟨[], rfl, by simp, by simp, by simp⟩
    · exact ⟨[m], by simp, by simp, by simp, by simpa using h⟩

theorem lang_alt (r s : Re) (m : Str) : (Re.alt r s).Lang m ↔ r.Lang m ∨ s.Lang m := Iff.rfl

theorem lang_rep (r : Re) (lo : Nat) (hi : Option Nat) (m : Str) : (Re.rep r lo hi).Lang m ↔
    ∃ ms : List Str, m = ms.flatten ∧ lo ≤ ms.length ∧ (∀ k ∈ hi, ms.length ≤ k) ∧ ∀ x ∈ ms, r.Lang x := Iff.rfl

end Argus
