import Verif.Lemmas.Compare

/-! # Lemmas: the array and variadic handlers -/

set_option autoImplicit false

namespace Argus

theorem gather_single {α β : Type} (f : α → β) : ∀ xs : List α,
    gather (fun s => some [f s]) xs = some (xs.map f)
  | [] => rfl
  | x :: xs => by rw [gather, gather_single f xs]; rfl

theorem arrayString_gives (W : World) :
    GivesArr W .arrayString .string (fun v => (some (pieces v)).map (fun l => l.map Word.ptr)) := by
  have := collect_gives (W := W) (h := .arrayString) (k := .string) (fun _ _ => rfl) setValueString_appends
    setValueString_meta (by
      intro v ws hw c hc
      simp only [Option.some.injEq] at hw; subst hw
      simp only [List.mem_singleton] at hc; subst hc; rfl)
  simpa only [gather_single, Option.map_some] using this

theorem arrayFloat_gives (W : World) :
    GivesArr W .arrayFloat .float (fun v => (some ((pieces v).map W.strtof)).map (fun l => l.map Word.bits)) := by
  have := collect_gives (W := W) (h := .arrayFloat) (k := .float) (fun _ _ => rfl) (setValueFloat_appends W)
    (setValueFloat_meta W) (by
      intro v ws hw c hc
      simp only [Option.some.injEq] at hw; subst hw
      simp only [List.mem_singleton] at hc; subst hc; rfl)
  simpa only [gather_single, Option.map_some, List.map_map, Function.comp_def] using this

theorem arrayInt_gives (W : World) :
    GivesArr W .arrayInt .int (fun v => (gather pieceInts (pieces v)).map (fun l => l.map intCell)) := by
  have := collect_gives (W := W) (h := .arrayInt) (k := .int) (fun _ _ => rfl) setValueInt_appends
    setValueInt_meta (by
      intro v ws hw c hc
      cases hp : pieceInts v with
      | none => simp [hp] at hw
      | some xs =>
        simp only [hp, Option.map_some, Option.some.injEq] at hw; subst hw
        obtain ⟨x, _, rfl⟩ := List.mem_map.1 hc
        rfl)
  simpa only [gather_map] using this

theorem variadicString_gives (W : World) :
    GivesArr W .variadicString .string (fun v => (some [v]).map (fun l => l.map Word.ptr)) :=
  variadic_gives (conv := fun s => some (.ptr s)) (fun _ _ => rfl) (by
    intro v w hw; simp only [Option.some.injEq] at hw; subst hw; rfl)

/-- The number a text denotes for `variadic_int`. -/
def wholeInt (v : Str) : Option Int :=
  if (strtoll v).2 ≠ [] ∨ (strtoll v).2 = v then none else some (strtoll v).1

theorem variadicInt_gives (W : World) :
    GivesArr W .variadicInt .int (fun v => ((wholeInt v).map (fun n => [n])).map (fun l => l.map Word.ofInt64)) := by
  have := variadic_gives (W := W) (h := .variadicInt) (k := .int) (conv := variadicIntConv)
    (fun _ _ => rfl) (by
      intro v w hw
      unfold variadicIntConv at hw
      simp only at hw
      split at hw
      · simp at hw
      · simp only [Option.some.injEq] at hw; subst hw; rfl)
  refine cast (congrArg (GivesArr W .variadicInt .int) (funext fun v => ?_)) this
  unfold variadicIntConv wholeInt
  simp only
  split <;> rfl

/-- The double a text denotes for `variadic_float`. -/
def wholeFloat (W : World) (v : Str) : Option F64 :=
  if (W.strtod v).2 ≠ v.length ∨ (W.strtod v).2 = 0 then none else some (W.strtod v).1

theorem variadicFloat_gives (W : World) :
    GivesArr W .variadicFloat .float
      (fun v => ((wholeFloat W v).map (fun n => [n])).map (fun l => l.map Word.bits)) := by
  have := variadic_gives (W := W) (h := .variadicFloat) (k := .float) (conv := variadicFloatConv W)
    (fun _ _ => rfl) (by
      intro v w hw
      unfold variadicFloatConv at hw
      simp only at hw
      split at hw
      · simp at hw
      · simp only [Option.some.injEq] at hw; subst hw; rfl)
  refine cast (congrArg (GivesArr W .variadicFloat .float) (funext fun v => ?_)) this
  unfold variadicFloatConv wholeFloat
  simp only
  split <;> rfl

/-! ### Pieces of int arrays -/

theorem wrap32_range (n : Int) : intMin ≤ wrap32 n ∧ wrap32 n ≤ intMax := by
  have h1 := BitVec.le_toInt (BitVec.ofInt 32 n)
  have h2 := BitVec.toInt_lt (x := BitVec.ofInt 32 n)
  unfold wrap32 intMin intMax
  omega

theorem parseIntRange_range {v : Str} {lo hi : Int} (h : parseIntRange v = some (lo, hi)) :
    intMin ≤ lo ∧ lo ≤ hi ∧ hi ≤ intMax := by
  unfold parseIntRange at h
  split at h
  · simp only [Option.some.injEq, Prod.mk.injEq] at h
    have h1 := wrap32_range (strtoll v).1
    rename_i r _
    have h2 := wrap32_range (strtoll r).1
    omega
  · simp only at h
    split at h
    · simp at h
    · simp only [Option.some.injEq, Prod.mk.injEq] at h
      have h1 := wrap32_range (strtoll v).1
      omega

theorem pieceInts_range {v : Str} {xs : List Int} (h : pieceInts v = some xs) :
    xs ≠ [] ∧ ∀ x ∈ xs, intMin ≤ x ∧ x ≤ intMax := by
  unfold pieceInts at h
  split at h
  · simp at h
  · rename_i lo hi hp
    obtain ⟨h1, h2, h3⟩ := parseIntRange_range hp
    split at h
    · simp at h
    · simp only [Option.some.injEq] at h
      subst h
      refine ⟨?_, ?_⟩
      · intro he
        simp only [List.map_eq_nil_iff, List.range_eq_nil] at he
        omega
      · intro x hx
        obtain ⟨i, hi, rfl⟩ := List.mem_map.1 hx
        rw [List.mem_range] at hi
        omega

theorem gather_mem {α β : Type} {f : α → Option (List β)} {P : β → Prop}
    (hf : ∀ x ys, f x = some ys → ∀ y ∈ ys, P y) : ∀ (xs : List α) (ys : List β), gather f xs = some ys →
    ∀ y ∈ ys, P y
  | [], ys, h, y, hy => by simp only [gather, Option.some.injEq] at h; subst h; simp at hy
  | x :: xs, ys, h, y, hy => by
    unfold gather at h
    cases ha : f x with
    | none => rw [ha] at h; simp at h
    | some a =>
      cases hb : gather f xs with
      | none => rw [ha, hb] at h; simp at h
      | some b =>
        rw [ha, hb] at h
        simp only [Option.some.injEq] at h; subst h
        rcases List.mem_append.1 hy with hc | hc
        · exact hf x a ha y hc
        · exact gather_mem hf xs b hb y hc

theorem gather_ne_nil {α β : Type} {f : α → Option (List β)} (hf : ∀ x ys, f x = some ys → ys ≠ []) :
    ∀ (xs : List α), xs ≠ [] → gather f xs ≠ some []
  | [], h => absurd rfl h
  | x :: xs, _ => by
    unfold gather
    cases ha : f x with
    | none => simp
    | some a =>
      cases hb : gather f xs with
      | none => simp
      | some b =>
        have := hf x a ha
        simp [this]

theorem gather_some {α β : Type} (f : α → Option (List β)) (g : α → List β) : ∀ xs : List α,
    (∀ x ∈ xs, f x = some (g x)) → gather f xs = some (xs.flatMap g)
  | [], _ => rfl
  | x :: xs, h => by
    rw [gather, h x (by simp), gather_some f g xs (fun y hy => h y (by simp [hy]))]; rfl

/-! ### Numbers and ranges in decimal -/

theorem digit_not_sep {d : Byte} (h : isDigit d = true) : (d == 45 || d == 58) = false := by
  unfold isDigit at h
  rw [Bool.and_eq_true, decide_eq_true_eq, decide_eq_true_eq] at h
  have h1 : d ≠ 45 := by rintro rfl; exact absurd h.1 (by decide)
  have h2 : d ≠ 58 := by rintro rfl; exact absurd h.2 (by decide)
  simp [h1, h2]

theorem searchSep_digits (rest : Str) : ∀ (ds : Str) (d : Byte), isDigit d = true →
    (∀ c ∈ ds, isDigit c = true) → ∃ d', isDigit d' = true ∧
      searchSep (some d) (ds ++ rest) = searchSep (some d') rest
  | [], d, h, _ => ⟨d, h, rfl⟩
  | c :: ds, d, _, hd => by
    have hc := hd c (by simp)
    obtain ⟨d', h1, h2⟩ := searchSep_digits rest ds c hc (fun x hx => hd x (by simp [hx]))
    refine ⟨d', h1, ?_⟩
    rw [List.cons_append, searchSep, digit_not_sep hc]
    simpa using h2

theorem showInt_shape (n : Int) : ∃ (sign : Str) (d : Byte) (ds : Str), showInt n = sign ++ d :: ds ∧ isDigit d = true ∧
    (∀ c ∈ ds, isDigit c = true) ∧ (sign = [] ∨ sign = [45]) := by
  obtain ⟨h1, h2, _⟩ := natDigits_spec n.natAbs
  cases hd : natDigits n.natAbs with
  | nil => exact absurd hd h1
  | cons d ds =>
    rw [hd] at h2
    unfold showInt
    rw [hd]
    split
    · exact ⟨[45], d, ds, rfl, h2 d (by simp), fun c hc => h2 c (by simp [hc]), .inr rfl⟩
    · exact ⟨[], d, ds, rfl, h2 d (by simp), fun c hc => h2 c (by simp [hc]), .inl rfl⟩

theorem searchSep_showInt (n : Int) (rest : Str) : ∃ d, isDigit d = true ∧
    searchSep none (showInt n ++ rest) = searchSep (some d) rest := by
  obtain ⟨sign, d, ds, e, hd, hds, hs⟩ := showInt_shape n
  obtain ⟨d', h1, h2⟩ := searchSep_digits rest ds d hd hds
  refine ⟨d', h1, ?_⟩
  have h3 : ∀ p, searchSep p (d :: (ds ++ rest)) = searchSep (some d) (ds ++ rest) := by
    intro p; rw [searchSep, digit_not_sep hd]; simp
  rw [e]
  rcases hs with rfl | rfl
  · rw [List.nil_append, List.cons_append, h3, h2]
  · rw [List.append_assoc, List.cons_append, List.cons_append, List.nil_append, searchSep]
    simp only [Option.any_none, Bool.and_false, Bool.false_and, Bool.false_eq_true, if_false]
    rw [h3, h2]

theorem wrap32_eq {n : Int} (h1 : intMin ≤ n) (h2 : n ≤ intMax) : wrap32 n = n := wrap32_id h1 h2

theorem clamp_int {n : Int} (h1 : intMin ≤ n) (h2 : n ≤ intMax) : clampLL n = n := by
  apply clampLL_id
  · unfold intMin at h1; unfold llongMin; omega
  · unfold intMax at h2; unfold llongMax; omega

theorem parseIntRange_one {n : Int} (h1 : intMin ≤ n) (h2 : n ≤ intMax) :
    parseIntRange (showInt n) = some (n, n) := by
  obtain ⟨d, _, h⟩ := searchSep_showInt n []
  rw [List.append_nil] at h
  have hs := strtoll_showInt n [] (by simp)
  rw [List.append_nil] at hs
  unfold parseIntRange
  rw [h, searchSep, hs]
  simp only [ne_eq, not_true_eq_false, if_false]
  rw [clamp_int h1 h2, wrap32_eq h1 h2]

theorem parseIntRange_two {a b : Int} {sep : Byte} (hsep : sep = 45 ∨ sep = 58) (ha1 : intMin ≤ a)
    (ha2 : a ≤ intMax) (hb1 : intMin ≤ b) (hb2 : b ≤ intMax) :
    parseIntRange (showInt a ++ sep :: showInt b) = some (min a b, max a b) := by
  obtain ⟨d, hd, h⟩ := searchSep_showInt a (sep :: showInt b)
  have hsd : isDigit sep = false := by rcases hsep with rfl | rfl <;> decide
  have hs := strtoll_showInt a (sep :: showInt b) (by simpa using hsd)
  have hs2 := strtoll_showInt b [] (by simp)
  rw [List.append_nil] at hs2
  have h2 : searchSep (some d) (sep :: showInt b) = some (showInt b) := by
    rw [searchSep]
    have e1 : (sep == 45 || sep == 58) = true := by rcases hsep with rfl | rfl <;> decide
    have e2 : (showInt b).head?.any (fun d => isDigit d || d == 45) = true := by
      obtain ⟨sign, d, ds, e, hd, _, hs⟩ := showInt_shape b
      rw [e]
      rcases hs with rfl | rfl <;> simp [hd]
    rw [e1, e2]
    simp [hd]
  unfold parseIntRange
  rw [h, h2, hs]
  simp only
  rw [hs2]
  rw [clamp_int ha1 ha2, clamp_int hb1 hb2, wrap32_eq ha1 ha2, wrap32_eq hb1 hb2]

theorem pieceInts_text {p : IntPiece} (h : p.Fits) : pieceInts p.text = some p.ints := by
  cases p with
  | one n =>
    obtain ⟨h1, h2⟩ := h
    unfold pieceInts IntPiece.text
    simp only
    rw [parseIntRange_one h1 (by omega)]
    simp only
    rw [if_neg (by omega)]
    have : (n - n + 1).toNat = 1 := by omega
    rw [this]
    simp [IntPiece.ints, List.range_succ]
  | range a colon b =>
    obtain ⟨h1, h2, h3, h4⟩ := h
    unfold pieceInts IntPiece.text
    have e : showInt a ++ (if colon = true then c!":" else c!"-") ++ showInt b =
        showInt a ++ (if colon then 58 else 45) :: showInt b := by
      cases colon <;> simp <;> rfl
    simp only
    rw [e, parseIntRange_two (by cases colon <;> simp) h1 (by omega) h3 (by omega)]
    simp only
    rw [if_neg (by omega)]
    have : (max a b - min a b + 1).toNat = (max a b - min a b).toNat + 1 := by omega
    rw [this]
    rfl

end Argus
