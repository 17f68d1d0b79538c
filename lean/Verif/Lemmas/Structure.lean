import Verif.Spec.Structure
import Verif.Lemmas.Access
import Verif.Lemmas.Compare

/-!
# Lemmas on the validation of definitions
-/

set_option autoImplicit false

namespace Argus

theorem check_ok {c : Bool} {e st : Int} (he : e ≠ Err.success) :
    check c e st = Err.success ↔ c = false ∧ st = Err.success := by
  unfold check
  cases c <;> simp [he]

theorem strcmp_eq_zero {s t : Str} : strcmp s t = 0 ↔ s = t := by
  rcases strcmp_cases s t with ⟨e, h⟩ | ⟨e, h⟩ | ⟨e, h⟩
  · rw [e]; constructor
    · intro h'; exact absurd h' (by decide)
    · rintro rfl; exact absurd h (List.lt_irrefl s)
  · exact ⟨fun _ => h, fun _ => e⟩
  · rw [e]; constructor
    · intro h'; exact absurd h' (by decide)
    · rintro rfl; exact absurd h (List.lt_irrefl s)

/-! ## Flag masks -/

theorem ofList_getLsbD (l : List Flag) (i : Nat) :
    (Flags.ofList l).getLsbD i = true ↔ ∃ f ∈ l, i = f.bit := by
  have hb : ∀ f : Flag, f.bit < 32 := by intro f; cases f <;> decide
  have h1 : ∀ (f : Flag), (1#32 <<< f.bit).getLsbD i = true ↔ i = f.bit := by
    intro f
    rw [BitVec.getLsbD_shiftLeft]
    have := hb f
    by_cases hi : i = f.bit
    · subst hi; simp [this]
    · by_cases h2 : i < f.bit
      · simp [h2, hi]
      · have : ¬ (i - f.bit = 0) := by omega
        simp [hi, BitVec.getLsbD_one, this]
  have key : ∀ (l : List Flag) (acc : BitVec 32),
      (l.foldl (fun acc f => acc ||| (1#32 <<< f.bit)) acc).getLsbD i = true ↔
        acc.getLsbD i = true ∨ ∃ f ∈ l, i = f.bit := by
    intro l
    induction l with
    | nil => intro acc; simp
    | cons f fs ih =>
      intro acc
      rw [List.foldl_cons, ih, BitVec.getLsbD_or, Bool.or_eq_true, h1]
      simp [or_assoc]
  unfold Flags.ofList
  rw [key]
  simp

theorem outside_ofList {fs : Flags} {l : List Flag} : fs.outside (Flags.ofList l) = false ↔ fs.Within l := by
  unfold Flags.outside Flags.Within
  rw [bne_eq_false_iff_eq]
  constructor
  · intro h i hi
    rw [← ofList_getLsbD]
    have h2 := congrArg (BitVec.getLsbD · i) h
    simp only [BitVec.getLsbD_and, BitVec.getLsbD_not, hi, Bool.true_and, BitVec.ofNat_eq_ofNat,
      BitVec.getLsbD_zero, Bool.and_eq_false_imp, decide_eq_true_eq, Bool.not_eq_eq_eq_not, Bool.not_false] at h2
    exact h2 (BitVec.lt_of_getLsbD hi)
  · intro h
    apply BitVec.eq_of_getLsbD_eq
    intro i _
    simp only [BitVec.getLsbD_and, BitVec.getLsbD_not, BitVec.ofNat_eq_ofNat, BitVec.getLsbD_zero]
    cases hi : fs.getLsbD i with
    | false => rfl
    | true => simp [(ofList_getLsbD l i).2 (h i hi)]

theorem within_mono {fs : Flags} {l m : List Flag} (h : fs.Within l) (hlm : ∀ f ∈ l, f ∈ m) : fs.Within m := by
  intro i hi
  obtain ⟨f, h1, h2⟩ := h i hi
  exact ⟨f, hlm f h1, h2⟩

theorem positionalManyFlagMask_eq : positionalManyFlagMask =
    Flags.ofList [.sorted, .unique, .deprecated, .experimental, .required] := by decide

/-! ## Default values -/

theorem bind_ok_eq {α β : Type} {x : Out α} {f : α → Out β} {b : β} :
    (x >>= f) = .ok b ↔ ∃ a, x = .ok a ∧ f a = .ok b := by
  cases x with
  | ok a => simp
  | ub u => simp

theorem defaultLoop_ok (W : World) (o : Opt) : ∀ (vs : List Validator) (st : Int),
    defaultLoop W o st vs = .ok Err.success ↔ st = Err.success ∧ ∀ v ∈ vs,
      (v.order = .post → ∃ m, runPost W v.kind o = .ok (Err.success, m)) ∧
      (v.order = .pre → o.valueType = .string →
        ∃ s m, o.defaultValue.asString = .ok s ∧ runPre W v.kind s = .ok (Err.success, m))
  | [], st => by simp [defaultLoop]
  | v :: vs, st => by
    unfold defaultLoop defaultCheck
    rw [bind_ok_eq]
    simp only [defaultLoop_ok W o vs, List.forall_mem_cons]
    by_cases hp : v.order = .pre ∧ o.valueType = .string
    · rw [if_pos hp]
      constructor
      · rintro ⟨r, h1, h2, h3⟩
        rw [check_ok (by decide)] at h2
        obtain ⟨s, hs, h4⟩ := bind_ok_eq.1 h1
        obtain ⟨q, hq, h5⟩ := bind_ok_eq.1 h4
        simp only [Out.ok.injEq] at h5
        have h6 : q.1 = Err.success := by rw [h5]; simpa using h2.1
        exact ⟨h2.2, ⟨fun h => by rw [hp.1] at h; simp at h, fun _ _ => ⟨s, q.2, hs, by rw [hq, ← h6]⟩⟩, h3⟩
      · rintro ⟨h1, ⟨_, h2⟩, h3⟩
        obtain ⟨s, m, hs, hq⟩ := h2 hp.1 hp.2
        refine ⟨Err.success, ?_, (check_ok (by decide)).2 ⟨rfl, h1⟩, h3⟩
        rw [hs, Out.ok_bind, hq, Out.ok_bind]
    · rw [if_neg hp]
      by_cases hq : v.order = .post
      · rw [if_pos hq]
        constructor
        · rintro ⟨r, h1, h2, h3⟩
          rw [check_ok (by decide)] at h2
          obtain ⟨q, hq', h5⟩ := bind_ok_eq.1 h1
          simp only [Out.ok.injEq] at h5
          have h6 : q.1 = Err.success := by rw [h5]; simpa using h2.1
          exact ⟨h2.2, ⟨fun _ => ⟨q.2, by rw [hq', ← h6]⟩, fun h h' => (hp ⟨h, h'⟩).elim⟩, h3⟩
        · rintro ⟨h1, ⟨h2, _⟩, h3⟩
          obtain ⟨m, hm⟩ := h2 hq
          refine ⟨Err.success, ?_, (check_ok (by decide)).2 ⟨rfl, h1⟩, h3⟩
          rw [hm, Out.ok_bind]
      · rw [if_neg hq]
        constructor
        · rintro ⟨r, h1, h2, h3⟩
          rw [check_ok (by decide)] at h2
          exact ⟨h2.2, ⟨fun h => (hq h).elim, fun h h' => (hp ⟨h, h'⟩).elim⟩, h3⟩
        · rintro ⟨h1, _, h3⟩
          exact ⟨Err.success, rfl, (check_ok (by decide)).2 ⟨rfl, h1⟩, h3⟩

theorem validateDefault_ok (W : World) (o : Opt) : validateDefault W o = .ok Err.success ↔ o.DefaultOk W := by
  unfold validateDefault Opt.DefaultOk
  by_cases hd : o.haveDefault = true
  · by_cases hf : o.valueType = .flag
    · rw [if_pos ⟨hd, hf⟩]
      constructor
      · intro h; simp only [Out.ok.injEq] at h; exact absurd h (by decide)
      · intro h; exact absurd hf (h hd).1
    · rw [if_neg (by simp [hf]), if_pos hd]
      cases o.validators with
      | none => simp [hf]
      | some vs => simp [defaultLoop_ok, hd, hf]
  · simp [hd]

/-! ## Entries -/

theorem validateDependencies_ok (os : List Opt) (o : Opt) : validateDependencies os o = Err.success ↔
    (∀ n ∈ o.require.getD [], (∃ p ∈ os, p.name = some n) ∧ n ∉ o.conflict.getD []) ∧
    (∀ n ∈ o.conflict.getD [], ∃ p ∈ os, p.name = some n) := by
  have hf : ∀ n, (findName os n).isNone = false ↔ ∃ p ∈ os, p.name = some n := by
    intro n
    cases h : findName os n with
    | none => simpa using findName_none.1 h
    | some i =>
      obtain ⟨pre, p, post, h1, _, h2, _⟩ := findName_some.1 h
      simp only [Option.isNone_some, true_iff]
      exact ⟨p, by rw [h1]; simp, h2⟩
  unfold validateDependencies
  simp only [check_ok (show Err.invalidDependency ≠ Err.success by decide), List.any_eq_false, Bool.not_eq_true, hf,
    beq_eq_false_iff_ne, ne_eq, strcmp_eq_zero, and_true]
  constructor
  · rintro ⟨h1, h2, h3⟩
    exact ⟨fun n hn => ⟨h2 n hn, fun hc => h3 n hn n hc rfl⟩, h1⟩
  · rintro ⟨h1, h2⟩
    exact ⟨h2, fun n hn => (h1 n hn).1, fun r hr c hc he => (h1 r hr).2 (he ▸ hc)⟩

theorem flagCheck_dead (o : Opt) : ((o.valueType.code == primitiveMask && o.flags.outside optionFlagMask) ||
    (o.valueType.code == arrayMask && o.flags.outside arrayFlagMask) ||
    (o.valueType.code == mapMask && o.flags.outside mapFlagMask)) = false := by
  have : ∀ v : ValueType, (v.code == primitiveMask) = false ∧ (v.code == arrayMask) = false ∧
      (v.code == mapMask) = false := by
    intro v; cases v <;> decide
  simp [this o.valueType]

theorem validateOption_ok (W : World) (os : List Opt) (o : Opt) : validateOption W os o = .ok Err.success ↔
    ((o.sname ≠ 0 ∨ o.lname ≠ none) ∧ o.help ≠ none ∧ o.handler ≠ none ∧ o.DefaultOk W) ∧
    (∀ n ∈ o.require.getD [], (∃ p ∈ os, p.name = some n) ∧ n ∉ o.conflict.getD []) ∧
    (∀ n ∈ o.conflict.getD [], ∃ p ∈ os, p.name = some n) := by
  unfold validateOption
  rw [bind_ok_eq, ← validateDependencies_ok, ← validateDefault_ok]
  simp only [flagCheck_dead, Out.ok.injEq, check_ok (show Err.malformedOption ≠ Err.success by decide),
    check_ok (show Err.invalidHandler ≠ Err.success by decide),
    check_ok (show Err.invalidFlag ≠ Err.success by decide), bne_eq_false_iff_eq, and_true, true_and]
  constructor
  · rintro ⟨d, h1, h2, h3, h4, h5, h6⟩
    rw [h3] at h1
    refine ⟨⟨?_, ?_, ?_, h1⟩, h2⟩
    · by_cases hs : o.sname = 0
      · right; intro hl; simp [hs, hl] at h6
      · exact .inl hs
    · intro h; simp [h] at h5
    · intro h; simp [h] at h4
  · rintro ⟨⟨h1, h2, h3, h4⟩, h5⟩
    refine ⟨Err.success, h4, h5, rfl, ?_, ?_, ?_⟩
    · cases h : o.handler with
      | none => exact absurd h h3
      | some _ => rfl
    · cases h : o.help with
      | none => exact absurd h h2
      | some _ => rfl
    · rcases h1 with h1 | h1
      · simp [h1]
      · cases h : o.lname with
        | none => exact absurd h h1
        | some _ => simp

theorem isNone_false {α : Type} {x : Option α} : x.isNone = false ↔ x ≠ none := by cases x <;> simp
theorem isSome_false {α : Type} {x : Option α} : x.isSome = false ↔ x = none := by cases x <;> simp

theorem validatePositional_ok (W : World) (o : Opt) : validatePositional W o = .ok Err.success ↔
    o.name ≠ none ∧ o.help ≠ none ∧ o.handler ≠ none ∧ o.flags.Within [.required] ∧
    ¬ (o.flags.has .required = true ∧ o.haveDefault = true) ∧ o.DefaultOk W ∧ o.require = none ∧ o.conflict = none := by
  unfold validatePositional
  rw [bind_ok_eq, ← validateDefault_ok]
  simp only [Out.ok.injEq, check_ok (show Err.malformedOption ≠ Err.success by decide),
    check_ok (show Err.invalidHandler ≠ Err.success by decide),
    check_ok (show Err.invalidFlag ≠ Err.success by decide),
    check_ok (show Err.invalidDependency ≠ Err.success by decide), bne_eq_false_iff_eq, and_true, true_and,
    Bool.or_eq_false_iff, isNone_false, isSome_false]
  have hm : o.flags.outside positionalFlagMask = false ↔ o.flags.Within [.required] := outside_ofList
  rw [hm]
  constructor
  · rintro ⟨d, h1, ⟨h2, h3⟩, h4, h5, h6, h7, _, h8, h9⟩
    rw [h4] at h1
    exact ⟨h9, h8, h6, h7, by simpa using h5, h1, h2, h3⟩
  · rintro ⟨h1, h2, h3, h4, h5, h6, h7, h8⟩
    refine ⟨Err.success, h6, ⟨h7, h8⟩, rfl, by simpa using h5, h3, h4, ?_, h2, h1⟩
    rw [positionalManyFlagMask_eq, outside_ofList.2 (within_mono h4 (by decide)), Bool.and_false]

theorem validateSubcommand_ok (o : Opt) : validateSubcommand o = Err.success ↔
    o.name ≠ none ∧ o.help ≠ none ∧ o.subOptions ≠ none ∧ o.handler = none ∧
    o.flags.Within [.hidden, .advanced, .deprecated, .experimental] ∧
    o.require = none ∧ o.conflict = none ∧ o.haveDefault = false ∧ o.validators = none := by
  unfold validateSubcommand
  simp only [check_ok (show Err.malformedOption ≠ Err.success by decide),
    check_ok (show Err.invalidHandler ≠ Err.success by decide),
    check_ok (show Err.invalidFlag ≠ Err.success by decide),
    check_ok (show Err.invalidDefault ≠ Err.success by decide),
    check_ok (show Err.invalidDependency ≠ Err.success by decide), and_true,
    Bool.or_eq_false_iff, isNone_false, isSome_false]
  have hm : o.flags.outside subcommandFlagMask = false ↔
    o.flags.Within [.hidden, .advanced, .deprecated, .experimental] := outside_ofList
  rw [hm]
  constructor
  · rintro ⟨h1, h2, ⟨h3, h4⟩, h5, h6, h7, h8, h9⟩
    exact ⟨h9, h8, h7, h5, h6, h3, h4, h2, h1⟩
  · rintro ⟨h9, h8, h7, h5, h6, h3, h4, h2, h1⟩
    exact ⟨h1, h2, ⟨h3, h4⟩, h5, h6, h7, h8, h9⟩

theorem validateGroup_ok (o : Opt) : validateGroup o = Err.success ↔ o.flags.Within [.exclusive] := by
  unfold validateGroup
  rw [check_ok (by decide)]
  have hm : o.flags.outside groupFlagMask = false ↔ o.flags.Within [.exclusive] := outside_ofList
  rw [hm]; simp

theorem typeFormatLoop_ok (W : World) (all : List Opt) : ∀ (os : List Opt) (st : Int),
    typeFormatLoop W all st os = .ok Err.success ↔
      st = Err.success ∧ ∀ o ∈ os, validateEntry W all o = .ok Err.success
  | [], st => by simp [typeFormatLoop]
  | o :: os, st => by
    unfold typeFormatLoop
    rw [bind_ok_eq]
    simp only [typeFormatLoop_ok W all os, List.forall_mem_cons, check_ok (show Err.malformedOption ≠ Err.success by decide),
      bne_eq_false_iff_eq]
    constructor
    · rintro ⟨r, h1, ⟨h2, h3⟩, h4⟩
      exact ⟨h3, by rw [h1, h2], h4⟩
    · rintro ⟨h1, h2, h3⟩
      exact ⟨_, h2, ⟨rfl, h1⟩, h3⟩

/-! ## Naming -/

theorem lnameIsUnique_ok (o : Opt) (os : List Opt) : lnameIsUnique o os = Err.success ↔
    ∀ y ∈ os, ∀ l, o.lname = some l → y.name ≠ some l ∧ y.lname ≠ some l := by
  unfold lnameIsUnique
  cases h : o.lname with
  | none => simp
  | some l =>
    simp only [check_ok (show Err.duplicateOption ≠ Err.success by decide), List.any_eq_false, Bool.not_eq_true,
      Bool.or_eq_false_iff, beq_eq_false_iff_ne, and_true, Option.some.injEq, forall_eq']

theorem namingLoop_ok : ∀ (os : List Opt) (used : List Byte) (st : Int),
    namingLoop used st os = Err.success ↔ st = Err.success ∧
      (∀ o ∈ os, o.type ≠ .group → ∃ c s, o.name = some (c :: s)) ∧
      (∀ o ∈ os, o.sname ≠ 32 ∧ o.sname ≠ 45) ∧
      (∀ o ∈ os, o.sname ≠ 0 → o.sname ∉ used) ∧
      (os.Pairwise fun x y => x.sname ≠ 0 → x.sname ≠ y.sname) ∧
      (∀ o ∈ os, ∀ l, o.lname = some l → l ≠ [] ∧ l.head? ≠ some 45 ∧ 32 ∉ l ∧ 46 ∉ l) ∧
      (os.Pairwise fun x y => ∀ l, x.lname = some l → y.name ≠ some l ∧ y.lname ≠ some l)
  | [], used, st => by simp [namingLoop]
  | o :: os, used, st => by
    unfold namingLoop
    simp only [namingLoop_ok os, List.forall_mem_cons, List.pairwise_cons,
      check_ok (show Err.malformedOption ≠ Err.success by decide), bne_eq_false_iff_eq, lnameIsUnique_ok]
    have hname : ((o.name.getD []).isEmpty && o.type != .group) = false ↔
        (o.type ≠ .group → ∃ c s, o.name = some (c :: s)) := by
      cases h : o.name with
      | none => simp
      | some n => cases n <;> simp
    have hlong : ((o.lname == some []) = false ∧ (o.lname.any fun s => s.contains 46) = false ∧
        (o.lname.any fun s => s.contains 32) = false ∧ (o.lname.any fun s => s.head? == some 45) = false) ↔
        ∀ l, o.lname = some l → l ≠ [] ∧ l.head? ≠ some 45 ∧ 32 ∉ l ∧ 46 ∉ l := by
      cases h : o.lname with
      | none => simp
      | some l =>
        simp only [Option.any_some, Option.some.injEq, forall_eq', List.contains_eq_mem, decide_eq_false_iff_not,
          beq_eq_false_iff_ne, ne_eq]
        constructor
        · rintro ⟨h1, h2, h3, h4⟩; exact ⟨h1, h4, h3, h2⟩
        · rintro ⟨h1, h4, h3, h2⟩; exact ⟨h1, h2, h3, h4⟩
    have hused : (o.sname != 0 && used.contains o.sname) = false ↔ (o.sname ≠ 0 → o.sname ∉ used) := by
      simp
    have hu : (∀ p ∈ os, p.sname ≠ 0 → p.sname ∉ (if o.sname != 0 then o.sname :: used else used)) ↔
        (∀ p ∈ os, p.sname ≠ 0 → p.sname ∉ used) ∧ ∀ p ∈ os, o.sname ≠ 0 → o.sname ≠ p.sname := by
      by_cases h0 : o.sname = 0
      · simp [h0]
      · simp only [bne_iff_ne, ne_eq, h0, not_false_eq_true, if_true, List.mem_cons, not_or, forall_const]
        constructor
        · intro h
          refine ⟨fun p hp hn => (h p hp hn).2, fun p hp he => ?_⟩
          exact (h p hp (he ▸ h0)).1 he.symm
        · rintro ⟨h1, h2⟩ p hp hn
          exact ⟨fun he => h2 p hp he.symm, h1 p hp hn⟩
    rw [hu, hname, hused, ← hlong]
    simp only [beq_eq_false_iff_ne]
    constructor
    · rintro ⟨⟨h1, h2, h3, h4, h5, h6, h7, h8, h9, h10⟩, a1, a2, ⟨a3, a3'⟩, a4, a5, a6⟩
      exact ⟨h10, ⟨h9, a1⟩, ⟨⟨h8, h7⟩, a2⟩, ⟨h6, a3⟩, ⟨a3', a4⟩, ⟨⟨h2, h3, h4, h5⟩, a5⟩, h1, a6⟩
    · rintro ⟨h10, ⟨h9, a1⟩, ⟨⟨h8, h7⟩, a2⟩, ⟨h6, a3⟩, ⟨a3', a4⟩, ⟨⟨h2, h3, h4, h5⟩, a5⟩, h1, a6⟩
      exact ⟨⟨h1, h2, h3, h4, h5, h6, h7, h8, h9, h10⟩, a1, a2, ⟨a3, a3'⟩, a4, a5, a6⟩

/-! ## Placement -/

theorem pairwise_iff_split {α : Type} {R : α → α → Prop} {l : List α} :
    l.Pairwise R ↔ ∀ p o q, l = p ++ o :: q → ∀ x ∈ p, R x o := by
  constructor
  · rintro h p o q rfl x hx
    exact (List.pairwise_append.1 h).2.2 x hx o (by simp)
  · induction l with
    | nil => intro _; exact .nil
    | cons a l ih =>
      intro h
      refine List.pairwise_cons.2 ⟨fun b hb => ?_, ih fun p o q hl x hx => h (a :: p) o q (by rw [hl]; rfl) x (by simp [hx])⟩
      obtain ⟨p, q, rfl⟩ := List.append_of_mem hb
      exact h (a :: p) b q rfl a (by simp)

/-- What `validate_placement` has seen after the entries `os`. -/
def placedAfter (os : List Opt) : Placed :=
  { subcommands := os.any fun o => o.type == .subcommand
    optionalPositional := os.any fun o => o.type == .positional && !o.flags.has .required
    positionalMany := os.any fun o => o.type == .positional && o.flags.has .required && o.valueType.isVariadic
    positional := os.any fun o => o.type == .positional && o.flags.has .required && !o.valueType.isVariadic
    helper := os.any fun o => o.type == .option && o.name == some c!"help" }

theorem placementStep_after (pre : List Opt) (st : Int) (o : Opt) :
    (placementStep (placedAfter pre) st o).1 = placedAfter (pre ++ [o]) := by
  simp [placementStep, placedAfter]

/-- What `validate_placement` accepts of an entry after the entries `pre`. -/
def PlaceOk (pre : List Opt) (o : Opt) : Prop :=
  (o.RequiredPos → ¬ ∃ x ∈ pre, x.OptionalPos) ∧
  (o.RequiredPos → ¬ ∃ x ∈ pre, x.RequiredMany) ∧
  ¬ ((∃ x ∈ pre ++ [o], x.OptionalPos) ∧ ∃ x ∈ pre ++ [o], x.RequiredMany) ∧
  (o.type = .option → ¬ ∃ x ∈ pre, x.type = .subcommand) ∧
  ¬ ((∃ x ∈ pre ++ [o], x.type = .subcommand) ∧ ∃ x ∈ pre ++ [o], x.RequiredPos ∧ x.valueType.isVariadic = false)

theorem placedAfter_optional (os : List Opt) : (placedAfter os).optionalPositional = true ↔
    ∃ x ∈ os, x.OptionalPos := by
  simp [placedAfter, Opt.OptionalPos]

theorem placedAfter_many (os : List Opt) : (placedAfter os).positionalMany = true ↔ ∃ x ∈ os, x.RequiredMany := by
  simp [placedAfter, Opt.RequiredMany, Opt.RequiredPos]

theorem placedAfter_subcommands (os : List Opt) : (placedAfter os).subcommands = true ↔
    ∃ x ∈ os, x.type = .subcommand := by
  simp [placedAfter]

theorem placedAfter_positional (os : List Opt) : (placedAfter os).positional = true ↔
    ∃ x ∈ os, x.RequiredPos ∧ x.valueType.isVariadic = false := by
  simp [placedAfter, Opt.RequiredPos]

theorem placementStep_ok (pre : List Opt) (st : Int) (o : Opt) :
    (placementStep (placedAfter pre) st o).2 = Err.success ↔ st = Err.success ∧ PlaceOk pre o := by
  have hs := placementStep_after pre st o
  have h2 : (placementStep (placedAfter pre) st o).2 =
    (check (o.type == .positional && o.flags.has .required && (placementStep (placedAfter pre) st o).1.optionalPositional)
      Err.structError <|
    check ((placementStep (placedAfter pre) st o).1.subcommands && (placementStep (placedAfter pre) st o).1.positional)
      Err.structError <|
    check (o.type == .option && (placementStep (placedAfter pre) st o).1.subcommands) Err.structError <|
    check ((placementStep (placedAfter pre) st o).1.optionalPositional &&
      (placementStep (placedAfter pre) st o).1.positionalMany) Err.malformedOption <|
    check (o.type == .positional && o.flags.has .required && (placedAfter pre).positionalMany)
      Err.malformedOption st) := rfl
  rw [h2, hs]
  clear h2
  simp only [check_ok (show Err.malformedOption ≠ Err.success by decide),
    check_ok (show Err.structError ≠ Err.success by decide)]
  unfold PlaceOk
  rw [← placedAfter_optional (pre ++ [o]), ← placedAfter_many (pre ++ [o]), ← placedAfter_subcommands (pre ++ [o]),
    ← placedAfter_positional (pre ++ [o])]
  have e1 : (o.type == .positional && o.flags.has .required && (placedAfter (pre ++ [o])).optionalPositional) = false ↔
      (o.RequiredPos → ¬ ∃ x ∈ pre, x.OptionalPos) := by
    rw [Bool.and_eq_false_imp, Bool.eq_false_iff, Ne, placedAfter_optional]
    simp only [Bool.and_eq_true, beq_iff_eq]
    constructor
    · rintro h hr ⟨x, hx, h2⟩
      exact h hr ⟨x, by simp [hx], h2⟩
    · rintro h hr ⟨x, hx, h2⟩
      rcases List.mem_append.1 hx with hx | hx
      · exact h hr ⟨x, hx, h2⟩
      · simp only [List.mem_singleton] at hx; subst hx
        rw [h2.2] at hr; simp at hr
  have e2 : (o.type == .positional && o.flags.has .required && (placedAfter pre).positionalMany) = false ↔
      (o.RequiredPos → ¬ ∃ x ∈ pre, x.RequiredMany) := by
    rw [Bool.and_eq_false_imp, Bool.eq_false_iff, Ne, placedAfter_many]
    simp only [Bool.and_eq_true, beq_iff_eq]
    rfl
  have e3 : (o.type == .option && (placedAfter (pre ++ [o])).subcommands) = false ↔
      (o.type = .option → ¬ ∃ x ∈ pre, x.type = .subcommand) := by
    rw [Bool.and_eq_false_imp, Bool.eq_false_iff, Ne, placedAfter_subcommands]
    simp only [beq_iff_eq]
    constructor
    · rintro h hr ⟨x, hx, h2⟩
      exact h hr ⟨x, by simp [hx], h2⟩
    · rintro h hr ⟨x, hx, h2⟩
      rcases List.mem_append.1 hx with hx | hx
      · exact h hr ⟨x, hx, h2⟩
      · simp only [List.mem_singleton] at hx; subst hx
        rw [hr] at h2; simp at h2
  rw [e1, e2, e3, ← Bool.and_eq_true, ← Bool.and_eq_true, Bool.not_eq_true, Bool.not_eq_true]
  constructor
  · rintro ⟨h1, h2, h3, h4, h5, h6⟩; exact ⟨h6, h1, h5, h4, h3, h2⟩
  · rintro ⟨h6, h1, h5, h4, h3, h2⟩; exact ⟨h1, h2, h3, h4, h5, h6⟩

theorem placementLoop_ok : ∀ (os pre : List Opt) (st : Int),
    (placementLoop (placedAfter pre) st os).1 = placedAfter (pre ++ os) ∧
    ((placementLoop (placedAfter pre) st os).2 = Err.success ↔
      st = Err.success ∧ ∀ p o q, os = p ++ o :: q → PlaceOk (pre ++ p) o)
  | [], pre, st => by simp [placementLoop]
  | o :: os, pre, st => by
    unfold placementLoop
    rw [placementStep_after]
    obtain ⟨h1, h2⟩ := placementLoop_ok os (pre ++ [o]) (placementStep (placedAfter pre) st o).2
    refine ⟨by rw [h1]; simp, ?_⟩
    rw [h2, placementStep_ok]
    constructor
    · rintro ⟨⟨h3, h4⟩, h5⟩
      refine ⟨h3, fun p x q he => ?_⟩
      cases p with
      | nil => simp only [List.nil_append, List.cons.injEq] at he; rw [List.append_nil, ← he.1]; exact h4
      | cons y p =>
        simp only [List.cons_append, List.cons.injEq] at he
        have := h5 p x q he.2
        rw [← he.1]; simpa using this
    · rintro ⟨h3, h4⟩
      refine ⟨⟨h3, by simpa using h4 [] o os rfl⟩, fun p x q he => ?_⟩
      have := h4 (o :: p) x q (by rw [he]; rfl)
      simpa using this

theorem mem_split_mono {os p q : List Opt} {o x : Opt} (h : os = p ++ o :: q) (hx : x ∈ p ++ [o]) : x ∈ os := by
  rw [h]
  rcases List.mem_append.1 hx with hx | hx
  · simp [hx]
  · simp only [List.mem_singleton] at hx; simp [hx]

/-- Two kinds of entries that must not occur together: noticed at some entry. -/
theorem mix_iff {os : List Opt} {P Q : Opt → Prop} :
    (∀ p o q, os = p ++ o :: q → ¬ ((∃ x ∈ p ++ [o], P x) ∧ ∃ x ∈ p ++ [o], Q x)) ↔
      ¬ ((∃ x ∈ os, P x) ∧ ∃ x ∈ os, Q x) := by
  constructor
  · intro h
    rcases List.eq_nil_or_concat os with rfl | ⟨p, o, rfl⟩
    · simp
    · rw [List.concat_eq_append]; exact h p o [] (by simp)
  · rintro h p o q he ⟨⟨x, hx, h1⟩, y, hy, h2⟩
    exact h ⟨⟨x, mem_split_mono he hx, h1⟩, y, mem_split_mono he hy, h2⟩

theorem validatePlacement_ok (os : List Opt) : validatePlacement os = Err.success ↔
    (∃ o ∈ os, o.type = .option ∧ o.name = some c!"help") ∧
    (os.Pairwise fun x y => x.OptionalPos → ¬ y.RequiredPos) ∧
    (os.Pairwise fun x y => x.RequiredMany → ¬ y.RequiredPos) ∧
    (∀ x ∈ os, x.RequiredMany → ∀ y ∈ os, ¬ y.OptionalPos) ∧
    (os.Pairwise fun x y => x.type = .subcommand → y.type ≠ .option) ∧
    (∀ x ∈ os, x.type = .subcommand → ∀ y ∈ os, y.RequiredPos → y.valueType.isVariadic = true) := by
  unfold validatePlacement
  simp only
  rw [check_ok (by decide)]
  have h := placementLoop_ok os [] Err.success
  have h0 : placedAfter [] = {} := rfl
  rw [h0] at h
  rw [h.1, h.2]
  have hh : (!(placedAfter ([] ++ os)).helper) = false ↔ ∃ o ∈ os, o.type = .option ∧ o.name = some c!"help" := by
    simp [placedAfter]
  rw [hh]
  simp only [true_and, List.nil_append]
  have m1 := mix_iff (os := os) (P := Opt.OptionalPos) (Q := Opt.RequiredMany)
  have m2 := mix_iff (os := os) (P := fun x => x.type = .subcommand)
    (Q := fun x => x.RequiredPos ∧ x.valueType.isVariadic = false)
  have n1 : (¬ ((∃ x ∈ os, x.OptionalPos) ∧ ∃ x ∈ os, x.RequiredMany)) ↔
      ∀ x ∈ os, x.RequiredMany → ∀ y ∈ os, ¬ y.OptionalPos := by
    constructor
    · intro h x hx h1 y hy h2; exact h ⟨⟨y, hy, h2⟩, x, hx, h1⟩
    · rintro h ⟨⟨y, hy, h2⟩, x, hx, h1⟩; exact h x hx h1 y hy h2
  have n2 : (¬ ((∃ x ∈ os, x.type = .subcommand) ∧ ∃ x ∈ os, x.RequiredPos ∧ x.valueType.isVariadic = false)) ↔
      ∀ x ∈ os, x.type = .subcommand → ∀ y ∈ os, y.RequiredPos → y.valueType.isVariadic = true := by
    constructor
    · intro h x hx h1 y hy h2
      cases hv : y.valueType.isVariadic with
      | true => rfl
      | false => exact (h ⟨⟨x, hx, h1⟩, y, hy, h2, hv⟩).elim
    · rintro h ⟨⟨x, hx, h1⟩, y, hy, h2, h3⟩; rw [h x hx h1 y hy h2] at h3; simp at h3
  rw [← n1, ← n2, ← m1, ← m2, pairwise_iff_split, pairwise_iff_split, pairwise_iff_split]
  unfold PlaceOk
  constructor
  · rintro ⟨h1, h2⟩
    refine ⟨h1, ?_, ?_, ?_, ?_, ?_⟩
    · intro p o q he x hx ho hr; exact (h2 p o q he).1 hr ⟨x, hx, ho⟩
    · intro p o q he x hx ho hr; exact (h2 p o q he).2.1 hr ⟨x, hx, ho⟩
    · intro p o q he; exact (h2 p o q he).2.2.1
    · intro p o q he x hx ho hr; exact (h2 p o q he).2.2.2.1 hr ⟨x, hx, ho⟩
    · intro p o q he; exact (h2 p o q he).2.2.2.2
  · rintro ⟨h1, h2, h3, h4, h5, h6⟩
    refine ⟨h1, fun p o q he => ⟨?_, ?_, h4 p o q he, ?_, h6 p o q he⟩⟩
    · rintro hr ⟨x, hx, ho⟩; exact h2 p o q he x hx ho hr
    · rintro hr ⟨x, hx, ho⟩; exact h3 p o q he x hx ho hr
    · rintro hr ⟨x, hx, ho⟩; exact h5 p o q he x hx ho hr

/-! ## Levels -/

theorem level_ok (W : World) (os : List Opt) :
    (validateTypeFormat W os = .ok Err.success ∧ validateNaming os = Err.success ∧
      validatePlacement os = Err.success) ↔ LevelFormed W os := by
  unfold validateTypeFormat validateNaming
  rw [typeFormatLoop_ok, namingLoop_ok, validatePlacement_ok]
  have he : ∀ o, validateEntry W os o = .ok Err.success ↔
      (o.type = .option → validateOption W os o = .ok Err.success) ∧
      (o.type = .positional → validatePositional W o = .ok Err.success) ∧
      (o.type = .group → validateGroup o = Err.success) ∧
      (o.type = .subcommand → validateSubcommand o = Err.success) := by
    intro o
    unfold validateEntry
    cases h : o.type <;> simp
  simp only [he, validateOption_ok, validatePositional_ok, validateGroup_ok, validateSubcommand_ok]
  constructor
  · rintro ⟨⟨_, h1⟩, ⟨_, n1, n2, _, n3, n4, n5⟩, p1, p2, p3, p4, p5, p6⟩
    exact ⟨p1, n1, n2, n3, n4, n5, p2, p3, p4, p5, p6, fun o ho ht => ((h1 o ho).1 ht).1,
      fun o ho ht => ((h1 o ho).1 ht).2, fun o ho ht => ((h1 o ho).2.1 ht).2, fun o ho ht => (h1 o ho).2.2.1 ht,
      fun o ho ht => ((h1 o ho).2.2.2 ht).2⟩
  · intro h
    have nm : ∀ o ∈ os, o.type ≠ .group → o.name ≠ none := by
      intro o ho ht hn
      obtain ⟨c, s, hc⟩ := h.named o ho ht
      rw [hn] at hc; simp at hc
    refine ⟨⟨trivial, fun o ho => ⟨fun ht => ⟨h.option o ho ht, h.dependency o ho ht⟩,
      fun ht => ⟨nm o ho (by rw [ht]; decide), h.positional o ho ht⟩, h.group o ho,
      fun ht => ⟨nm o ho (by rw [ht]; decide), h.subcommand o ho ht⟩⟩⟩, ⟨trivial, h.named, h.shortForm, ?_, h.shortDistinct, h.longForm,
      h.longDistinct⟩, h.helpOption, h.requiredFirst, h.manyLast, h.manyAlone, h.optionsFirst, h.notBoth⟩
    simp

/-! ## The whole definition -/

theorem subLoop_ok {sub : Option Nat → Out (Option Int)} {depth : Nat} : ∀ {os : List Opt} {st : Int},
    subLoop sub depth st os = .ok (some Err.success) ↔ st = Err.success ∧
      ∀ o ∈ os, o.type = .subcommand → o.subOptions ≠ none →
        sub o.subOptions = .ok (some Err.success) ∧ depth + 1 ≤ 8
  | [], st => by simp [subLoop]
  | o :: os, st => by
    unfold subLoop
    simp only [List.forall_mem_cons]
    by_cases hc : o.type = .subcommand ∧ o.subOptions ≠ none
    · rw [if_pos hc, bind_ok_eq]
      constructor
      · rintro ⟨r, h1, h2⟩
        cases r with
        | none => simp at h2
        | some r =>
          simp only at h2
          rw [subLoop_ok, check_ok (by decide), check_ok (by decide)] at h2
          obtain ⟨⟨h3, h4, h5⟩, h6⟩ := h2
          have h7 : r = Err.success := by simpa using h3
          have h8 : depth + 1 ≤ 8 := by simpa [maxSubcommandDepth] using h4
          exact ⟨h5, fun _ _ => ⟨by rw [h1, h7], h8⟩, h6⟩
      · rintro ⟨h1, h2, h3⟩
        obtain ⟨h4, h5⟩ := h2 hc.1 hc.2
        refine ⟨_, h4, ?_⟩
        simp only
        rw [subLoop_ok, check_ok (by decide), check_ok (by decide)]
        exact ⟨⟨by simp, by simpa [maxSubcommandDepth] using h5, h1⟩, h3⟩
    · rw [if_neg hc, subLoop_ok]
      constructor
      · rintro ⟨h1, h2⟩; exact ⟨h1, fun ht hs => (hc ⟨ht, hs⟩).elim, h2⟩
      · rintro ⟨h1, _, h2⟩; exact ⟨h1, h2⟩

theorem validateStructure_succ (W : World) (tables : List (List Opt)) (fuel depth k : Nat) :
    validateStructure W tables (fuel + 1) depth (some k) = .ok (some Err.success) ↔
      ∃ os, tables[k]? = some os ∧ LevelFormed W os ∧ ∀ o ∈ os, o.type = .subcommand →
        ∃ k', o.subOptions = some k' ∧ depth + 1 ≤ 8 ∧
          validateStructure W tables fuel (depth + 1) (some k') = .ok (some Err.success) := by
  have hmatch : ∀ (os : List Opt), LevelFormed W os →
      ((∀ o ∈ os, o.type = .subcommand → o.subOptions ≠ none →
        validateStructure W tables fuel (depth + 1) o.subOptions = .ok (some Err.success) ∧ depth + 1 ≤ 8) ↔
      ∀ o ∈ os, o.type = .subcommand → ∃ k', o.subOptions = some k' ∧ depth + 1 ≤ 8 ∧
          validateStructure W tables fuel (depth + 1) (some k') = .ok (some Err.success)) := by
    intro os hl
    constructor
    · intro h o ho ht
      have hs := (hl.subcommand o ho ht).2.1
      obtain ⟨k', hk'⟩ := Option.ne_none_iff_exists'.1 hs
      obtain ⟨h1, h2⟩ := h o ho ht hs
      exact ⟨k', hk', h2, by rw [← hk']; exact h1⟩
    · intro h o ho ht _
      obtain ⟨k', hk', h2, h3⟩ := h o ho ht
      exact ⟨by rw [hk']; exact h3, h2⟩
  rw [validateStructure]
  simp only
  cases htab : tables[k]? with
  | none => simp
  | some os =>
    simp only [Out.ok_bind, Option.some.injEq, exists_eq_left']
    rw [bind_ok_eq]
    simp only [subLoop_ok, check_ok (show Err.malformedOption ≠ Err.success by decide), bne_eq_false_iff_eq, and_true]
    constructor
    · rintro ⟨f, h1, ⟨h2, h3, h4⟩, h5⟩
      have hl := (level_ok W os).1 ⟨by rw [h1, h2], h3, h4⟩
      exact ⟨hl, (hmatch os hl).1 h5⟩
    · rintro ⟨hl, h5⟩
      obtain ⟨h1, h2, h3⟩ := (level_ok W os).2 hl
      exact ⟨_, h1, ⟨rfl, h2, h3⟩, (hmatch os hl).2 h5⟩

theorem Reaches.step {tables : List (List Opt)} {k k' j : Nat} {os : List Opt} {o : Opt} (htab : tables[k]? = some os)
    (ho : o ∈ os) (ht : o.type = .subcommand) (hs : o.subOptions = some k') (h : Reaches tables k' j) :
    Reaches tables k j := by
  induction h with
  | root => exact .sub .root htab ho ht hs
  | sub _ h1 h2 h3 h4 ih => exact .sub ih h1 h2 h3 h4

theorem Reaches.cases {tables : List (List Opt)} {k j : Nat} (h : Reaches tables k j) :
    j = k ∨ ∃ (os : List Opt) (o : Opt) (k' : Nat), tables[k]? = some os ∧ o ∈ os ∧ o.type = .subcommand ∧ o.subOptions = some k' ∧
      Reaches tables k' j := by
  induction h with
  | root => exact .inl rfl
  | sub _ h1 h2 h3 h4 ih =>
    rcases ih with rfl | ⟨os', o', k2, g1, g2, g3, g4, g5⟩
    · exact .inr ⟨_, _, _, h1, h2, h3, h4, .root⟩
    · exact .inr ⟨os', o', k2, g1, g2, g3, g4, .sub g5 h1 h2 h3 h4⟩

theorem validateStructure_sound (W : World) (tables : List (List Opt)) : ∀ (fuel depth k : Nat), depth ≤ 8 →
    validateStructure W tables fuel depth (some k) = .ok (some Err.success) →
    (∀ j, Reaches tables k j → ∃ os, tables[j]? = some os ∧ LevelFormed W os) ∧
      DepthAtMost tables (some k) (8 - depth)
  | 0, _, _, _, h => by simp [validateStructure] at h
  | fuel + 1, depth, k, hd, h => by
    obtain ⟨os, h1, h2, h3⟩ := (validateStructure_succ W tables fuel depth k).1 h
    constructor
    · intro j hj
      rcases hj.cases with rfl | ⟨os', o', k2, g1, g2, g3, g4, g5⟩
      · exact ⟨os, h1, h2⟩
      · rw [h1] at g1; simp only [Option.some.injEq] at g1; subst g1
        obtain ⟨k', e1, e2, e3⟩ := h3 o' g2 g3
        rw [e1] at g4; simp only [Option.some.injEq] at g4; subst g4
        exact (validateStructure_sound W tables fuel (depth + 1) _ e2 e3).1 j g5
    · intro ps hps
      cases ps with
      | nil => simp
      | cons p ps =>
        obtain ⟨hk, os', o', g1, g2, g3, g4⟩ := hps
        simp only [Option.some.injEq] at hk
        rw [← hk, h1] at g1; simp only [Option.some.injEq] at g1; subst g1
        obtain ⟨k', e1, e2, e3⟩ := h3 o' (List.mem_of_getElem? g2) g3
        rw [e1] at g4
        have := (validateStructure_sound W tables fuel (depth + 1) k' e2 e3).2 ps g4
        simp only [List.length_cons]
        omega

theorem validateStructure_complete (W : World) (tables : List (List Opt)) : ∀ (n fuel depth k : Nat), n < fuel →
    depth + n ≤ 8 → (∀ j, Reaches tables k j → ∃ os, tables[j]? = some os ∧ LevelFormed W os) →
    DepthAtMost tables (some k) n → validateStructure W tables fuel depth (some k) = .ok (some Err.success)
  | n, 0, _, _, hf, _, _, _ => by omega
  | n, fuel + 1, depth, k, hf, hd, hr, hn => by
    obtain ⟨os, h1, h2⟩ := hr k .root
    refine (validateStructure_succ W tables fuel depth k).2 ⟨os, h1, h2, fun o ho ht => ?_⟩
    obtain ⟨k', hk'⟩ := Option.ne_none_iff_exists'.1 (h2.subcommand o ho ht).2.1
    obtain ⟨i, hi⟩ := List.getElem?_of_mem ho
    have hlen : ∀ ps, SubChain tables (some k') ps → ps.length + 1 ≤ n := fun ps hps =>
      hn (⟨k, i⟩ :: ps) ⟨rfl, os, o, h1, hi, ht, by rw [hk']; exact hps⟩
    have h0 := hlen [] trivial
    simp only [List.length_nil] at h0
    refine ⟨k', hk', by omega, validateStructure_complete W tables (n - 1) fuel (depth + 1) k' (by omega) (by omega)
      (fun j hj => hr j (hj.step h1 ho ht hk')) (fun ps hps => ?_)⟩
    have := hlen ps hps; omega

end Argus
