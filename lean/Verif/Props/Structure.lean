import Verif.Lemmas.Structure
import Verif.Props.Commands

/-!
# C40: definitions accepted in debug mode
-/

set_option autoImplicit false

namespace Argus

/-- **C40** `argus_init` with validation accepts exactly the well-formed definitions (Spec/Structure: every level has
    a help option, distinct short names, ..., and nesting is at most 8 deep). -/
theorem C40_accepts_exactly_well_formed (W : World) (tables : List (List Opt)) (name : Str) (version : Option Str) :
    (∃ fuel a, argusInitValidate W fuel tables name version = .ok (some (some a))) ↔ WellFormed W tables 0 := by
  have h0 : ∀ fuel, (∃ a, argusInitValidate W fuel tables name version = .ok (some (some a))) ↔
      validateStructure W tables fuel 0 (some 0) = .ok (some Err.success) := by
    intro fuel
    unfold argusInitValidate
    constructor
    · rintro ⟨a, h⟩
      obtain ⟨r, hr, h1⟩ := bind_ok_eq.1 h
      cases r with
      | none => simp at h1
      | some st =>
        simp only at h1
        split at h1
        · simp at h1
        · rename_i hs
          simp only [ne_eq, Decidable.not_not] at hs
          rw [hr, hs]
    · intro h
      rw [h]
      exact ⟨_, rfl⟩
  constructor
  · rintro ⟨fuel, h⟩
    obtain ⟨h1, h2⟩ := validateStructure_sound W tables fuel 0 0 (by omega) ((h0 fuel).1 h)
    exact ⟨h1, h2⟩
  · intro h
    obtain ⟨a, ha⟩ := (h0 9).2 (validateStructure_complete W tables 8 9 0 0 (by omega) (by omega) h.level h.depth)
    exact ⟨9, a, ha⟩

/-- The sample definition is accepted, so it is well formed. -/
example : ∃ a, argusInitValidate Sample.world 9 Sample.checked c!"prog" none = .ok (some (some a)) := ⟨_, rfl⟩

/-- A short name used twice is rejected. -/
example : argusInitValidate Sample.world 9
    [[helpOption, (optFlag 104 (some c!"hot")).withHelp c!"hot"]] c!"prog" none = .ok (some none) := by
  decide +kernel

/-- **C40** The accepted context is the one that `argus_init` makes without validation. -/
theorem C40_same_context (W : World) (fuel : Nat) (tables : List (List Opt)) (name : Str) (version : Option Str)
    (a : Argus) (h : argusInitValidate W fuel tables name version = .ok (some (some a))) :
    a = argusInit tables name version := by
  unfold argusInitValidate at h
  obtain ⟨r, hr, h1⟩ := bind_ok_eq.1 h
  cases r with
  | none => simp at h1
  | some st =>
    simp only at h1
    split at h1
    · simp at h1
    · simp only [Out.ok.injEq, Option.some.injEq] at h1
      exact h1.symm

/-- **C40** The levels of an accepted definition, one fact at a time: short names. -/
theorem C40_short_names (W : World) (fuel : Nat) (tables : List (List Opt)) (name : Str) (version : Option Str)
    (a : Argus) (h : argusInitValidate W fuel tables name version = .ok (some (some a))) (k : Nat)
    (hk : Reaches tables 0 k) : ∃ os, tables[k]? = some os ∧
      (∀ (i j : Nat) (x y : Opt), os[i]? = some x → os[j]? = some y → i ≠ j → x.sname ≠ 0 → x.sname ≠ y.sname) ∧
      ∀ o ∈ os, o.sname ≠ 32 ∧ o.sname ≠ 45 := by
  obtain ⟨os, h1, h2⟩ := ((C40_accepts_exactly_well_formed W tables name version).1 ⟨fuel, a, h⟩).level k hk
  refine ⟨os, h1, ?_, h2.shortForm⟩
  intro i j x y hi hj hne h0 he
  have hp := h2.shortDistinct
  rw [List.pairwise_iff_getElem] at hp
  obtain ⟨li, ei⟩ := List.getElem?_eq_some_iff.1 hi
  obtain ⟨lj, ej⟩ := List.getElem?_eq_some_iff.1 hj
  rcases Nat.lt_or_gt_of_ne hne with hlt | hlt
  · exact hp i j li lj hlt (by rw [ei]; exact h0) (by rw [ei, ej]; exact he)
  · exact hp j i lj li hlt (by rw [ej, ← he]; exact h0) (by rw [ei, ej]; exact he.symm)

/-- **C40** ... handlers: what the command line can name has one. -/
theorem C40_handlers (W : World) (fuel : Nat) (tables : List (List Opt)) (name : Str) (version : Option Str)
    (a : Argus) (h : argusInitValidate W fuel tables name version = .ok (some (some a))) (k : Nat)
    (hk : Reaches tables 0 k) : ∃ os, tables[k]? = some os ∧
      (∀ o ∈ os, o.type = .option ∨ o.type = .positional → o.handler ≠ none) ∧
      (∀ o ∈ os, o.type = .subcommand → ∃ k', o.subOptions = some k' ∧ Reaches tables 0 k') := by
  obtain ⟨os, h1, h2⟩ := ((C40_accepts_exactly_well_formed W tables name version).1 ⟨fuel, a, h⟩).level k hk
  refine ⟨os, h1, ?_, ?_⟩
  · rintro o ho (ht | ht)
    · exact (h2.option o ho ht).2.2.1
    · exact (h2.positional o ho ht).2.1
  · intro o ho ht
    obtain ⟨k', hk'⟩ := Option.ne_none_iff_exists'.1 (h2.subcommand o ho ht).2.1
    exact ⟨k', hk', .sub hk h1 ho ht hk'⟩

/-- **C40** ... and with C41: an accepted definition never overflows the subcommand stack. -/
theorem C40_no_stack_overflow (W : World) (fuel : Nat) (tables : List (List Opt)) (name : Str) (version : Option Str)
    (a : Argus) (h : argusInitValidate W fuel tables name version = .ok (some (some a))) (env : Env)
    (args : List Str) : argusParse W env a args ≠ .ub .stackOverflow := by
  have hw := (C40_accepts_exactly_well_formed W tables name version).1 ⟨fuel, a, h⟩
  have ha := C40_same_context W fuel tables name version a h
  subst ha
  exact C41_no_stack_overflow W env _ args rfl hw.depth

/-- **C40** Validation ends within nine nested calls if nesting is at most 8 deep; the calls go on without end for a
    table that contains itself, although every round reports that the nesting is too deep. -/
theorem C40_cycle_never_ends (W : World) (name : Str) (version : Option Str) : ∀ fuel : Nat,
    argusInitValidate W fuel [[helpOption, (subcommand c!"again" 0).withHelp c!"again"]] name version = .ok none := by
  have key : ∀ fuel depth, validateStructure W [[helpOption, (subcommand c!"again" 0).withHelp c!"again"]] fuel depth
      (some 0) = .ok none := by
    intro fuel
    induction fuel with
    | zero => intro depth; rfl
    | succ n ih =>
      intro depth
      rw [validateStructure]
      have ht : validateTypeFormat W [helpOption, (subcommand c!"again" 0).withHelp c!"again"] = .ok Err.success := by
        rfl
      simp only [List.getElem?_cons_zero, Out.ok_bind, ht]
      rw [subLoop, if_neg (by decide), subLoop, if_pos (by decide)]
      have : ((subcommand c!"again" 0).withHelp c!"again").subOptions = some 0 := rfl
      rw [this, ih]
      rfl
  intro fuel
  unfold argusInitValidate
  rw [key]
  rfl

/-! ## What validation does not notice -/

/-- **C40** The test of the flags of an option never applies: `value_type` is compared for equality with a mask of
    several types. An int option with FLAG_SORTED and FLAG_EXCLUSIVE is accepted. -/
theorem C40_flags_not_checked : ∃ a, argusInitValidate Sample.world 9
    [[helpOption, { (optInt 110 (some c!"num")).withHelp c!"n" with flags := Flags.ofList [.sorted, .exclusive] }]]
    c!"prog" none = .ok (some (some a)) := ⟨_, rfl⟩

/-- **C40** Two subcommands of the same name are accepted. -/
theorem C40_same_subcommand_twice : ∃ a, argusInitValidate Sample.world 9
    [[helpOption, (subcommand c!"run" 1).withHelp c!"r", (subcommand c!"run" 1).withHelp c!"r"], [helpOption]]
    c!"prog" none = .ok (some (some a)) := ⟨_, rfl⟩

/-- **C40** An option `-x` named "x" followed by `--x` is accepted, the other order is not. -/
theorem C40_name_order : (∃ a, argusInitValidate Sample.world 9
    [[helpOption, (optFlag 120 none).withHelp c!"x", (optFlag 0 (some c!"x")).withHelp c!"x"]] c!"prog" none =
      .ok (some (some a))) ∧
    argusInitValidate Sample.world 9
      [[helpOption, (optFlag 0 (some c!"x")).withHelp c!"x", (optFlag 120 none).withHelp c!"x"]] c!"prog" none =
        .ok (some none) := ⟨⟨_, rfl⟩, by decide +kernel⟩

/-- **C40** Two optional POSITIONAL_MANY are accepted, although only the first ever receives anything. -/
theorem C40_two_optional_many : ∃ a, argusInitValidate Sample.world 9
    [[helpOption, { (posManyInt c!"a").withHelp c!"a" with flags := 0 },
      { (posManyInt c!"b").withHelp c!"b" with flags := 0 }]] c!"prog" none = .ok (some (some a)) := ⟨_, rfl⟩

/-- **C40** FLAG_SORTED on a POSITIONAL_MANY, which its handler honours, is rejected. -/
theorem C40_sorted_many_rejected : argusInitValidate Sample.world 9
    [[helpOption, { (posManyInt c!"a").withHelp c!"a" with flags := Flags.ofList [.required, .sorted] }]] c!"prog" none =
      .ok (some none) := by decide +kernel

end Argus
