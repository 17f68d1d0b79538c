import Verif.Lemmas.History
import Verif.Spec.Scalar

/-! Histories of scalar options. -/

set_option autoImplicit false

namespace Argus

theorem asBool_setBool (w : Word) (b : Bool) : (w.setBool b).asBool = .ok b := by
  cases w with
  | bits w =>
    cases b
    · have : BitVec.setWidth 8 (w &&& 0xFFFFFFFFFFFFFF00#64 ||| 0#64) = 0#8 := by
        ext i hi
        simp only [BitVec.getElem_setWidth, BitVec.getLsbD_or, BitVec.getLsbD_and]
        have : (0xFFFFFFFFFFFFFF00#64).getLsbD i = false := by
          have : ∀ j : Fin 8, (0xFFFFFFFFFFFFFF00#64).getLsbD j.1 = false := by decide
          exact this ⟨i, hi⟩
        simp [this]
      simp only [Word.setBool, Word.asBool, BitVec.truncate, Bool.false_eq_true, if_false]
      exact if_pos this
    · have : BitVec.setWidth 8 (w &&& 0xFFFFFFFFFFFFFF00#64 ||| 1#64) = 1#8 := by
        ext i hi
        simp only [BitVec.getElem_setWidth, BitVec.getLsbD_or, BitVec.getLsbD_and]
        have : (0xFFFFFFFFFFFFFF00#64).getLsbD i = false := by
          have : ∀ j : Fin 8, (0xFFFFFFFFFFFFFF00#64).getLsbD j.1 = false := by decide
          exact this ⟨i, hi⟩
        have h2 : (1#64).getLsbD i = (1#8)[i] := by
          have : ∀ j : Fin 8, (1#64).getLsbD j.1 = (1#8).getLsbD j.1 := by decide
          rw [← BitVec.getLsbD_eq_getElem]; exact this ⟨i, hi⟩
        simp only [this, Bool.and_false, Bool.false_or, h2]
      simp only [Word.setBool, Word.asBool, BitVec.truncate, if_true]
      refine (if_neg ?_).trans (if_pos this)
      rw [this]; decide
  | low w =>
    cases b
    · have : BitVec.setWidth 8 (w &&& 0xFFFFFF00#32 ||| 0#32) = 0#8 := by
        ext i hi
        simp only [BitVec.getElem_setWidth, BitVec.getLsbD_or, BitVec.getLsbD_and]
        have : (0xFFFFFF00#32).getLsbD i = false := by
          have : ∀ j : Fin 8, (0xFFFFFF00#32).getLsbD j.1 = false := by decide
          exact this ⟨i, hi⟩
        simp [this]
      simp only [Word.setBool, Word.asBool, BitVec.truncate, Bool.false_eq_true, if_false]
      exact if_pos this
    · have : BitVec.setWidth 8 (w &&& 0xFFFFFF00#32 ||| 1#32) = 1#8 := by
        ext i hi
        simp only [BitVec.getElem_setWidth, BitVec.getLsbD_or, BitVec.getLsbD_and]
        have : (0xFFFFFF00#32).getLsbD i = false := by
          have : ∀ j : Fin 8, (0xFFFFFF00#32).getLsbD j.1 = false := by decide
          exact this ⟨i, hi⟩
        have h2 : (1#32).getLsbD i = (1#8)[i] := by
          have : ∀ j : Fin 8, (1#32).getLsbD j.1 = (1#8).getLsbD j.1 := by decide
          rw [← BitVec.getLsbD_eq_getElem]; exact this ⟨i, hi⟩
        simp only [this, Bool.and_false, Bool.false_or, h2]
      simp only [Word.setBool, Word.asBool, BitVec.truncate, if_true]
      refine (if_neg ?_).trans (if_pos this)
      rw [this]; decide
  | lowBool _ => rfl
  | ptr _ => rfl
  | undef => rfl

theorem Opt.setBool_holds (o : Opt) (b : Bool) : ∃ w, (o.setBool b).value = .word w ∧ w.asBool = .ok b := by
  unfold Opt.setBool
  split
  · exact ⟨_, rfl, asBool_setBool _ b⟩
  · exact ⟨_, rfl, rfl⟩

/-- A scalar option after a text: the text decides the value. -/
theorem give_scalar {W : World} {o o' : Opt} {h : Handler} {v : Str} (hh : o.handler = some h)
    (hs : h.isScalar = true) (hg : o.give W (some v) = some o') :
    Holds W h v o'.value ∧ o'.isSet = true := by
  unfold Opt.give at hg
  rw [hh] at hg
  simp only at hg
  cases h <;> simp only [Handler.isScalar, Bool.false_eq_true] at hs
  · -- bool
    simp only [runHandler, boolHandler] at hg
    split at hg
    · rename_i r hr
      split at hg
      · rename_i h0
        simp only [Option.some.injEq] at hg; subst hg
        split at hr
        · simp only [Out.ok.injEq] at hr; subst hr; exact absurd (show Err.invalidArgument = Err.success from h0) (by decide)
        · rename_i b hb
          simp only [Out.ok.injEq] at hr; subst hr
          obtain ⟨w, h1, h2⟩ := Opt.setBool_holds o b
          exact ⟨⟨w, b, h1, hb, h2⟩, rfl⟩
      · simp at hg
    · simp at hg
  all_goals
    simp only [runHandler, if_true, Option.some.injEq] at hg
    subst hg
    exact ⟨rfl, rfl⟩

/-- Options keep their declaration under `give`. -/
theorem give_handler {W : World} {o o' : Opt} {xs : List (Option Str)} (h : o.giveAll W xs = some o') :
    o'.handler = o.handler :=
  (congrArg Opt.handler (giveAll_meta xs h) : o'.meta.handler = o.meta.handler)

theorem giveAll_flags {W : World} {o o' : Opt} {xs : List (Option Str)} (h : o.giveAll W xs = some o') :
    o'.flags = o.flags :=
  (congrArg Opt.flags (giveAll_meta xs h) : o'.meta.flags = o.meta.flags)

/-- After some text was given, the option is set. -/
theorem give_isSet {W : World} {o o' : Opt} {x : Option Str} (h : o.give W x = some o') :
    o'.isSet = true := by
  unfold Opt.give at h
  split at h
  · simp at h
  · split at h
    · split at h
      · simp only [Option.some.injEq] at h; subst h; rfl
      · simp at h
    · simp at h

theorem giveAll_isSet {W : World} : ∀ (xs : List (Option Str)) {o o' : Opt},
    o.giveAll W xs = some o' → (xs ≠ [] ∨ o.isSet = true) → o'.isSet = true
  | [], o, o', h, hs => by
    simp only [Opt.giveAll, Option.some.injEq] at h; subst h
    exact hs.resolve_left (by simp)
  | x :: xs, o, o', h, _ => by
    simp only [Opt.giveAll] at h
    cases hg : o.give W x with
    | none => rw [hg] at h; simp at h
    | some o1 =>
      rw [hg] at h
      exact giveAll_isSet xs h (.inr (give_isSet hg))

theorem stringToBool_iff (v : Str) :
    (stringToBool v = some true ↔ MeansTrue v) ∧ (stringToBool v = some false ↔ MeansFalse v) := by
  have hlen : ∀ l : List Str, (∀ x ∈ l, x.length ≤ 5) → v.map toLower ∈ l → ¬ 5 < v.length := by
    intro l hl hm
    have := hl _ hm
    rw [List.length_map] at this
    omega
  have ht : ∀ x, x ∈ trueValues ↔ x ∈ [c!"true", c!"yes", c!"1", c!"on", c!"y", c!"0x1", c!"0b1"] := by
    intro x
    constructor
    · intro h
      have : ∀ y ∈ trueValues, y ∈ [c!"true", c!"yes", c!"1", c!"on", c!"y", c!"0x1", c!"0b1"] := by decide +kernel
      exact this x h
    · intro h
      have : ∀ y ∈ [c!"true", c!"yes", c!"1", c!"on", c!"y", c!"0x1", c!"0b1"], y ∈ trueValues := by decide +kernel
      exact this x h
  have hf : ∀ x, x ∈ falseValues ↔ x ∈ [c!"false", c!"no", c!"0", c!"off", c!"n", c!"0x0", c!"0b0"] := by
    intro x
    constructor
    · intro h
      have : ∀ y ∈ falseValues, y ∈ [c!"false", c!"no", c!"0", c!"off", c!"n", c!"0x0", c!"0b0"] := by decide +kernel
      exact this x h
    · intro h
      have : ∀ y ∈ [c!"false", c!"no", c!"0", c!"off", c!"n", c!"0x0", c!"0b0"], y ∈ falseValues := by decide +kernel
      exact this x h
  have hdis : ∀ x ∈ falseValues, x ∉ trueValues := by decide +kernel
  unfold stringToBool MeansTrue MeansFalse
  rw [← ht, ← hf]
  by_cases hl : v.length > 5
  · rw [if_pos hl]
    refine ⟨⟨fun h => (by cases h), fun h => ?_⟩, ⟨fun h => (by cases h), fun h => ?_⟩⟩
    · exact absurd hl (hlen _ (by decide +kernel) h)
    · exact absurd hl (hlen _ (by decide +kernel) h)
  · rw [if_neg hl]
    simp only
    by_cases h1 : v.map toLower ∈ trueValues
    · rw [if_pos (by simpa using h1)]
      refine ⟨⟨fun _ => h1, fun _ => rfl⟩, ⟨fun h => by simp at h, fun h => absurd h1 (hdis _ h)⟩⟩
    · rw [if_neg (by simpa using h1)]
      by_cases h2 : v.map toLower ∈ falseValues
      · rw [if_pos (by simpa using h2)]
        exact ⟨⟨fun h => by simp at h, fun h => absurd h h1⟩, ⟨fun _ => h2, fun _ => rfl⟩⟩
      · rw [if_neg (by simpa using h2)]
        exact ⟨⟨fun h => by simp at h, fun h => absurd h h1⟩, ⟨fun h => by simp at h, fun h => absurd h h2⟩⟩

end Argus
