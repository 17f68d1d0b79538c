import Verif.Lemmas.Readable
import Verif.Props.Outcome

/-!
# Property C75: which texts a collection takes

`Accepted` (Spec/Outcome) asks that each option goes `Through` its texts. For arrays, variadics and maps this is said
here by the texts alone.
-/

set_option autoImplicit false

namespace Argus

theorem through_takes {W : World} : ∀ (ts : List Str) (o o' : Opt),
    Through (ts.map (fun t => TakesText W (some t))) o o' ↔
      o.giveAll W (ts.map some) = some o' ∧ (ts = [] ∨ o.flags.has .exit = false) ∧
      ∀ t ∈ ts, ∀ v ∈ o.validators.getD [], v.order = .pre → MeetsText W (some t) v.kind
  | [], o, o' => by
    simp only [List.map_nil, Through, Opt.giveAll, Option.some.injEq, true_or, true_and]
    exact ⟨fun h => ⟨h.symm, fun t ht => (nomatch ht)⟩, fun h => h.1.symm⟩
  | t :: ts, o, o' => by
    have hmeta : ∀ o1, o.give W (some t) = some o1 → o1.meta = o.meta := fun o1 h1 =>
      giveAll_meta (W := W) [some t] (o' := o1) (by simp [Opt.giveAll, h1])
    constructor
    · rintro ⟨o1, h1, h2⟩
      obtain ⟨g1, g2, g3⟩ := (through_takes ts o1 o').1 h2
      have hm := hmeta o1 h1.handled
      have hvd : o1.validators = o.validators := (congrArg Opt.validators hm : o1.meta.validators = o.meta.validators)
      refine ⟨?_, .inr h1.goesOn, fun u hu => ?_⟩
      · simp only [List.map_cons, Opt.giveAll, h1.handled, Option.bind_some]
        exact g1
      · rcases List.mem_cons.1 hu with rfl | hu
        · exact h1.validators
        · rw [← hvd]
          exact g3 u hu
    · rintro ⟨h1, h2, h3⟩
      simp only [List.map_cons, Opt.giveAll] at h1
      cases hg : o.give W (some t) with
      | none => rw [hg] at h1; cases h1
      | some o1 =>
        rw [hg] at h1
        have hm := hmeta o1 hg
        have hvd : o1.validators = o.validators := (congrArg Opt.validators hm : o1.meta.validators = o.meta.validators)
        have hfl : o1.flags = o.flags := (congrArg Opt.flags hm : o1.meta.flags = o.meta.flags)
        have he : o.flags.has .exit = false := h2.resolve_left (by simp)
        refine ⟨o1, ⟨h3 t (by simp), he, hg⟩, (through_takes ts o1 o').2 ⟨h1, .inr (by rw [hfl]; exact he), ?_⟩⟩
        intro u hu
        rw [hvd]
        exact h3 u (by simp [hu])

/-- **C75** An array, variadic or map option takes a list of texts exactly if it does not end the program, its
    validators of texts are met by each of them, and each can be read by its type. The first text of an array or map
    must not consist of commas only (`C13_only_commas`, `C18_only_commas`). -/
theorem C75_collection_takes (W : World) (o : Opt) (h : Handler) (vt : ValueType) (ts : List Str)
    (hh : o.handler = some h) (hc : h.collects = some vt) (hv : o.valueType = vt) (hf : o.Fresh)
    (hs : StartsWell ts ∨ h = .variadicString ∨ h = .variadicInt ∨ h = .variadicFloat) :
    (∃ o', Through (ts.map (fun t => TakesText W (some t))) o o') ↔
      (ts = [] ∨ o.flags.has .exit = false) ∧
      ∀ t ∈ ts, CanRead W vt t ∧ ∀ v ∈ o.validators.getD [], v.order = .pre → MeetsText W (some t) v.kind := by
  have key := collection_takes (W := W) ts hh hc hv hf hs
  constructor
  · rintro ⟨o', ho⟩
    obtain ⟨g1, g2, g3⟩ := (through_takes ts o o').1 ho
    exact ⟨g2, fun t ht => ⟨key.1 ⟨o', g1⟩ t ht, g3 t ht⟩⟩
  · rintro ⟨h1, h2⟩
    obtain ⟨o', ho⟩ := key.2 (fun t ht => (h2 t ht).1)
    exact ⟨o', (through_takes ts o o').2 ⟨ho, h1, fun t ht => (h2 t ht).2⟩⟩

/-- The same for scalar options. -/
theorem C75_scalar_takes_all (W : World) (o : Opt) (h : Handler) (ts : List Str) (hh : o.handler = some h)
    (hs : h.isScalar = true) :
    (∃ o', Through (ts.map (fun t => TakesText W (some t))) o o') ↔
      (ts = [] ∨ o.flags.has .exit = false) ∧
      ∀ t ∈ ts, (h = .bool → MeansTrue t ∨ MeansFalse t) ∧
        ∀ v ∈ o.validators.getD [], v.order = .pre → MeetsText W (some t) v.kind := by
  induction ts generalizing o with
  | nil => exact ⟨fun _ => ⟨.inl rfl, fun t ht => (nomatch ht)⟩, fun _ => ⟨o, rfl⟩⟩
  | cons t ts ih =>
    obtain ⟨k1, k2⟩ := C75_scalar_takes W o h t hh hs
    constructor
    · rintro ⟨o', o1, h1, h2⟩
      obtain ⟨g1, g2, g3⟩ := k1.1 ⟨o1, h1⟩
      obtain ⟨_, _, hm⟩ := k2 o1 h1
      have hvd : o1.validators = o.validators := (congrArg Opt.validators hm : o1.meta.validators = o.meta.validators)
      have hh1 : o1.handler = some h := (congrArg Opt.handler hm : o1.meta.handler = o.meta.handler).trans hh
      obtain ⟨_, q2⟩ := (ih o1 hh1).1 ⟨o', h2⟩
      refine ⟨.inr g2, fun u hu => ?_⟩
      rcases List.mem_cons.1 hu with rfl | hu
      · exact ⟨g3, g1⟩
      · rw [← hvd]; exact q2 u hu
    · rintro ⟨h1, h2⟩
      have he : o.flags.has .exit = false := h1.resolve_left (by simp)
      obtain ⟨o1, ho1⟩ := k1.2 ⟨(h2 t (by simp)).2, he, (h2 t (by simp)).1⟩
      obtain ⟨_, _, hm⟩ := k2 o1 ho1
      have hvd : o1.validators = o.validators := (congrArg Opt.validators hm : o1.meta.validators = o.meta.validators)
      have hh1 : o1.handler = some h := (congrArg Opt.handler hm : o1.meta.handler = o.meta.handler).trans hh
      have hfl : o1.flags = o.flags := (congrArg Opt.flags hm : o1.meta.flags = o.meta.flags)
      obtain ⟨o', ho'⟩ := (ih o1 hh1).2 ⟨.inr (by rw [hfl]; exact he), fun u hu => by
        rw [hvd]; exact h2 u (by simp [hu])⟩
      exact ⟨o', o1, ho1, ho'⟩

/-- An int map takes `a=1,b=-2` and then `c=+7`, but not `a=1` and then `b=x`. -/
example : (∃ o', Through ([c!"a=1,b=-2", c!"c=+7"].map (fun t => TakesText Sample.world (some t))) (optMapInt 109 (some c!"map")) o') ∧
    ¬ ∃ o', Through ([c!"a=1", c!"b=x"].map (fun t => TakesText Sample.world (some t))) (optMapInt 109 (some c!"map")) o' := by
  constructor
  · exact ⟨_, (through_takes _ _ _).2 ⟨rfl, .inr (by decide +kernel), fun t _ v hv => absurd hv (by simp [optMapInt, optionBase])⟩⟩
  · intro h
    obtain ⟨o', ho'⟩ := h
    have := ((through_takes _ _ _).1 ho').1
    have e : (optMapInt 109 (some c!"map")).giveAll Sample.world ([c!"a=1", c!"b=x"].map some) = none := by decide +kernel
    rw [e] at this
    cases this

end Argus
