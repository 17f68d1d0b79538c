import Verif.Lemmas.Bounds
import Verif.Lemmas.MapHistory
import Verif.Props.Arrays

/-!
# Collections and their buffers: C38
-/

set_option autoImplicit false

namespace Argus

theorem giveAll_inBuf {W : World} {h : Handler} (hc : h.isCollection = true) : ∀ (xs : List (Option Str)) {o o' : Opt},
    o.handler = some h → InBuf o → o.giveAll W xs = some o' → InBuf o' ∧ o'.handler = some h
  | [], o, o', hh, hb, hg => by
    simp only [Opt.giveAll, Option.some.injEq] at hg
    subst hg
    exact ⟨hb, hh⟩
  | x :: xs, o, o', hh, hb, hg => by
    simp only [Opt.giveAll] at hg
    cases h1 : o.give W x with
    | none => rw [h1] at hg; simp at hg
    | some o1 =>
      rw [h1, Option.bind_some] at hg
      have hm := runHandler_keeps_meta h1
      have hh1 : o1.handler = some h := (congrArg Opt.handler hm : o1.meta.handler = o.meta.handler).trans hh
      refine giveAll_inBuf hc xs hh1 ?_ hg
      unfold Opt.give at h1
      rw [hh] at h1
      simp only at h1
      cases hr : runHandler W { tables := [] } h o x with
      | ub u => rw [hr] at h1; cases h1
      | ok r =>
        rw [hr] at h1
        simp only at h1
        split at h1
        · cases h1
          exact ((runHandler_inside W _ h hc o x hb).2 r hr).mark
        · cases h1

/-- **C38** Whatever texts an array, map or variadic option has been given since it was unset, handling
    one more text writes nowhere outside the option's buffer. -/
theorem C38_writes_inside (W : World) (a : Argus) (o o1 : Opt) (h : Handler) (xs : List (Option Str))
    (x : Option Str) (hh : o.handler = some h) (hc : h.isCollection = true) (hf : o.Fresh)
    (hg : o.giveAll W xs = some o1) : runHandler W a h o1 x ≠ .ub .outOfBounds := by
  obtain ⟨hb, _⟩ := giveAll_inBuf hc xs hh (.empty hf.1 (by rw [hf.2]; omega)) hg
  exact (runHandler_inside W a h hc o1 x hb).1

/-- **C38** (full statement: always). The count is at most the capacity, after every successful sequence of
    texts and also after a text that is rejected in the middle, unless the option has no buffer at all.
    The exception is real: `C38_only_commas`. -/
theorem C38_count_within_capacity_partial (W : World) (a : Argus) (o o1 : Opt) (h : Handler)
    (xs : List (Option Str)) (x : Option Str) (r : HRes) (hh : o.handler = some h) (hc : h.isCollection = true)
    (hf : o.Fresh) (hg : o.giveAll W xs = some o1) (hr : runHandler W a h o1 x = .ok r) :
    (o1.value ≠ .null → o1.valueCount ≤ o1.valueCapacity) ∧
    (r.2.1.value ≠ .null → r.2.1.valueCount ≤ r.2.1.valueCapacity) := by
  obtain ⟨hb, _⟩ := giveAll_inBuf hc xs hh (.empty hf.1 (by rw [hf.2]; omega)) hg
  exact ⟨fun h => (hb.caps h).2, fun h' => (((runHandler_inside W a h hc o1 x hb).2 r hr).caps h').2⟩

/-- **C38** Map options: if the first text has a piece at all, then every further text is handled without
    undefined behaviour, and what is stored fits. -/
theorem C38_maps_defined_partial (W : World) (a : Argus) (o o1 : Opt) (h : Handler) (vt : ValueType)
    (ts : List Str) (t : Str) (hm : IsMapOption o vt) (hh : o.handler = some h) (hf : o.Fresh)
    (hfirst : StartsWell ts) (hg : o.giveAll W (ts.map some) = some o1) :
    o1.valueCount ≤ o1.valueCapacity ∧ ∃ r, runHandler W a h o1 (some t) = .ok r ∧
      r.2.1.valueCount ≤ r.2.1.valueCapacity := by
  obtain ⟨pss, es, f1, f2, f3, _⟩ := giveAll_mapS W ts o o1 [] hm rfl hf.mapS (.inr hfirst) hg
  have hmeta := giveAll_meta _ hg
  have hm1 := hm.of_meta hmeta
  have hh1 : o1.handler = some h := (congrArg Opt.handler hmeta : o1.meta.handler = o.meta.handler).trans hh
  have hle : ∀ {o : Opt} {es : List (Str × MVal)}, MapS o es → o.valueCount ≤ o.valueCapacity := by
    intro o es hs
    rcases hs.val with ⟨h1, _⟩ | ⟨_, h2, _⟩
    · rw [hs.count, h1]; simp
    · rw [hs.count]; exact h2
  refine ⟨hle f2, ?_⟩
  rcases pairTexts_or W vt (pieces t) with ⟨ps, hp⟩ | ⟨good, rest, bad, ps, st, g1, g2, g3⟩
  · obtain ⟨o2, es2, e1, e2, _⟩ := run_mapS W a hm1 hh1 f2 hp
    exact ⟨_, e1, hle e2⟩
  · obtain ⟨o2, e1, e2, _⟩ := run_bad W a hm1 hh1 f2 g1 g2 g3
    exact ⟨_, e1, hle e2⟩

/-- **C38** String arrays and variadic strings, likewise. -/
theorem C38_strings_defined_partial (W : World) (o : Opt) (part : Str → List Str) (ts : List Str)
    (hc : CollectsStrings o part) (hf : o.Fresh) (hne : ts ≠ []) (hfirst : ∀ t ∈ ts.head?, part t ≠ []) :
    ∃ o', o.giveAll W (ts.map some) = some o' ∧ o'.valueCount ≤ o'.valueCapacity := by
  obtain ⟨o', shown, h1, _, _, h2, h3⟩ := strings_after W hc hf hne hfirst
  refine ⟨o', h1, ?_⟩
  rcases h2.val with ⟨h4, _⟩ | ⟨_, h4, _⟩
  · simp [h3] at h4
  · rw [h2.count]; exact h4

/-- A case of C38: seventeen elements, which make the buffer of eight grow twice. -/
example : ∃ o1, (posManyString c!"t").giveAll Sample.world
      (List.replicate 17 (some c!"x")) = some o1 ∧ o1.valueCount = 17 ∧ o1.valueCapacity = 32 := by
  refine ⟨_, rfl, by decide +kernel, by decide +kernel⟩

/-- **C38** fails for a text of commas: the option claims one element and has no buffer at all. -/
theorem C38_only_commas :
    ∃ a' o', argusParse Sample.world Sample.noEnv Sample.prog [c!"--tags=,"] = .ok (.returned Err.success, a') ∧
      a'.getOpt ⟨0, 4⟩ = .ok o' ∧ o'.valueCount = 1 ∧ o'.valueCapacity = 0 :=
  ⟨_, _, rfl, rfl, by decide +kernel, by decide +kernel⟩

end Argus
