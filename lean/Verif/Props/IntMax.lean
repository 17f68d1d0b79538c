import Verif.Lemmas.Ranges
import Verif.Lemmas.Gives
import Verif.Props.Ranges

/-!
# Property C42: exactly when an int array overflows
-/

set_option autoImplicit false

namespace Argus

/-- Among these pieces, one means a range that ends at INT_MAX, and those before it mean ranges that do not. -/
def ReachesIntMax (ps : List Str) : Prop :=
  ∃ before p after lo, ps = before ++ p :: after ∧ RangeText p lo 2147483647 ∧
    ∀ q ∈ before, ∃ lo hi, RangeText q lo hi ∧ hi ≠ 2147483647

theorem setValueInt_cases {o : Opt} {cells : List Word} (h : Arr o cells) (v : Str) :
    ((∃ lo, RangeText v lo intMax) ∧ setValueInt o v = .ub .intOverflow) ∨
    ((∃ lo hi, RangeText v lo hi ∧ hi ≠ intMax) ∧
      ∃ o' cells', setValueInt o v = .ok (Err.success, o', []) ∧ Arr o' cells') ∨
    ((∀ lo hi, ¬ RangeText v lo hi) ∧ setValueInt o v = .ok (Err.invalidFormat, o, [.error Err.invalidFormat])) := by
  cases hp : parseIntRange v with
  | none =>
    refine .inr (.inr ⟨fun lo hi hr => ?_, by unfold setValueInt; rw [hp]⟩)
    rw [parseIntRange_iff.2 hr] at hp; cases hp
  | some r =>
    obtain ⟨lo, hi⟩ := r
    have hr := parseIntRange_iff.1 hp
    obtain ⟨o', e1, e2⟩ := addRangeLoop_arr (hi - lo + 1).toNat lo h
    by_cases hm : hi = intMax
    · subst hm
      refine .inl ⟨⟨lo, hr⟩, ?_⟩
      unfold setValueInt addRange
      rw [hp]
      simp only [e1, Out.ok_bind, if_true, Out.ub_bind]
    · refine .inr (.inl ⟨⟨lo, hi, hr, hm⟩, o', _, ?_, e2⟩)
      unfold setValueInt addRange
      rw [hp]
      simp only [e1, Out.ok_bind, if_neg hm]

theorem reaches_cons {v : Str} {vs : List Str} : ReachesIntMax (v :: vs) ↔
    (∃ lo, RangeText v lo intMax) ∨ ((∃ lo hi, RangeText v lo hi ∧ hi ≠ intMax) ∧ ReachesIntMax vs) := by
  constructor
  · rintro ⟨b, p, a, lo, h1, h2, h3⟩
    cases b with
    | nil =>
      simp only [List.nil_append, List.cons.injEq] at h1
      obtain ⟨rfl, rfl⟩ := h1
      exact .inl ⟨lo, h2⟩
    | cons q b =>
      simp only [List.cons_append, List.cons.injEq] at h1
      obtain ⟨rfl, rfl⟩ := h1
      exact .inr ⟨h3 v (by simp), b, p, a, lo, rfl, h2, fun q hq => h3 q (by simp [hq])⟩
  · rintro (⟨lo, h⟩ | ⟨h, b, p, a, lo, rfl, h2, h3⟩)
    · exact ⟨[], v, vs, lo, rfl, h, fun q hq => (nomatch hq)⟩
    · refine ⟨v :: b, p, a, lo, rfl, h2, fun q hq => ?_⟩
      rcases List.mem_cons.1 hq with rfl | hq
      · exact h
      · exact h3 q hq

theorem rangeText_unique {v : Str} {lo hi lo' hi' : Int} (h : RangeText v lo hi) (h' : RangeText v lo' hi') :
    lo = lo' ∧ hi = hi' := by
  have h1 := parseIntRange_iff.2 h
  have h2 := parseIntRange_iff.2 h'
  rw [h1] at h2
  simp only [Option.some.injEq, Prod.mk.injEq] at h2
  exact h2

theorem setAllInt_cases : ∀ (vs : List Str) {o : Opt} {cells : List Word}, Arr o cells →
    (ReachesIntMax vs ∧ setAll setValueInt o vs = .ub .intOverflow) ∨
    (¬ ReachesIntMax vs ∧ ∃ r, setAll setValueInt o vs = .ok r)
  | [], o, cells, h => by
    refine .inr ⟨?_, _, rfl⟩
    rintro ⟨b, p, a, lo, h1, _⟩
    simp at h1
  | v :: vs, o, cells, h => by
    rw [reaches_cons]
    unfold setAll
    rcases setValueInt_cases h v with ⟨h1, h2⟩ | ⟨h1, o', cells', h2, h3⟩ | ⟨h1, h2⟩
    · rw [h2]; exact .inl ⟨.inl h1, rfl⟩
    · rw [h2]
      simp only [Out.ok_bind, ne_eq, not_true_eq_false, if_false]
      rcases setAllInt_cases vs h3 with ⟨g1, g2⟩ | ⟨g1, r, g2⟩
      · rw [g2]; exact .inl ⟨.inr ⟨h1, g1⟩, rfl⟩
      · rw [g2]
        refine .inr ⟨?_, _, rfl⟩
        rintro (⟨lo, hl⟩ | ⟨_, hl⟩)
        · obtain ⟨lo', hi', hr, hne⟩ := h1
          exact hne (rangeText_unique hr hl).2
        · exact g1 hl
    · rw [h2]
      refine .inr ⟨?_, (Err.invalidFormat, o, [.error Err.invalidFormat]), by
        simp only [Out.ok_bind]; rw [if_pos (by decide)]⟩
      rintro (⟨lo, hl⟩ | ⟨⟨lo, hi, hl, _⟩, _⟩)
      · exact h1 lo _ hl
      · exact h1 lo hi hl

theorem storePartsInt_cases {o : Opt} {cells : List Word} (h : Arr o cells) (t : Str) :
    (ReachesIntMax (pieces t) ∧ storeParts setValueInt o t = .ub .intOverflow) ∨
    (¬ ReachesIntMax (pieces t) ∧ ∃ r, storeParts setValueInt o t = .ok r) := by
  unfold storeParts pieces
  by_cases hc : (44 : Byte) ∈ t
  · have hc' : t.contains 44 = true := by simpa using hc
    rw [if_pos hc, hc', if_pos rfl, split_comma]
    exact setAllInt_cases _ h
  · have hc' : t.contains 44 = false := by simpa using hc
    rw [if_neg hc, hc', if_neg (by simp)]
    have := setAllInt_cases [t] h
    unfold setAll at this
    rcases setValueInt_cases h t with ⟨_, h2⟩ | ⟨_, o', cells', h2, h3⟩ | ⟨_, h2⟩
    · rw [h2] at this ⊢
      rcases this with ⟨g, _⟩ | ⟨_, r, g⟩
      · exact .inl ⟨g, rfl⟩
      · cases g
    · rw [h2] at this ⊢
      rcases this with ⟨_, g⟩ | ⟨g, _⟩
      · simp [setAll] at g
      · exact .inr ⟨g, _, rfl⟩
    · rw [h2] at this ⊢
      rcases this with ⟨_, g⟩ | ⟨g, _⟩
      · simp only [Out.ok_bind] at g; rw [if_pos (by decide)] at g; cases g
      · exact .inr ⟨g, _, rfl⟩

theorem collectInt_iff (W : World) {o : Opt} {xs : List Int} (h : Arr o (xs.map intCell)) (hv : o.valueType = .arrayInt)
    (t : Str) (u : Ub) : collect setValueInt (applyArrayFlags W) o (some t) = .ub u ↔
      u = .intOverflow ∧ ReachesIntMax (pieces t) := by
  rcases storePartsInt_cases h t with ⟨g1, g2⟩ | ⟨g1, r, g2⟩
  · unfold collect
    simp only [g2, Out.ub_bind, Out.ub.injEq]
    exact ⟨fun e => ⟨e.symm, g1⟩, fun e => e.1.symm⟩
  · refine ⟨fun e => ?_, fun e => absurd e.2 g1⟩
    have hap := storeParts_appends setValueInt_appends o _ t h
    have hca := collect_arr W setValueInt_appends setValueInt_meta h (k := .int) (by rw [hv]; rfl)
      (fun c hc => by obtain ⟨x, _, rfl⟩ := List.mem_map.1 hc; rfl)
      (fun v ws hw c hc => by
        cases hp : pieceInts v with
        | none => simp [hp] at hw
        | some l =>
          simp only [hp, Option.map_some, Option.some.injEq] at hw
          subst hw
          obtain ⟨x, _, rfl⟩ := List.mem_map.1 hc
          rfl) t
    cases hg : gather (fun s => (pieceInts s).map (fun xs => xs.map intCell)) (pieces t) with
    | none =>
      have hne := hap.2 hg r g2
      unfold collect at e
      simp only [g2, Out.ok_bind] at e
      rw [if_pos hne] at e
      cases e
    | some ws =>
      obtain ⟨o', e1, _⟩ := hca.1 ws hg
      rw [e1] at e; cases e

/-- **C42** The counter of an int array overflows exactly if one of the pieces of the text means a range that ends at
    INT_MAX, and those before it are in order. Nothing else that is given to an int array is undefined, whatever texts it
    was given before. -/
theorem C42_int_max_iff (W : World) (a : Argus) (o o1 : Opt) (ts : List Str) (t : Str) (u : Ub)
    (hh : o.handler = some .arrayInt) (hv : o.valueType = .arrayInt) (hf : o.Fresh) (hs : StartsWell ts)
    (h1 : o.giveAll W (ts.map some) = some o1) :
    runHandler W a .arrayInt o1 (some t) = .ub u ↔ u = .intOverflow ∧ ReachesIntMax (pieces t) := by
  obtain ⟨g1, g2⟩ := giveAll_arranged (W := W) (P := fun x => intMin ≤ x ∧ x ≤ intMax) (k := .int)
    (enc := intCell) (h := .arrayInt) (G := fun v => gather pieceInts (pieces v)) (le := fun x y => x ≤ y)
    (fl := o.flags) (fun x y hx hy => int_dup (intD_intCell hx) (intD_intCell hy))
    (fun _ => cmpInt_consistent _) (fun _ => rfl)
    (fun x y hx hy hxy => by
      have := cmpInt_le_iff.1 hxy
      rwa [intD_intCell hx, intD_intCell hy] at this)
    (arrayInt_gives W) (fun v xs hv => gather_mem (fun _ _ h => (pieceInts_range h).2) _ _ hv)
    ts o hf hh (by rw [hv]; rfl) rfl
    (fun t ht => gather_ne_nil (fun _ _ h => (pieceInts_range h).1) _ (hs t ht))
  cases hg : gather (fun v => gather pieceInts (pieces v)) ts with
  | none => rw [g2 hg] at h1; cases h1
  | some ws =>
    obtain ⟨o', ys, e1, e2, _, _⟩ := g1 ws hg
    rw [e1] at h1
    cases h1
    have hm := giveAll_meta _ e1
    have hv' : o1.valueType = .arrayInt := (congrArg Opt.valueType hm : o1.meta.valueType = o.meta.valueType).trans hv
    exact collectInt_iff W e2 hv' t u

/-- Given `1` before, `5,7-2147483647,x` overflows, and `x,2147483647` does not: it is refused at `x`. -/
example : (optArrayInt 110 (some c!"num")).Fresh ∧ StartsWell [c!"1"] ∧
    (∃ o1, (optArrayInt 110 (some c!"num")).giveAll Sample.world ([c!"1"].map some) = some o1) ∧
    ReachesIntMax (pieces c!"5,7-2147483647,x") ∧ ¬ ReachesIntMax (pieces c!"x,2147483647") := by
  refine ⟨⟨rfl, rfl⟩, ?_, ⟨_, rfl⟩, ⟨[c!"5"], c!"7-2147483647", [c!"x"], 7, by decide +kernel,
    parseIntRange_iff.1 (by decide +kernel), fun q hq => ?_⟩, ?_⟩
  · intro t ht; simp only [List.head?_cons, Option.mem_some_iff] at ht; subst ht; decide +kernel
  · simp only [List.mem_singleton] at hq; subst hq
    exact ⟨5, 5, parseIntRange_iff.1 (by decide +kernel), by decide⟩
  · have hp : pieces c!"x,2147483647" = [c!"x", c!"2147483647"] := by decide +kernel
    have hx : ∀ lo hi, ¬ RangeText c!"x" lo hi := fun lo hi h => by
      have := parseIntRange_iff.2 h
      rw [(by decide +kernel : parseIntRange c!"x" = none)] at this
      cases this
    rw [hp, reaches_cons]
    rintro (⟨lo, h⟩ | ⟨⟨lo, hi, h, _⟩, _⟩)
    · exact hx _ _ h
    · exact hx _ _ h

end Argus
