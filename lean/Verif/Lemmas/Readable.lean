import Verif.Spec.Readable
import Verif.Lemmas.Ranges
import Verif.Lemmas.MapHistory
import Verif.Lemmas.Safe

/-! # Lemmas: which texts a collection takes -/

set_option autoImplicit false

namespace Argus

theorem giveAll_takes {W : World} {h : Handler} {k : CellKind} {F : Str → Option (List Word)} (hg : GivesArr W h k F)
    (hF : ∀ v ws, F v = some ws → ∀ c ∈ ws, k.readable c = true) : ∀ (ts : List Str) (o : Opt) (cells : List Word),
    Arr o cells → o.handler = some h → o.valueType.arrayKind = some k → (∀ c ∈ cells, k.readable c = true) →
    (cells ≠ [] ∨ ∀ t ∈ ts.head?, F t ≠ some []) →
    ((∃ o', o.giveAll W (ts.map some) = some o') ↔ ∀ t ∈ ts, F t ≠ none)
  | [], o, cells, _, _, _, _, _ => ⟨fun _ t ht => (nomatch ht), fun _ => ⟨o, rfl⟩⟩
  | t :: ts, o, cells, ha, hh, hk, hr, hhead => by
    obtain ⟨h1, h2⟩ := hg o cells t ha hh hk hr
    cases ht : F t with
    | none =>
      constructor
      · rintro ⟨o', ho⟩
        simp only [List.map_cons, Opt.giveAll] at ho
        rw [h2 ht] at ho
        cases ho
      · intro hall
        exact absurd ht (hall t (by simp))
    | some ws =>
      have hne : cells ++ ws ≠ [] := by
        rcases hhead with h | h
        · simp [h]
        · intro he
          rw [List.append_eq_nil_iff] at he
          exact h t (by simp) (by rw [ht, he.2])
      obtain ⟨o1, e1, e2⟩ := h1 ws ht hne
      have hm : o1.meta = o.meta := giveAll_meta (W := W) [some t] (o' := o1) (by simp [Opt.giveAll, e1])
      have ih := giveAll_takes hg hF ts o1 _ e2 ((congrArg Opt.handler hm : o1.meta.handler = o.meta.handler).trans hh)
        (by rw [show o1.valueType = o.valueType from (congrArg Opt.valueType hm : o1.meta.valueType = o.meta.valueType)]
            exact hk)
        (fun c hc => by
          rcases List.mem_append.1 (flagged_sub W _ _ _ c hc) with h | h
          · exact hr c h
          · exact hF t ws ht c h) (.inl (flagged_ne_nil W _ _ hne))
      have hstep : o.giveAll W ((t :: ts).map some) = o1.giveAll W (ts.map some) := by
        simp only [List.map_cons, Opt.giveAll, e1, Option.bind_some]
      rw [hstep, ih]
      constructor
      · intro hall u hu
        rcases List.mem_cons.1 hu with rfl | hu
        · rw [ht]; simp
        · exact hall u hu
      · intro hall u hu
        exact hall u (by simp [hu])

theorem gather_eq_none {α β : Type} {f : α → Option (List β)} : ∀ (xs : List α),
    gather f xs ≠ none ↔ ∀ x ∈ xs, f x ≠ none
  | [] => ⟨fun _ x hx => (nomatch hx), fun _ => by simp [gather]⟩
  | x :: xs => by
    unfold gather
    have ih := gather_eq_none (f := f) xs
    cases hx : f x with
    | none => simp [hx]
    | some a =>
      cases hg : gather f xs with
      | none =>
        rw [hg] at ih
        simp only [ne_eq, not_true_eq_false, false_iff] at ih ⊢
        intro h
        exact ih (fun y hy => h y (by simp [hy]))
      | some b =>
        rw [hg] at ih
        have ih := ih.1 (by simp)
        simp only [ne_eq, reduceCtorEq, not_false_eq_true, true_iff]
        intro y hy
        rcases List.mem_cons.1 hy with rfl | hy
        · simp [hx]
        · exact ih y hy

theorem wholeInt_ne_none {v : Str} : wholeInt v ≠ none ↔ ∃ n, IsNumeral v n := by
  constructor
  · intro h
    rcases strtoll_cases v with ⟨n, rest, hn, hs⟩ | ⟨_, hs⟩
    · unfold wholeInt at h
      rw [hs] at h
      by_cases hr : rest = []
      · subst hr; exact ⟨n, hn⟩
      · exact absurd (by simp [hr]) h
    · unfold wholeInt at h
      rw [hs] at h
      exact absurd (by simp) h
  · rintro ⟨n, hn⟩
    rw [wholeInt_numeral hn]
    simp

theorem occurrencePairs_iff {W : World} {vt : ValueType} : ∀ (ts : List Str),
    (∃ pss, OccurrencePairs W vt ts pss) ↔
      ∀ t ∈ ts, ∀ v ∈ pieces t, ∃ k w x, v = k ++ c!"=" ++ w ∧ (61 : Byte) ∉ k ∧ TextValue W vt w x
  | [] => ⟨fun _ t ht => (nomatch ht), fun _ => ⟨[], rfl⟩⟩
  | t :: ts => by
    have ih := occurrencePairs_iff (W := W) (vt := vt) ts
    have key : ∀ l : List Str, (∃ ps, PairTexts W vt l ps) ↔
        ∀ v ∈ l, ∃ k w x, v = k ++ c!"=" ++ w ∧ (61 : Byte) ∉ k ∧ TextValue W vt w x := by
      intro l
      constructor
      · rintro ⟨ps, qs, rfl, _, h⟩ v hv
        obtain ⟨q, hq, rfl⟩ := List.mem_map.1 hv
        exact ⟨q.1, q.2.1, q.2.2, rfl, h q hq⟩
      · intro h
        induction l with
        | nil => exact ⟨[], [], rfl, rfl, fun q hq => (nomatch hq)⟩
        | cons v l ihl =>
          obtain ⟨ps, qs, e1, e2, e3⟩ := ihl (fun v hv => h v (by simp [hv]))
          obtain ⟨k, w, x, g1, g2, g3⟩ := h v (by simp)
          refine ⟨_, (k, w, x) :: qs, by rw [e1, g1]; rfl, rfl, fun q hq => ?_⟩
          rcases List.mem_cons.1 hq with rfl | hq
          · exact ⟨g2, g3⟩
          · exact e3 q hq
    constructor
    · rintro ⟨pss, ps, pss', rfl, h1, h2⟩ u hu
      rcases List.mem_cons.1 hu with rfl | hu
      · exact (key _).1 ⟨ps, h1⟩
      · exact ih.1 ⟨pss', h2⟩ u hu
    · intro h
      obtain ⟨ps, h1⟩ := (key (pieces t)).2 (h t (by simp))
      obtain ⟨pss', h2⟩ := ih.2 (fun u hu => h u (by simp [hu]))
      exact ⟨ps :: pss', ps, pss', rfl, h1, h2⟩

theorem map_takes {W : World} {vt : ValueType} {o : Opt} (ts : List Str) (hm : IsMapOption o vt) (hf : o.Fresh)
    (hs : StartsWell ts) : (∃ o', o.giveAll W (ts.map some) = some o') ↔
      ∀ t ∈ ts, ∀ v ∈ pieces t, ∃ k w x, v = k ++ c!"=" ++ w ∧ (61 : Byte) ∉ k ∧ TextValue W vt w x := by
  rw [← occurrencePairs_iff]
  constructor
  · rintro ⟨o', ho⟩
    obtain ⟨pss, _, h, _⟩ := giveAll_mapS W ts o o' [] hm rfl hf.mapS (.inr hs) ho
    exact ⟨pss, h⟩
  · rintro ⟨pss, h⟩
    exact giveAll_pairs W ts o [] pss hm hf.mapS (.inr hs) h

theorem collection_takes {W : World} {h : Handler} {vt : ValueType} {o : Opt} (ts : List Str)
    (hh : o.handler = some h) (hc : h.collects = some vt) (hv : o.valueType = vt) (hf : o.Fresh)
    (hs : StartsWell ts ∨ h = .variadicString ∨ h = .variadicInt ∨ h = .variadicFloat) :
    (∃ o', o.giveAll W (ts.map some) = some o') ↔ ∀ t ∈ ts, CanRead W vt t := by
  have hsw : h ≠ .variadicString → h ≠ .variadicInt → h ≠ .variadicFloat → StartsWell ts :=
    fun h1 h2 h3 => hs.elim id (fun h => h.elim (absurd · h1) (fun h => h.elim (absurd · h2) (absurd · h3)))
  cases h <;> simp only [Handler.collects, Option.some.injEq, reduceCtorEq] at hc
  case arrayString =>
    subst hc
    have := giveAll_takes (arrayString_gives W) (by
      intro v ws hw c hcm
      simp only [Option.map_some, Option.some.injEq] at hw
      subst hw
      obtain ⟨x, _, rfl⟩ := List.mem_map.1 hcm
      rfl) ts o [] hf.arr hh (by rw [hv]; rfl) (fun c hc => (nomatch hc)) (.inr (fun t ht => by
        have := hsw (by simp) (by simp) (by simp) t ht
        simpa using this))
    rw [this]
    exact ⟨fun _ t _ => trivial, fun _ t _ => by simp⟩
  case arrayFloat =>
    subst hc
    have := giveAll_takes (arrayFloat_gives W) (by
      intro v ws hw c hcm
      simp only [Option.map_some, Option.some.injEq] at hw
      subst hw
      obtain ⟨x, _, rfl⟩ := List.mem_map.1 hcm
      rfl) ts o [] hf.arr hh (by rw [hv]; rfl) (fun c hc => (nomatch hc)) (.inr (fun t ht => by
        have := hsw (by simp) (by simp) (by simp) t ht
        simpa using this))
    rw [this]
    exact ⟨fun _ t _ => trivial, fun _ t _ => by simp⟩
  case arrayInt =>
    subst hc
    have := giveAll_takes (arrayInt_gives W) (by
      intro v ws hw c hcm
      obtain ⟨l, _, rfl⟩ := Option.map_eq_some_iff.1 hw
      obtain ⟨x, _, rfl⟩ := List.mem_map.1 hcm
      rfl) ts o [] hf.arr hh (by rw [hv]; rfl) (fun c hc => (nomatch hc)) (.inr (fun t ht he => by
        obtain ⟨l, h1, h2⟩ := Option.map_eq_some_iff.1 he
        rw [List.map_eq_nil_iff] at h2
        subst h2
        exact gather_ne_nil (fun _ _ h => (pieceInts_range h).1) _ (hsw (by simp) (by simp) (by simp) t ht) h1))
    rw [this]
    have key : ∀ t, (gather pieceInts (pieces t)).map (fun l => l.map intCell) ≠ none ↔ CanRead W .arrayInt t := by
      intro t
      rw [ne_eq, Option.map_eq_none_iff, ← ne_eq, gather_eq_none]
      constructor
      · intro h v hv
        cases hp : pieceInts v with
        | none => exact absurd hp (h v hv)
        | some xs =>
          obtain ⟨lo, hi, h1, h2, _⟩ := pieceInts_iff.1 hp
          exact ⟨lo, hi, h1, h2⟩
      · intro h v hv
        obtain ⟨lo, hi, h1, h2⟩ := h v hv
        rw [pieceInts_iff.2 ⟨lo, hi, h1, h2, rfl⟩]
        simp
    exact ⟨fun h t ht => (key t).1 (h t ht), fun h t ht => (key t).2 (h t ht)⟩
  case variadicString =>
    subst hc
    have := giveAll_takes (variadicString_gives W) (by
      intro v ws hw c hcm
      simp only [Option.map_some, Option.some.injEq] at hw
      subst hw
      obtain ⟨x, _, rfl⟩ := List.mem_map.1 hcm
      rfl) ts o [] hf.arr hh (by rw [hv]; rfl) (fun c hc => (nomatch hc)) (.inr (fun t ht => by simp))
    rw [this]
    exact ⟨fun _ t _ => trivial, fun _ t _ => by simp⟩
  case variadicInt =>
    subst hc
    have := giveAll_takes (variadicInt_gives W) (by
      intro v ws hw c hcm
      obtain ⟨l, _, rfl⟩ := Option.map_eq_some_iff.1 hw
      obtain ⟨x, _, rfl⟩ := List.mem_map.1 hcm
      rfl) ts o [] hf.arr hh (by rw [hv]; rfl) (fun c hc => (nomatch hc)) (.inr (fun t ht he => by
        cases hw : wholeInt t <;> simp [hw] at he))
    rw [this]
    have key : ∀ t, ((wholeInt t).map (fun n => [n])).map (fun l => l.map Word.ofInt64) ≠ none ↔ ∃ n, IsNumeral t n := by
      intro t
      rw [← wholeInt_ne_none]
      simp
    exact ⟨fun h t ht => (key t).1 (h t ht), fun h t ht => (key t).2 (h t ht)⟩
  case variadicFloat =>
    subst hc
    have := giveAll_takes (variadicFloat_gives W) (by
      intro v ws hw c hcm
      obtain ⟨l, _, rfl⟩ := Option.map_eq_some_iff.1 hw
      obtain ⟨x, _, rfl⟩ := List.mem_map.1 hcm
      rfl) ts o [] hf.arr hh (by rw [hv]; rfl) (fun c hc => (nomatch hc)) (.inr (fun t ht he => by
        cases hw : wholeFloat W t <;> simp [hw] at he))
    rw [this]
    have key : ∀ t, ((wholeFloat W t).map (fun n => [n])).map (fun l => l.map Word.bits) ≠ none ↔
        CanRead W .variadicFloat t := by
      intro t
      unfold wholeFloat CanRead
      by_cases h1 : (W.strtod t).2 = t.length
      · cases t with
        | nil => simp [h1]
        | cons c r => simp [h1]
      · simp [h1]
    exact ⟨fun h t ht => (key t).1 (h t ht), fun h t ht => (key t).2 (h t ht)⟩
  case mapString =>
    subst hc
    exact map_takes ts (.string hh hv) hf (hsw (by simp) (by simp) (by simp))
  case mapInt =>
    subst hc
    exact map_takes ts (.int hh hv) hf (hsw (by simp) (by simp) (by simp))
  case mapFloat =>
    subst hc
    exact map_takes ts (.float hh hv) hf (hsw (by simp) (by simp) (by simp))
  case mapBool =>
    subst hc
    exact map_takes ts (.bool hh hv) hf (hsw (by simp) (by simp) (by simp))

end Argus
