import Verif.Spec.Ranges
import Verif.Lemmas.Collected

/-! # Lemmas: any text for an int array -/

set_option autoImplicit false

namespace Argus

theorem clampLL_eq (n : Int) : clampLL n = max (-9223372036854775808) (min n 9223372036854775807) := by
  unfold clampLL llongMin llongMax
  repeat' split
  all_goals omega

theorem strtoll_cases (v : Str) : (∃ n rest, NumeralThen v n rest ∧ strtoll v = (clampLL n, rest)) ∨
    ((∀ n rest, ¬ NumeralThen v n rest) ∧ strtoll v = (0, v)) := by
  by_cases h : ∃ n rest, NumeralThen v n rest
  · obtain ⟨n, rest, h⟩ := h
    exact .inl ⟨n, rest, h, strtoll_numeral h⟩
  · have h' : ∀ n rest, ¬ NumeralThen v n rest := fun n rest hn => h ⟨n, rest, hn⟩
    exact .inr ⟨h', strtoll_other h'⟩

theorem wrap32_spec {z m : Int} : wrap32 z = m ↔ -2147483648 ≤ m ∧ m ≤ 2147483647 ∧ ∃ q : Int, z = m + q * 4294967296 := by
  unfold wrap32
  rw [BitVec.toInt_ofInt, Int.bmod_def]
  constructor
  · intro h
    split at h
    · exact ⟨by omega, by omega, z / 4294967296, by omega⟩
    · exact ⟨by omega, by omega, z / 4294967296 + 1, by omega⟩
  · rintro ⟨h1, h2, q, h3⟩
    split <;> omega

theorem leadInt_iff {v : Str} {m : Int} : LeadInt v m ↔ wrap32 (strtoll v).1 = m := by
  rw [wrap32_spec]
  constructor
  · rintro ⟨n, hn, h1, h2, q, h3⟩
    refine ⟨h1, h2, q, ?_⟩
    rcases hn with ⟨rest, hn⟩ | ⟨rfl, hn⟩
    · rw [strtoll_numeral hn, ← h3, clampLL_eq]
    · rw [strtoll_other hn, ← h3]; rfl
  · rintro ⟨h1, h2, q, h3⟩
    rcases strtoll_cases v with ⟨n, rest, hn, he⟩ | ⟨hn, he⟩
    · rw [he, clampLL_eq] at h3
      exact ⟨n, .inl ⟨rest, hn⟩, h1, h2, q, h3⟩
    · rw [he] at h3
      exact ⟨0, .inr ⟨rfl, hn⟩, h1, h2, q, h3⟩

theorem sep_test {l : Str} {sep : Byte} {r : Str} :
    ((sep == 45 || sep == 58) && l.getLast?.any isDigit && r.head?.any (fun d => isDigit d || d == 45)) = true ↔
      SeparatorAt l sep r := by
  unfold SeparatorAt
  simp only [Bool.and_eq_true, Bool.or_eq_true, beq_iff_eq, Option.any_eq_true, Option.mem_def]
  constructor
  · rintro ⟨⟨h1, d, h2⟩, e, h3⟩; exact ⟨⟨d, h2⟩, h1, e, h3⟩
  · rintro ⟨⟨d, h2⟩, h1, e, h3⟩; exact ⟨⟨h1, d, h2⟩, e, h3⟩

/-- The search finds the first separator behind `pre`, or there is none. -/
theorem searchSep_first : ∀ (v pre : Str),
    (∃ l sep r, pre ++ v = l ++ sep :: r ∧ SeparatorAt l sep r ∧ pre.length ≤ l.length ∧
      searchSep pre.getLast? v = some r ∧ ∀ l' sep' r', l' ++ sep' :: r' = pre ++ v → SeparatorAt l' sep' r' →
        pre.length ≤ l'.length → l.length ≤ l'.length) ∨
    (searchSep pre.getLast? v = none ∧ ∀ l' sep' r', l' ++ sep' :: r' = pre ++ v → pre.length ≤ l'.length →
      ¬ SeparatorAt l' sep' r')
  | [], pre => by
    refine .inr ⟨rfl, fun l' sep' r' h hl => ?_⟩
    have := congrArg List.length h
    simp at this
    omega
  | c :: v, pre => by
    have hgl : (some c : Option Byte) = (pre ++ [c]).getLast? := by simp
    have hsplit : ∀ l' sep' r', l' ++ sep' :: r' = pre ++ c :: v → l'.length = pre.length → l' = pre ∧ sep' = c ∧ r' = v := by
      intro l' sep' r' h hl
      have h1 := (List.append_inj h hl)
      obtain ⟨h2, h3⟩ := h1
      cases h3
      exact ⟨h2, rfl, rfl⟩
    by_cases hs : SeparatorAt pre c v
    · refine .inl ⟨pre, c, v, rfl, hs, Nat.le_refl _, ?_, fun _ _ _ _ _ h => h⟩
      unfold searchSep
      rw [if_pos (sep_test.2 hs)]
    · have hstep : searchSep pre.getLast? (c :: v) = searchSep (pre ++ [c]).getLast? v := by
        rw [searchSep, if_neg (fun h => hs (sep_test.1 h)), hgl]
      rw [hstep]
      have he : pre ++ c :: v = pre ++ [c] ++ v := by simp
      rcases searchSep_first v (pre ++ [c]) with ⟨l, sep, r, h1, h2, h3, h4, h5⟩ | ⟨h4, h5⟩
      · refine .inl ⟨l, sep, r, by rw [he, h1], h2, by simp at h3; omega, h4, fun l' sep' r' h hs' hl => ?_⟩
        by_cases hq : l'.length = pre.length
        · obtain ⟨rfl, rfl, rfl⟩ := hsplit _ _ _ h hq
          exact absurd hs' hs
        · exact h5 l' sep' r' (by rw [h, he]) hs' (by simp; omega)
      · refine .inr ⟨h4, fun l' sep' r' h hl hs' => ?_⟩
        by_cases hq : l'.length = pre.length
        · obtain ⟨rfl, rfl, rfl⟩ := hsplit _ _ _ h hq
          exact absurd hs' hs
        · exact h5 l' sep' r' (by rw [h, he]) (by simp; omega) hs'

theorem hasSeparator_iff {v : Str} : HasSeparator v ↔ ∃ l sep r, v = l ++ sep :: r ∧ SeparatorAt l sep r := by
  constructor
  · rintro ⟨l, d, sep, e, r, rfl, h1, h2, h3⟩
    exact ⟨l ++ [d], sep, e :: r, by simp, ⟨d, by simp, h1⟩, h2, e, rfl, h3⟩
  · rintro ⟨l, sep, r, rfl, ⟨d, hd, h1⟩, h2, e, he, h3⟩
    cases r with
    | nil => cases he
    | cons e' r =>
      cases he
      obtain ⟨l0, rfl⟩ : ∃ l0, l = l0 ++ [d] := by
        rw [Option.mem_def, List.getLast?_eq_some_iff] at hd
        exact hd
      exact ⟨l0, d, sep, e, r, by simp, h1, h2, h3⟩

theorem parseIntRange_iff {v : Str} {lo hi : Int} : parseIntRange v = some (lo, hi) ↔ RangeText v lo hi := by
  rcases searchSep_first v [] with ⟨l, sep, r, h1, h2, _, h4, h5⟩ | ⟨h4, h5⟩
  · rw [List.nil_append] at h1
    simp only [List.getLast?_nil] at h4
    have hp : parseIntRange v = some (min (wrap32 (strtoll v).1) (wrap32 (strtoll r).1),
        max (wrap32 (strtoll v).1) (wrap32 (strtoll r).1)) := by
      unfold parseIntRange; rw [h4]
    rw [hp]
    constructor
    · intro h
      cases h
      rw [h1]
      refine .range l sep r _ _ h2 (fun l' sep' r' he hs => h5 l' sep' r' (by rw [he, List.nil_append, h1]) hs (by simp))
        (leadInt_iff.2 rfl) (leadInt_iff.2 rfl)
    · intro h
      cases h with
      | range l0 sep0 r0 x y g1 g2 g3 g4 =>
        have hle := h5 l0 sep0 r0 (by simp) g1 (by simp)
        have hge := g2 l sep r h1.symm h2
        obtain ⟨e1, e2⟩ := List.append_inj h1 (by omega)
        cases e2
        rw [leadInt_iff.1 g3, leadInt_iff.1 g4]
      | one _ n _ g1 g2 g3 => exact absurd (hasSeparator_iff.2 ⟨l, sep, r, h1, h2⟩) g1
      | empty => cases l <;> cases h1
  · simp only [List.getLast?_nil] at h4
    have hno : ¬ HasSeparator v := by
      rw [hasSeparator_iff]
      rintro ⟨l, sep, r, he, hs⟩
      exact h5 l sep r (by rw [List.nil_append, he]) (by simp) hs
    have hp : parseIntRange v = if (strtoll v).2 ≠ [] then none
        else some (wrap32 (strtoll v).1, wrap32 (strtoll v).1) := by
      unfold parseIntRange; rw [h4]
    rw [hp]
    constructor
    · intro h
      split at h
      · cases h
      · rename_i he
        rw [Classical.not_not] at he
        cases h
        rcases strtoll_cases v with ⟨n, rest, hn, hs⟩ | ⟨_, hs⟩
        · rw [hs] at he
          cases he
          exact .one v n _ hno hn (leadInt_iff.2 rfl)
        · rw [hs] at he ⊢
          cases he
          have : wrap32 (0 : Int) = 0 := by decide
          rw [this]
          exact .empty
    · intro h
      cases h with
      | range l0 sep0 r0 x y g1 g2 g3 g4 => exact absurd g1 (h5 l0 sep0 r0 (by simp) (by simp))
      | one _ n _ g1 g2 g3 =>
        have : (strtoll v).2 = [] := by rw [isNumeral_strtoll g2]
        rw [if_neg (by simp [this]), leadInt_iff.1 g3]
      | empty => rfl

theorem pieceInts_iff {v : Str} {xs : List Int} : pieceInts v = some xs ↔
    ∃ lo hi, RangeText v lo hi ∧ hi ≠ 2147483647 ∧ xs = fromTo lo hi := by
  unfold pieceInts
  cases hp : parseIntRange v with
  | none =>
    constructor
    · intro h; cases h
    · rintro ⟨lo, hi, h, _⟩
      rw [← parseIntRange_iff, hp] at h
      cases h
  | some p =>
    obtain ⟨lo, hi⟩ := p
    simp only
    constructor
    · intro h
      split at h
      · cases h
      · rename_i hne
        cases h
        exact ⟨lo, hi, parseIntRange_iff.1 hp, hne, rfl⟩
    · rintro ⟨lo', hi', h, hne, rfl⟩
      rw [← parseIntRange_iff, hp] at h
      cases h
      rw [if_neg (show ¬ hi = intMax from hne)]
      rfl

theorem gather_pieceInts {ps : List Str} : ∀ {xs : List Int}, gather pieceInts ps = some xs ↔
    ∃ qs : List (Str × Int × Int), ps = qs.map Prod.fst ∧ xs = qs.flatMap (fun q => fromTo q.2.1 q.2.2) ∧
      ∀ q ∈ qs, RangeText q.1 q.2.1 q.2.2 ∧ q.2.2 ≠ 2147483647 := by
  induction ps with
  | nil =>
    intro xs
    constructor
    · intro h; cases h; exact ⟨[], rfl, rfl, by simp⟩
    · rintro ⟨qs, h1, h2, _⟩
      cases qs with
      | nil => rw [h2]; rfl
      | cons _ _ => cases h1
  | cons p ps ih =>
    intro xs
    constructor
    · intro h
      unfold gather at h
      cases ha : pieceInts p with
      | none => rw [ha] at h; cases h
      | some a =>
        cases hb : gather pieceInts ps with
        | none => rw [ha, hb] at h; cases h
        | some b =>
          rw [ha, hb] at h
          cases h
          obtain ⟨lo, hi, g1, g2, rfl⟩ := pieceInts_iff.1 ha
          obtain ⟨qs, k1, k2, k3⟩ := ih.1 hb
          refine ⟨(p, lo, hi) :: qs, by rw [k1]; rfl, by rw [k2]; rfl, fun q hq => ?_⟩
          rcases List.mem_cons.1 hq with rfl | hq
          · exact ⟨g1, g2⟩
          · exact k3 q hq
    · rintro ⟨qs, h1, h2, h3⟩
      cases qs with
      | nil => cases h1
      | cons q qs =>
        obtain ⟨rfl, hps⟩ := List.cons.inj h1
        unfold gather
        rw [pieceInts_iff.2 ⟨q.2.1, q.2.2, (h3 q (by simp)).1, (h3 q (by simp)).2, rfl⟩,
          ih.2 ⟨qs, hps, rfl, fun r hr => h3 r (by simp [hr])⟩, h2]
        rfl

/-- An int array given any texts. -/
theorem intArray_after (W : World) {o : Opt} {ts : List Str} (hh : o.handler = some .arrayInt)
    (hv : o.valueType = .arrayInt) (hf : o.Fresh) (hne : ts ≠ []) (hs : StartsWell ts) :
    (∀ ws, gather pieceInts (ts.flatMap pieces) = some ws → ∃ o' shown, o.giveAll W (ts.map some) = some o' ∧
      o'.Ints shown ∧ Arranged o.flags (fun x y => x ≤ y) ws shown) ∧
    (gather pieceInts (ts.flatMap pieces) = none → o.giveAll W (ts.map some) = none) := by
  obtain ⟨g1, g2⟩ := giveAll_arranged (W := W) (P := fun x => intMin ≤ x ∧ x ≤ intMax) (k := .int)
    (enc := intCell) (h := .arrayInt) (G := fun v => gather pieceInts (pieces v)) (le := fun x y => x ≤ y)
    (fl := o.flags) (fun x y hx hy => int_dup (intD_intCell hx) (intD_intCell hy))
    (fun _ => cmpInt_consistent _) (fun _ => rfl)
    (fun x y hx hy hxy => by
      have := cmpInt_le_iff.1 hxy
      rwa [intD_intCell hx, intD_intCell hy] at this)
    (arrayInt_gives W) (fun v xs hv => gather_mem (fun _ _ h => (pieceInts_range h).2) _ _ hv)
    ts o hf hh (by rw [hv]; rfl) rfl
    (fun t ht => gather_ne_nil (fun _ _ h => (pieceInts_range h).1) _ (hs t ht))
  rw [gather_flatMap] at g1 g2
  refine ⟨fun ws hws => ?_, g2⟩
  obtain ⟨o', ys, e1, e2, e3, e4⟩ := g1 ws hws
  refine ⟨o', ys, e1, e2.ints (e4 hne) (fun x hx => ?_), e3⟩
  have := gather_mem (fun _ _ h => (pieceInts_range h).2) _ _ hws x ((e3.mem x).1 hx)
  exact asInt_of_intD rfl (intD_intCell this)

theorem ascending_ext : ∀ {xs ys : List Int}, xs.Pairwise (· < ·) → ys.Pairwise (· < ·) → (∀ n, n ∈ xs ↔ n ∈ ys) → xs = ys
  | [], [], _, _, _ => rfl
  | [], y :: _, _, _, h => absurd ((h y).2 (by simp)) (by simp)
  | x :: _, [], _, _, h => absurd ((h x).1 (by simp)) (by simp)
  | x :: xs, y :: ys, hx, hy, h => by
    rw [List.pairwise_cons] at hx hy
    have hxy : x = y := by
      rcases List.mem_cons.1 ((h x).1 (by simp)) with h1 | h1
      · exact h1
      · rcases List.mem_cons.1 ((h y).2 (by simp)) with h2 | h2
        · exact h2.symm
        · have := hy.1 _ h1
          have := hx.1 _ h2
          omega
    subst hxy
    congr 1
    refine ascending_ext hx.2 hy.2 (fun n => ⟨fun hn => ?_, fun hn => ?_⟩)
    · rcases List.mem_cons.1 ((h n).1 (by simp [hn])) with rfl | h1
      · exact absurd (hx.1 _ hn) (by omega)
      · exact h1
    · rcases List.mem_cons.1 ((h n).2 (by simp [hn])) with rfl | h1
      · exact absurd (hy.1 _ hn) (by omega)
      · exact h1

theorem ascending_nodup {xs : List Int} (h : xs.Pairwise (· < ·)) : xs.Nodup :=
  h.imp (fun {a b} hab => by omega)

theorem Arranged.ascending {fl : Flags} {ws shown : List Int} (h : Arranged fl (fun x y => x ≤ y) ws shown)
    (hw : ws.Pairwise (· < ·)) : shown = ws := by
  cases hs : fl.has .sorted with
  | true =>
    have hn : shown.Nodup := by
      cases hu : fl.has .unique with
      | true => exact h.nodup hu
      | false => exact (h.perm hu).nodup_iff.2 (ascending_nodup hw)
    refine ascending_ext ?_ hw h.mem
    exact (h.sorted hs).imp₂ (fun _ _ h1 h2 => by omega) hn
  | false =>
    cases hu : fl.has .unique with
    | true => rw [h.firsts hu hs, eraseDups_of_nodup _ (ascending_nodup hw)]
    | false => exact h.plain hs hu

theorem interval_ascending (lo hi : Int) : (fromTo lo hi).Pairwise (· < ·) := by
  simp only [fromTo]
  rw [List.pairwise_map]
  exact List.pairwise_lt_range.imp (fun h => by omega)

end Argus
