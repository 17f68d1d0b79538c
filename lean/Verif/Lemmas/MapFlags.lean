import Verif.Lemmas.Maps
import Verif.Lemmas.Compare
import Verif.Lemmas.ArrayFlags
import Verif.Lemmas.Floats

/-! # Lemmas: sorting map options and removing equal values -/

set_option autoImplicit false

namespace Argus

/-- The kind of the values in a map of a type. -/
def MapKind (vt : ValueType) (k : CellKind) : Prop := vt.mapKind = some k ∧ vt.uniqueKind = some k

theorem IsMapOption.kind {o : Opt} {vt : ValueType} (h : IsMapOption o vt) : ∃ k, MapKind vt k := by
  cases h <;> exact ⟨_, rfl, rfl⟩

theorem IsMapOption.type {o : Opt} {vt : ValueType} (h : IsMapOption o vt) : o.valueType = vt := by
  cases h <;> assumption

theorem enc_readable {vt : ValueType} {k : CellKind} {x : MVal} (hk : MapKind vt k) (hx : x.OfType vt) :
    k.readable x.enc = true := by
  cases x with
  | str s => cases hx; obtain ⟨h, _⟩ := hk; cases h; rfl
  | int n => obtain ⟨rfl, _⟩ := hx; obtain ⟨h, _⟩ := hk; cases h; rfl
  | float z => cases hx; obtain ⟨h, _⟩ := hk; cases h; rfl
  | bool b => cases hx; obtain ⟨h, _⟩ := hk; cases h; rfl

theorem enc_dup {vt : ValueType} {k : CellKind} {x y : MVal} (hk : MapKind vt k) (hx : x.OfType vt)
    (hy : y.OfType vt) (tx : x.Tame) (ty : y.Tame) : k.dup x.enc y.enc = true ↔ x.same y := by
  cases x with
  | str s =>
    cases hx; obtain ⟨h, _⟩ := hk; cases h
    cases y with
    | str t => show CellKind.string.dup (.ptr s) (.ptr t) = true ↔ s = t; rw [string_dup]; simp
    | int n => cases hy.1
    | float z => cases hy
    | bool b => cases hy
  | int m =>
    obtain ⟨rfl, _⟩ := hx; obtain ⟨h, _⟩ := hk; cases h
    cases y with
    | str t => cases hy
    | int n =>
      show CellKind.int.dup (.ofInt64 m) (.ofInt64 n) = true ↔ m = n
      rw [int_dup (intD_ofInt64 tx) (intD_ofInt64 ty)]; simp
    | float z => cases hy
    | bool b => cases hy
  | float z =>
    cases hx; obtain ⟨h, _⟩ := hk; cases h
    cases y with
    | str t => cases hy
    | int n => cases hy.1
    | float z' => exact Iff.rfl
    | bool b => cases hy
  | bool b =>
    cases hx; obtain ⟨h, _⟩ := hk; cases h
    cases y with
    | str t => cases hy
    | int n => cases hy.1
    | float z => cases hy
    | bool b' => show (b == b') = true ↔ b = b'; simp

theorem MVal.same_comm {x y : MVal} : x.same y ↔ y.same x := by
  cases x <;> cases y <;> simp only [MVal.same] <;> try exact eq_comm
  rw [near_comm]

/-- The comparison of values is consistent. -/
theorem enc_consistent {vt : ValueType} {k : CellKind} (hk : MapKind vt k) {x y z : MVal}
    (hx : x.OfType vt) (hy : y.OfType vt) (hz : z.OfType vt) (tx : x.Tame) (ty : y.Tame) (tz : z.Tame) :
    Consistent k.cmp [x.enc, y.enc, z.enc] := by
  cases x with
  | str s =>
    cases hx; obtain ⟨h, _⟩ := hk; cases h
    cases y with
    | str t =>
      cases z with
      | str u => exact cmpString_consistent [s, t, u]
      | int n => cases hz.1
      | float w => cases hz
      | bool b => cases hz
    | int n => cases hy.1
    | float w => cases hy
    | bool b => cases hy
  | int m => obtain ⟨rfl, _⟩ := hx; obtain ⟨h, _⟩ := hk; cases h; exact cmpInt_consistent _
  | float a =>
    cases hx; obtain ⟨h, _⟩ := hk; cases h
    cases y with
    | float b =>
      cases z with
      | float c =>
        refine cmpFloat_consistent [a, b, c] (fun x h => ?_)
        simp only [List.mem_cons, List.not_mem_nil, or_false] at h
        rcases h with rfl | rfl | rfl
        · exact tx
        · exact ty
        · exact tz
      | int n => cases hz.1
      | str w => cases hz
      | bool b => cases hz
    | int n => cases hy.1
    | str w => cases hy
    | bool b => cases hy
  | bool b =>
    cases hx; obtain ⟨h, _⟩ := hk; cases h
    refine ⟨fun a _ b _ => ?_, fun a _ b _ c _ => ?_⟩
    · show cmpBool a b < 0 ↔ 0 < cmpBool b a
      unfold cmpBool
      omega
    · show cmpBool a b ≤ 0 → cmpBool b c ≤ 0 → cmpBool a c ≤ 0
      unfold cmpBool
      omega

theorem enc_le {vt : ValueType} {k : CellKind} {x y : MVal} (hk : MapKind vt k) (hx : x.OfType vt)
    (hy : y.OfType vt) (tx : x.Tame) (ty : y.Tame) (h : k.cmp x.enc y.enc ≤ 0) : x.le y := by
  cases x with
  | str s =>
    cases hx; obtain ⟨h', _⟩ := hk; cases h'
    cases y with
    | str t => exact strcmp_le_iff.1 h
    | int n => cases hy.1
    | float z => cases hy
    | bool b => cases hy
  | int m =>
    obtain ⟨rfl, _⟩ := hx; obtain ⟨h', _⟩ := hk; cases h'
    cases y with
    | str t => cases hy
    | int n =>
      have h1 := cmpInt_le_iff.1 h
      rw [show (MVal.int m).enc.intD = m from intD_ofInt64 tx, show (MVal.int n).enc.intD = n from intD_ofInt64 ty] at h1
      exact h1
    | float z => cases hy
    | bool b => cases hy
  | float z =>
    cases hx; obtain ⟨h', _⟩ := hk; cases h'
    cases y with
    | str t => cases hy
    | int n => cases hy.1
    | float w =>
      have h1 := cmpFloat_le tx ty h
      show F64.lt w z = false
      unfold F64.lt
      simp only [Bool.and_eq_false_iff, decide_eq_false_iff_not]
      right; omega
    | bool b => cases hy
  | bool b =>
    cases hx; obtain ⟨h', _⟩ := hk; cases h'
    cases y with
    | str t => cases hy
    | int n => cases hy.1
    | float z => cases hy
    | bool b' =>
      intro hb
      subst hb
      cases b' with
      | true => rfl
      | false => exact absurd (show (1 : Int) - 0 ≤ 0 from h) (by decide)

theorem cmpKey_consistent (l : List (Str × Word)) : Consistent cmpKey l :=
  ⟨fun _ _ _ _ => strcmp_neg_iff, fun _ _ _ _ _ _ => strcmp_trans⟩

theorem cmpValue_consistent {vt : ValueType} {k : CellKind} (hk : MapKind vt k) (es : List (Str × MVal))
    (ht : ∀ e ∈ es, e.2.OfType vt) (hT : ∀ e ∈ es, e.2.Tame) :
    Consistent (fun a b : Str × Word => k.cmp a.2 b.2) (es.map encPair) := by
  refine ⟨?_, ?_⟩
  · intro a ha b hb
    obtain ⟨s, hs, rfl⟩ := List.mem_map.1 ha
    obtain ⟨t, ht', rfl⟩ := List.mem_map.1 hb
    exact (enc_consistent hk (ht s hs) (ht t ht') (ht s hs) (hT s hs) (hT t ht') (hT s hs)).swap
      s.2.enc (by simp) t.2.enc (by simp)
  · intro a ha b hb c hc
    obtain ⟨s, hs, rfl⟩ := List.mem_map.1 ha
    obtain ⟨t, ht', rfl⟩ := List.mem_map.1 hb
    obtain ⟨u, hu, rfl⟩ := List.mem_map.1 hc
    exact (enc_consistent hk (ht s hs) (ht t ht') (ht u hu) (hT s hs) (hT t ht') (hT u hu)).trans
      s.2.enc (by simp) t.2.enc (by simp) u.2.enc (by simp)

theorem sortPairs_map (W : World) (cmp : Str × Word → Str × Word → Int) (es : List (Str × MVal)) :
    ∃ ys : List (Str × MVal), sortPairs W cmp (es.map encPair) = ys.map encPair ∧ ys.Perm es ∧
      (Consistent cmp (es.map encPair) → ys.Pairwise (fun a b => cmp (encPair a) (encPair b) ≤ 0)) := by
  have hp : (sortPairs W cmp (es.map encPair)).Perm (es.map encPair) := by
    unfold sortPairs
    split
    · exact .refl _
    · exact W.qsort_perm _ _
  obtain ⟨ys, h1, h2⟩ := perm_map_inv hp es rfl
  refine ⟨ys, h1, h2, fun hc => ?_⟩
  have hs : (sortPairs W cmp (es.map encPair)).Pairwise (fun a b => cmp a b ≤ 0) := by
    unfold sortPairs
    split
    · rename_i hl
      match hx : es.map encPair, hl with
      | [], _ => exact .nil
      | [c], _ => exact List.pairwise_singleton _ _
    · exact W.qsort_sorted _ _ hc
  rw [h1, List.pairwise_map] at hs
  exact hs

/-- An element with no equal one before it is kept. -/
theorem uniqueLoop_first {α : Type} (d : α → α → Bool) (e : α) (r : List α) : ∀ (l kept : List α),
    (∀ x ∈ kept ++ l, d e x = false) → e ∈ uniqueLoop d kept (l ++ e :: r)
  | [], kept, h => by
    rw [List.nil_append, uniqueLoop, if_neg]
    · exact (uniqueLoop_prefix d r (kept ++ [e])).subset (by simp)
    · simp only [List.any_eq_true, not_exists, not_and, Bool.not_eq_true]
      exact fun k hk => h k (by simp [hk])
  | x :: l, kept, h => by
    rw [List.cons_append, uniqueLoop]
    split
    · exact uniqueLoop_first d e r l kept (fun y hy => h y (by
        rcases List.mem_append.1 hy with h' | h' <;> simp [h']))
    · exact uniqueLoop_first d e r l (kept ++ [x]) (fun y hy => h y (by simpa using hy))

/-- Entries kept when the entries `m` have been rearranged: everything but what depends on the
    values being comparable. -/
structure MapArrangedWeak (fl : Flags) (m shown : List (Str × MVal)) : Prop where
  perm : fl.has .uniqueValue = false → shown.Perm m
  sub : ∃ l, shown.Perm l ∧ l.Sublist m
  plain : fl.has .uniqueValue = false → fl.has .sortedKey = false → fl.has .sortedValue = false → shown = m
  keyOrder : fl.has .sortedKey = true → shown.Pairwise (fun a b => a.1 ≤ b.1)

theorem MapS.of_perm {o o' : Opt} {es es' : List (Str × MVal)} (h : MapS o es) (hp : ∃ l, es'.Perm l ∧ l.Sublist es)
    (hv : o'.value = .map (es'.map encPair)) (hc : o'.valueCount = es'.length)
    (hcap : o'.valueCapacity = o.valueCapacity) (ht : o'.valueType = o.valueType) (hne : es ≠ []) : MapS o' es' := by
  obtain ⟨l, h1, h2⟩ := hp
  rcases h.val with ⟨g, _⟩ | ⟨_, g2, g3⟩
  · exact absurd g hne
  · refine ⟨hc, .inr ⟨hv, ?_, ?_⟩, ?_, ?_⟩
    · rw [hcap]
      have := h2.length_le
      rw [← h1.length_eq] at this
      omega
    · rw [hcap]; exact g3
    · rw [(h1.map Prod.fst).nodup_iff]
      exact (h2.map Prod.fst).nodup h.nodup
    · intro e he
      rw [ht]
      exact h.typed e (h2.subset (h1.mem_iff.1 he))

theorem pairwise_short {α : Type} {R : α → α → Prop} : ∀ l : List α, l.length ≤ 1 → l.Pairwise R
  | [], _ => .nil
  | [a], _ => List.pairwise_singleton _ _
  | _ :: _ :: _, h => by simp at h

theorem all_readable {vt : ValueType} {k : CellKind} (hk : MapKind vt k) (es : List (Str × MVal))
    (ht : ∀ e ∈ es, e.2.OfType vt) : (es.map encPair).all (fun c => k.readable c.2) = true := by
  rw [List.all_eq_true]
  intro c hc
  obtain ⟨e, he, rfl⟩ := List.mem_map.1 hc
  exact enc_readable hk (ht e he)

theorem applyUniqueValue_mapS {o : Opt} {es : List (Str × MVal)} {k : CellKind} (h : MapS o es)
    (hne : es ≠ []) (hk : MapKind o.valueType k) :
    ∃ o' es', applyUniqueValue o = .ok o' ∧ MapS o' es' ∧ es' ≠ [] ∧ es'.Sublist es ∧
      (o.flags.has .uniqueValue = false → es' = es) ∧
      ((∀ e ∈ es, e.2.Tame) → o.flags.has .uniqueValue = true →
        es'.Pairwise (fun a b => ¬ a.2.same b.2) ∧
        ∀ (l r : List (Str × MVal)) (e : Str × MVal), es = l ++ e :: r →
          (∀ d ∈ l, ¬ e.2.same d.2) → e ∈ es') := by
  unfold applyUniqueValue
  by_cases hu : o.flags.has .uniqueValue = true
  · rw [if_pos hu, mapCells_mapS h hne]
    simp only [Out.ok_bind, hk.2]
    rw [if_pos (all_readable hk es h.typed)]
    have hm : uniquePairs k (es.map encPair) =
        (uniqueLoop (fun a b : Str × MVal => k.dup b.2.enc a.2.enc) [] es).map encPair := by
      unfold uniquePairs
      have := uniqueLoop_map encPair (fun new old : Str × Word => k.dup old.2 new.2) es []
      exact this
    have hsub : (uniqueLoop (fun a b : Str × MVal => k.dup b.2.enc a.2.enc) [] es).Sublist es := by
      have := uniqueLoop_sublist (fun a b : Str × MVal => k.dup b.2.enc a.2.enc) es []
      simpa using this
    rw [hm]
    refine ⟨_, _, rfl, h.of_perm ⟨_, .refl _, hsub⟩ rfl (by simp) rfl rfl hne, ?_, hsub,
      fun h => by rw [hu] at h; simp at h, fun hT _ => ⟨?_, ?_⟩⟩
    · cases es with
      | nil => exact absurd rfl hne
      | cons e es =>
        have : e ∈ uniqueLoop (fun a b : Str × MVal => k.dup b.2.enc a.2.enc) [] (e :: es) :=
          uniqueLoop_first _ e es [] [] (by simp)
        intro h'
        rw [h'] at this
        simp at this
    · have := uniqueLoop_pairwise (fun a b : Str × MVal => k.dup b.2.enc a.2.enc) es [] .nil
      refine this.imp_of_mem (fun {a b} ha hb hab => ?_)
      rw [← enc_dup hk (h.typed a (hsub.subset ha)) (h.typed b (hsub.subset hb))
        (hT a (hsub.subset ha)) (hT b (hsub.subset hb))]
      simp [hab]
    · intro l r e he hl
      subst he
      refine uniqueLoop_first _ e r l [] (fun x hx => ?_)
      rw [List.nil_append] at hx
      have h1 := hl x hx
      rw [MVal.same_comm, ← enc_dup hk (h.typed x (by simp [hx])) (h.typed e (by simp))
        (hT x (by simp [hx])) (hT e (by simp))] at h1
      simpa using h1
  · rw [if_neg hu]
    exact ⟨o, es, rfl, h, hne, List.Sublist.refl _, fun _ => rfl, fun _ h => absurd h hu⟩

theorem applyMapSort_mapS (W : World) {o : Opt} {es : List (Str × MVal)} {k : CellKind} (h : MapS o es)
    (hne : es ≠ []) (hk : MapKind o.valueType k) :
    ∃ o' es', applyMapSort W o = .ok o' ∧ MapS o' es' ∧ es'.Perm es ∧
      (o.flags.has .sortedKey = false → o.flags.has .sortedValue = false → es' = es) ∧
      (o.flags.has .sortedKey = true → es'.Pairwise (fun a b => a.1 ≤ b.1)) ∧
      ((∀ e ∈ es, e.2.Tame) → o.flags.has .sortedKey = false → o.flags.has .sortedValue = true →
        es'.Pairwise (fun a b => a.2.le b.2)) := by
  have hcount : ∀ es' : List (Str × MVal), es'.Perm es → o.valueCount = es'.length :=
    fun es' hp => h.count.trans hp.length_eq.symm
  unfold applyMapSort
  by_cases h1 : o.flags.has .sortedKey = true
  · rw [if_pos h1, mapCells_mapS h hne]
    simp only [Out.ok_bind]
    obtain ⟨ys, e1, e2, e3⟩ := sortPairs_map W cmpKey es
    rw [e1]
    refine ⟨_, ys, rfl, h.of_perm ⟨_, e2, List.Sublist.refl _⟩ rfl (hcount ys e2) rfl rfl hne, e2,
      fun h => by rw [h1] at h; simp at h, fun _ => ?_, fun _ h => by rw [h1] at h; simp at h⟩
    exact (e3 (cmpKey_consistent _)).imp (fun h => strcmp_le_iff.1 h)
  · rw [if_neg h1]
    by_cases h2 : o.flags.has .sortedValue = true
    · rw [if_pos h2]
      simp only [hk.1]
      rw [mapCells_mapS h hne]
      simp only [Out.ok_bind]
      rw [if_pos (all_readable hk es h.typed)]
      obtain ⟨ys, e1, e2, e3⟩ := sortPairs_map W (fun a b => k.cmp a.2 b.2) es
      rw [e1]
      refine ⟨_, ys, rfl, h.of_perm ⟨_, e2, List.Sublist.refl _⟩ rfl (hcount ys e2) rfl rfl hne, e2,
        fun _ h => by rw [h2] at h; simp at h, fun h => absurd h h1, fun hT _ _ => ?_⟩
      refine (e3 (cmpValue_consistent hk es h.typed hT)).imp_of_mem (fun {a b} ha hb hab => ?_)
      have ha' := e2.mem_iff.1 ha
      have hb' := e2.mem_iff.1 hb
      exact enc_le hk (h.typed a ha') (h.typed b hb') (hT a ha') (hT b hb') hab
    · rw [if_neg h2]
      exact ⟨o, es, rfl, h, .refl _, fun _ _ => rfl, fun h => absurd h h1, fun _ _ h => absurd h h2⟩

theorem applyMapFlags_mapS (W : World) {o : Opt} {es : List (Str × MVal)} {k : CellKind} (h : MapS o es)
    (hk : MapKind o.valueType k) :
    ∃ o' es', applyMapFlags W o = .ok o' ∧ MapS o' es' ∧ (es ≠ [] → es' ≠ []) ∧
      MapArrangedWeak o.flags es es' ∧ ((∀ e ∈ es, e.2.Tame) → MapArranged o.flags es es') := by
  unfold applyMapFlags
  by_cases hc : o.valueCount ≤ 1
  · rw [if_pos hc]
    have hl : es.length ≤ 1 := by rw [← h.count]; exact hc
    refine ⟨o, es, rfl, h, id, ⟨fun _ => .refl _, ⟨es, .refl _, List.Sublist.refl _⟩, fun _ _ _ => rfl,
      fun _ => pairwise_short _ hl⟩, fun _ => ⟨fun _ => .refl _, fun _ h => h, fun _ _ _ => rfl,
      fun _ => pairwise_short _ hl, ?_, fun _ => pairwise_short _ hl, fun _ _ => pairwise_short _ hl⟩⟩
    intro _ l r e he _
    rw [he]; simp
  · rw [if_neg hc]
    have hne : es ≠ [] := by
      rintro rfl
      rw [h.count] at hc
      simp at hc
    obtain ⟨o1, es1, e1, e2, e3, e4, e5, e6⟩ := applyUniqueValue_mapS h hne hk
    have hm := applyUniqueValue_meta e1
    have hvt : o1.valueType = o.valueType := (congrArg Opt.valueType hm : o1.meta.valueType = o.meta.valueType)
    have hfl : o1.flags = o.flags := (congrArg Opt.flags hm : o1.meta.flags = o.meta.flags)
    obtain ⟨o2, es2, f1, f2, f3, f4, f5, f6⟩ := applyMapSort_mapS W e2 e3 (hvt ▸ hk)
    rw [hfl] at f4 f5 f6
    have perm : o.flags.has .uniqueValue = false → es2.Perm es := by
      intro hu; rw [← e5 hu]; exact f3
    have plain : o.flags.has .uniqueValue = false → o.flags.has .sortedKey = false →
        o.flags.has .sortedValue = false → es2 = es := by
      intro hu h1 h2; rw [f4 h1 h2, e5 hu]
    refine ⟨o2, es2, ?_, f2, ?_, ⟨perm, ⟨es1, f3, e4⟩, plain, f5⟩,
      fun hT => ⟨perm, ?_, plain, ?_, ?_, f5, ?_⟩⟩
    · rw [e1]; exact f1
    · intro _ h'
      subst h'
      exact e3 (List.nil_perm.1 f3)
    · exact fun e he => e4.subset (f3.mem_iff.1 he)
    · intro hu
      exact (f3.symm.pairwise_iff (fun h h' => h (MVal.same_comm.1 h'))).1 (e6 hT hu).1
    · intro hu l r e he hl
      exact f3.mem_iff.2 ((e6 hT hu).2 l r e he hl)
    · exact f6 (fun e he => hT e (e4.subset he))

end Argus
