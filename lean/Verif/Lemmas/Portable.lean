import Verif.Spec.Portable
import Verif.Lemmas.MapFlags
import Verif.Lemmas.HandlerMeta
import Verif.Lemmas.Meaning

/-! # Lemmas: what does not depend on `qsort` -/

set_option autoImplicit false

namespace Argus

theorem qsort_settled {α : Type} (W V : World) (cmp : α → α → Int) (l : List α) (hc : Consistent cmp l)
    (ht : ∀ a ∈ l, ∀ b ∈ l, cmp a b ≤ 0 → cmp b a ≤ 0 → a = b) : V.qsort cmp l = W.qsort cmp l :=
  List.Perm.eq_of_pairwise (le := fun a b => cmp a b ≤ 0)
    (fun a b ha hb h1 h2 => ht a ((V.qsort_perm cmp l).mem_iff.1 ha) b ((W.qsort_perm cmp l).mem_iff.1 hb) h1 h2)
    (V.qsort_sorted cmp l hc) (W.qsort_sorted cmp l hc) ((V.qsort_perm cmp l).trans (W.qsort_perm cmp l).symm)

/-! ### Arrays -/

/-- The cells of an array all satisfy `p`. -/
def ArrOf (p : Word → Prop) (v : Val) : Prop := ∀ cells, v = .arr cells → ∀ c ∈ cells, p c

/-- Keys are unique and the values satisfy `p`. -/
def MapOf (p : Word → Prop) (v : Val) : Prop :=
  ∀ cells, v = .map cells → (cells.map Prod.fst).Nodup ∧ ∀ c ∈ cells, p c.2

section

variable {p : Word → Prop}

theorem adjustArray_arrOf {o o1 : Opt} (h : ArrOf p o.value) (e : adjustArray o = .ok o1) : ArrOf p o1.value := by
  unfold adjustArray at e
  split at e
  · split at e
    · simp only [Out.ok.injEq] at e; subst e
      intro cells hc
      simp only [Val.arr.injEq] at hc; subst hc; simp
    · simp at e
  · rename_i cells hv
    split at e
    · simp only [Out.ok.injEq] at e; subst e
      intro cells' hc
      exact h cells' (by rw [hv]; exact hc)
    · simp only [Out.ok.injEq] at e; subst e; exact h
  · simp at e
  · simp at e

theorem storeCell_arrOf {o o1 : Opt} {w : Word} (h : ArrOf p o.value) (hu : p .undef) (hw : p w)
    (e : storeCell o w = .ok o1) : ArrOf p o1.value := by
  unfold storeCell at e
  split at e
  · rename_i cells hv
    obtain ⟨cells', h1, h2⟩ := Out.bind_eq_ok e
    simp only [Out.pure_eq, Out.ok.injEq] at h2; subst h2
    intro cs hc
    simp only [Val.arr.injEq] at hc; subst hc
    have hall := h cells hv
    unfold writeCell at h1
    split at h1
    · simp at h1
    · split at h1
      · simp only [Out.ok.injEq] at h1; subst h1
        intro c hc
        rcases List.mem_or_eq_of_mem_set hc with hc | hc
        · exact hall c hc
        · subst hc; exact hw
      · simp only [Out.ok.injEq] at h1; subst h1
        intro c hc
        simp only [List.mem_append, List.mem_replicate, List.mem_singleton] at hc
        rcases hc with (hc | hc) | hc
        · exact hall c hc
        · rw [hc.2]; exact hu
        · rw [hc]; exact hw
  · simp at e

theorem pushCell_arrOf {o o1 : Opt} {w : Word} (h : ArrOf p o.value) (hu : p .undef) (hw : p w)
    (e : pushCell o w = .ok o1) : ArrOf p o1.value := by
  obtain ⟨o2, h1, h2⟩ := Out.bind_eq_ok e
  exact storeCell_arrOf (adjustArray_arrOf h h1) hu hw h2

theorem addRangeLoop_arrOf (hu : p .undef) (hl : ∀ w, p (.low w)) : ∀ (n : Nat) (i : Int) {o o1 : Opt},
    ArrOf p o.value → addRangeLoop n i o = .ok o1 → ArrOf p o1.value
  | 0, i, o, o1, h, e => by simp only [addRangeLoop, Out.ok.injEq] at e; subst e; exact h
  | n + 1, i, o, o1, h, e => by
    unfold addRangeLoop at e
    obtain ⟨o2, h1, h2⟩ := Out.bind_eq_ok e
    exact addRangeLoop_arrOf hu hl n (i + 1) (pushCell_arrOf h hu (hl _) h1) h2

/-- A storing step keeps a property of the value. -/
def StoreVal (P : Val → Prop) (f : Opt → Str → Out HRes) : Prop :=
  ∀ o s r, P o.value → f o s = .ok r → P r.2.1.value

theorem setValueInt_arrOf (hu : p .undef) (hl : ∀ w, p (.low w)) : StoreVal (ArrOf p) setValueInt := by
  intro o s r h e
  unfold setValueInt addRange at e
  split at e
  · simp only [Out.ok.injEq] at e; subst e; exact h
  · obtain ⟨o1, h1, h2⟩ := Out.bind_eq_ok e
    simp only [Out.ok.injEq] at h2; subst h2
    obtain ⟨o2, h3, h4⟩ := Out.bind_eq_ok h1
    split at h4
    · simp at h4
    · simp only [Out.ok.injEq] at h4; subst h4; exact addRangeLoop_arrOf hu hl _ _ h h3

theorem setValueString_arrOf (hu : p .undef) (hl : ∀ s, p (.ptr s)) : StoreVal (ArrOf p) setValueString := by
  intro o s r h e
  obtain ⟨o1, h1, h2⟩ := Out.bind_eq_ok e
  simp only [Out.ok.injEq] at h2; subst h2; exact pushCell_arrOf h hu (hl _) h1

theorem setAll_val {P : Val → Prop} {f : Opt → Str → Out HRes} (hf : StoreVal P f) : ∀ (vs : List Str) {o : Opt}
    {r : HRes}, P o.value → setAll f o vs = .ok r → P r.2.1.value
  | [], o, r, h, e => by simp only [setAll, Out.ok.injEq] at e; subst e; exact h
  | v :: vs, o, r, h, e => by
    unfold setAll at e
    obtain ⟨r1, h1, h2⟩ := Out.bind_eq_ok e
    have hm := hf _ _ _ h h1
    split at h2
    · simp only [Out.ok.injEq] at h2; subst h2; exact hm
    · obtain ⟨r2, h3, h4⟩ := Out.bind_eq_ok h2
      simp only [Out.ok.injEq] at h4; subst h4
      have := setAll_val hf vs hm h3
      exact this

theorem storeParts_val {P : Val → Prop} {f : Opt → Str → Out HRes} (hf : StoreVal P f) {o : Opt} {v : Str} {r : HRes}
    (h : P o.value) (e : storeParts f o v = .ok r) : P r.2.1.value := by
  unfold storeParts at e
  split at e
  · exact setAll_val hf _ h e
  · exact hf _ _ _ h e

theorem storeParts_meta {f : Opt → Str → Out HRes} (hf : StoreMeta f) {o : Opt} {v : Str} {r : HRes}
    (e : storeParts f o v = .ok r) : r.2.1.meta = o.meta := by
  unfold storeParts at e
  split at e
  · exact setAll_meta hf _ e
  · exact hf _ _ _ e

theorem metaFlags {o o1 : Opt} (h : o1.meta = o.meta) : o1.flags = o.flags := by
  have := congrArg Opt.flags h; exact this

theorem valueType_of_meta {o o1 : Opt} (h : o1.meta = o.meta) : o1.valueType = o.valueType := by
  have := congrArg Opt.valueType h; exact this

/-- `collect` with two ways to apply the flags. -/
theorem collect_val {P : Val → Prop} {f : Opt → Str → Out HRes} (hf : StoreVal P f) (hm : StoreMeta f)
    {fl fl' : Opt → Out Opt} {o : Opt} (h : P o.value)
    (hfl : ∀ o1, o1.meta = o.meta → P o1.value → fl' o1 = fl o1 ∧ ∀ o2, fl o1 = .ok o2 → P o2.value) (arg : Option Str) :
    collect f fl' o arg = collect f fl o arg ∧ ∀ r, collect f fl o arg = .ok r → P r.2.1.value := by
  unfold collect
  cases arg with
  | none => exact ⟨rfl, fun r hr => by simp at hr⟩
  | some v =>
    simp only
    cases hs : storeParts f o v with
    | ub u => exact ⟨rfl, fun r hr => by simp at hr⟩
    | ok r1 =>
      have h1 := storeParts_val hf h hs
      obtain ⟨h2, h3⟩ := hfl r1.2.1 (storeParts_meta hm hs) h1
      simp only [Out.ok_bind]
      split
      · exact ⟨rfl, fun r hr => by simp only [Out.ok.injEq] at hr; subst hr; exact h1⟩
      · refine ⟨by rw [h2], fun r hr => ?_⟩
        obtain ⟨o2, h4, h5⟩ := Out.bind_eq_ok hr
        simp only [Out.ok.injEq] at h5; subst h5
        exact h3 o2 h4

/-! ### The flags of arrays -/

theorem arrayCells_of {o : Opt} {k : CellKind} {cells : List Word} (h : ArrOf p o.value)
    (e : o.arrayCells k = .ok cells) : (∀ c ∈ cells, p c) ∧ ∀ c ∈ cells, k.readable c = true := by
  unfold Opt.arrayCells at e
  split at e
  · rename_i cs hv
    split at e
    · simp at e
    · split at e
      · rename_i hr
        simp only [Out.ok.injEq] at e; subst e
        exact ⟨fun c hc => h cs hv c (List.mem_of_mem_take hc), fun c hc => List.all_eq_true.1 hr c hc⟩
      · simp at e
  · split at e <;> simp at e
  · simp at e
  · simp at e

theorem uniqueCells_sublist (k : CellKind) (cells : List Word) : (uniqueCells k cells).Sublist cells := by
  unfold uniqueCells
  split
  · exact .refl _
  · rename_i c cs
    exact uniqueLoop_sublist _ cs [c]

theorem applySorted_arrOf {W : World} {k : CellKind} {o o1 : Opt} (h : ArrOf p o.value)
    (e : applySorted W k o = .ok o1) : ArrOf p o1.value := by
  unfold applySorted at e
  split at e
  · obtain ⟨cells, h1, h2⟩ := Out.bind_eq_ok e
    simp only [Out.ok.injEq] at h2; subst h2
    intro cs hc c hcm
    simp only [Val.arr.injEq] at hc; subst hc
    exact (arrayCells_of h h1).1 c ((sortCells_perm W k cells).mem_iff.1 hcm)
  · simp only [Out.ok.injEq] at e; subst e; exact h

theorem applyUnique_arrOf {k : CellKind} {o o1 : Opt} (h : ArrOf p o.value)
    (e : applyUnique k o = .ok o1) : ArrOf p o1.value := by
  unfold applyUnique at e
  split at e
  · obtain ⟨cells, h1, h2⟩ := Out.bind_eq_ok e
    simp only [Out.ok.injEq] at h2; subst h2
    intro cs hc c hcm
    simp only [Val.arr.injEq] at hc; subst hc
    exact (arrayCells_of h h1).1 c ((uniqueCells_sublist k cells).subset hcm)
  · simp only [Out.ok.injEq] at e; subst e; exact h

/-- Cells of which a readable list has one order only. -/
def OneOrder (k : CellKind) (p : Word → Prop) : Prop :=
  ∀ cells : List Word, (∀ c ∈ cells, p c) → (∀ c ∈ cells, k.readable c = true) → Consistent k.cmp cells ∧
    ∀ a ∈ cells, ∀ b ∈ cells, k.cmp a b ≤ 0 → k.cmp b a ≤ 0 → a = b

theorem applyArrayFlags_settled (W V : World) {o : Opt} {k : CellKind} (hk : o.valueType.arrayKind = some k)
    (h : ArrOf p o.value) (ho : OneOrder k p) :
    applyArrayFlags V o = applyArrayFlags W o ∧ ∀ o2, applyArrayFlags W o = .ok o2 → ArrOf p o2.value := by
  have hs : applySorted V k o = applySorted W k o := by
    unfold applySorted
    split
    · cases hc : o.arrayCells k with
      | ub u => rfl
      | ok cells =>
        obtain ⟨h1, h2⟩ := arrayCells_of h hc
        obtain ⟨h3, h4⟩ := ho cells h1 h2
        have : sortCells V k cells = sortCells W k cells := by
          unfold sortCells
          rw [qsort_settled W V _ _ h3 h4]
        simp only [Out.ok_bind, this]
    · rfl
  unfold applyArrayFlags
  split
  · exact ⟨rfl, fun o2 e => by simp only [Out.ok.injEq] at e; subst e; exact h⟩
  · rw [hk]
    simp only [hs]
    refine ⟨trivial, fun o2 e => ?_⟩
    obtain ⟨o1, h1, h2⟩ := Out.bind_eq_ok e
    exact applyUnique_arrOf (applySorted_arrOf h h1) h2

theorem applyArrayFlags_unsorted (W V : World) {o : Opt} (h : o.flags.has .sorted = false) :
    applyArrayFlags V o = applyArrayFlags W o := by
  unfold applyArrayFlags applySorted
  simp only [h, Bool.false_eq_true, if_false]

/-- Cells of arrays of strings. -/
def StrCell (w : Word) : Prop := w = .undef ∨ ∃ s, w = .ptr s

/-- Cells of arrays of ints. -/
def IntCell (w : Word) : Prop := w = .undef ∨ ∃ b, w = .low b

theorem strCells_ptr : ∀ {cells : List Word}, (∀ c ∈ cells, StrCell c) → (∀ c ∈ cells, CellKind.string.readable c = true) →
    ∃ xs : List Str, cells = xs.map Word.ptr
  | [], _, _ => ⟨[], rfl⟩
  | c :: cs, h1, h2 => by
    obtain ⟨xs, hx⟩ := strCells_ptr (fun d hd => h1 d (List.mem_cons_of_mem _ hd))
      (fun d hd => h2 d (List.mem_cons_of_mem _ hd))
    rcases h1 c List.mem_cons_self with rfl | ⟨s, rfl⟩
    · exact absurd (h2 .undef List.mem_cons_self) (by decide)
    · exact ⟨s :: xs, by rw [hx]; rfl⟩

theorem strcmp_antisymm {s t : Str} (h1 : strcmp s t ≤ 0) (h2 : strcmp t s ≤ 0) : s = t := by
  rcases strcmp_cases s t with ⟨e, h⟩ | ⟨e, h⟩ | ⟨e, h⟩
  · have := strcmp_neg_iff.1 (show strcmp s t < 0 by omega)
    omega
  · exact h
  · omega

theorem oneOrder_string : OneOrder .string StrCell := by
  intro cells h1 h2
  obtain ⟨xs, rfl⟩ := strCells_ptr h1 h2
  refine ⟨cmpString_consistent xs, ?_⟩
  intro a ha b hb h3 h4
  obtain ⟨s, _, rfl⟩ := List.mem_map.1 ha
  obtain ⟨t, _, rfl⟩ := List.mem_map.1 hb
  rw [strcmp_antisymm h3 h4]

theorem oneOrder_int : OneOrder .int IntCell := by
  intro cells h1 h2
  refine ⟨cmpInt_consistent cells, ?_⟩
  intro a ha b hb h3 h4
  have e : a.intD = b.intD := by
    have h5 := cmpInt_le_iff.1 h3
    have h6 := cmpInt_le_iff.1 h4
    omega
  rcases h1 a ha with rfl | ⟨x, rfl⟩
  · exact absurd (h2 _ ha) (by decide)
  rcases h1 b hb with rfl | ⟨y, rfl⟩
  · exact absurd (h2 _ hb) (by decide)
  have : x.toInt = y.toInt := e
  rw [BitVec.eq_of_toInt_eq this]

/-! ### Variadic positionals -/

theorem variadicNum_val {W V : World} {P : Val → Prop} {conv : Str → Option Word} {o : Opt} (h : P o.value)
    (ha : ∀ o1, P o.value → adjustArray o = .ok o1 → P o1.value)
    (hs : ∀ o1 w v o2, P o1.value → conv v = some w → storeCell o1 w = .ok o2 → P o2.value)
    (hfl : ∀ o1, o1.meta = o.meta → P o1.value → applyArrayFlags V o1 = applyArrayFlags W o1 ∧
      ∀ o2, applyArrayFlags W o1 = .ok o2 → P o2.value) (arg : Option Str) :
    variadicNum V conv o arg = variadicNum W conv o arg ∧ ∀ r, variadicNum W conv o arg = .ok r → P r.2.1.value := by
  unfold variadicNum
  cases h1 : adjustArray o with
  | ub u => exact ⟨rfl, fun r hr => by simp at hr⟩
  | ok o1 =>
    have h2 := ha o1 h h1
    simp only [Out.ok_bind]
    cases arg with
    | none => exact ⟨rfl, fun r hr => by simp at hr⟩
    | some v =>
      simp only
      cases hc : conv v with
      | none => exact ⟨rfl, fun r hr => by simp only [Out.ok.injEq] at hr; subst hr; exact h2⟩
      | some w =>
        simp only
        cases h3 : storeCell o1 w with
        | ub u => exact ⟨rfl, fun r hr => by simp at hr⟩
        | ok o2 =>
          have h4 := hs o1 w v o2 h2 hc h3
          obtain ⟨h5, h6⟩ := hfl o2 (by rw [storeCell_meta h3, adjustArray_meta h1]) h4
          simp only [Out.ok_bind, h5]
          refine ⟨trivial, fun r hr => ?_⟩
          obtain ⟨o3, h7, h8⟩ := Out.bind_eq_ok hr
          simp only [Out.ok.injEq] at h8; subst h8
          exact h6 o3 h7

/-! ### Maps -/

theorem mapCells_of {o : Opt} {cells : List (Str × Word)} (h : MapOf p o.value) (e : o.mapCells = .ok cells) :
    (cells.map Prod.fst).Nodup ∧ ∀ c ∈ cells, p c.2 := by
  unfold Opt.mapCells at e
  split at e
  · rename_i cs hv
    split at e
    · simp at e
    · simp only [Out.ok.injEq] at e; subst e
      obtain ⟨h1, h2⟩ := h cs hv
      refine ⟨?_, fun c hc => h2 c (List.mem_of_mem_take hc)⟩
      rw [List.map_take]
      exact h1.sublist (List.take_sublist _ _)
  · split at e <;> simp at e
  · simp at e
  · simp at e

theorem adjustMap_mapOf {o o1 : Opt} (h : MapOf p o.value) (e : adjustMap o = .ok o1) :
    MapOf p o1.value ∧ o1.valueCount = o.valueCount ∧
      ((o1.value = .map [] ∧ o.value = .word .null) ∨ o1.value = o.value) := by
  unfold adjustMap at e
  split at e
  · rename_i w hv
    split at e
    · rename_i hw
      simp only [Out.ok.injEq] at e; subst e
      refine ⟨?_, rfl, .inl ⟨rfl, by rw [hv, hw]⟩⟩
      intro cells hc
      simp only [Val.map.injEq] at hc; subst hc; exact ⟨List.nodup_nil, by simp⟩
    · simp at e
  · rename_i cells hv
    split at e
    · simp only [Out.ok.injEq] at e; subst e
      refine ⟨fun cells' hc => h cells' (by rw [hv]; exact hc), rfl, .inr hv.symm⟩
    · simp only [Out.ok.injEq] at e; subst e; exact ⟨h, rfl, .inr rfl⟩
  · simp at e
  · simp at e

theorem map_fst_modify (f : Word → Word) : ∀ (cells : List (Str × Word)) (i : Nat),
    (cells.modify i (fun c => (c.1, f c.2))).map Prod.fst = cells.map Prod.fst
  | [], i => by simp
  | c :: cs, 0 => rfl
  | c :: cs, i + 1 => by
    simp only [List.modify_succ_cons, List.map_cons, map_fst_modify f cs i]

theorem mem_modify_snd (f : Word → Word) (q : Word → Prop) : ∀ (cells : List (Str × Word)) (i : Nat),
    (∀ c ∈ cells, q c.2) → (∀ w, q w → q (f w)) → ∀ c ∈ cells.modify i (fun c => (c.1, f c.2)), q c.2
  | [], i, _, _, c, hc => by simp at hc
  | d :: cs, 0, h, hf, c, hc => by
    simp only [List.modify_zero_cons, List.mem_cons] at hc
    rcases hc with rfl | hc
    · exact hf _ (h d List.mem_cons_self)
    · exact h c (List.mem_cons_of_mem _ hc)
  | d :: cs, i + 1, h, hf, c, hc => by
    simp only [List.modify_succ_cons, List.mem_cons] at hc
    rcases hc with rfl | hc
    · exact h c List.mem_cons_self
    · exact mem_modify_snd f q cs i (fun x hx => h x (List.mem_cons_of_mem _ hx)) hf c hc

theorem setPair_mapOf {o o1 : Opt} {key : Str} {upd : Word → Word} {w : Word} (h : MapOf p o.value)
    (hu : ∀ x, p x → p (upd x)) (hw : p w) (e : setPair o key upd w = .ok o1) : MapOf p o1.value := by
  unfold setPair at e
  obtain ⟨i, h1, h2⟩ := Out.bind_eq_ok e
  cases i with
  | some i =>
    simp only at h2
    split at h2
    · rename_i cells hv
      simp only [Out.pure_eq, Out.ok.injEq] at h2; subst h2
      intro cs hc
      simp only [Val.map.injEq] at hc; subst hc
      obtain ⟨h3, h4⟩ := h cells hv
      exact ⟨by rw [map_fst_modify]; exact h3, mem_modify_snd upd p cells i h4 hu⟩
    · simp at h2
  | none =>
    simp only at h2
    obtain ⟨o2, h3, h4⟩ := Out.bind_eq_ok h2
    obtain ⟨h5, hcount, hsame⟩ := adjustMap_mapOf h h3
    split at h4
    · rename_i cells hv
      split at h4
      · simp at h4
      split at h4
      · simp at h4
      rename_i hlen
      simp only [Out.pure_eq, Out.ok.injEq] at h4; subst h4
      intro cs hc
      simp only [Val.map.injEq] at hc; subst hc
      obtain ⟨h6, h7⟩ := h5 cells hv
      have hnew : key ∉ (cells.take o2.valueCount).map Prod.fst := by
        unfold mapFindKey at h1
        split at h1
        · rename_i h0
          rw [hcount, h0]; simp
        · obtain ⟨cs, h8, h9⟩ := Out.bind_eq_ok h1
          simp only [Out.pure_eq, Out.ok.injEq] at h9
          have hcs : cs = cells.take o2.valueCount := by
            rcases hsame with ⟨hs1, hs2⟩ | hs
            · unfold Opt.mapCells at h8
              rw [hs2] at h8
              simp at h8
            · rw [hs] at hv
              unfold Opt.mapCells at h8
              rw [hv] at h8
              simp only at h8
              split at h8
              · simp at h8
              · simp only [Out.ok.injEq] at h8
                rw [← h8, hcount]
          intro hin
          obtain ⟨c, hc1, hc2⟩ := List.mem_map.1 hin
          rw [List.findIdx?_eq_none_iff] at h9
          have := h9 c (by rw [hcs]; exact hc1)
          rw [hc2] at this
          simp at this
      refine ⟨?_, ?_⟩
      · rw [List.map_append, List.nodup_append]
        refine ⟨?_, by simp, ?_⟩
        · rw [List.map_take]; exact h6.sublist (List.take_sublist _ _)
        · intro a ha b hb hab
          simp only [List.map_cons, List.map_nil, List.mem_singleton] at hb
          subst hb; subst hab; exact hnew ha
      · intro c hc
        rw [List.mem_append] at hc
        rcases hc with hc | hc
        · exact h7 c (List.mem_of_mem_take hc)
        · simp only [List.mem_singleton] at hc; subst hc; exact hw
    · simp at h4

theorem setKvPair_mapOf {conv : Str → Option MapStore}
    (hc : ∀ v st, conv v = some st → (∀ x, p x → p (st.upd x)) ∧ p st.fresh) : StoreVal (MapOf p) (setKvPair conv) := by
  intro o s r h e
  unfold setKvPair at e
  split at e
  · simp only [Out.ok.injEq] at e; subst e; exact h
  · split at e
    · simp only [Out.ok.injEq] at e; subst e; exact h
    · rename_i st hst
      obtain ⟨o1, h1, h2⟩ := Out.bind_eq_ok e
      simp only [Out.ok.injEq] at h2; subst h2
      exact setPair_mapOf h (hc _ _ hst).1 (hc _ _ hst).2 h1

theorem uniquePairs_sublist (k : CellKind) (cells : List (Str × Word)) : (uniquePairs k cells).Sublist cells :=
  uniqueLoop_sublist _ cells []

theorem applyUniqueValue_mapOf {o o1 : Opt} (h : MapOf p o.value) (e : applyUniqueValue o = .ok o1) :
    MapOf p o1.value ∧ (o.flags.has .uniqueValue = true → ∀ k, o.valueType.uniqueKind = some k →
      ∀ cells, o1.mapCells = .ok cells → cells.Pairwise (fun a b => k.dup a.2 b.2 = false)) := by
  unfold applyUniqueValue at e
  split at e
  · obtain ⟨cells, h1, h2⟩ := Out.bind_eq_ok e
    obtain ⟨h3, h4⟩ := mapCells_of h h1
    cases hk : o.valueType.uniqueKind with
    | none =>
      rw [hk] at h2
      simp only [Out.ok.injEq] at h2; subst h2
      refine ⟨?_, fun _ k hk' => by cases hk'⟩
      intro cs hc
      simp only [Val.map.injEq] at hc; subst hc; exact ⟨h3, h4⟩
    | some k =>
      rw [hk] at h2
      simp only at h2
      split at h2
      · simp only [Out.ok.injEq] at h2; subst h2
        refine ⟨?_, fun _ k' hk' => ?_⟩
        · intro cs hc
          simp only [Val.map.injEq] at hc; subst hc
          exact ⟨h3.sublist ((uniquePairs_sublist k cells).map _), fun c hc => h4 c ((uniquePairs_sublist k cells).subset hc)⟩
        · simp only [Option.some.injEq] at hk'; subst hk'
          intro cs hcs
          unfold Opt.mapCells at hcs
          simp only [Nat.lt_irrefl, if_false, List.take_length, Out.ok.injEq] at hcs
          subst hcs
          exact uniqueLoop_pairwise _ cells [] .nil
      · simp at h2
  · rename_i hf
    simp only [Out.ok.injEq] at e; subst e
    exact ⟨h, fun h' => absurd h' hf⟩

theorem sortPairs_perm (W : World) (cmp : Str × Word → Str × Word → Int) (cells : List (Str × Word)) :
    (sortPairs W cmp cells).Perm cells := by
  unfold sortPairs
  split
  · exact .refl _
  · exact W.qsort_perm _ _

theorem applyMapSort_mapOf {W : World} {o o1 : Opt} (h : MapOf p o.value) (e : applyMapSort W o = .ok o1) :
    MapOf p o1.value := by
  have key : ∀ (cmp : Str × Word → Str × Word → Int) cells, o.mapCells = .ok cells →
      MapOf p (.map (sortPairs W cmp cells)) := by
    intro cmp cells h1 cs hc
    simp only [Val.map.injEq] at hc; subst hc
    obtain ⟨h2, h3⟩ := mapCells_of h h1
    have hp := sortPairs_perm W cmp cells
    exact ⟨(hp.map Prod.fst).nodup_iff.2 h2, fun c hc => h3 c (hp.mem_iff.1 hc)⟩
  unfold applyMapSort at e
  split at e
  · obtain ⟨cells, h1, h2⟩ := Out.bind_eq_ok e
    simp only [Out.ok.injEq] at h2; subst h2
    exact key _ _ h1
  split at e
  · split at e
    · simp only [Out.ok.injEq] at e; subst e; exact h
    · obtain ⟨cells, h1, h2⟩ := Out.bind_eq_ok e
      split at h2
      · simp only [Out.ok.injEq] at h2; subst h2
        exact key _ _ h1
      · simp at h2
  · simp only [Out.ok.injEq] at e; subst e; exact h

theorem pairwise_mem {α : Type} {R : α → α → Prop} {l : List α} (h : l.Pairwise R) (hs : ∀ a b, R a b → R b a) {a b : α}
    (ha : a ∈ l) (hb : b ∈ l) : a = b ∨ R a b := by
  induction h with
  | nil => simp at ha
  | cons hx _ ih =>
    rw [List.mem_cons] at ha hb
    rcases ha with rfl | ha
    · rcases hb with rfl | hb
      · exact .inl rfl
      · exact .inr (hx _ hb)
    · rcases hb with rfl | hb
      · exact .inr (hs _ _ (hx _ ha))
      · exact ih ha hb

/-- Values that can be told apart are in one order only. -/
def OneOrderApart (k : CellKind) (p : Word → Prop) : Prop :=
  (∀ a b, k.dup a b = k.dup b a) ∧ ∀ cells : List (Str × Word), (∀ c ∈ cells, p c.2) →
    (∀ c ∈ cells, k.readable c.2 = true) → Consistent (fun a b : Str × Word => k.cmp a.2 b.2) cells ∧
      ∀ a ∈ cells, ∀ b ∈ cells, k.cmp a.2 b.2 ≤ 0 → k.cmp b.2 a.2 ≤ 0 → k.dup a.2 b.2 = true

theorem applyMapFlags_settled (W V : World) {o : Opt} (h : MapOf p o.value)
    (hs : o.flags.has .sortedKey = true ∨ o.flags.has .sortedValue = false ∨
      (o.flags.has .uniqueValue = true ∧ ∃ k, o.valueType.uniqueKind = some k ∧ o.valueType.mapKind = some k ∧
        OneOrderApart k p)) :
    applyMapFlags V o = applyMapFlags W o ∧ ∀ o2, applyMapFlags W o = .ok o2 → MapOf p o2.value := by
  unfold applyMapFlags
  split
  · exact ⟨rfl, fun o2 e => by simp only [Out.ok.injEq] at e; subst e; exact h⟩
  · cases h1 : applyUniqueValue o with
    | ub u => exact ⟨rfl, fun o2 e => by simp at e⟩
    | ok o1 =>
      obtain ⟨h2, h3⟩ := applyUniqueValue_mapOf h h1
      have hm := applyUniqueValue_meta h1
      have hfl := metaFlags hm
      have hty := valueType_of_meta hm
      simp only [Out.ok_bind]
      refine ⟨?_, fun o2 e => applyMapSort_mapOf h2 e⟩
      unfold applyMapSort
      rw [hfl, hty]
      by_cases hk : o.flags.has .sortedKey = true
      · simp only [hk, if_true]
        cases hc : o1.mapCells with
        | ub u => rfl
        | ok cells =>
          obtain ⟨h4, _⟩ := mapCells_of h2 hc
          have : sortPairs V cmpKey cells = sortPairs W cmpKey cells := by
            unfold sortPairs
            rw [qsort_settled W V _ _ (cmpKey_consistent cells) ?_]
            intro a ha b hb e1 e2
            have hab : a.1 = b.1 := strcmp_antisymm e1 e2
            rcases pairwise_mem (R := fun x y : Str × Word => x.1 ≠ y.1) (List.pairwise_map.1 h4)
              (fun _ _ h => Ne.symm h) ha hb with h5 | h5
            · exact h5
            · exact absurd hab h5
          simp only [Out.ok_bind, this]
      · simp only [hk, Bool.false_eq_true, if_false]
        split
        · rename_i hv
          rcases hs with hs | hs | ⟨hu, k, hk1, hk2, hoo⟩
          · exact absurd hs hk
          · rw [hs] at hv; cases hv
          · rw [hk2]
            simp only
            cases hc : o1.mapCells with
            | ub u => rfl
            | ok cells =>
              simp only [Out.ok_bind]
              split
              · rename_i hr
                have hd := h3 hu k hk1 cells hc
                obtain ⟨_, h5⟩ := mapCells_of h2 hc
                obtain ⟨h6, h7⟩ := hoo.2 cells h5 (fun c hcm => List.all_eq_true.1 hr c hcm)
                have : sortPairs V (fun a b => k.cmp a.2 b.2) cells = sortPairs W (fun a b => k.cmp a.2 b.2) cells := by
                  unfold sortPairs
                  rw [qsort_settled W V _ _ h6 ?_]
                  intro a ha b hb e1 e2
                  rcases pairwise_mem hd (fun x y hxy => by rw [hoo.1]; exact hxy) ha hb with h8 | h8
                  · exact h8
                  · rw [h7 a ha b hb e1 e2] at h8; cases h8
                rw [this]
              · rfl
        · rfl

/-- Values of maps of strings. -/
def PtrCell (w : Word) : Prop := ∃ s, w = .ptr s

theorem oneOrderApart_string : OneOrderApart .string PtrCell := by
  refine ⟨?_, ?_⟩
  · intro a b
    show (match a.strD, b.strD with | some s, some t => s == t | _, _ => false) =
      (match b.strD, a.strD with | some s, some t => s == t | _, _ => false)
    cases a.strD <;> cases b.strD <;> simp only
    exact Bool.beq_comm
  · intro cells h1 _
    have key : ∀ a ∈ cells, ∃ s, a.2 = Word.ptr s := h1
    refine ⟨⟨?_, ?_⟩, ?_⟩
    · intro a ha b hb
      obtain ⟨s, hs⟩ := key a ha
      obtain ⟨t, ht⟩ := key b hb
      simp only [hs, ht]
      exact strcmp_neg_iff
    · intro a ha b hb c hc
      obtain ⟨s, hs⟩ := key a ha
      obtain ⟨t, ht⟩ := key b hb
      obtain ⟨u, hu⟩ := key c hc
      simp only [hs, ht, hu]
      exact strcmp_trans
    · intro a ha b hb
      obtain ⟨s, hs⟩ := key a ha
      obtain ⟨t, ht⟩ := key b hb
      rw [hs, ht]
      intro e1 e2
      have : s = t := strcmp_antisymm e1 e2
      subst this
      show (s == s) = true
      exact beq_self_eq_true s

theorem oneOrderApart_int {q : Word → Prop} : OneOrderApart .int q := by
  refine ⟨fun a b => ?_, fun cells _ _ => ?_⟩
  · show (a.intD == b.intD) = (b.intD == a.intD)
    exact Bool.beq_comm
  · have hc := cmpInt_consistent (cells.map Prod.snd)
    refine ⟨⟨fun a ha b hb => hc.swap a.2 (List.mem_map_of_mem ha) b.2 (List.mem_map_of_mem hb),
      fun a ha b hb c hc' => hc.trans a.2 (List.mem_map_of_mem ha) b.2 (List.mem_map_of_mem hb) c.2 (List.mem_map_of_mem hc')⟩,
      fun a _ b _ e1 e2 => ?_⟩
    have h5 := cmpInt_le_iff.1 e1
    have h6 := cmpInt_le_iff.1 e2
    show (a.2.intD == b.2.intD) = true
    rw [beq_iff_eq]; omega

theorem oneOrderApart_bool {q : Word → Prop} : OneOrderApart .bool q := by
  refine ⟨fun a b => ?_, fun cells _ _ => ⟨⟨fun a _ b _ => ?_, fun a _ b _ c _ => ?_⟩, fun a _ b _ => ?_⟩⟩
  · show (a.boolD == b.boolD) = (b.boolD == a.boolD)
    exact Bool.beq_comm
  · simp only [CellKind.cmp, cmpBool]
    cases a.2.boolD <;> cases b.2.boolD <;> decide
  · simp only [CellKind.cmp, cmpBool]
    cases a.2.boolD <;> cases b.2.boolD <;> cases c.2.boolD <;> decide
  · simp only [CellKind.cmp, cmpBool, CellKind.dup]
    cases a.2.boolD <;> cases b.2.boolD <;> decide

end

/-! ### Handlers -/

/-- What the handlers see to. -/
def ValueKept (h : Handler) (v : Val) : Prop :=
  match h with
  | .arrayString | .variadicString => ArrOf StrCell v
  | .arrayInt => ArrOf IntCell v
  | .mapString => MapOf PtrCell v
  | .mapInt | .mapFloat | .mapBool => MapOf (fun _ => True) v
  | _ => True

/-- An entry in a state that parsing can bring about. -/
structure Settled (o : Opt) : Prop where
  order : o.OrderSettled
  type : ∀ h, o.handler = some h → h.isCollection = true → ∃ fh, h.Goes o.valueType fh
  value : ∀ h, o.handler = some h → ValueKept h o.value

/-- The value type that goes with a handler. -/
def Handler.itsType : Handler → ValueType
  | .flag | .help | .version => .flag
  | .bool => .bool
  | .string => .string
  | .int => .int
  | .float => .float
  | .arrayString => .arrayString
  | .arrayInt => .arrayInt
  | .arrayFloat => .arrayFloat
  | .mapString => .mapString
  | .mapInt => .mapInt
  | .mapFloat => .mapFloat
  | .mapBool => .mapBool
  | .variadicString => .variadicString
  | .variadicInt => .variadicInt
  | .variadicFloat => .variadicFloat
  | .custom _ => .none

theorem goes_type {h : Handler} {vt : ValueType} (hg : ∃ fh, h.Goes vt fh) : vt = h.itsType := by
  obtain ⟨fh, hg⟩ := hg
  cases hg <;> rfl

section

variable {W V : World} (hw : OtherSort W V)

include hw

theorem runHandler_settled (a : Argus) {h : Handler} {o : Opt} (ho : o.handler = some h) (hs : Settled o)
    (x : Option Str) : runHandler V a h o x = runHandler W a h o x ∧
      ∀ r, runHandler W a h o x = .ok r → ValueKept h r.2.1.value := by
  have hord := hs.order
  have hty := hs.type h ho
  have hv := hs.value h ho
  unfold Opt.OrderSettled at hord
  rw [ho] at hord
  cases h with
  | flag => exact ⟨rfl, fun _ _ => trivial⟩
  | bool => exact ⟨rfl, fun _ _ => trivial⟩
  | string => exact ⟨rfl, fun _ _ => trivial⟩
  | int => exact ⟨rfl, fun _ _ => trivial⟩
  | float => exact ⟨by simp only [runHandler, hw.strtof], fun _ _ => trivial⟩
  | help => exact ⟨rfl, fun _ _ => trivial⟩
  | version => exact ⟨rfl, fun _ _ => trivial⟩
  | custom id => exact ⟨by simp only [runHandler, hw.handler], fun _ _ => trivial⟩
  | arrayString =>
    have ht : o.valueType = .arrayString := goes_type (hty rfl)
    exact collect_val (setValueString_arrOf (.inl rfl) (fun s => .inr ⟨s, rfl⟩)) setValueString_meta hv
      (fun o1 hm h1 => applyArrayFlags_settled W V (by rw [valueType_of_meta hm, ht]; rfl) h1 oneOrder_string) x
  | arrayInt =>
    have ht : o.valueType = .arrayInt := goes_type (hty rfl)
    exact collect_val (setValueInt_arrOf (.inl rfl) (fun s => .inr ⟨s, rfl⟩)) setValueInt_meta hv
      (fun o1 hm h1 => applyArrayFlags_settled W V (by rw [valueType_of_meta hm, ht]; rfl) h1 oneOrder_int) x
  | arrayFloat =>
    simp only [runHandler]
    have e : setValueFloat V = setValueFloat W := by
      funext o s; simp only [setValueFloat, hw.strtof]
    rw [e]
    exact ⟨(collect_val (P := fun _ => True) (fun _ _ _ _ _ => trivial) (setValueFloat_meta W) trivial
      (fun o1 hm _ => ⟨applyArrayFlags_unsorted W V (by rw [metaFlags hm]; exact hord), fun _ _ => trivial⟩) x).1,
      fun _ _ => trivial⟩
  | mapString =>
    have ht : o.valueType = .mapString := goes_type (hty rfl)
    refine collect_val (setKvPair_mapOf ?_) (setKvPair_meta _) hv (fun o1 hm h1 => applyMapFlags_settled W V h1 ?_) x
    · intro v st e
      simp only [mapStringConv, Option.some.injEq] at e; subst e
      exact ⟨fun _ _ => ⟨v, rfl⟩, ⟨v, rfl⟩⟩
    · rw [metaFlags hm, valueType_of_meta hm, ht]
      rcases hord with h | h | h
      · exact .inl h
      · exact .inr (.inl h)
      · exact .inr (.inr ⟨h, .string, rfl, rfl, oneOrderApart_string⟩)
  | mapInt =>
    have ht : o.valueType = .mapInt := goes_type (hty rfl)
    refine collect_val (setKvPair_mapOf (p := fun _ => True) (fun _ _ _ => ⟨fun _ _ => trivial, trivial⟩)) (setKvPair_meta _) hv
      (fun o1 hm h1 => applyMapFlags_settled W V h1 ?_) x
    rw [metaFlags hm, valueType_of_meta hm, ht]
    rcases hord with h | h | h
    · exact .inl h
    · exact .inr (.inl h)
    · exact .inr (.inr ⟨h, .int, rfl, rfl, oneOrderApart_int⟩)
  | mapBool =>
    have ht : o.valueType = .mapBool := goes_type (hty rfl)
    refine collect_val (setKvPair_mapOf (p := fun _ => True) (fun _ _ _ => ⟨fun _ _ => trivial, trivial⟩)) (setKvPair_meta _) hv
      (fun o1 hm h1 => applyMapFlags_settled W V h1 ?_) x
    rw [metaFlags hm, valueType_of_meta hm, ht]
    rcases hord with h | h | h
    · exact .inl h
    · exact .inr (.inl h)
    · exact .inr (.inr ⟨h, .bool, rfl, rfl, oneOrderApart_bool⟩)
  | mapFloat =>
    simp only [runHandler]
    have e : mapFloatConv V = mapFloatConv W := by
      funext s; simp only [mapFloatConv, hw.strtod]
    rw [e]
    refine collect_val (setKvPair_mapOf (p := fun _ => True) (fun _ _ _ => ⟨fun _ _ => trivial, trivial⟩)) (setKvPair_meta _) hv
      (fun o1 hm h1 => applyMapFlags_settled W V h1 ?_) x
    rw [metaFlags hm]
    rcases hord with h | h
    · exact .inl h
    · exact .inr (.inl h)
  | variadicString =>
    have ht : o.valueType = .variadicString := goes_type (hty rfl)
    refine variadicNum_val (P := ArrOf StrCell) (conv := fun s => some (Word.ptr s)) hv (fun o1 h1 h2 => adjustArray_arrOf h1 h2) ?_
      (fun o1 hm h1 => applyArrayFlags_settled W V (by rw [valueType_of_meta hm, ht]; rfl) h1 oneOrder_string) x
    intro o1 w v o2 h1 h2 h3
    simp only [Option.some.injEq] at h2
    subst h2
    exact storeCell_arrOf h1 (.inl rfl) (.inr ⟨v, rfl⟩) h3
  | variadicInt =>
    exact ⟨(variadicNum_val (P := fun _ => True) trivial (fun _ _ _ => trivial) (fun _ _ _ _ _ _ _ => trivial)
      (fun o1 hm _ => ⟨applyArrayFlags_unsorted W V (by rw [metaFlags hm]; exact hord), fun _ _ => trivial⟩) x).1,
      fun _ _ => trivial⟩
  | variadicFloat =>
    simp only [runHandler]
    have e : variadicFloatConv V = variadicFloatConv W := by
      funext s; simp only [variadicFloatConv, hw.strtod]
    rw [e]
    exact ⟨(variadicNum_val (P := fun _ => True) trivial (fun _ _ _ => trivial) (fun _ _ _ _ _ _ _ => trivial)
      (fun o1 hm _ => ⟨applyArrayFlags_unsorted W V (by rw [metaFlags hm]; exact hord), fun _ _ => trivial⟩) x).1,
      fun _ _ => trivial⟩

end

/-! ### The whole parse -/

/-- Every entry is in such a state. -/
def AllSettled (a : Argus) : Prop := ∀ p o, a.getOpt p = .ok o → Settled o

theorem Settled.of_meta {o o1 : Opt} (h : Settled o) (hm : o1.meta = o.meta)
    (hv : ∀ h, o.handler = some h → ValueKept h o1.value) : Settled o1 := by
  have h1 : o1.handler = o.handler := by have := congrArg Opt.handler hm; exact this
  refine ⟨?_, ?_, ?_⟩
  · have := h.order
    unfold Opt.OrderSettled at this ⊢
    rw [h1, metaFlags hm]; exact this
  · rw [h1, valueType_of_meta hm]; exact h.type
  · rw [h1]; exact hv

theorem AllSettled.setOpt {a : Argus} (h : AllSettled a) {p : Ptr} {y o : Opt} (hy : a.getOpt p = .ok y)
    (ho : Settled o) : AllSettled (a.setOpt p o) := by
  intro q x hx
  by_cases hq : q = p
  · subst hq
    rw [getOpt_setOpt_self hy] at hx
    simp only [Out.ok.injEq] at hx; subst hx; exact ho
  · rw [getOpt_setOpt_ne hq] at hx
    exact h q x hx

theorem AllSettled.tables {a b : Argus} (h : AllSettled a) (e : b.tables = a.tables) : AllSettled b := by
  intro p o ho
  refine h p o ?_
  unfold Argus.getOpt at ho ⊢
  rw [← e]; exact ho

/-- The same outcome, and the entries are in such states. -/
def SameOut {α : Type} (x y : Out (α × Argus)) : Prop := y = x ∧ ∀ r, x = .ok r → AllSettled r.2

theorem SameOut.ok {α : Type} (s : α) {a : Argus} (h : AllSettled a) : SameOut (.ok (s, a)) (.ok (s, a)) :=
  ⟨rfl, fun r hr => by simp only [Out.ok.injEq] at hr; subst hr; exact h⟩

theorem SameOut.ub {α : Type} (u : Ub) : SameOut (.ub u : Out (α × Argus)) (.ub u) := ⟨rfl, fun r hr => by simp at hr⟩

theorem SameOut.bind {α β : Type} {x y : Out (α × Argus)} {f g : α × Argus → Out (β × Argus)} (h : SameOut x y)
    (hf : ∀ s a, x = .ok (s, a) → AllSettled a → SameOut (f (s, a)) (g (s, a))) : SameOut (x >>= f) (y >>= g) := by
  obtain ⟨h1, h2⟩ := h
  subst h1
  cases y with
  | ub u => exact .ub u
  | ok r => exact hf r.1 r.2 rfl (h2 r rfl)

theorem SameOut.bindSame {α β : Type} (x : Out α) {f g : α → Out (β × Argus)}
    (hf : ∀ r, x = .ok r → SameOut (f r) (g r)) : SameOut (x >>= f) (x >>= g) := by
  cases x with
  | ub u => exact .ub u
  | ok r => exact hf r rfl

section

variable {W V : World} (hw : OtherSort W V)

include hw

theorem runPre_same (k : VKind) (arg : Option Str) : runPre V k arg = runPre W k arg := by
  unfold runPre
  cases k <;> simp only [regexValidator, hw.regex, hw.regexAvailable, hw.preValidator]

theorem runPost_same (k : VKind) (o : Opt) : runPost V k o = runPost W k o := by
  unfold runPost
  cases k <;> simp only [hw.postValidator]

theorem runPreAll_same (arg : Option Str) : ∀ (vs : List Validator) (a : Argus),
    runPreAll V a arg vs = runPreAll W a arg vs
  | [], a => rfl
  | v :: vs, a => by
    unfold runPreAll
    simp only [runPre_same hw, runPreAll_same arg vs]

omit hw in
theorem runPreAll_tables (arg : Option Str) : ∀ (vs : List Validator) {a : Argus} {s : Int} {b : Argus},
    runPreAll W a arg vs = .ok (s, b) → b.tables = a.tables
  | [], a, s, b, h => by simp only [runPreAll, Out.ok.injEq, Prod.mk.injEq] at h; rw [← h.2]
  | v :: vs, a, s, b, h => by
    unfold runPreAll at h
    split at h
    · obtain ⟨r, h1, h2⟩ := Out.bind_eq_ok h
      have ht : ∀ es : List Event, (a.emits es).tables = a.tables := fun es => emits_tables a es
      simp only at h2
      split at h2
      · simp only [Out.ok.injEq, Prod.mk.injEq] at h2; rw [← h2.2]; exact ht _
      · rw [runPreAll_tables arg vs h2]; exact ht _
    · exact runPreAll_tables arg vs h

omit hw in
theorem emits_getOpt (a : Argus) (es : List Event) (p : Ptr) : (a.emits es).getOpt p = a.getOpt p := by
  unfold Argus.getOpt
  rw [emits_tables]

theorem settled_execCallbacks {a : Argus} (h : AllSettled a) (p : Ptr) (x : Option Str) :
    SameOut (execCallbacks W a p x) (execCallbacks V a p x) := by
  unfold execCallbacks
  refine .bindSame _ (fun o ho => ?_)
  cases hh : o.handler with
  | none => exact .ok _ (h.tables rfl)
  | some hd =>
    simp only
    rw [runPreAll_same hw]
    refine .bindSame _ (fun pre hpre => ?_)
    have ht : pre.2.tables = a.tables := runPreAll_tables x _ (s := pre.1) (b := pre.2) hpre
    have hp := h.tables ht
    have hg : pre.2.getOpt p = .ok o := by
      unfold Argus.getOpt at ho ⊢
      rw [ht]; exact ho
    split
    · exact .ok _ hp
    · obtain ⟨h1, h2⟩ := runHandler_settled hw pre.2 hh (h p o ho) x
      rw [h1]
      refine .bindSame _ (fun r hr => ?_)
      have hm := runHandler_meta hr
      have hs : Settled r.2.1 := (h p o ho).of_meta hm (fun hd' e => by
        rw [hh] at e; cases e; exact h2 r hr)
      have he : AllSettled (pre.2.emits r.2.2) := hp.tables (emits_tables _ _)
      have hge : (pre.2.emits r.2.2).getOpt p = .ok o := by rw [emits_getOpt]; exact hg
      split
      · exact .ok _ (he.setOpt hge hs)
      · exact .ok _ (he.setOpt hge (hs.of_meta rfl (fun hd' e => hs.value hd' e)))

theorem settled_run : ∀ (acts : List Act) {a : Argus}, AllSettled a → SameOut (run W a acts) (run V a acts)
  | [], a, h => .ok _ h
  | .give p x :: rest, a, h => by
    unfold run
    refine (settled_execCallbacks hw h p x).bind (fun s a1 _ h1 => ?_)
    simp only
    split
    · exact .ok _ h1
    · exact settled_run rest h1
  | .enter p :: rest, a, h => by
    unfold run
    refine .bindSame _ (fun r hr => settled_run rest ?_)
    unfold enterSub at hr
    obtain ⟨o, h1, h2⟩ := Out.bind_eq_ok hr
    simp only at h2
    split at h2
    · simp at h2
    · simp only [Out.ok.injEq] at h2
      have hs : Settled { o with isSet := true } := (h p o h1).of_meta rfl (fun hd' e => (h p o h1).value hd' e)
      rw [← h2]
      exact (h.setOpt h1 hs).tables rfl
  | .fail c :: rest, a, h => .ok _ (h.tables rfl)
  | .noTable :: rest, a, _ => .ub _

omit hw in
theorem restoreValue_kept {hd : Handler} {o o1 : Opt} (h1 : ValueKept hd o1.value) : ValueKept hd (restoreValue o o1) := by
  have hn : ∀ v, (∀ cells, v ≠ Val.arr cells) → (∀ cells, v ≠ Val.map cells) → ValueKept hd v := by
    intro v e1 e2
    have ea : ∀ p, ArrOf p v := fun p cells hc => absurd hc (e1 cells)
    have em : ∀ p, MapOf p v := fun p cells hc => absurd hc (e2 cells)
    unfold ValueKept
    split
    · exact ea _
    · exact ea _
    · exact ea _
    · exact em _
    · exact em _
    · exact em _
    · exact em _
    · trivial
  unfold restoreValue
  split
  · exact hn _ (by simp) (by simp)
  · rename_i hv
    rw [hv] at h1
    split
    · exact h1
    · exact hn _ (by simp) (by simp)
  · rename_i hv
    rw [hv] at h1
    split
    · exact h1
    · exact hn _ (by simp) (by simp)
  · exact hn _ (by simp) (by simp)

theorem settled_loadEnvStep {env : Env} {a : Argus} (h : AllSettled a) (p : Ptr) :
    SameOut (loadEnvStep W env a p) (loadEnvStep V env a p) := by
  unfold loadEnvStep
  refine .bindSame _ (fun o ho => ?_)
  split
  · exact .ok _ h
  split
  · exact .ok _ h
  cases envVarName a.envPrefix o with
  | none => exact .ok _ h
  | some n =>
    simp only
    cases env n with
    | none => exact .ok _ h
    | some v =>
      simp only
      refine (settled_execCallbacks hw h p (some v)).bind (fun s a1 _ h1 => ?_)
      simp only
      split
      · split
        · refine .bindSame _ (fun o1 ho1 => .ok _ (h1.setOpt ho1 ?_))
          exact (h1 p o1 ho1).of_meta rfl (fun hd e => restoreValue_kept ((h1 p o1 ho1).value hd e))
        · exact .ok _ h1
      · exact .ok _ h1

theorem settled_loadEnvLoop {env : Env} (j : Nat) : ∀ (n i : Nat) {a : Argus},
    AllSettled a → SameOut (loadEnvLoop W env j n i a) (loadEnvLoop V env j n i a)
  | 0, i, a, h => .ok _ h
  | n + 1, i, a, h => by
    unfold loadEnvLoop
    refine (settled_loadEnvStep hw h _).bind (fun s a1 _ h1 => ?_)
    simp only
    split
    · exact .ok _ h1
    · exact settled_loadEnvLoop j n (i + 1) h1

theorem settled_loadEnvTable {env : Env} (j : Nat) {a : Argus} (h : AllSettled a) :
    SameOut (loadEnvTable W env a j) (loadEnvTable V env a j) := by
  unfold loadEnvTable
  exact .bindSame _ (fun os _ => settled_loadEnvLoop hw j _ _ h)

theorem settled_loadEnvStack {env : Env} : ∀ (ps : List Ptr) {a : Argus}, AllSettled a →
    SameOut (loadEnvStack W env a ps) (loadEnvStack V env a ps)
  | [], a, h => .ok _ h
  | p :: ps, a, h => by
    unfold loadEnvStack
    refine .bindSame _ (fun o _ => ?_)
    cases o.subOptions with
    | none => exact settled_loadEnvStack ps h
    | some k =>
      simp only
      refine (settled_loadEnvTable hw k h).bind (fun s a1 _ h1 => ?_)
      simp only
      split
      · exact .ok _ h1
      · exact settled_loadEnvStack ps h1

theorem settled_loadEnvVars {env : Env} {a : Argus} (h : AllSettled a) :
    SameOut (loadEnvVars W env a) (loadEnvVars V env a) := by
  unfold loadEnvVars
  refine (settled_loadEnvTable hw _ h).bind (fun s a1 _ h1 => ?_)
  simp only
  split
  · exact .ok _ h1
  · exact settled_loadEnvStack hw _ h1

theorem callValidators_same (o : Opt) : ∀ vs : List Validator, callValidators V o vs = callValidators W o vs
  | [] => rfl
  | v :: vs => by
    unfold callValidators
    rw [runPost_same hw, callValidators_same o vs]

theorem validateSet_same (os : List Opt) : ∀ (l : List Opt) (excl : Bool) (first : Option Str),
    validateSet V os excl first l = validateSet W os excl first l
  | [], _, _ => rfl
  | o :: l, excl, first => by
    unfold validateSet
    simp only [validateSet_same os l, callValidators_same hw]

theorem validateTable_same (a : Argus) (t : Option Nat) : validateTable V a t = validateTable W a t := by
  unfold validateTable
  simp only [validateSet_same hw]

theorem validateStack_same : ∀ (ps : List Ptr) (a : Argus), validateStack V a ps = validateStack W a ps
  | [], a => rfl
  | p :: ps, a => by
    unfold validateStack
    simp only [validateTable_same hw, validateStack_same ps]

theorem postValidation_same (a : Argus) : postValidation V a = postValidation W a := by
  unfold postValidation
  simp only [validateTable_same hw, validateStack_same hw]

theorem argusParse_same {env : Env} {a : Argus} (h : AllSettled a) (args : List Str) :
    argusParse V env a args = argusParse W env a args := by
  unfold argusParse
  rw [parseArgs_run, parseArgs_run]
  obtain ⟨h1, h2⟩ := settled_run hw (a.asks args) h
  rw [h1]
  cases hr : run W a (a.asks args) with
  | ub u => rfl
  | ok r =>
    have h3 : AllSettled ({ r.2 with errorCode := r.1 } : Argus) := (h2 r hr).tables rfl
    simp only [Out.ok_bind, (settled_loadEnvVars hw (env := env) h3).1, postValidation_same hw]

end

end Argus
