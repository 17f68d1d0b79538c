import Verif.Lemmas.HeapKept
import Verif.Lemmas.SafeRun
import Verif.Lemmas.MapHistory

/-!
# Lemmas: the life of an array or map option in memory
-/

set_option autoImplicit false

namespace Argus

variable {γ : Type}

theorem Rep.same {K : Coll γ} {base : Nat → Option Blk} {h : Heap} {ho ho' : HOpt} {cs : List γ} (r : Rep K base h ho cs)
    (h1 : ho'.ptr = ho.ptr) (h2 : ho'.o.valueCount = ho.o.valueCount) (h3 : ho'.o.valueCapacity = ho.o.valueCapacity) :
    Rep K base h ho' cs := by
  refine ⟨by rw [h2]; exact r.count, r.good, ?_⟩
  rw [h1, h3]
  exact r.mem

/-- What a handler does to the option besides its elements. -/
def Outcome (st : Int) (ho ho' : HOpt) : Prop :=
  (st ≠ Err.success ∧ Kept ho ho') ∨
    (st = Err.success ∧ ∃ x : HOpt, Kept ho x ∧ ho' = ⟨{ x.o with isAllocated := true }, x.ptr⟩)

/-- A handler in memory does what it does without. -/
def StepSim (W : World) (A : Allocator) (hd : Handler) (vt : ValueType) (K : Coll γ)
    (lost : List γ → List Str → List Str) : Prop :=
  ∀ (a : Argus) (base : Nat → Option Blk) (h : Heap) (ho : HOpt) (cs : List γ) (v : Str), Rep K base h ho cs →
    ho.o.valueType = vt → (hd = .arrayInt → ∀ s ∈ pieces v, NoTop s) →
    ∃ st ho' h' cs' base' ev, runHandler W a hd (ho.abs K cs) (some v) = .ok (st, ho'.abs K cs', ev) ∧
      runHandlerH W A hd ho h v = .ok (st, ho', h') ∧ Rep K base' h' ho' cs' ∧ Left (lost cs (pieces v)) base base' ∧
      Outcome st ho ho'

theorem abs_alloc (x : HOpt) (K : Coll γ) (cs : List γ) :
    ({ x.abs K cs with isAllocated := true } : Opt) = HOpt.abs ⟨{ x.o with isAllocated := true }, x.ptr⟩ K cs := rfl

/-- Handlers that split their text. -/
theorem collect_sim {K : Coll γ} {T : Str → Prop} {lost : List γ → List Str → List Str} {f : Opt → Str → Out HRes}
    {fH : HOpt → Heap → Str → Out MRes} {flags : Opt → Out Opt} {flagsH : HOpt → Heap → Out (HOpt × Heap)} {A : Allocator}
    (hA : A.Never) (hf : StoreSim K T lost f fH) (h0 : ∀ cs, lost cs [] = []) (hk : KeepsH fH)
    (hfk : ∀ ho h ho' h', flagsH ho h = .ok (ho', h') → Kept ho ho') (v : Str) (hT : ∀ s ∈ pieces v, T s)
    {base : Nat → Option Blk} {h : Heap} {ho : HOpt} {cs : List γ} (r : Rep K base h ho cs)
    (hfl : ∀ (base : Nat → Option Blk) (h : Heap) (ho1 : HOpt) (cs : List γ), ho1.o.valueType = ho.o.valueType →
      Rep K base h ho1 cs → ∃ ho' h' cs', flags (ho1.abs K cs) = .ok (ho'.abs K cs') ∧ flagsH ho1 h = .ok (ho', h') ∧
        Rep K base h' ho' cs') :
    ∃ st ho' h' cs' base' ev, collect f flags (ho.abs K cs) (some v) = .ok (st, ho'.abs K cs', ev) ∧
      collectH (storePartsH A fH) flagsH ho h v = .ok (st, ho', h') ∧ Rep K base' h' ho' cs' ∧
      Left (lost cs (pieces v)) base base' ∧ Outcome st ho ho' := by
  obtain ⟨st, ho1, h1, cs1, base1, ev, e1, e2, e3, e4⟩ := storePartsH_sim hA hf h0 v hT r
  have k1 := storePartsH_keeps A hk _ _ _ _ _ _ e2
  by_cases hst : st = Err.success
  · obtain ⟨ho2, h2, cs2, f1, f2, f3⟩ := hfl base1 h1 ho1 cs1 k1.type e3
    refine ⟨st, ⟨{ ho2.o with isAllocated := true }, ho2.ptr⟩, h2, cs2, base1, ev, ?_, ?_, f3.same rfl rfl rfl, e4,
      .inr ⟨hst, ho2, k1.trans (hfk _ _ _ _ f2), rfl⟩⟩
    · simp only [collect]
      rw [e1, Out.ok_bind, if_neg (by simpa using hst), f1, Out.ok_bind, hst]
      rfl
    · simp only [collectH]
      rw [e2, Out.ok_bind, if_neg (by simpa using hst), f2, Out.ok_bind, hst]
  · refine ⟨st, ho1, h1, cs1, base1, ev, ?_, ?_, e3, e4, .inl ⟨hst, k1⟩⟩
    · simp only [collect]
      rw [e1, Out.ok_bind, if_pos (by simpa using hst)]
    · simp only [collectH]
      rw [e2, Out.ok_bind, if_pos (by simpa using hst)]

theorem noLost_nil {γ : Type} (cs : List γ) : noLost cs [] = [] := rfl

theorem variadicString_sim (W : World) {A : Allocator} (hA : A.Never) {base : Nat → Option Blk} {h : Heap} {ho : HOpt}
    {cs : List Word} (r : Rep (arrColl .string 1) base h ho cs) (hk : ho.o.valueType.arrayKind = some .string) (v : Str) :
    ∃ st ho' h' cs' ev,
      variadicNum W (fun s => some (.ptr s)) (ho.abs (arrColl .string 1) cs) (some v) = .ok (st, ho'.abs (arrColl .string 1) cs', ev) ∧
      collectH (setStringH A) (arrayFlagsH W) ho h v = .ok (st, ho', h') ∧ Rep (arrColl .string 1) base h' ho' cs' ∧
      Outcome st ho ho' := by
  obtain ⟨st, ho1, h1, cs1, base1, ev, ks, e1, e2, e3, e4, e5, e6⟩ := setString_sim hA base h ho cs v r trivial
  have k1 := setStringH_keeps A _ _ _ _ _ _ e2
  have hks : ks = [] := by
    by_cases hst : st = Err.success
    · have := e5 hst []; simp only [noLost, List.append_nil] at this; exact this.symm
    · have := e6 hst []; exact this.symm
  subst hks
  have := e4.nil
  subst this
  unfold setValueString pushCell at e1
  obtain ⟨o1, g1, g2⟩ := Out.bind_eq_ok e1
  obtain ⟨o2, g3, g4⟩ := Out.bind_eq_ok g1
  simp only [Out.ok.injEq, Prod.mk.injEq] at g2
  obtain ⟨g5, g6, g7⟩ := g2
  subst g6
  obtain ⟨ho2, h2, cs2, f1, f2, f3⟩ := arrayFlags_sim W (.inl ⟨rfl, rfl⟩) e3 (by rw [k1.type]; exact hk)
  refine ⟨st, ⟨{ ho2.o with isAllocated := true }, ho2.ptr⟩, h2, cs2, [], ?_, ?_, f3.same rfl rfl rfl,
    .inr ⟨g5.symm, ho2, k1.trans (arrayFlagsH_kept f2), rfl⟩⟩
  · unfold variadicNum
    rw [g3, Out.ok_bind]
    simp only
    rw [g4, Out.ok_bind, f1, Out.ok_bind, ← g5]
    rfl
  · simp only [collectH]
    rw [e2, Out.ok_bind, if_neg (by simp [← g5]), f2, Out.ok_bind, ← g5]

theorem variadicNumber_sim (W : World) {k : CellKind} (hks : k ≠ .string) {A : Allocator} (hA : A.Never) {conv : Str → Option Word}
    (hc : ∀ v w, conv v = some w → k.readable w = true) {base : Nat → Option Blk} {h : Heap} {ho : HOpt}
    {cs : List Word} (r : Rep (arrColl k 0) base h ho cs) (hk : ho.o.valueType.arrayKind = some k) (v : Str) :
    ∃ st ho' h' cs' ev,
      variadicNum W conv (ho.abs (arrColl k 0) cs) (some v) = .ok (st, ho'.abs (arrColl k 0) cs', ev) ∧
      collectH (setNumH A conv) (arrayFlagsH W) ho h v = .ok (st, ho', h') ∧ Rep (arrColl k 0) base h' ho' cs' ∧
      Outcome st ho ho' := by
  unfold variadicNum collectH setNumH
  cases hv : conv v with
  | none =>
    obtain ⟨ho1, h1, e1, e2, e3, e4, e5⟩ := adjustH_arr hA r
    have k1 := adjustH_kept e1
    refine ⟨Err.invalidValue, ho1, h1, cs, [.error Err.invalidValue], ?_, ?_, e2, .inl ⟨by decide, k1⟩⟩
    · rw [e5, Out.ok_bind]
      simp only [hv]
    · rw [e1, Out.ok_bind]
      simp only
      rw [if_neg (by show ho1.o.valueCapacity ≠ 0; omega), Out.ok_bind, if_pos (show Err.invalidValue ≠ Err.success by decide)]
  | some w =>
    obtain ⟨ho1, h1, ho2, h2, e1, e2, e3, e4, e5, e6, e7⟩ := pushData_sim hA r w (hc v w hv)
    have k1 := (adjustH_kept e1).trans (storeH_kept e5)
    obtain ⟨ho3, h3, cs3, f1, f2, f3⟩ := arrayFlags_sim W (.inr ⟨hks, rfl⟩) e7 (by rw [k1.type]; exact hk)
    refine ⟨Err.success, ⟨{ ho3.o with isAllocated := true }, ho3.ptr⟩, h3, cs3, [], ?_, ?_, f3.same rfl rfl rfl,
      .inr ⟨rfl, ho3, k1.trans (arrayFlagsH_kept f2), rfl⟩⟩
    · rw [e3, Out.ok_bind]
      simp only [hv]
      rw [e6, Out.ok_bind, f1, Out.ok_bind]
      rfl
    · rw [e1, Out.ok_bind]
      simp only
      rw [if_neg e2, e5, Out.ok_bind, Out.ok_bind, if_neg (by simp), f2, Out.ok_bind]

/-- The array and variadic handlers. -/
inductive ArrHandler : Handler → ValueType → FreeHandler → CellKind → Nat → Prop
  | arrayString : ArrHandler .arrayString .arrayString .arrayString .string 1
  | arrayInt : ArrHandler .arrayInt .arrayInt .default .int 0
  | arrayFloat : ArrHandler .arrayFloat .arrayFloat .default .float 0
  | variadicString : ArrHandler .variadicString .variadicString .variadicString .string 1
  | variadicInt : ArrHandler .variadicInt .variadicInt .default .int 0
  | variadicFloat : ArrHandler .variadicFloat .variadicFloat .default .float 0

theorem arr_step (W : World) {A : Allocator} (hA : A.Never) {hd : Handler} {vt : ValueType} {fh : FreeHandler} {k : CellKind}
    {n : Nat} (H : ArrHandler hd vt fh k n) : StepSim W A hd vt (arrColl k n) noLost := by
  intro a base h ho cs v r hvt hT
  cases H with
  | arrayString =>
    exact collect_sim hA (setString_sim hA) noLost_nil (setStringH_keeps A) (fun _ _ _ _ => arrayFlagsH_kept) v (fun _ _ => trivial) r
      (fun base h ho1 cs h1 r1 => arrayFlags_sim W (.inl ⟨rfl, rfl⟩) r1 (by rw [h1, hvt]; rfl))
  | arrayInt =>
    exact collect_sim hA (setInt_sim hA) noLost_nil (setIntH_keeps A) (fun _ _ _ _ => arrayFlagsH_kept) v (hT rfl) r
      (fun base h ho1 cs h1 r1 => arrayFlags_sim W (.inr ⟨by decide, rfl⟩) r1 (by rw [h1, hvt]; rfl))
  | arrayFloat =>
    exact collect_sim hA (setFloat_sim W hA) noLost_nil (setFloatH_keeps W A) (fun _ _ _ _ => arrayFlagsH_kept) v
      (fun _ _ => trivial) r
      (fun base h ho1 cs h1 r1 => arrayFlags_sim W (.inr ⟨by decide, rfl⟩) r1 (by rw [h1, hvt]; rfl))
  | variadicString =>
    obtain ⟨st, ho', h', cs', ev, e1, e2, e3, e4⟩ := variadicString_sim W hA r (by rw [hvt]; rfl) v
    exact ⟨st, ho', h', cs', base, ev, e1, e2, e3, Left.refl _, e4⟩
  | variadicInt =>
    obtain ⟨st, ho', h', cs', ev, e1, e2, e3, e4⟩ := variadicNumber_sim W (by decide) hA variadicIntConv_readable r
      (by rw [hvt]; rfl) v
    exact ⟨st, ho', h', cs', base, ev, e1, e2, e3, Left.refl _, e4⟩
  | variadicFloat =>
    obtain ⟨st, ho', h', cs', ev, e1, e2, e3, e4⟩ := variadicNumber_sim W (by decide) hA (variadicFloatConv_readable W) r
      (by rw [hvt]; rfl) v
    exact ⟨st, ho', h', cs', base, ev, e1, e2, e3, Left.refl _, e4⟩

/-- The map handlers. -/
inductive MapHandler : Handler → ValueType → FreeHandler → CellKind → Nat → Prop
  | mapString : MapHandler .mapString .mapString .mapString .string 2
  | mapInt : MapHandler .mapInt .mapInt .mapInt .int 1
  | mapFloat : MapHandler .mapFloat .mapFloat .mapFloat .float 1
  | mapBool : MapHandler .mapBool .mapBool .mapBool .bool 1

/-- Keys lost by the handler of a map. -/
def lostOf (W : World) (vt : ValueType) (cs : List (Str × Word)) (ss : List Str) : List Str :=
  lostIn (convOf W vt) (cs.map Prod.fst) ss

theorem lostIn_nil (conv : Str → Option MapStore) (ks : List Str) : lostIn conv ks [] = [] := rfl

theorem setBool_readable (b : Bool) (w : Word) : CellKind.bool.readable (Word.setBool b w) = true := by
  cases b <;> cases w <;> simp [Word.setBool, CellKind.readable, Word.asBool, Out.isOk]

theorem ofInt64_readable (n : Int) : CellKind.int.readable (.ofInt64 n) = true := rfl

theorem mapIntConv_readable (v : Str) (st : MapStore) (hv : mapIntConv v = some st) :
    CellKind.int.readable st.fresh = true ∧ ∀ w, CellKind.int.readable w = true → CellKind.int.readable (st.upd w) = true := by
  unfold mapIntConv at hv
  simp only at hv
  split at hv
  · simp at hv
  · simp only [Option.some.injEq] at hv; subst hv; exact ⟨ofInt64_readable _, fun _ _ => ofInt64_readable _⟩

theorem mapFloatConv_readable (W : World) (v : Str) (st : MapStore) (hv : mapFloatConv W v = some st) :
    CellKind.float.readable st.fresh = true ∧
      ∀ w, CellKind.float.readable w = true → CellKind.float.readable (st.upd w) = true := by
  unfold mapFloatConv at hv
  simp only at hv
  split at hv
  · simp at hv
  · simp only [Option.some.injEq] at hv; subst hv; exact ⟨readable_bits _, fun _ _ => readable_bits _⟩

theorem mapBoolConv_readable (v : Str) (st : MapStore) (hv : mapBoolConv v = some st) :
    CellKind.bool.readable st.fresh = true ∧
      ∀ w, CellKind.bool.readable w = true → CellKind.bool.readable (st.upd w) = true := by
  unfold mapBoolConv at hv
  split at hv
  · simp at hv
  · simp only [Option.some.injEq] at hv; subst hv; exact ⟨rfl, fun w _ => setBool_readable _ w⟩

theorem mapNum_step (W : World) {A : Allocator} (hA : A.Never) {k : CellKind} (hk : k ≠ .string) {conv : Str → Option MapStore}
    (hc : ∀ v st, conv v = some st → k.readable st.fresh = true ∧ ∀ w, k.readable w = true → k.readable (st.upd w) = true)
    {base : Nat → Option Blk} {h : Heap} {ho : HOpt} {cs : List (Str × Word)} (v : Str) (r : Rep (mapColl k 1) base h ho cs)
    (hvt : ho.o.valueType.mapKind = some k) :
    ∃ st ho' h' cs' base' ev,
      collect (setKvPair conv) (applyMapFlags W) (ho.abs (mapColl k 1) cs) (some v) = .ok (st, ho'.abs (mapColl k 1) cs', ev) ∧
      collectH (storePartsH A (setKvNumH A conv)) (mapFlagsH W A) ho h v = .ok (st, ho', h') ∧
      Rep (mapColl k 1) base' h' ho' cs' ∧ Left (lostIn conv (cs.map Prod.fst) (pieces v)) base base' ∧ Outcome st ho ho' :=
  collect_sim (lost := fun cs ss => lostIn conv (cs.map Prod.fst) ss) hA (setKvNum_sim hk hA hc)
    (fun _ => rfl) (setKvNumH_keeps A conv) (fun _ _ _ _ => mapFlagsH_kept) v (fun _ _ => trivial) r
    (fun base h ho1 cs h1 r1 => mapFlags_sim W (.inr ⟨hk, rfl⟩) hA r1 (by rw [h1]; exact hvt))

theorem map_step (W : World) {A : Allocator} (hA : A.Never) {hd : Handler} {vt : ValueType} {fh : FreeHandler} {k : CellKind}
    {n : Nat} (H : MapHandler hd vt fh k n) : StepSim W A hd vt (mapColl k n) (lostOf W vt) := by
  intro a base h ho cs v r hvt _
  cases H with
  | mapString =>
    exact collect_sim hA (setKvString_sim hA) (fun _ => rfl) (setKvStringH_keeps A) (fun _ _ _ _ => mapFlagsH_kept) v
      (fun _ _ => trivial) r
      (fun base h ho1 cs h1 r1 => mapFlags_sim W (.inl ⟨rfl, rfl⟩) hA r1 (by rw [h1, hvt]; rfl))
  | mapInt => exact mapNum_step W hA (by decide) mapIntConv_readable v r (by rw [hvt]; rfl)
  | mapFloat => exact mapNum_step W hA (by decide) (mapFloatConv_readable W) v r (by rw [hvt]; rfl)
  | mapBool => exact mapNum_step W hA (by decide) mapBoolConv_readable v r (by rw [hvt]; rfl)

/-! ### Release -/

theorem freeRows_one {K : Coll γ} (hn : K.n = 1) {base : Nat → Option Blk} {a : Nat} : ∀ (Z : List (Row × γ)) (h : Heap),
    Part base h (addrsOf (Z.map Prod.fst) ++ [a]) → (∀ z ∈ Z, Shape 1 z.1) →
    ∃ h', freeRows 1 (Z.map Prod.fst) h = .ok h' ∧ Part base h' [a]
  | [], h, p, _ => ⟨h, rfl, p⟩
  | z :: Z, h, p, hs => by
    obtain ⟨x, t, e, et⟩ := hs z (by simp)
    have ea : z.1.addrs = [x] := by
      rw [e]
      show x :: Row.addrs t = [x]
      rw [et]
    have p1 : Part base h (x :: (addrsOf (Z.map Prod.fst) ++ [a])) := by
      simpa [addrsOf_cons, ea] using p
    obtain ⟨g1, g2⟩ := p1.free_own
    obtain ⟨h', e1, e2⟩ := freeRows_one hn Z _ g2 (fun y hy => hs y (by simp [hy]))
    refine ⟨h', ?_, e2⟩
    simp only [List.map_cons, freeRows]
    have : z.1.headD (.data .undef) = .addr x := by rw [e]; rfl
    rw [this, g1, Out.ok_bind]
    exact e1



theorem freeRows_two {base : Nat → Option Blk} {a : Nat} : ∀ (Z : List (Row × γ)) (h : Heap),
    Part base h (addrsOf (Z.map Prod.fst) ++ [a]) → (∀ z ∈ Z, Shape 2 z.1) →
    ∃ h', freeRows 2 (Z.map Prod.fst) h = .ok h' ∧ Part base h' [a]
  | [], h, p, _ => ⟨h, rfl, p⟩
  | z :: Z, h, p, hs => by
    obtain ⟨x, y, e⟩ := hs z (by simp)
    have ea : z.1.addrs = [x, y] := by rw [e]; rfl
    have p1 : Part base h (x :: y :: (addrsOf (Z.map Prod.fst) ++ [a])) := by
      simpa [addrsOf_cons, ea] using p
    obtain ⟨g1, g2⟩ := p1.free_own
    obtain ⟨g3, g4⟩ := g2.free_own
    obtain ⟨h', e1, e2⟩ := freeRows_two Z _ g4 (fun y hy => hs y (by simp [hy]))
    refine ⟨h', ?_, e2⟩
    simp only [List.map_cons, freeRows]
    have h1 : z.1.headD (.data .undef) = .addr x := by rw [e]; rfl
    have h2 : (z.1[1]?).getD (.data .undef) = .addr y := by rw [e]; rfl
    rw [h1, g1, Out.ok_bind, if_pos trivial, h2, g3, Out.ok_bind]
    exact e1

theorem free_null (h : Heap) : h.free (.ofPtr none) = .ok h := rfl

/-- Release of the elements and of the block that holds them. -/
theorem rows_release {K : Coll γ} {base : Nat → Option Blk} {h : Heap} {ho : HOpt} {cs : List γ} (r : Rep K base h ho cs)
    (hn : K.n = 1 ∨ K.n = 2) (hp : ho.ptr ≠ none) :
    ∃ a b h1 h2, ho.ptr = some a ∧ ho.rows h = .ok b ∧ freeRows K.n b.2.1 h = .ok h1 ∧ h1.free (.addr a) = .ok h2 ∧ Part base h2 [] := by
  obtain ⟨a, Z, tail, e1, e2⟩ := r.holds hp
  have hp1 : Part base h (addrsOf (Z.map Prod.fst) ++ [a]) := e1.part.perm (List.perm_append_comm)
  have key : ∃ h', freeRows K.n (Z.map Prod.fst) h = .ok h' ∧ Part base h' [a] := by
    rcases hn with hn | hn
    · rw [hn]
      exact freeRows_one hn Z h hp1 (fun z hz => by have := (e1.zip z hz).2.1; rw [hn] at this; exact this)
    · rw [hn]
      exact freeRows_two Z h hp1 (fun z hz => by have := (e1.zip z hz).2.1; rw [hn] at this; exact this)
  obtain ⟨h', f1, f2⟩ := key
  obtain ⟨g1, g2⟩ := f2.free_own
  exact ⟨a, _, h', _, e1.ptr, e1.rows, f1, g1, g2⟩

/-- Release of a block without addresses. -/
theorem block_release {K : Coll γ} {base : Nat → Option Blk} {h : Heap} {ho : HOpt} {cs : List γ} (r : Rep K base h ho cs)
    (hn : K.n = 0) (hp : ho.ptr ≠ none) :
    ∃ a h2, ho.ptr = some a ∧ h.free (.addr a) = .ok h2 ∧ Part base h2 [] := by
  obtain ⟨a, Z, tail, e1, e2⟩ := r.holds hp
  have hz : addrsOf (Z.map Prod.fst) = [] := by
    unfold addrsOf
    rw [List.flatMap_eq_nil_iff]
    intro x hx
    obtain ⟨z, hz, rfl⟩ := List.mem_map.1 hx
    have := (e1.zip z hz).2.1
    rw [hn] at this
    obtain ⟨w, e⟩ := this
    rw [e]; rfl
  have p := e1.part
  rw [hz] at p
  obtain ⟨g1, g2⟩ := p.free_own
  exact ⟨a, _, e1.ptr, g1, g2⟩

theorem Rep.null {K : Coll γ} {base : Nat → Option Blk} {h : Heap} {ho : HOpt} {cs : List γ} (r : Rep K base h ho cs)
    (hp : ho.ptr = none) : cs = [] ∧ Part base h [] := by
  rcases r.mem with ⟨_, h2, h3⟩ | ⟨a, l, h1, _⟩
  · exact ⟨h2, h3⟩
  · rw [hp] at h1; simp at h1

theorem arr_free {hd : Handler} {vt : ValueType} {fh : FreeHandler} {k : CellKind} {n : Nat} (H : ArrHandler hd vt fh k n)
    {base : Nat → Option Blk} {h : Heap} {ho : HOpt} {cs : List Word} (r : Rep (arrColl k n) base h ho cs) :
    ∃ h', runFreeH (some fh) ho h = .ok h' ∧ Part base h' [] := by
  by_cases hp : ho.ptr = none
  · obtain ⟨h1, h2⟩ := r.null hp
    have hc : ho.o.valueCount = 0 := by rw [r.count, h1]; rfl
    cases H <;> exact ⟨h, by simp only [runFreeH, hp, hc, if_pos, free_null], h2⟩
  · have strs : (arrColl k n).n = 1 → ∃ h', (if ho.o.valueCount = 0 then h.free (.ofPtr ho.ptr)
        else do
          let b ← ho.rows h
          let h1 ← freeRows 1 b.2.1 h
          h1.free (.ofPtr ho.ptr)) = .ok h' ∧ Part base h' [] := by
      intro hn
      obtain ⟨a, b, h1, h2, e1, e2, e3, e4, e5⟩ := rows_release r (.inl hn) hp
      rw [hn] at e3
      by_cases hc : ho.o.valueCount = 0
      · have hb : b.2.1 = [] := by
          unfold HOpt.rows at e2
          obtain ⟨x, _, f2⟩ := Out.bind_eq_ok e2
          split at f2
          · simp at f2
          · simp only [Out.ok.injEq] at f2; rw [← f2, hc]; rfl
        rw [hb] at e3
        simp only [freeRows, Out.ok.injEq] at e3
        subst e3
        exact ⟨h2, by rw [if_pos hc, e1]; exact e4, e5⟩
      · exact ⟨h2, by rw [if_neg hc, e2, Out.ok_bind, e3, Out.ok_bind, e1]; exact e4, e5⟩
    cases H with
    | arrayString => exact strs rfl
    | variadicString => exact strs rfl
    | arrayInt => obtain ⟨a, h2, e1, e2, e3⟩ := block_release r rfl hp; exact ⟨h2, by simp only [runFreeH, e1]; exact e2, e3⟩
    | arrayFloat => obtain ⟨a, h2, e1, e2, e3⟩ := block_release r rfl hp; exact ⟨h2, by simp only [runFreeH, e1]; exact e2, e3⟩
    | variadicInt => obtain ⟨a, h2, e1, e2, e3⟩ := block_release r rfl hp; exact ⟨h2, by simp only [runFreeH, e1]; exact e2, e3⟩
    | variadicFloat => obtain ⟨a, h2, e1, e2, e3⟩ := block_release r rfl hp; exact ⟨h2, by simp only [runFreeH, e1]; exact e2, e3⟩

theorem map_free {hd : Handler} {vt : ValueType} {fh : FreeHandler} {k : CellKind} {n : Nat} (H : MapHandler hd vt fh k n)
    {base : Nat → Option Blk} {h : Heap} {ho : HOpt} {cs : List (Str × Word)} (r : Rep (mapColl k n) base h ho cs) :
    ∃ h', runFreeH (some fh) ho h = .ok h' ∧ Part base h' [] := by
  by_cases hp : ho.ptr = none
  · obtain ⟨h1, h2⟩ := r.null hp
    cases H <;> exact ⟨h, by simp only [runFreeH, hp], h2⟩
  · have hn : (mapColl k n).n = 1 ∨ (mapColl k n).n = 2 := by cases H <;> simp [mapColl]
    obtain ⟨a, b, h1, h2, e1, e2, e3, e4, e5⟩ := rows_release r hn hp
    refine ⟨h2, ?_, e5⟩
    cases H <;> (simp only [runFreeH, e1]; rw [e2, Out.ok_bind]; erw [e3]; rw [Out.ok_bind]; exact e4)

/-- `free_option_value`. -/
theorem freeOptionH_of {K : Coll γ} {base : Nat → Option Blk} {h : Heap} {ho : HOpt} {cs : List γ} {fh : FreeHandler}
    (hf : ∃ h', runFreeH (some fh) ho h = .ok h' ∧ Part base h' []) (hfh : ho.o.freeHandler = some fh)
    (r : Rep K base h ho cs) (ha : ho.o.isAllocated = true ∨ ho.ptr = none) :
    ∃ ho' h', freeOptionH ho h = .ok (ho', h') ∧ h'.live = base := by
  unfold freeOptionH
  by_cases hal : ho.o.isAllocated = true
  · obtain ⟨h', e1, e2⟩ := hf
    rw [if_neg (by simp [hal]), hfh, e1, Out.ok_bind]
    exact ⟨_, h', rfl, funext fun x => e2.rest x (by simp)⟩
  · rw [if_pos (by simpa using hal)]
    have hp := ha.resolve_left hal
    exact ⟨ho, h, rfl, funext fun x => (r.null hp).2.rest x (by simp)⟩

/-! ### Occurrences one after the other -/

theorem mark_abs (x : HOpt) (K : Coll γ) (cs : List γ) : (x.abs K cs).markSet = x.mark.abs K cs := rfl

/-- What does not change during the life of an option. -/
structure Fixed (a b : HOpt) : Prop where
  handler : b.o.handler = a.o.handler
  type : b.o.valueType = a.o.valueType
  free : b.o.freeHandler = a.o.freeHandler
  alloc : a.o.isAllocated = true → b.o.isAllocated = true

theorem Fixed.refl (a : HOpt) : Fixed a a := ⟨rfl, rfl, rfl, id⟩

theorem Fixed.trans {a b c : HOpt} (h1 : Fixed a b) (h2 : Fixed b c) : Fixed a c :=
  ⟨h2.handler.trans h1.handler, h2.type.trans h1.type, h2.free.trans h1.free, fun h => h2.alloc (h1.alloc h)⟩

theorem Fixed.mark (a : HOpt) : Fixed a a.mark := ⟨rfl, rfl, rfl, id⟩

theorem Outcome.fixed {st : Int} {a b : HOpt} (h : Outcome st a b) : Fixed a b := by
  rcases h with ⟨_, k⟩ | ⟨_, x, k, rfl⟩
  · exact ⟨k.handler, k.type, k.free, fun h => k.alloc.trans h⟩
  · exact ⟨k.handler, k.type, k.free, fun _ => rfl⟩

theorem Outcome.alloc {a b : HOpt} (h : Outcome Err.success a b) : b.o.isAllocated = true := by
  rcases h with ⟨h, _⟩ | ⟨_, x, _, rfl⟩
  · exact absurd rfl h
  · rfl

/-- A run in memory beside a run without, with the keys lost on the way. -/
theorem life_sim {W : World} {A : Allocator} {hd : Handler} {vt : ValueType} {K : Coll γ}
    {lost : List γ → List Str → List Str} (hstep : StepSim W A hd vt K lost)
    (hne : ∀ (ho : HOpt) (cs : List γ), Sound ((ho.abs K cs).markSet) → ho.o.handler = some hd → ho.o.valueCount = cs.length → cs ≠ [])
    (Q : HOpt → List γ → List Str → List Str → Prop) (hnil : ∀ ho cs, Q ho cs [] [])
    (hfail : ∀ (ho ho' : HOpt) (cs cs' : List γ) (t : Str) (ts : List Str) (st : Int) (ev : List Event),
      (ho.ptr = none → cs = []) → st ≠ Err.success →
      runHandler W { tables := [[]] } hd (ho.abs K cs) (some t) = .ok (st, ho'.abs K cs', ev) →
      Q ho cs (t :: ts) (lost cs (pieces t)))
    (hcons : ∀ (ho ho' : HOpt) (cs cs' : List γ) (t : Str) (ts : List Str) (ev : List Event) (ks : List Str),
      (ho.ptr = none → cs = []) →
      runHandler W { tables := [[]] } hd (ho.abs K cs) (some t) = .ok (Err.success, ho'.abs K cs', ev) →
      Q ho'.mark cs' ts ks → Q ho cs (t :: ts) (lost cs (pieces t) ++ ks)) :
    ∀ (ts : List Str) (base : Nat → Option Blk) (h : Heap) (ho : HOpt) (cs : List γ), Rep K base h ho cs →
    Sound (ho.abs K cs) → ho.o.handler = some hd → ho.o.valueType = vt → HarmlessAll (ho.abs K cs).isSet hd ts →
    ∃ st ho' h' cs' base' ks, giveAllV W hd (ho.abs K cs) ts = .ok (st, ho'.abs K cs') ∧
      giveAllH W A hd ho h ts = .ok (st, ho', h') ∧ Rep K base' h' ho' cs' ∧ Left ks base base' ∧ Fixed ho ho' ∧
      (st = Err.success → ts ≠ [] → ho'.o.isAllocated = true) ∧ Q ho cs ts ks ∧
      (st = Err.success → Sound (ho'.abs K cs'))
  | [], base, h, ho, cs, r, hs, _, _, _ =>
    ⟨Err.success, ho, h, cs, base, [], rfl, rfl, r, Left.refl _, Fixed.refl _, fun _ h' => absurd rfl h', hnil ho cs, fun _ => hs⟩
  | t :: ts, base, h, ho, cs, r, hs, hh, hvt, hT => by
    have hT1 := hT.head
    obtain ⟨st, ho1, h1, cs1, base1, ev, e1, e2, e3, e4, e5⟩ := hstep { tables := [[]] } base h ho cs t r hvt hT1.2
    obtain ⟨x, g1, g2, g3⟩ := runHandler_sound (arg := some t) W { tables := [[]] } hs hh (by simp)
      (fun v hv => by simp only [Option.some.injEq] at hv; subst hv; exact hT1) ⟨_, rfl⟩
    rw [e1] at g1
    simp only [Out.ok.injEq] at g1
    subst g1
    by_cases hst : st = Err.success
    · subst hst
      have hs1 := g3 rfl
      have hh1 : ho1.o.handler = some hd := e5.fixed.handler.trans hh
      have hcs := hne ho1 cs1 hs1 hh1 e3.count
      have hvc : ho1.o.valueCount ≠ 0 := by
        rw [e3.count]; exact fun h => hcs (List.length_eq_zero_iff.1 h)
      have r1 : Rep K base1 h1 ho1.mark cs1 := e3.same rfl
        (by show (if ho1.o.valueCount = 0 then 1 else ho1.o.valueCount) = ho1.o.valueCount; rw [if_neg hvc]) rfl
      obtain ⟨st2, ho2, h2, cs2, base2, ks, f1, f2, f3, f4, f5, f6, f7, f8⟩ := life_sim hstep hne Q hnil hfail hcons ts base1 h1
        ho1.mark cs1 r1 hs1 hh1 (e5.fixed.type.trans hvt) hT.tail
      refine ⟨st2, ho2, h2, cs2, base2, lost cs (pieces t) ++ ks, ?_, ?_, f3, e4.trans f4,
        (e5.fixed.trans (Fixed.mark ho1)).trans f5, fun _ _ => f5.alloc e5.alloc,
        hcons ho ho1 cs cs1 t ts ev ks (fun hp => (r.null hp).1) e1 f7, f8⟩
      · unfold giveAllV
        rw [e1, Out.ok_bind, if_neg (by simp)]
        exact f1
      · unfold giveAllH
        rw [e2, Out.ok_bind, if_neg (by simp)]
        exact f2
    · refine ⟨st, ho1, h1, cs1, base1, lost cs (pieces t), ?_, ?_, e3, e4, e5.fixed, fun h' => absurd h' hst,
        hfail ho ho1 cs cs1 t ts st ev (fun hp => (r.null hp).1) hst e1, fun h' => absurd h' hst⟩
      · unfold giveAllV
        rw [e1, Out.ok_bind, if_pos (by simpa using hst)]
      · unfold giveAllH
        rw [e2, Out.ok_bind, if_pos (by simpa using hst)]

theorem arr_carries {hd : Handler} {vt : ValueType} {fh : FreeHandler} {k : CellKind} {n : Nat} (H : ArrHandler hd vt fh k n)
    {o : Opt} (hs : Sound o) (hh : o.handler = some hd) : ArrHolds k o.isSet o := by
  have := hs.holds hd hh
  cases H <;> exact this

theorem map_carries {hd : Handler} {vt : ValueType} {fh : FreeHandler} {k : CellKind} {n : Nat} (H : MapHandler hd vt fh k n)
    {o : Opt} (hs : Sound o) (hh : o.handler = some hd) : MapHolds vt o.isSet o := by
  have := hs.holds hd hh
  cases H <;> exact this

theorem arr_ne {hd : Handler} {vt : ValueType} {fh : FreeHandler} {k : CellKind} {n : Nat} (H : ArrHandler hd vt fh k n)
    (ho : HOpt) (cs : List Word) (hs : Sound ((ho.abs (arrColl k n) cs).markSet)) (hh : ho.o.handler = some hd) : cs ≠ [] := by
  obtain ⟨_, cells, h1, _, h3⟩ := arr_carries H hs hh
  have hne := h3 rfl
  rcases h1.val with ⟨h2, _⟩ | ⟨h2, _⟩
  · exact absurd h2 hne
  · by_cases hp : ho.ptr = none
    · rw [HOpt.abs_none hp] at h2
      have h4 : Val.word .null = Val.arr cells := h2
      cases h4
    · rw [HOpt.abs_some hp] at h2
      have h4 : Val.arr cs = Val.arr cells := h2
      cases h4
      exact hne

theorem map_es {hd : Handler} {vt : ValueType} {fh : FreeHandler} {k : CellKind} {n : Nat} (H : MapHandler hd vt fh k n)
    (ho : HOpt) (cs : List (Str × Word)) (hs : Sound (ho.abs (mapColl k n) cs)) (hh : ho.o.handler = some hd)
    (hc : ho.ptr = none → cs = []) : ∃ es, cs = es.map encPair ∧ MapS (ho.abs (mapColl k n) cs) es ∧
      (ho.o.isSet = true → es ≠ []) := by
  obtain ⟨_, es, h1, h3⟩ := map_carries H hs hh
  refine ⟨es, ?_, h1, h3⟩
  rcases h1.val with ⟨h2, h4⟩ | ⟨h2, _⟩
  · by_cases hp : ho.ptr = none
    · rw [hc hp, h2]; rfl
    · rw [HOpt.abs_some hp] at h4; simp [mapColl, Val.null] at h4
  · by_cases hp : ho.ptr = none
    · rw [HOpt.abs_none hp] at h2; simp [Val.null] at h2
    · rw [HOpt.abs_some hp] at h2
      simpa [mapColl] using h2

theorem map_ne {hd : Handler} {vt : ValueType} {fh : FreeHandler} {k : CellKind} {n : Nat} (H : MapHandler hd vt fh k n)
    (ho : HOpt) (cs : List (Str × Word)) (hs : Sound ((ho.abs (mapColl k n) cs).markSet)) (hh : ho.o.handler = some hd) :
    cs ≠ [] := by
  obtain ⟨_, es, h1, h3⟩ := map_carries H hs hh
  have hne := h3 rfl
  rcases h1.val with ⟨h2, _⟩ | ⟨h2, _⟩
  · exact absurd h2 hne
  · by_cases hp : ho.ptr = none
    · rw [HOpt.abs_none hp] at h2
      have h4 : Val.word .null = Val.map (es.map encPair) := h2
      cases h4
    · rw [HOpt.abs_some hp] at h2
      have h4 : Val.map cs = Val.map (es.map encPair) := h2
      cases h4
      simpa using hne

end Argus
