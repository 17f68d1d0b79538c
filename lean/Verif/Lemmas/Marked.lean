import Verif.Lemmas.Wear
import Verif.Lemmas.Maps
import Verif.Lemmas.Collected
import Verif.Lemmas.HandlerMeta
import Verif.Spec.Safe

/-! Storing values does not look at `is_set` and `is_allocated`, and is additive in the pieces of a text. -/

set_option autoImplicit false

namespace Argus

/-- `o` with the marks of `d`. -/
def Opt.marked (o d : Opt) : Opt := { o with isSet := d.isSet, isAllocated := d.isAllocated }

theorem adjustArray_marked (o d : Opt) :

    adjustArray (o.marked d) = adjustArray o >>= fun o1 => Out.ok (o1.marked d) := by
  unfold adjustArray
  show (match o.value with | .word w => _ | .arr cells => _ | .map _ => _ | .dangling => _) = _
  cases hv : o.value with
  | word w => simp only; split <;> rfl
  | arr cells =>
    show (if o.valueCount ≥ o.valueCapacity then _ else _) = _
    simp only; split <;> rfl
  | map cells => rfl
  | dangling => rfl

theorem adjustMap_marked (o d : Opt) :
    adjustMap (o.marked d) = adjustMap o >>= fun o1 => Out.ok (o1.marked d) := by
  unfold adjustMap
  show (match o.value with | .word w => _ | .map cells => _ | .arr _ => _ | .dangling => _) = _
  cases hv : o.value with
  | word w => simp only; split <;> rfl
  | map cells =>
    show (if o.valueCount ≥ o.valueCapacity then _ else _) = _
    simp only; split <;> rfl
  | arr cells => rfl
  | dangling => rfl

theorem storeCell_marked (o d : Opt) (w : Word) :
    storeCell (o.marked d) w = storeCell o w >>= fun o1 => Out.ok (o1.marked d) := by
  unfold storeCell Opt.marked
  cases hv : o.value <;> simp only [hv] <;> try rfl
  cases writeCell _ _ _ w <;> rfl

theorem pushCell_marked (o d : Opt) (w : Word) :
    pushCell (o.marked d) w = pushCell o w >>= fun o1 => Out.ok (o1.marked d) := by
  unfold pushCell
  rw [adjustArray_marked]
  cases adjustArray o with
  | ub u => rfl
  | ok o1 => exact storeCell_marked o1 d w

theorem addRangeLoop_marked (d : Opt) : ∀ (n : Nat) (i : Int) (o : Opt),
    addRangeLoop n i (o.marked d) = addRangeLoop n i o >>= fun o1 => Out.ok (o1.marked d)
  | 0, _, _ => rfl
  | n + 1, i, o => by
    unfold addRangeLoop
    rw [pushCell_marked]
    cases pushCell o _ with
    | ub u => rfl
    | ok o1 => exact addRangeLoop_marked d n (i + 1) o1

theorem addRange_marked (o d : Opt) (r : Int × Int) :
    addRange (o.marked d) r = addRange o r >>= fun o1 => Out.ok (o1.marked d) := by
  unfold addRange
  rw [addRangeLoop_marked]
  cases addRangeLoop _ _ o with
  | ub u => rfl
  | ok o1 =>
    simp only [Out.ok_bind]
    split <;> rfl

/-- The result of a handler, with the marks of the result. -/
def HRes.marked (r : HRes) (d : Opt) : HRes := (r.1, r.2.1.marked d, r.2.2)

/-- A step that does not look at what `marked` changes. -/
def MarkStep (f : Opt → Str → Out HRes) : Prop :=
  ∀ o d v, f (o.marked d) v = f o v >>= fun r => Out.ok (r.marked d)

theorem setValueInt_marked : MarkStep setValueInt := by
  intro o d v
  unfold setValueInt
  cases parseIntRange v with
  | none => rfl
  | some r =>
    simp only [addRange_marked]
    cases addRange o r <;> rfl

theorem setValueString_marked : MarkStep setValueString := by
  intro o d v
  unfold setValueString
  rw [pushCell_marked]
  cases pushCell o _ <;> rfl

theorem setValueFloat_marked (W : World) : MarkStep (setValueFloat W) := by
  intro o d v
  unfold setValueFloat
  rw [pushCell_marked]
  cases pushCell o _ <;> rfl

theorem mapCells_marked (o d : Opt) : (o.marked d).mapCells = o.mapCells := rfl

theorem mapFindKey_marked (o d : Opt) (k : Str) : mapFindKey (o.marked d) k = mapFindKey o k := rfl

theorem setPair_marked (o d : Opt) (k : Str) (f : Word → Word) (w : Word) :
    setPair (o.marked d) k f w = setPair o k f w >>= fun o1 => Out.ok (o1.marked d) := by
  unfold setPair
  rw [mapFindKey_marked]
  cases mapFindKey o k with
  | ub u => rfl
  | ok x =>
    cases x with
    | some i =>
      simp only [Out.ok_bind]
      show (match o.value with | .map cells => _ | _ => _) = _
      cases hv : o.value <;> rfl
    | none =>
      simp only [Out.ok_bind]
      rw [adjustMap_marked]
      cases adjustMap o with
      | ub u => rfl
      | ok o1 =>
        simp only [Out.ok_bind]
        show (match o1.value with | .map cells => _ | _ => _) = _
        cases hv : o1.value with
        | map cells =>
          show (if o1.valueCapacity ≤ o1.valueCount then _ else if cells.length < o1.valueCount then _ else _) = _
          simp only
          split
          · rfl
          split <;> rfl
        | _ => rfl

theorem setKvPair_marked (conv : Str → Option MapStore) : MarkStep (setKvPair conv) := by
  intro o d v
  unfold setKvPair
  cases strchrSplit 61 v with
  | none => rfl
  | some kv =>
    simp only
    cases conv kv.2 with
    | none => rfl
    | some st =>
      simp only
      rw [setPair_marked]
      cases setPair o _ _ _ <;> rfl

theorem setAll_marked {f : Opt → Str → Out HRes} (hf : MarkStep f) (d : Opt) : ∀ (vs : List Str) (o : Opt),
    setAll f (o.marked d) vs = setAll f o vs >>= fun r => Out.ok (HRes.marked r d)
  | [], _ => rfl
  | v :: vs, o => by
    unfold setAll
    rw [hf]
    cases f o v with
    | ub u => rfl
    | ok r =>
      simp only [Out.ok_bind]
      show (if r.1 ≠ Err.success then _ else _) = _
      split
      · rfl
      · show (setAll f (r.2.1.marked d) vs >>= _) = _
        rw [setAll_marked hf d vs r.2.1]
        cases setAll f r.2.1 vs <;> rfl

/-- A step that is silent if it succeeds, leaves a value if it succeeds, and keeps the declaration. -/
structure GoodStep (f : Opt → Str → Out HRes) : Prop where
  marked : MarkStep f
  decl : StoreMeta f
  quiet : ∀ o v o' es, f o v = .ok (Err.success, o', es) → es = []
  counts : ∀ o v o' es, f o v = .ok (Err.success, o', es) → o'.valueCount ≠ 0

theorem storeCell_counts {o o' : Opt} {w : Word} (h : storeCell o w = .ok o') : o'.valueCount = o.valueCount + 1 := by
  unfold storeCell at h
  split at h
  · obtain ⟨c, _, h⟩ := Out.bind_eq_ok h
    cases h; rfl
  · cases h

theorem pushCell_counts {o o' : Opt} {w : Word} (h : pushCell o w = .ok o') : o'.valueCount ≠ 0 := by
  obtain ⟨o1, _, h1⟩ := Out.bind_eq_ok h
  rw [storeCell_counts h1]; omega

theorem addRangeLoop_counts : ∀ (n : Nat) (i : Int) {o o' : Opt}, addRangeLoop (n + 1) i o = .ok o' → o'.valueCount ≠ 0
  | 0, i, o, o', h => by
    obtain ⟨o1, h1, h2⟩ := Out.bind_eq_ok h
    cases h2
    exact pushCell_counts h1
  | n + 1, i, o, o', h => by
    obtain ⟨o1, h1, h2⟩ := Out.bind_eq_ok h
    exact addRangeLoop_counts n (i + 1) h2

theorem parseIntRange_le {v : Str} {r : Int × Int} (h : parseIntRange v = some r) : r.1 ≤ r.2 := by
  unfold parseIntRange at h
  split at h
  · simp only [Option.some.injEq] at h
    subst h
    simp only
    omega
  · simp only at h
    split at h
    · cases h
    · simp only [Option.some.injEq] at h
      subst h
      exact Int.le_refl _

theorem setPair_counts {o o' : Opt} {k : Str} {u : Word → Word} {w : Word} (h : setPair o k u w = .ok o') :
    o'.valueCount ≠ 0 := by
  obtain ⟨x, h1, h2⟩ := Out.bind_eq_ok h
  cases x with
  | some i =>
    have hc : o.valueCount ≠ 0 := by
      intro hc
      unfold mapFindKey at h1
      rw [if_pos hc] at h1; cases h1
    cases hv : o.value with
    | map cells => rw [hv] at h2; cases h2; exact hc
    | _ => rw [hv] at h2; cases h2
  | none =>
    obtain ⟨o1, h3, h4⟩ := Out.bind_eq_ok h2
    cases hv : o1.value with
    | map cells =>
      rw [hv] at h4
      simp only at h4
      split at h4
      · cases h4
      · split at h4
        · cases h4
        · cases h4; exact Nat.succ_ne_zero _
    | _ => rw [hv] at h4; cases h4

theorem setValueString_good : GoodStep setValueString where
  marked := setValueString_marked
  decl := setValueString_meta
  quiet o v o' es h := by
    obtain ⟨o1, _, h1⟩ := Out.bind_eq_ok h
    cases h1; rfl
  counts o v o' es h := by
    obtain ⟨o1, h0, h1⟩ := Out.bind_eq_ok h
    cases h1; exact pushCell_counts h0

theorem setValueFloat_good (W : World) : GoodStep (setValueFloat W) where
  marked := setValueFloat_marked W
  decl := setValueFloat_meta W
  quiet o v o' es h := by
    obtain ⟨o1, _, h1⟩ := Out.bind_eq_ok h
    cases h1; rfl
  counts o v o' es h := by
    obtain ⟨o1, h0, h1⟩ := Out.bind_eq_ok h
    cases h1; exact pushCell_counts h0

theorem setValueInt_good : GoodStep setValueInt where
  marked := setValueInt_marked
  decl := setValueInt_meta
  quiet o v o' es h := by
    unfold setValueInt at h
    split at h
    · cases h
    · obtain ⟨o1, _, h1⟩ := Out.bind_eq_ok h
      cases h1; rfl
  counts o v o' es h := by
    unfold setValueInt at h
    split at h
    · cases h
    · rename_i r hr
      obtain ⟨o1, h0, h1⟩ := Out.bind_eq_ok h
      cases h1
      obtain ⟨o2, h2, h3⟩ := Out.bind_eq_ok h0
      split at h3
      · cases h3
      · cases h3
        have := parseIntRange_le hr
        obtain ⟨n, hn⟩ : ∃ n, (r.2 - r.1 + 1).toNat = n + 1 := ⟨(r.2 - r.1).toNat, by omega⟩
        rw [hn] at h2
        exact addRangeLoop_counts n _ h2

theorem setKvPair_good (conv : Str → Option MapStore) : GoodStep (setKvPair conv) where
  marked := setKvPair_marked conv
  decl := setKvPair_meta conv
  quiet o v o' es h := by
    unfold setKvPair at h
    split at h
    · cases h
    · split at h
      · cases h
      · obtain ⟨o1, _, h1⟩ := Out.bind_eq_ok h
        cases h1; rfl
  counts o v o' es h := by
    unfold setKvPair at h
    split at h
    · cases h
    · split at h
      · cases h
      · obtain ⟨o1, h0, h1⟩ := Out.bind_eq_ok h
        cases h1; exact setPair_counts h0

theorem setAll_quiet {f : Opt → Str → Out HRes} (hf : GoodStep f) : ∀ (vs : List Str) {o o' : Opt} {es : List Event},
    setAll f o vs = .ok (Err.success, o', es) → es = [] ∧ (vs ≠ [] → o'.valueCount ≠ 0)
  | [], o, o', es, h => by cases h; exact ⟨rfl, fun h => absurd rfl h⟩
  | v :: vs, o, o', es, h => by
    obtain ⟨r, h1, h2⟩ := Out.bind_eq_ok h
    split at h2
    · rename_i hs; cases h2; exact absurd rfl hs
    · rename_i hs
      obtain ⟨r2, h3, h4⟩ := Out.bind_eq_ok h2
      simp only [Out.ok.injEq, Prod.mk.injEq] at h4
      obtain ⟨e1, e2, e3⟩ := h4
      have hr : f o v = .ok (Err.success, r.2.1, r.2.2) := by rw [h1, ← Classical.not_not.1 hs]
      have hr2 : setAll f r.2.1 vs = .ok (Err.success, o', r2.2.2) := by rw [h3, ← e1, ← e2]
      obtain ⟨q1, q2⟩ := setAll_quiet hf vs hr2
      refine ⟨by rw [← e3, q1, hf.quiet _ _ _ _ hr]; rfl, fun _ => ?_⟩
      cases vs with
      | nil =>
        simp only [setAll, Out.ok.injEq, Prod.mk.injEq] at hr2
        rw [← hr2.2.1]; exact hf.counts _ _ _ _ hr
      | cons w ws => exact q2 (by simp)

/-- The marks that a successful handler leaves. -/
def marksGiven (o : Opt) : Opt := { o with isSet := true, isAllocated := true }

/-- What collecting a text does to an option, as far as it succeeds. -/
def stored (f : Opt → Str → Out HRes) (o : Opt) (ps : List Str) : Option Opt :=
  match setAll f o ps with
  | .ok r => if r.1 = Err.success then some (marksGiven r.2.1) else none
  | .ub _ => none

theorem stored_append {f : Opt → Str → Out HRes} (hf : GoodStep f) (o : Opt) (ps qs : List Str) :
    stored f o (ps ++ qs) = (stored f o ps).bind (fun o1 => stored f o1 qs) := by
  have fails : ∀ (ps : List Str) (o : Opt), (∀ o1 es, setAll f o ps ≠ .ok (Err.success, o1, es)) →
      ∀ o1 es, setAll f o (ps ++ qs) ≠ .ok (Err.success, o1, es) := by
    intro ps
    induction ps with
    | nil => intro o h; exact absurd rfl (h o [])
    | cons p ps ih =>
      intro o h o1 es h'
      obtain ⟨r, h1, h2⟩ := Out.bind_eq_ok h'
      split at h2
      · rename_i hs; cases h2; exact absurd rfl hs
      · rename_i hs
        obtain ⟨r2, h3, h4⟩ := Out.bind_eq_ok h2
        simp only [Out.ok.injEq, Prod.mk.injEq] at h4
        refine ih r.2.1 ?_ o1 r2.2.2 (by
          show setAll f r.2.1 (ps.append qs) = _
          rw [h3, ← h4.1, ← h4.2.1])
        intro o2 es2 h5
        refine h o2 (r.2.2 ++ es2) ?_
        rw [setAll, h1, Out.ok_bind, if_neg hs, h5, Out.ok_bind]
  cases h : setAll f o ps with
  | ub u =>
    have hn := fails ps o (by intro o1 es h'; rw [h] at h'; cases h')
    have e1 : stored f o ps = none := by unfold stored; rw [h]
    rw [e1]
    unfold stored
    split
    · rename_i r hr
      split
      · rename_i hs; exact absurd (by rw [hr, ← hs]) (hn r.2.1 r.2.2)
      · rfl
    · rfl
  | ok r =>
    by_cases hs : r.1 = Err.success
    · have hr : setAll f o ps = .ok (Err.success, r.2.1, r.2.2) := by rw [h, ← hs]
      have hq := (setAll_quiet hf ps hr).1
      rw [hq] at hr
      have e1 : stored f o ps = some (marksGiven r.2.1) := by unfold stored; rw [hr]; simp
      rw [e1, Option.bind_some]
      unfold stored
      rw [setAll_append f ps qs o r.2.1 hr]
      have hm := setAll_marked hf.marked (marksGiven r.2.1) qs r.2.1
      have e2 : r.2.1.marked (marksGiven r.2.1) = marksGiven r.2.1 := rfl
      rw [e2] at hm
      rw [hm]
      cases setAll f r.2.1 qs with
      | ub u => rfl
      | ok q => rfl
    · have hn := fails ps o (by intro o1 es h'; rw [h] at h'; cases h'; exact hs rfl)
      have e1 : stored f o ps = none := by unfold stored; rw [h]; simp [hs]
      rw [e1]
      unfold stored
      split
      · rename_i q hq
        split
        · rename_i hs; exact absurd (by rw [hq, ← hs]) (hn q.2.1 q.2.2)
        · rfl
      · rfl

/-- No flag that rearranges values. -/
def Plainly (o : Opt) : Prop :=
  o.flags.has .sorted = false ∧ o.flags.has .unique = false ∧ o.flags.has .sortedValue = false ∧
    o.flags.has .sortedKey = false ∧ o.flags.has .uniqueValue = false

theorem applyArrayFlags_plainly {W : World} {o : Opt} (h : Plainly o) : applyArrayFlags W o = .ok o := by
  unfold applyArrayFlags
  split
  · rfl
  · split
    · rfl
    · simp [applySorted, applyUnique, h.1, h.2.1]

theorem applyMapFlags_plainly {W : World} {o : Opt} (h : Plainly o) : applyMapFlags W o = .ok o := by
  unfold applyMapFlags
  split
  · rfl
  · simp [applyUniqueValue, applyMapSort, h.2.2.1, h.2.2.2.1, h.2.2.2.2]

/-- How the handlers that split texts store a piece. -/
def Handler.step (W : World) : Handler → Opt → Str → Out HRes
  | .arrayString => setValueString
  | .arrayInt => setValueInt
  | .arrayFloat => setValueFloat W
  | .mapString => setKvPair mapStringConv
  | .mapInt => setKvPair mapIntConv
  | .mapFloat => setKvPair (mapFloatConv W)
  | .mapBool => setKvPair mapBoolConv
  | _ => setValueString

theorem Handler.step_good (W : World) (h : Handler) : GoodStep (h.step W) := by
  cases h with
  | arrayInt => exact setValueInt_good
  | arrayFloat => exact setValueFloat_good W
  | mapString => exact setKvPair_good mapStringConv
  | mapInt => exact setKvPair_good mapIntConv
  | mapFloat => exact setKvPair_good (mapFloatConv W)
  | mapBool => exact setKvPair_good mapBoolConv
  | _ => exact setValueString_good

theorem runHandler_step {W : World} {a : Argus} {h : Handler} (hs : h.splits = true) {o : Opt} (hp : Plainly o) (v : Str) :
    runHandler W a h o (some v) = (setAll (h.step W) o (pieces v) >>= fun r =>
      if r.1 ≠ Err.success then .ok r else .ok (Err.success, { r.2.1 with isAllocated := true }, r.2.2)) := by
  have key : ∀ (f : Opt → Str → Out HRes) (g : Opt → Out Opt), StoreMeta f → (∀ o, Plainly o → g o = .ok o) →
      collect f g o (some v) = (setAll f o (pieces v) >>= fun r =>
        if r.1 ≠ Err.success then .ok r else .ok (Err.success, { r.2.1 with isAllocated := true }, r.2.2)) := by
    intro f g hm hg
    unfold collect
    simp only [storeParts_pieces]
    cases hr : setAll f o (pieces v) with
    | ub u => rfl
    | ok r =>
      simp only [Out.ok_bind]
      split
      · rfl
      · have hfl : r.2.1.flags = o.flags := (congrArg Opt.flags (setAll_meta hm _ hr) : r.2.1.meta.flags = o.meta.flags)
        rw [hg r.2.1 (by unfold Plainly at hp ⊢; rw [hfl]; exact hp)]; rfl
  have hm := (h.step_good W).decl
  cases h <;> first
    | exact key _ _ hm (fun o => applyArrayFlags_plainly)
    | exact key _ _ hm (fun o => applyMapFlags_plainly)
    | exact absurd hs (by simp [Handler.splits])

theorem give_stored {W : World} {o : Opt} {h : Handler} (hh : o.handler = some h) (hs : h.splits = true) (hp : Plainly o)
    {v : Str} (hv : pieces v ≠ []) : o.give W (some v) = stored (h.step W) o (pieces v) := by
  unfold Opt.give stored
  rw [hh]
  simp only [runHandler_step hs hp]
  cases hr : setAll (h.step W) o (pieces v) with
  | ub u => rfl
  | ok r =>
    simp only [Out.ok_bind]
    by_cases h0 : r.1 = Err.success
    · have hc := (setAll_quiet (h.step_good W) (pieces v) (o := o) (o' := r.2.1) (es := r.2.2) (by rw [hr, ← h0])).2 hv
      simp only [h0, ne_eq, not_true_eq_false, if_false, if_true]
      unfold Opt.markSet marksGiven
      simp only [hc, if_false]
    · simp [h0]

end Argus
