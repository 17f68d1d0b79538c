import Verif.Lemmas.HandlerMeta

/-!
# Handlers and the parts of an option they do not read

`o.wear d` is `o` with help texts, constraints and flags of `d`. Handlers read none of these, except for the flags
that ask for sorting and removal of duplicates.
-/

set_option autoImplicit false

namespace Argus

/-- `o` with the help texts, constraints and flags of `d`. -/
def Opt.wear (o d : Opt) : Opt :=
  { o with help := d.help, hint := d.hint, validators := d.validators, conflict := d.conflict, require := d.require,
           flags := d.flags }

/-- The flags that handlers look at. -/
def SortAlike (f g : Flags) : Prop :=
  f.has .sorted = g.has .sorted ∧ f.has .unique = g.has .unique ∧ f.has .sortedValue = g.has .sortedValue ∧
    f.has .sortedKey = g.has .sortedKey ∧ f.has .uniqueValue = g.has .uniqueValue

theorem adjustArray_wear (o d : Opt) :
    adjustArray (o.wear d) = adjustArray o >>= fun o1 => Out.ok (o1.wear d) := by
  unfold adjustArray
  show (match o.value with | .word w => _ | .arr cells => _ | .map _ => _ | .dangling => _) = _
  cases hv : o.value with
  | word w => simp only; split <;> rfl
  | arr cells =>
    show (if o.valueCount ≥ o.valueCapacity then _ else _) = _
    simp only; split <;> rfl
  | map cells => rfl
  | dangling => rfl

theorem adjustMap_wear (o d : Opt) :
    adjustMap (o.wear d) = adjustMap o >>= fun o1 => Out.ok (o1.wear d) := by
  unfold adjustMap
  show (match o.value with | .word w => _ | .map cells => _ | .arr _ => _ | .dangling => _) = _
  cases hv : o.value with
  | word w => simp only; split <;> rfl
  | map cells =>
    show (if o.valueCount ≥ o.valueCapacity then _ else _) = _
    simp only; split <;> rfl
  | arr cells => rfl
  | dangling => rfl

theorem storeCell_wear (o d : Opt) (w : Word) :
    storeCell (o.wear d) w = storeCell o w >>= fun o1 => Out.ok (o1.wear d) := by
  unfold storeCell Opt.wear
  cases hv : o.value <;> simp only [hv] <;> try rfl
  cases writeCell _ _ _ w <;> rfl

theorem pushCell_wear (o d : Opt) (w : Word) :
    pushCell (o.wear d) w = pushCell o w >>= fun o1 => Out.ok (o1.wear d) := by
  unfold pushCell
  rw [adjustArray_wear]
  cases adjustArray o with
  | ub u => rfl
  | ok o1 => exact storeCell_wear o1 d w

theorem addRangeLoop_wear (d : Opt) : ∀ (n : Nat) (i : Int) (o : Opt),
    addRangeLoop n i (o.wear d) = addRangeLoop n i o >>= fun o1 => Out.ok (o1.wear d)
  | 0, _, _ => rfl
  | n + 1, i, o => by
    unfold addRangeLoop
    rw [pushCell_wear]
    cases pushCell o _ with
    | ub u => rfl
    | ok o1 => exact addRangeLoop_wear d n (i + 1) o1

theorem addRange_wear (o d : Opt) (r : Int × Int) :
    addRange (o.wear d) r = addRange o r >>= fun o1 => Out.ok (o1.wear d) := by
  unfold addRange
  rw [addRangeLoop_wear]
  cases addRangeLoop _ _ o with
  | ub u => rfl
  | ok o1 =>
    simp only [Out.ok_bind]
    split <;> rfl

/-- The result of a handler, worn by the option of the result. -/
def HRes.wear (r : HRes) (d : Opt) : HRes := (r.1, r.2.1.wear d, r.2.2)

/-- A step that does not look at what `wear` changes. -/
def WearStep (f : Opt → Str → Out HRes) : Prop :=
  ∀ o d v, f (o.wear d) v = f o v >>= fun r => Out.ok (r.wear d)

theorem setValueInt_wear : WearStep setValueInt := by
  intro o d v
  unfold setValueInt
  cases parseIntRange v with
  | none => rfl
  | some r =>
    simp only [addRange_wear]
    cases addRange o r <;> rfl

theorem setValueString_wear : WearStep setValueString := by
  intro o d v
  unfold setValueString
  rw [pushCell_wear]
  cases pushCell o _ <;> rfl

theorem setValueFloat_wear (W : World) : WearStep (setValueFloat W) := by
  intro o d v
  unfold setValueFloat
  rw [pushCell_wear]
  cases pushCell o _ <;> rfl

theorem mapCells_wear (o d : Opt) : (o.wear d).mapCells = o.mapCells := rfl

theorem mapFindKey_wear (o d : Opt) (k : Str) : mapFindKey (o.wear d) k = mapFindKey o k := rfl

theorem setPair_wear (o d : Opt) (k : Str) (f : Word → Word) (w : Word) :
    setPair (o.wear d) k f w = setPair o k f w >>= fun o1 => Out.ok (o1.wear d) := by
  unfold setPair
  rw [mapFindKey_wear]
  cases mapFindKey o k with
  | ub u => rfl
  | ok x =>
    cases x with
    | some i =>
      simp only [Out.ok_bind]
      show (match o.value with | .map cells => _ | _ => _) = _
      cases hv : o.value <;> rfl
    | none =>
      simp only [Out.ok_bind]
      rw [adjustMap_wear]
      cases adjustMap o with
      | ub u => rfl
      | ok o1 =>
        simp only [Out.ok_bind]
        show (match o1.value with | .map cells => _ | _ => _) = _
        cases hv : o1.value with
        | map cells =>
          show (if o1.valueCapacity ≤ o1.valueCount then _ else if cells.length < o1.valueCount then _ else _) = _
          simp only
          split
          · rfl
          split <;> rfl
        | _ => rfl

theorem setKvPair_wear (conv : Str → Option MapStore) : WearStep (setKvPair conv) := by
  intro o d v
  unfold setKvPair
  cases strchrSplit 61 v with
  | none => rfl
  | some kv =>
    simp only
    cases conv kv.2 with
    | none => rfl
    | some st =>
      simp only
      rw [setPair_wear]
      cases setPair o _ _ _ <;> rfl

theorem setAll_wear {f : Opt → Str → Out HRes} (hf : WearStep f) (d : Opt) : ∀ (vs : List Str) (o : Opt),
    setAll f (o.wear d) vs = setAll f o vs >>= fun r => Out.ok (HRes.wear r d)
  | [], _ => rfl
  | v :: vs, o => by
    unfold setAll
    rw [hf]
    cases f o v with
    | ub u => rfl
    | ok r =>
      simp only [Out.ok_bind]
      show (if r.1 ≠ Err.success then _ else _) = _
      split
      · rfl
      · show (setAll f (r.2.1.wear d) vs >>= _) = _
        rw [setAll_wear hf d vs r.2.1]
        cases setAll f r.2.1 vs <;> rfl

theorem storeParts_wear {f : Opt → Str → Out HRes} (hf : WearStep f) (o d : Opt) (v : Str) :
    storeParts f (o.wear d) v = storeParts f o v >>= fun r => Out.ok (HRes.wear r d) := by
  unfold storeParts
  split
  · exact setAll_wear hf d _ o
  · exact hf o d v

theorem applySorted_wear {W : World} {k : CellKind} {o d : Opt} (h : SortAlike d.flags o.flags) :
    applySorted W k (o.wear d) = applySorted W k o >>= fun o1 => Out.ok (o1.wear d) := by
  unfold applySorted
  show (if d.flags.has .sorted then (o.arrayCells k >>= fun cells => _) else _) = _
  rw [h.1]
  split
  · cases o.arrayCells k <;> rfl
  · rfl

theorem applyUnique_wear {k : CellKind} {o d : Opt} (h : SortAlike d.flags o.flags) :
    applyUnique k (o.wear d) = applyUnique k o >>= fun o1 => Out.ok (o1.wear d) := by
  unfold applyUnique
  show (if d.flags.has .unique then (o.arrayCells k >>= fun cells => _) else _) = _
  rw [h.2.1]
  split
  · cases o.arrayCells k <;> rfl
  · rfl

theorem flags_of_meta {o o' : Opt} (h : o'.meta = o.meta) : o'.flags = o.flags := by
  have := congrArg Opt.flags h; exact this

theorem applyArrayFlags_wear {W : World} {o d : Opt} (h : SortAlike d.flags o.flags) :
    applyArrayFlags W (o.wear d) = applyArrayFlags W o >>= fun o1 => Out.ok (o1.wear d) := by
  unfold applyArrayFlags
  show (if o.valueCount ≤ 1 then _ else match o.valueType.arrayKind with | none => _ | some k => _) = _
  split
  · rfl
  · cases o.valueType.arrayKind with
    | none => rfl
    | some k =>
      simp only
      rw [applySorted_wear h]
      cases hs : applySorted W k o with
      | ub u => rfl
      | ok o1 => exact applyUnique_wear (by rw [flags_of_meta (applySorted_meta hs)]; exact h)

theorem applyUniqueValue_wear {o d : Opt} (h : SortAlike d.flags o.flags) :
    applyUniqueValue (o.wear d) = applyUniqueValue o >>= fun o1 => Out.ok (o1.wear d) := by
  unfold applyUniqueValue
  show (if d.flags.has .uniqueValue then (o.mapCells >>= fun cells => _) else _) = _
  rw [h.2.2.2.2]
  split
  · cases o.mapCells with
    | ub u => rfl
    | ok cells =>
      simp only [Out.ok_bind]
      show (match o.valueType.uniqueKind with | none => _ | some k => _) = _
      cases o.valueType.uniqueKind with
      | none => rfl
      | some k => simp only; split <;> rfl
  · rfl

theorem applyMapSort_wear {W : World} {o d : Opt} (h : SortAlike d.flags o.flags) :
    applyMapSort W (o.wear d) = applyMapSort W o >>= fun o1 => Out.ok (o1.wear d) := by
  unfold applyMapSort
  show (if d.flags.has .sortedKey then (o.mapCells >>= fun cells => _) else if d.flags.has .sortedValue then _ else _) = _
  rw [h.2.2.2.1, h.2.2.1]
  split
  · cases o.mapCells <;> rfl
  · split
    · show (match o.valueType.mapKind with | none => _ | some k => _) = _
      cases o.valueType.mapKind with
      | none => rfl
      | some k =>
        simp only
        show (o.mapCells >>= _) = _
        cases o.mapCells with
        | ub u => rfl
        | ok cells => simp only [Out.ok_bind]; split <;> rfl
    · rfl

theorem applyMapFlags_wear {W : World} {o d : Opt} (h : SortAlike d.flags o.flags) :
    applyMapFlags W (o.wear d) = applyMapFlags W o >>= fun o1 => Out.ok (o1.wear d) := by
  unfold applyMapFlags
  show (if o.valueCount ≤ 1 then _ else _) = _
  split
  · rfl
  · rw [applyUniqueValue_wear h]
    cases hs : applyUniqueValue o with
    | ub u => rfl
    | ok o1 => exact applyMapSort_wear (by rw [flags_of_meta (applyUniqueValue_meta hs)]; exact h)

theorem storeParts_keeps {f : Opt → Str → Out HRes} (hm : StoreMeta f) {o : Opt} {v : Str} {r : HRes}
    (h : storeParts f o v = .ok r) : r.2.1.meta = o.meta := by
  unfold storeParts at h
  split at h
  · exact setAll_meta hm _ h
  · exact hm _ _ _ h

theorem collect_wear {f : Opt → Str → Out HRes} {g : Opt → Out Opt} (hf : WearStep f) (hm : StoreMeta f)
    {o d : Opt} (hg : ∀ o1 : Opt, o1.meta = o.meta → g (o1.wear d) = g o1 >>= fun o2 => Out.ok (o2.wear d))
    (x : Option Str) : collect f g (o.wear d) x = collect f g o x >>= fun r => Out.ok (HRes.wear r d) := by
  unfold collect
  cases x with
  | none => rfl
  | some v =>
    simp only
    rw [storeParts_wear hf]
    cases hs : storeParts f o v with
    | ub u => rfl
    | ok r =>
      simp only [Out.ok_bind]
      show (if r.1 ≠ Err.success then _ else _) = _
      split
      · rfl
      · show (g (r.2.1.wear d) >>= _) = _
        rw [hg r.2.1 (storeParts_keeps hm hs)]
        cases g r.2.1 <;> rfl

theorem variadicNum_wear {W : World} (conv : Str → Option Word) {o d : Opt} (h : SortAlike d.flags o.flags)
    (x : Option Str) : variadicNum W conv (o.wear d) x = variadicNum W conv o x >>= fun r => Out.ok (HRes.wear r d) := by
  unfold variadicNum
  rw [adjustArray_wear]
  cases ha : adjustArray o with
  | ub u => rfl
  | ok o1 =>
    simp only [Out.ok_bind]
    cases x with
    | none => rfl
    | some v =>
      simp only
      cases conv v with
      | none => rfl
      | some w =>
        simp only
        rw [storeCell_wear]
        cases hs : storeCell o1 w with
        | ub u => rfl
        | ok o2 =>
          simp only [Out.ok_bind]
          rw [applyArrayFlags_wear (by
            rw [flags_of_meta ((storeCell_meta hs).trans (adjustArray_meta ha))]; exact h)]
          cases applyArrayFlags W o2 <;> rfl

theorem setBool_wear (o d : Opt) (b : Bool) : (o.wear d).setBool b = (o.setBool b).wear d := by
  unfold Opt.setBool Opt.wear
  cases hv : o.value <;> simp only

theorem boolHandler_wear (o d : Opt) (x : Option Str) :
    boolHandler (o.wear d) x = boolHandler o x >>= fun r => Out.ok (HRes.wear r d) := by
  unfold boolHandler
  cases x with
  | none => rfl
  | some s =>
    simp only
    cases stringToBool s with
    | none => rfl
    | some b => simp only [setBool_wear]; rfl

/-- Handlers do not look at help texts, constraints and other flags. -/
theorem runHandler_wear {W : World} (a : Argus) (hd : Handler) {o d : Opt} (x : Option Str)
    (h : SortAlike d.flags o.flags) (hu : ∀ id, W.handler id (o.wear d) x = W.handler id o x) :
    runHandler W a hd (o.wear d) x = runHandler W a hd o x >>= fun r => Out.ok (HRes.wear r d) := by
  have ga : ∀ o1 : Opt, o1.meta = o.meta →
      applyArrayFlags W (o1.wear d) = applyArrayFlags W o1 >>= fun o2 => Out.ok (o2.wear d) := fun o1 hm =>
    applyArrayFlags_wear (by rw [flags_of_meta hm]; exact h)
  have gm : ∀ o1 : Opt, o1.meta = o.meta →
      applyMapFlags W (o1.wear d) = applyMapFlags W o1 >>= fun o2 => Out.ok (o2.wear d) := fun o1 hm =>
    applyMapFlags_wear (by rw [flags_of_meta hm]; exact h)
  unfold runHandler
  cases hd with
  | flag => simp only [setBool_wear]; rfl
  | bool => exact boolHandler_wear o d x
  | string => rfl
  | int => cases x <;> rfl
  | float => cases x <;> rfl
  | help => simp only; cases a.activeOptions <;> rfl
  | version => rfl
  | arrayString => exact collect_wear setValueString_wear setValueString_meta ga x
  | arrayInt => exact collect_wear setValueInt_wear setValueInt_meta ga x
  | arrayFloat => exact collect_wear (setValueFloat_wear W) (setValueFloat_meta W) ga x
  | mapString => exact collect_wear (setKvPair_wear _) (setKvPair_meta _) gm x
  | mapInt => exact collect_wear (setKvPair_wear _) (setKvPair_meta _) gm x
  | mapFloat => exact collect_wear (setKvPair_wear _) (setKvPair_meta _) gm x
  | mapBool => exact collect_wear (setKvPair_wear _) (setKvPair_meta _) gm x
  | variadicString => exact variadicNum_wear _ h x
  | variadicInt => exact variadicNum_wear _ h x
  | variadicFloat => exact variadicNum_wear _ h x
  | custom id => simp only [hu]; rfl

end Argus
