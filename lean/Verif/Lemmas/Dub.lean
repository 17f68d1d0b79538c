import Verif.Lemmas.Wear

/-!
# Handlers and the names of an option

`o.dub d` is `o` with the names, help texts, constraints and flags of `d`. Handlers read none of these, except for the flags
that ask for sorting and removal of duplicates.
-/

set_option autoImplicit false

namespace Argus

/-- `o` with the names, help texts, constraints and flags of `d`. -/
def Opt.dub (o d : Opt) : Opt :=
  { o with help := d.help, hint := d.hint, validators := d.validators, conflict := d.conflict, require := d.require,
           flags := d.flags, name := d.name, sname := d.sname, lname := d.lname, envName := d.envName }

theorem adjustArray_dub (o d : Opt) :
    adjustArray (o.dub d) = adjustArray o >>= fun o1 => Out.ok (o1.dub d) := by
  unfold adjustArray
  show (match o.value with | .word w => _ | .arr cells => _ | .map _ => _ | .dangling => _) = _
  cases hv : o.value with
  | word w => simp only; split <;> rfl
  | arr cells =>
    show (if o.valueCount ≥ o.valueCapacity then _ else _) = _
    simp only; split <;> rfl
  | map cells => rfl
  | dangling => rfl

theorem adjustMap_dub (o d : Opt) :
    adjustMap (o.dub d) = adjustMap o >>= fun o1 => Out.ok (o1.dub d) := by
  unfold adjustMap
  show (match o.value with | .word w => _ | .map cells => _ | .arr _ => _ | .dangling => _) = _
  cases hv : o.value with
  | word w => simp only; split <;> rfl
  | map cells =>
    show (if o.valueCount ≥ o.valueCapacity then _ else _) = _
    simp only; split <;> rfl
  | arr cells => rfl
  | dangling => rfl

theorem storeCell_dub (o d : Opt) (w : Word) :
    storeCell (o.dub d) w = storeCell o w >>= fun o1 => Out.ok (o1.dub d) := by
  unfold storeCell Opt.dub
  cases hv : o.value <;> simp only [hv] <;> try rfl
  cases writeCell _ _ _ w <;> rfl

theorem pushCell_dub (o d : Opt) (w : Word) :
    pushCell (o.dub d) w = pushCell o w >>= fun o1 => Out.ok (o1.dub d) := by
  unfold pushCell
  rw [adjustArray_dub]
  cases adjustArray o with
  | ub u => rfl
  | ok o1 => exact storeCell_dub o1 d w

theorem addRangeLoop_dub (d : Opt) : ∀ (n : Nat) (i : Int) (o : Opt),
    addRangeLoop n i (o.dub d) = addRangeLoop n i o >>= fun o1 => Out.ok (o1.dub d)
  | 0, _, _ => rfl
  | n + 1, i, o => by
    unfold addRangeLoop
    rw [pushCell_dub]
    cases pushCell o _ with
    | ub u => rfl
    | ok o1 => exact addRangeLoop_dub d n (i + 1) o1

theorem addRange_dub (o d : Opt) (r : Int × Int) :
    addRange (o.dub d) r = addRange o r >>= fun o1 => Out.ok (o1.dub d) := by
  unfold addRange
  rw [addRangeLoop_dub]
  cases addRangeLoop _ _ o with
  | ub u => rfl
  | ok o1 =>
    simp only [Out.ok_bind]
    split <;> rfl

/-- The result of a handler, worn by the option of the result. -/
def HRes.dub (r : HRes) (d : Opt) : HRes := (r.1, r.2.1.dub d, r.2.2)

/-- A step that does not look at what `dub` changes. -/
def DubStep (f : Opt → Str → Out HRes) : Prop :=
  ∀ o d v, f (o.dub d) v = f o v >>= fun r => Out.ok (r.dub d)

theorem setValueInt_dub : DubStep setValueInt := by
  intro o d v
  unfold setValueInt
  cases parseIntRange v with
  | none => rfl
  | some r =>
    simp only [addRange_dub]
    cases addRange o r <;> rfl

theorem setValueString_dub : DubStep setValueString := by
  intro o d v
  unfold setValueString
  rw [pushCell_dub]
  cases pushCell o _ <;> rfl

theorem setValueFloat_dub (W : World) : DubStep (setValueFloat W) := by
  intro o d v
  unfold setValueFloat
  rw [pushCell_dub]
  cases pushCell o _ <;> rfl

theorem mapCells_dub (o d : Opt) : (o.dub d).mapCells = o.mapCells := rfl

theorem mapFindKey_dub (o d : Opt) (k : Str) : mapFindKey (o.dub d) k = mapFindKey o k := rfl

theorem setPair_dub (o d : Opt) (k : Str) (f : Word → Word) (w : Word) :
    setPair (o.dub d) k f w = setPair o k f w >>= fun o1 => Out.ok (o1.dub d) := by
  unfold setPair
  rw [mapFindKey_dub]
  cases mapFindKey o k with
  | ub u => rfl
  | ok x =>
    cases x with
    | some i =>
      simp only [Out.ok_bind]
      show (match o.value with | .map cells => _ | _ => _) = _
      cases hv : o.value <;> rfl
    | none =>
      simp only [Out.ok_bind]
      rw [adjustMap_dub]
      cases adjustMap o with
      | ub u => rfl
      | ok o1 =>
        simp only [Out.ok_bind]
        show (match o1.value with | .map cells => _ | _ => _) = _
        cases hv : o1.value with
        | map cells =>
          show (if o1.valueCapacity ≤ o1.valueCount then _ else if cells.length < o1.valueCount then _ else _) = _
          simp only
          split
          · rfl
          split <;> rfl
        | _ => rfl

theorem setKvPair_dub (conv : Str → Option MapStore) : DubStep (setKvPair conv) := by
  intro o d v
  unfold setKvPair
  cases strchrSplit 61 v with
  | none => rfl
  | some kv =>
    simp only
    cases conv kv.2 with
    | none => rfl
    | some st =>
      simp only
      rw [setPair_dub]
      cases setPair o _ _ _ <;> rfl

theorem setAll_dub {f : Opt → Str → Out HRes} (hf : DubStep f) (d : Opt) : ∀ (vs : List Str) (o : Opt),
    setAll f (o.dub d) vs = setAll f o vs >>= fun r => Out.ok (HRes.dub r d)
  | [], _ => rfl
  | v :: vs, o => by
    unfold setAll
    rw [hf]
    cases f o v with
    | ub u => rfl
    | ok r =>
      simp only [Out.ok_bind]
      show (if r.1 ≠ Err.success then _ else _) = _
      split
      · rfl
      · show (setAll f (r.2.1.dub d) vs >>= _) = _
        rw [setAll_dub hf d vs r.2.1]
        cases setAll f r.2.1 vs <;> rfl

theorem storeParts_dub {f : Opt → Str → Out HRes} (hf : DubStep f) (o d : Opt) (v : Str) :
    storeParts f (o.dub d) v = storeParts f o v >>= fun r => Out.ok (HRes.dub r d) := by
  unfold storeParts
  split
  · exact setAll_dub hf d _ o
  · exact hf o d v

theorem applySorted_dub {W : World} {k : CellKind} {o d : Opt} (h : SortAlike d.flags o.flags) :
    applySorted W k (o.dub d) = applySorted W k o >>= fun o1 => Out.ok (o1.dub d) := by
  unfold applySorted
  show (if d.flags.has .sorted then (o.arrayCells k >>= fun cells => _) else _) = _
  rw [h.1]
  split
  · cases o.arrayCells k <;> rfl
  · rfl

theorem applyUnique_dub {k : CellKind} {o d : Opt} (h : SortAlike d.flags o.flags) :
    applyUnique k (o.dub d) = applyUnique k o >>= fun o1 => Out.ok (o1.dub d) := by
  unfold applyUnique
  show (if d.flags.has .unique then (o.arrayCells k >>= fun cells => _) else _) = _
  rw [h.2.1]
  split
  · cases o.arrayCells k <;> rfl
  · rfl

theorem applyArrayFlags_dub {W : World} {o d : Opt} (h : SortAlike d.flags o.flags) :
    applyArrayFlags W (o.dub d) = applyArrayFlags W o >>= fun o1 => Out.ok (o1.dub d) := by
  unfold applyArrayFlags
  show (if o.valueCount ≤ 1 then _ else match o.valueType.arrayKind with | none => _ | some k => _) = _
  split
  · rfl
  · cases o.valueType.arrayKind with
    | none => rfl
    | some k =>
      simp only
      rw [applySorted_dub h]
      cases hs : applySorted W k o with
      | ub u => rfl
      | ok o1 => exact applyUnique_dub (by rw [flags_of_meta (applySorted_meta hs)]; exact h)

theorem applyUniqueValue_dub {o d : Opt} (h : SortAlike d.flags o.flags) :
    applyUniqueValue (o.dub d) = applyUniqueValue o >>= fun o1 => Out.ok (o1.dub d) := by
  unfold applyUniqueValue
  show (if d.flags.has .uniqueValue then (o.mapCells >>= fun cells => _) else _) = _
  rw [h.2.2.2.2]
  split
  · cases o.mapCells with
    | ub u => rfl
    | ok cells =>
      simp only [Out.ok_bind]
      show (match o.valueType.uniqueKind with | none => _ | some k => _) = _
      cases o.valueType.uniqueKind with
      | none => rfl
      | some k => simp only; split <;> rfl
  · rfl

theorem applyMapSort_dub {W : World} {o d : Opt} (h : SortAlike d.flags o.flags) :
    applyMapSort W (o.dub d) = applyMapSort W o >>= fun o1 => Out.ok (o1.dub d) := by
  unfold applyMapSort
  show (if d.flags.has .sortedKey then (o.mapCells >>= fun cells => _) else if d.flags.has .sortedValue then _ else _) = _
  rw [h.2.2.2.1, h.2.2.1]
  split
  · cases o.mapCells <;> rfl
  · split
    · show (match o.valueType.mapKind with | none => _ | some k => _) = _
      cases o.valueType.mapKind with
      | none => rfl
      | some k =>
        simp only
        show (o.mapCells >>= _) = _
        cases o.mapCells with
        | ub u => rfl
        | ok cells => simp only [Out.ok_bind]; split <;> rfl
    · rfl

theorem applyMapFlags_dub {W : World} {o d : Opt} (h : SortAlike d.flags o.flags) :
    applyMapFlags W (o.dub d) = applyMapFlags W o >>= fun o1 => Out.ok (o1.dub d) := by
  unfold applyMapFlags
  show (if o.valueCount ≤ 1 then _ else _) = _
  split
  · rfl
  · rw [applyUniqueValue_dub h]
    cases hs : applyUniqueValue o with
    | ub u => rfl
    | ok o1 => exact applyMapSort_dub (by rw [flags_of_meta (applyUniqueValue_meta hs)]; exact h)

theorem collect_dub {f : Opt → Str → Out HRes} {g : Opt → Out Opt} (hf : DubStep f) (hm : StoreMeta f)
    {o d : Opt} (hg : ∀ o1 : Opt, o1.meta = o.meta → g (o1.dub d) = g o1 >>= fun o2 => Out.ok (o2.dub d))
    (x : Option Str) : collect f g (o.dub d) x = collect f g o x >>= fun r => Out.ok (HRes.dub r d) := by
  unfold collect
  cases x with
  | none => rfl
  | some v =>
    simp only
    rw [storeParts_dub hf]
    cases hs : storeParts f o v with
    | ub u => rfl
    | ok r =>
      simp only [Out.ok_bind]
      show (if r.1 ≠ Err.success then _ else _) = _
      split
      · rfl
      · show (g (r.2.1.dub d) >>= _) = _
        rw [hg r.2.1 (storeParts_keeps hm hs)]
        cases g r.2.1 <;> rfl

theorem variadicNum_dub {W : World} (conv : Str → Option Word) {o d : Opt} (h : SortAlike d.flags o.flags)
    (x : Option Str) : variadicNum W conv (o.dub d) x = variadicNum W conv o x >>= fun r => Out.ok (HRes.dub r d) := by
  unfold variadicNum
  rw [adjustArray_dub]
  cases ha : adjustArray o with
  | ub u => rfl
  | ok o1 =>
    simp only [Out.ok_bind]
    cases x with
    | none => rfl
    | some v =>
      simp only
      cases conv v with
      | none => rfl
      | some w =>
        simp only
        rw [storeCell_dub]
        cases hs : storeCell o1 w with
        | ub u => rfl
        | ok o2 =>
          simp only [Out.ok_bind]
          rw [applyArrayFlags_dub (by
            rw [flags_of_meta ((storeCell_meta hs).trans (adjustArray_meta ha))]; exact h)]
          cases applyArrayFlags W o2 <;> rfl

theorem setBool_dub (o d : Opt) (b : Bool) : (o.dub d).setBool b = (o.setBool b).dub d := by
  unfold Opt.setBool Opt.dub
  cases hv : o.value <;> simp only

theorem boolHandler_dub (o d : Opt) (x : Option Str) :
    boolHandler (o.dub d) x = boolHandler o x >>= fun r => Out.ok (HRes.dub r d) := by
  unfold boolHandler
  cases x with
  | none => rfl
  | some s =>
    simp only
    cases stringToBool s with
    | none => rfl
    | some b => simp only [setBool_dub]; rfl

/-- Handlers do not look at names, help texts, constraints and other flags. -/
theorem runHandler_dub {W : World} (a : Argus) (hd : Handler) {o d : Opt} (x : Option Str)
    (h : SortAlike d.flags o.flags) (hu : ∀ id, W.handler id (o.dub d) x = W.handler id o x) :
    runHandler W a hd (o.dub d) x = runHandler W a hd o x >>= fun r => Out.ok (HRes.dub r d) := by
  have ga : ∀ o1 : Opt, o1.meta = o.meta →
      applyArrayFlags W (o1.dub d) = applyArrayFlags W o1 >>= fun o2 => Out.ok (o2.dub d) := fun o1 hm =>
    applyArrayFlags_dub (by rw [flags_of_meta hm]; exact h)
  have gm : ∀ o1 : Opt, o1.meta = o.meta →
      applyMapFlags W (o1.dub d) = applyMapFlags W o1 >>= fun o2 => Out.ok (o2.dub d) := fun o1 hm =>
    applyMapFlags_dub (by rw [flags_of_meta hm]; exact h)
  unfold runHandler
  cases hd with
  | flag => simp only [setBool_dub]; rfl
  | bool => exact boolHandler_dub o d x
  | string => rfl
  | int => cases x <;> rfl
  | float => cases x <;> rfl
  | help => simp only; cases a.activeOptions <;> rfl
  | version => rfl
  | arrayString => exact collect_dub setValueString_dub setValueString_meta ga x
  | arrayInt => exact collect_dub setValueInt_dub setValueInt_meta ga x
  | arrayFloat => exact collect_dub (setValueFloat_dub W) (setValueFloat_meta W) ga x
  | mapString => exact collect_dub (setKvPair_dub _) (setKvPair_meta _) gm x
  | mapInt => exact collect_dub (setKvPair_dub _) (setKvPair_meta _) gm x
  | mapFloat => exact collect_dub (setKvPair_dub _) (setKvPair_meta _) gm x
  | mapBool => exact collect_dub (setKvPair_dub _) (setKvPair_meta _) gm x
  | variadicString => exact variadicNum_dub _ h x
  | variadicInt => exact variadicNum_dub _ h x
  | variadicFloat => exact variadicNum_dub _ h x
  | custom id => simp only [hu]; rfl

end Argus
