import Verif.Spec.SameText
import Verif.Lemmas.Unread
import Verif.Lemmas.Ranges
import Verif.Lemmas.Maps
import Verif.Lemmas.Scalar
import Verif.Lemmas.Collected

/-!
# Texts that mean the same: the parse cannot tell
-/

set_option autoImplicit false

namespace Argus

variable {W : World}

/-- Push all cells. -/
def pushCells : Opt → List Word → Out Opt
  | o, [] => .ok o
  | o, w :: ws => do
    let o1 ← pushCell o w
    pushCells o1 ws

theorem pushCells_append : ∀ (xs ys : List Word) (o : Opt), pushCells o (xs ++ ys) = pushCells o xs >>= fun o1 => pushCells o1 ys
  | [], ys, o => rfl
  | x :: xs, ys, o => by
    simp only [List.cons_append, pushCells]
    cases pushCell o x with
    | ub u => rfl
    | ok o1 => simp only [Out.ok_bind]; exact pushCells_append xs ys o1

theorem addRangeLoop_cells : ∀ (n : Nat) (i : Int) (o : Opt),
    addRangeLoop n i o = pushCells o ((List.range n).map (fun (j : Nat) => intCell (i + (j : Int))))
  | 0, _, _ => rfl
  | n + 1, i, o => by
    rw [List.range_succ_eq_map, List.map_cons]
    simp only [addRangeLoop, pushCells, List.map_map, Function.comp_def]
    have e : Word.low (BitVec.ofInt 32 i) = intCell (i + ((0 : Nat) : Int)) := by simp [intCell]
    rw [e]
    cases pushCell o (intCell (i + ((0 : Nat) : Int))) with
    | ub u => rfl
    | ok o1 =>
      simp only [Out.ok_bind]
      rw [addRangeLoop_cells n (i + 1) o1]
      congr 1
      apply List.map_congr_left
      intro j _
      simp only [Nat.succ_eq_add_one, Int.natCast_add, Int.cast_ofNat_Int]
      congr 1
      omega

theorem setValueInt_cells {o : Opt} {s : Str} {lo hi : Int} (h : RangeText s lo hi) (hm : hi ≠ intMax) :
    setValueInt o s = pushCells o ((fromTo lo hi).map intCell) >>= fun o1 => Out.ok (Err.success, o1, []) := by
  unfold setValueInt addRange
  rw [parseIntRange_iff.2 h]
  simp only [addRangeLoop_cells, if_neg hm, fromTo, List.map_map, Function.comp_def]
  cases pushCells o ((List.range (hi - lo + 1).toNat).map (fun (j : Nat) => intCell (lo + (j : Int)))) with
  | ub u => rfl
  | ok o1 => rfl

theorem setAll_cells : ∀ (qs : List (Str × Int × Int)) (o : Opt), (∀ q ∈ qs, RangeText q.1 q.2.1 q.2.2 ∧ q.2.2 ≠ intMax) →
    setAll setValueInt o (qs.map Prod.fst) =
      pushCells o ((qs.flatMap (fun q => fromTo q.2.1 q.2.2)).map intCell) >>= fun o1 => Out.ok (Err.success, o1, [])
  | [], o, _ => rfl
  | q :: qs, o, h => by
    obtain ⟨h1, h2⟩ := h q (by simp)
    rw [List.map_cons, List.flatMap_cons, List.map_append, pushCells_append]
    unfold setAll
    rw [setValueInt_cells h1 h2]
    cases pushCells o ((fromTo q.2.1 q.2.2).map intCell) with
    | ub u => rfl
    | ok o1 =>
      simp only [Out.ok_bind, ne_eq, not_true_eq_false, if_false]
      rw [setAll_cells qs o1 (fun x hx => h x (by simp [hx]))]
      cases pushCells o1 ((qs.flatMap (fun q => fromTo q.2.1 q.2.2)).map intCell) with
      | ub u => rfl
      | ok o2 => rfl

theorem setAll_alongside {f : Opt → Str → Out HRes} {r : Str → Str → Prop} (hf : ∀ s s', r s s' → ∀ o, f o s' = f o s) :
    ∀ (xs ys : List Str) (o : Opt), Alongside r xs ys → setAll f o ys = setAll f o xs
  | [], [], _, _ => rfl
  | x :: xs, y :: ys, o, h => by
    unfold setAll
    rw [hf _ _ h.1 o]
    cases f o x with
    | ub u => rfl
    | ok q =>
      simp only [Out.ok_bind]
      rw [setAll_alongside hf xs ys q.2.1 h.2]
  | [], _ :: _, _, h => h.elim
  | _ :: _, [], _, h => h.elim

theorem stringToBool_same {s s' : Str} (h : SameTruth s s') : stringToBool s' = stringToBool s := by
  rcases h with ⟨h, h'⟩ | ⟨h, h'⟩
  · rw [(stringToBool_iff s).1.2 h, (stringToBool_iff s').1.2 h']
  · rw [(stringToBool_iff s).2.2 h, (stringToBool_iff s').2.2 h']

theorem mapIntConv_same {v v' : Str} {n : Int} (h : IsNumeral v n) (h' : IsNumeral v' n) : mapIntConv v' = mapIntConv v := by
  unfold mapIntConv
  simp only [isNumeral_strtoll h, isNumeral_strtoll h', isNumeral_ne_nil h, isNumeral_ne_nil h', ne_eq, not_true_eq_false,
    or_self, if_false]

theorem mapFloatConv_same {v v' : Str} (h : SameDouble W v v') : mapFloatConv W v' = mapFloatConv W v := by
  obtain ⟨h1, h2, h3, h4, h5⟩ := h
  unfold mapFloatConv
  simp only [h1, h2, h3, h4, h5, ne_eq, not_true_eq_false, or_self, if_false]

theorem setKvPair_same {conv : Str → Option MapStore} {k v v' : Str} (hk : (61 : Byte) ∉ k) (h : conv v' = conv v) (o : Opt) :
    setKvPair conv o (k ++ [61] ++ v') = setKvPair conv o (k ++ [61] ++ v) := by
  unfold setKvPair
  simp only [strchrSplit_pair 61 _ k hk, h]

theorem collect_same {f : Opt → Str → Out HRes} {g : Opt → Out Opt} {o : Opt} {s s' : Str}
    (h : setAll f o (pieces s') = setAll f o (pieces s)) : collect f g o (some s') = collect f g o (some s) := by
  unfold collect
  simp only [storeParts_pieces, h]

theorem variadicNum_same {conv : Str → Option Word} {o : Opt} {s s' : Str} (h : conv s' = conv s) :
    variadicNum W conv o (some s') = variadicNum W conv o (some s) := by
  unfold variadicNum
  simp only [h]

theorem part_float {s s' : Str} (h : SamePart W .arrayFloat s s') (o : Opt) : setValueFloat W o s' = setValueFloat W o s := by
  cases h with
  | same => rfl
  | float _ _ h => unfold setValueFloat; rw [h]
  | entry _ _ _ _ _ h => exact h.elim

theorem part_string {s s' : Str} (h : SamePart W .arrayString s s') (o : Opt) : setValueString o s' = setValueString o s := by
  cases h with
  | same => rfl
  | entry _ _ _ _ _ h => exact h.elim

theorem part_int {s s' : Str} (h : SamePart W .arrayInt s s') (o : Opt) : setValueInt o s' = setValueInt o s := by
  cases h with
  | same => rfl
  | entry _ _ _ _ _ h => exact h.elim

theorem part_mapString {s s' : Str} (h : SamePart W .mapString s s') (o : Opt) :
    setKvPair mapStringConv o s' = setKvPair mapStringConv o s := by
  cases h with
  | same => rfl
  | entry _ _ _ _ _ h => exact h.elim

theorem part_mapInt {s s' : Str} (h : SamePart W .mapInt s s') (o : Opt) : setKvPair mapIntConv o s' = setKvPair mapIntConv o s := by
  cases h with
  | same => rfl
  | entry _ k v v' hk h => obtain ⟨n, h1, h2⟩ := h; exact setKvPair_same hk (mapIntConv_same h1 h2) o

theorem part_mapFloat {s s' : Str} (h : SamePart W .mapFloat s s') (o : Opt) :
    setKvPair (mapFloatConv W) o s' = setKvPair (mapFloatConv W) o s := by
  cases h with
  | same => rfl
  | entry _ k v v' hk h => exact setKvPair_same hk (mapFloatConv_same h) o

theorem part_mapBool {s s' : Str} (h : SamePart W .mapBool s s') (o : Opt) : setKvPair mapBoolConv o s' = setKvPair mapBoolConv o s := by
  cases h with
  | same => rfl
  | entry _ k v v' hk h => exact setKvPair_same hk (by unfold mapBoolConv; rw [stringToBool_same h]) o

/-- A handler does the same with two texts for the same value. -/
theorem runHandler_same {h : Handler} {s s' : Str} (hs : SameText W h s s') (a : Argus) (o : Opt) :
    runHandler W a h o (some s') = runHandler W a h o (some s) := by
  cases hs with
  | same => rfl
  | unread _ _ _ hh => rcases hh with rfl | rfl | rfl <;> rfl
  | number _ _ n r r' h1 h2 => simp only [runHandler, strtoll_numeral h1, strtoll_numeral h2]
  | noNumber _ _ h1 h2 => simp only [runHandler, strtoll_other h1, strtoll_other h2]
  | whole _ _ n h1 h2 =>
    refine variadicNum_same ?_
    unfold variadicIntConv
    simp only [isNumeral_strtoll h1, isNumeral_strtoll h2, ne_eq, not_true_eq_false, (isNumeral_ne_nil h1).symm,
      (isNumeral_ne_nil h2).symm, or_self, if_false]
  | float _ _ h1 => simp only [runHandler, h1]
  | double _ _ h1 =>
    obtain ⟨h1, h2, h3, h4, h5⟩ := h1
    refine variadicNum_same ?_
    unfold variadicFloatConv
    simp only [h1, h3, h5, ne_eq, not_true_eq_false, false_or, List.length_eq_zero_iff, h2, h4, if_false]
  | truth _ _ h1 => simp only [runHandler, boolHandler, stringToBool_same h1]
  | ints _ _ l h1 h2 =>
    obtain ⟨qs, e1, e2, rfl⟩ := h1
    obtain ⟨qs', f1, f2, f3⟩ := h2
    refine collect_same ?_
    rw [e1, f1, setAll_cells qs o e2, setAll_cells qs' o f2, f3]
  | list _ _ _ hh h1 =>
    rcases hh with rfl | rfl | rfl | rfl | rfl | rfl | rfl
    · exact collect_same (setAll_alongside (f := setValueString) (r := SamePart W .arrayString) (fun _ _ h o => part_string h o) _ _ o h1)
    · exact collect_same (setAll_alongside (f := setValueInt) (r := SamePart W .arrayInt) (fun _ _ h o => part_int h o) _ _ o h1)
    · exact collect_same (setAll_alongside (f := setValueFloat W) (r := SamePart W .arrayFloat) (fun _ _ h o => part_float h o) _ _ o h1)
    · exact collect_same (setAll_alongside (f := setKvPair mapStringConv) (r := SamePart W .mapString) (fun _ _ h o => part_mapString h o) _ _ o h1)
    · exact collect_same (setAll_alongside (f := setKvPair mapIntConv) (r := SamePart W .mapInt) (fun _ _ h o => part_mapInt h o) _ _ o h1)
    · exact collect_same (setAll_alongside (f := setKvPair (mapFloatConv W)) (r := SamePart W .mapFloat) (fun _ _ h o => part_mapFloat h o) _ _ o h1)
    · exact collect_same (setAll_alongside (f := setKvPair mapBoolConv) (r := SamePart W .mapBool) (fun _ _ h o => part_mapBool h o) _ _ o h1)

theorem SameGift.of_meta {o o' : Opt} (h : o'.meta = o.meta) {x x' : Option Str} (hs : SameGift W o x x') : SameGift W o' x x' := by
  have h1 : o'.handler = o.handler := (congrArg Opt.handler h : o'.meta.handler = o.meta.handler)
  have h2 : o'.validators = o.validators := (congrArg Opt.validators h : o'.meta.validators = o.meta.validators)
  unfold SameGift
  rw [h1, h2]; exact hs

theorem execCallbacks_same {a : Argus} {p : Ptr} {x x' : Option Str} (hs : ∀ o, a.getOpt p = .ok o → SameGift W o x x') :
    execCallbacks W a p x' = execCallbacks W a p x := by
  unfold execCallbacks
  cases ho : a.getOpt p with
  | ub u => rfl
  | ok o =>
    simp only [Out.ok_bind]
    rcases hs o ho with rfl | ⟨hv, h, s, s', hh, rfl, rfl, ht⟩
    · rfl
    · simp only [hh, runPreAll_post hv, Out.ok_bind, ne_eq, not_true_eq_false, if_false, runHandler_same ht]

theorem run_same : ∀ (xs ys : List Act) (a b : Argus), b.shape = a.shape → Alongside (SameAsk W a.tables) xs ys → run W b ys = run W b xs
  | [], [], _, _, _, _ => rfl
  | .give p x :: xs, y :: ys, a, b, hab, h => by
    cases y with
    | give q x' =>
      obtain ⟨⟨rfl, h1⟩, h2⟩ := h
      have e : execCallbacks W b q x' = execCallbacks W b q x := execCallbacks_same (fun o ho => by
        obtain ⟨o0, h3, h4⟩ := shape_getOpt hab.symm ho
        exact (h1 o0 (placeAt_getOpt.2 h3)).of_meta h4.symm)
      unfold run
      rw [e]
      cases hr : execCallbacks W b q x with
      | ub u => rfl
      | ok r =>
        simp only [Out.ok_bind]
        rw [run_same xs ys a r.2 ((execCallbacks_one hr).frame.shape.trans hab) h2]
    | enter _ => exact absurd (show Act.enter _ = Act.give _ _ from h.1) (by simp)
    | fail _ => exact absurd (show Act.fail _ = Act.give _ _ from h.1) (by simp)
    | noTable => exact absurd (show Act.noTable = Act.give _ _ from h.1) (by simp)
  | .enter p :: xs, y :: ys, a, b, hab, h => by
    have hy : y = .enter p := by have := h.1; cases y <;> exact this
    subst hy
    unfold run
    cases hr : enterSub b p with
    | ub u => rfl
    | ok r =>
      simp only [Out.ok_bind]
      exact run_same xs ys a r.2 ((enterSub_frame hr).1.shape.trans hab) h.2
  | .fail c :: xs, y :: ys, a, b, hab, h => by
    have hy : y = .fail c := by have := h.1; cases y <;> exact this
    subst hy
    unfold run; rfl
  | .noTable :: xs, y :: ys, a, b, hab, h => by
    have hy : y = .noTable := by have := h.1; cases y <;> exact this
    subst hy
    unfold run; rfl
  | [], _ :: _, _, _, _, h => h.elim
  | .give _ _ :: _, [], _, _, _, h => h.elim
  | .enter _ :: _, [], _, _, _, h => h.elim
  | .fail _ :: _, [], _, _, _, h => h.elim
  | .noTable :: _, [], _, _, _, h => h.elim

theorem SameEnv.later {a b : Argus} {env env' : Env} (h : SameEnv W a env env') (hs : b.shape = a.shape)
    (hp : b.envPrefix = a.envPrefix) : SameEnv W b env env' := by
  intro p o n ho hn
  obtain ⟨o0, h3, h4⟩ := shape_getOpt hs.symm (placeAt_getOpt.1 ho)
  refine (h p o0 n (placeAt_getOpt.2 h3) ?_).of_meta h4.symm
  rw [envVarName_meta h4, ← hp]; exact hn

theorem loadEnvStep_same {a : Argus} {env env' : Env} (h : SameEnv W a env env') (p : Ptr) :
    loadEnvStep W env' a p = loadEnvStep W env a p := by
  unfold loadEnvStep
  cases ho : a.getOpt p with
  | ub u => rfl
  | ok o =>
    simp only [Out.ok_bind]
    split
    · rfl
    split
    · rfl
    cases hn : envVarName a.envPrefix o with
    | none => rfl
    | some n =>
      simp only
      have hg := h p o n (placeAt_getOpt.2 ho) hn
      have hx : (env' n = env n) ∨ ∃ s s', env n = some s ∧ env' n = some s' := by
        rcases hg with hg | ⟨_, _, s, s', _, h1, h2, _⟩
        · exact .inl hg
        · exact .inr ⟨s, s', h1, h2⟩
      rcases hx with hx | ⟨s, s', h1, h2⟩
      · rw [hx]
      · rw [h1, h2] at hg
        rw [h1, h2]
        simp only
        rw [execCallbacks_same (W := W) (x := some s) (x' := some s') (fun o' ho' => by rw [ho] at ho'; cases ho'; exact hg)]

theorem loadEnvLoop_same {env env' : Env} {k : Nat} : ∀ (n i : Nat) (a : Argus), SameEnv W a env env' →
    loadEnvLoop W env' k n i a = loadEnvLoop W env k n i a
  | 0, _, _, _ => rfl
  | n + 1, i, a, h => by
    unfold loadEnvLoop
    rw [loadEnvStep_same h]
    cases hr : loadEnvStep W env a ⟨k, i⟩ with
    | ub u => rfl
    | ok r =>
      simp only [Out.ok_bind]
      have hf := (loadEnvStep_one hr).inTable.frame
      rw [loadEnvLoop_same n (i + 1) r.2 (h.later hf.shape hf.envPrefix)]

theorem loadEnvTable_same {env env' : Env} {a : Argus} (h : SameEnv W a env env') (k : Nat) :
    loadEnvTable W env' a k = loadEnvTable W env a k := by
  unfold loadEnvTable
  simp only [fun n i => loadEnvLoop_same (k := k) n i a h]

theorem loadEnvStack_same {env env' : Env} : ∀ (ps : List Ptr) (a : Argus), SameEnv W a env env' →
    loadEnvStack W env' a ps = loadEnvStack W env a ps
  | [], _, _ => rfl
  | p :: ps, a, h => by
    unfold loadEnvStack
    cases a.getOpt p with
    | ub u => rfl
    | ok o =>
      simp only [Out.ok_bind]
      cases o.subOptions with
      | none => exact loadEnvStack_same ps a h
      | some k =>
        simp only [loadEnvTable_same h k]
        cases hr : loadEnvTable W env a k with
        | ub u => rfl
        | ok r =>
          simp only [Out.ok_bind]
          have hf := (loadEnvTable_frame hr).frame
          rw [loadEnvStack_same ps r.2 (h.later hf.shape hf.envPrefix)]

theorem loadEnvVars_same {env env' : Env} {a : Argus} (h : SameEnv W a env env') : loadEnvVars W env' a = loadEnvVars W env a := by
  unfold loadEnvVars
  rw [loadEnvTable_same h]
  cases hr : loadEnvTable W env a a.root with
  | ub u => rfl
  | ok r =>
    simp only [Out.ok_bind]
    have hf := (loadEnvTable_frame hr).frame
    rw [loadEnvStack_same _ r.2 (h.later hf.shape hf.envPrefix)]

theorem argusParse_sameText {env env' : Env} {a : Argus} {args args' : List Str} (he : SameEnv W a env env')
    (h : Alongside (SameAsk W a.tables) (a.asks args) (a.asks args')) : argusParse W env' a args' = argusParse W env a args := by
  have e : parseArgs W a (some a.root) args' = parseArgs W a (some a.root) args := by
    rw [parseArgs_run, parseArgs_run]; exact run_same _ _ a a rfl h
  unfold argusParse
  rw [e]
  cases hq : parseArgs W a (some a.root) args with
  | ub u => rfl
  | ok q =>
    obtain ⟨_, _, _, hf⟩ := parseLoop_frame _ hq
    have h1 : SameEnv W { q.2 with errorCode := q.1 } env env' := he.later hf.shape hf.envPrefix
    simp only [Out.ok_bind, loadEnvVars_same h1]

end Argus
