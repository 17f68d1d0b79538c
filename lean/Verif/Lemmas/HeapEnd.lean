import Verif.Lemmas.HeapOom

/-!
# Lemmas: what is left of an option in memory
-/

set_option autoImplicit false

namespace Argus

variable {γ : Type}

theorem readCells_of {h : Heap} : ∀ (r : Row) (ws : List Word), r.map (Cell.word h) = ws.map Out.ok → readCells h r = .ok ws
  | [], [], _ => rfl
  | [], w :: ws, e => by simp at e
  | c :: r, [], e => by simp at e
  | c :: r, w :: ws, e => by
    simp only [List.map_cons, List.cons.injEq] at e
    rw [readCells, e.1, Out.ok_bind, readCells_of r ws e.2, Out.ok_bind]

theorem readAllRows_of {h : Heap} : ∀ (l : List Row) (vs : List (List Word)),
    l.map (fun r => r.map (Cell.word h)) = vs.map (fun ws => ws.map Out.ok) → readAllRows h l = .ok vs
  | [], [], _ => rfl
  | [], w :: ws, e => by simp at e
  | c :: r, [], e => by simp at e
  | c :: r, w :: ws, e => by
    simp only [List.map_cons, List.cons.injEq] at e
    rw [readAllRows, readCells_of c w e.1, Out.ok_bind, readAllRows_of r ws e.2, Out.ok_bind]

theorem Rep.words {K : Coll γ} {base : Nat → Option Blk} {h : Heap} {ho : HOpt} {cs : List γ} (r : Rep K base h ho cs)
    (hp : ho.ptr ≠ none) : ho.words h = .ok (cs.map K.enc) := by
  obtain ⟨a, Z, tail, e1, e2⟩ := r.holds hp
  unfold HOpt.words
  rw [e1.rows, Out.ok_bind]
  refine readAllRows_of _ _ ?_
  have := e1.zip.words
  rw [e2] at this
  exact this

theorem Rep.reads_arr {k : CellKind} {n : Nat} {base : Nat → Option Blk} {h : Heap} {ho : HOpt} {cs : List Word}
    (r : Rep (arrColl k n) base h ho cs) : ho.Reads h (ho.abs (arrColl k n) cs).value := by
  by_cases hp : ho.ptr = none
  · rw [HOpt.abs_none hp]; exact ⟨rfl, hp⟩
  · rw [HOpt.abs_some hp]; exact ⟨hp, r.words hp⟩

theorem Rep.reads_map {k : CellKind} {n : Nat} {base : Nat → Option Blk} {h : Heap} {ho : HOpt} {cs : List (Str × Word)}
    (r : Rep (mapColl k n) base h ho cs) : ho.Reads h (ho.abs (mapColl k n) cs).value := by
  by_cases hp : ho.ptr = none
  · rw [HOpt.abs_none hp]; exact ⟨rfl, hp⟩
  · rw [HOpt.abs_some hp]; exact ⟨hp, r.words hp⟩

/-! ### Lost keys -/

theorem lostIn_lostKeys {W : World} {vt : ValueType}
    (hvt : vt = .mapString ∨ vt = .mapInt ∨ vt = .mapFloat ∨ vt = .mapBool) : ∀ (ss : List Str) (present : List Str),
    LostKeys W vt present ss (lostIn (convOf W vt) present ss)
  | [], present => .done present
  | s :: ss, present => by
    unfold lostIn
    by_cases hs : (61 : Byte) ∈ s
    · obtain ⟨k, v, rfl, hk⟩ := split_first 61 s hs
      rw [strchrSplit_pair 61 v k hk]
      simp only
      by_cases hx : ∃ x, TextValue W vt v x
      · obtain ⟨x, hx⟩ := hx
        obtain ⟨_, st, e1, _⟩ := convOf_value hx
        rw [e1]
        simp only
        split
        · rename_i hm
          exact .known present k v x ss _ hk hx hm (lostIn_lostKeys hvt ss present)
        · rename_i hm
          exact .new present k v x ss _ hk hx hm (lostIn_lostKeys hvt ss (present ++ [k]))
      · rw [convOf_none hvt (fun x hx' => hx ⟨x, hx'⟩)]
        exact .badValue present k v ss hk hx
    · rw [strchrSplit_none 61 s hs]
      exact .noEquals present s ss hs

/-- Every lost key is the key of a piece. -/
theorem LostKeys.keys {W : World} {vt : ValueType} {present ss ks : List Str} (h : LostKeys W vt present ss ks) :
    ∀ k ∈ ks, (61 : Byte) ∉ k ∧ ∃ v, k ++ c!"=" ++ v ∈ ss := by
  induction h with
  | done => simp
  | noEquals => simp
  | badValue present k v ss h1 h2 =>
    intro x hx
    simp only [List.mem_singleton] at hx
    subst hx
    exact ⟨h1, v, by simp⟩
  | known present k v x ss lost h1 h2 h3 h4 ih =>
    intro y hy
    rcases List.mem_cons.1 hy with rfl | hy
    · exact ⟨h1, v, by simp⟩
    · obtain ⟨g1, w, g2⟩ := ih y hy
      exact ⟨g1, w, List.mem_cons_of_mem _ g2⟩
  | new present k v x ss lost h1 h2 h3 h4 ih =>
    intro y hy
    obtain ⟨g1, w, g2⟩ := ih y hy
    exact ⟨g1, w, List.mem_cons_of_mem _ g2⟩

theorem key_split {k k' v v' : Str} (h : k ++ c!"=" ++ v = k' ++ c!"=" ++ v') (h1 : (61 : Byte) ∉ k) (h2 : (61 : Byte) ∉ k') :
    k = k' ∧ v = v' := by
  have e1 := strchrSplit_pair 61 v k h1
  have e2 := strchrSplit_pair 61 v' k' h2
  have : (c!"=" : Str) = [61] := by decide
  rw [this] at h
  rw [h, e2] at e1
  simp only [Option.some.injEq, Prod.mk.injEq] at e1
  exact ⟨e1.1.symm, e1.2.symm⟩

/-- With new and different keys nothing is lost. -/
theorem LostKeys.distinct {W : World} {vt : ValueType} {present ss ks : List Str} (h : LostKeys W vt present ss ks) :
    ∀ ps, PairTexts W vt ss ps → (present ++ ps.map Prod.fst).Nodup → ks = [] := by
  induction h with
  | done => intros; rfl
  | noEquals => intros; rfl
  | badValue present k v ss h1 h2 =>
    intro ps hp _
    obtain ⟨qs, e1, e2, e3⟩ := hp
    cases qs with
    | nil => simp at e1
    | cons q qs =>
      simp only [List.map_cons, List.cons.injEq] at e1
      obtain ⟨g1, g2⟩ := e3 q (by simp)
      obtain ⟨_, rfl⟩ := key_split e1.1 h1 g1
      exact absurd ⟨_, g2⟩ h2
  | known present k v x ss lost h1 h2 h3 h4 ih =>
    intro ps hp hn
    exfalso
    obtain ⟨qs, e1, rfl, e3⟩ := hp
    cases qs with
    | nil => simp at e1
    | cons q qs =>
      simp only [List.map_cons, List.cons.injEq] at e1
      obtain ⟨g1, g2⟩ := e3 q (by simp)
      obtain ⟨rfl, _⟩ := key_split e1.1 h1 g1
      rw [List.nodup_append] at hn
      exact hn.2.2 _ h3 q.1 (by simp) rfl
  | new present k v x ss lost h1 h2 h3 h4 ih =>
    intro ps hp hn
    obtain ⟨qs, e1, rfl, e3⟩ := hp
    cases qs with
    | nil => simp at e1
    | cons q qs =>
      simp only [List.map_cons, List.cons.injEq] at e1
      obtain ⟨g1, g2⟩ := e3 q (by simp)
      obtain ⟨rfl, _⟩ := key_split e1.1 h1 g1
      refine ih (qs.map fun q => (q.1, q.2.2)) ⟨qs, e1.2, rfl, fun y hy => e3 y (by simp [hy])⟩ ?_
      simpa using hn

/-! ### Options as declared -/

theorem Handler.Takes.harmless {hd : Handler} {ts : List Str} (h : hd.Takes ts) {b : Bool} : HarmlessAll b hd ts :=
  harmless_of h b

theorem HOpt.Unused.fresh {ho : HOpt} {hd : Handler} (u : ho.Unused hd) : ho.o.Fresh :=
  (u.proper.collection hd u.handler u.collection).1

theorem HOpt.Unused.abs {ho : HOpt} {hd : Handler} (u : ho.Unused hd) (K : Coll γ) : ho.abs K [] = ho.o := by
  rw [HOpt.abs_none u.ptr]
  have := u.fresh.1
  rw [← this]

theorem HOpt.Unused.rep {ho : HOpt} {hd : Handler} (u : ho.Unused hd) (K : Coll γ) {h : Heap} (hs : h.Sound) :
    Rep K h.live h ho [] :=
  ⟨u.fresh.2, by simp, .inl ⟨u.ptr, rfl, ⟨List.nodup_nil, hs, by simp, by simp, fun _ _ => rfl⟩⟩⟩

/-- An array or a map. -/
theorem HOpt.Unused.kinds {ho : HOpt} {hd : Handler} (u : ho.Unused hd) : ∃ fh, ho.o.freeHandler = some fh ∧
    ((∃ k n, ArrHandler hd ho.o.valueType fh k n ∧ ∀ vt, ¬ IsMapOption ho.o vt) ∨
      (∃ k n, MapHandler hd ho.o.valueType fh k n ∧ IsMapOption ho.o ho.o.valueType)) := by
  obtain ⟨fh, h1, h2⟩ := u.proper.goes hd u.handler
  refine ⟨fh, h1, ?_⟩
  have hc := u.collection
  have hh := u.handler
  generalize hv : ho.o.valueType = v at h2
  have na : ∀ vt, IsMapOption ho.o vt → hd = .mapString ∨ hd = .mapInt ∨ hd = .mapFloat ∨ hd = .mapBool := by
    intro vt hm
    cases hm <;> (rename_i g _; rw [hh] at g; simp only [Option.some.injEq] at g; subst g; simp)
  cases h2 with
  | flag => simp [Handler.isCollection] at hc
  | help => simp [Handler.isCollection] at hc
  | version => simp [Handler.isCollection] at hc
  | bool => simp [Handler.isCollection] at hc
  | string => simp [Handler.isCollection] at hc
  | int => simp [Handler.isCollection] at hc
  | float => simp [Handler.isCollection] at hc
  | arrayString => exact .inl ⟨_, _, .arrayString, fun vt h => by simpa using na vt h⟩
  | arrayInt => exact .inl ⟨_, _, .arrayInt, fun vt h => by simpa using na vt h⟩
  | arrayFloat => exact .inl ⟨_, _, .arrayFloat, fun vt h => by simpa using na vt h⟩
  | variadicString => exact .inl ⟨_, _, .variadicString, fun vt h => by simpa using na vt h⟩
  | variadicInt => exact .inl ⟨_, _, .variadicInt, fun vt h => by simpa using na vt h⟩
  | variadicFloat => exact .inl ⟨_, _, .variadicFloat, fun vt h => by simpa using na vt h⟩
  | mapString => exact .inr ⟨_, _, .mapString, .string hh hv⟩
  | mapInt => exact .inr ⟨_, _, .mapInt, .int hh hv⟩
  | mapFloat => exact .inr ⟨_, _, .mapFloat, .float hh hv⟩
  | mapBool => exact .inr ⟨_, _, .mapBool, .bool hh hv⟩

theorem MapHandler.types {hd : Handler} {vt : ValueType} {fh : FreeHandler} {k : CellKind} {n : Nat}
    (H : MapHandler hd vt fh k n) : vt = .mapString ∨ vt = .mapInt ∨ vt = .mapFloat ∨ vt = .mapBool := by
  cases H <;> simp

theorem MapHandler.isMap {hd : Handler} {vt : ValueType} {fh : FreeHandler} {k : CellKind} {n : Nat}
    (H : MapHandler hd vt fh k n) {o : Opt} (h1 : o.handler = some hd) (h2 : o.valueType = vt) : IsMapOption o vt := by
  cases H
  · exact .string h1 h2
  · exact .int h1 h2
  · exact .float h1 h2
  · exact .bool h1 h2

/-! ### Whole lives -/

theorem keys_abs {k : CellKind} {n : Nat} {ho : HOpt} {cs : List (Str × Word)} (hc : ho.ptr = none → cs = []) :
    (ho.abs (mapColl k n) cs).keys = cs.map Prod.fst := by
  by_cases hp : ho.ptr = none
  · rw [HOpt.abs_none hp, hc hp]; rfl
  · rw [HOpt.abs_some hp]; rfl

theorem arr_life (W : World) {A : Allocator} (hA : A.Never) {hd : Handler} {vt : ValueType} {fh : FreeHandler} {k : CellKind}
    {n : Nat} (H : ArrHandler hd vt fh k n) {ts : List Str} {h : Heap} {ho : HOpt} {cs : List Word} {base : Nat → Option Blk}
    (r : Rep (arrColl k n) base h ho cs) (hs : Sound (ho.abs (arrColl k n) cs)) (hh : ho.o.handler = some hd)
    (hvt : ho.o.valueType = vt) (hT : HarmlessAll (ho.abs (arrColl k n) cs).isSet hd ts) :
    ∃ st ho' h' cs', giveAllV W hd (ho.abs (arrColl k n) cs) ts = .ok (st, ho'.abs (arrColl k n) cs') ∧
      giveAllH W A hd ho h ts = .ok (st, ho', h') ∧ Rep (arrColl k n) base h' ho' cs' ∧ Fixed ho ho' ∧
      (st = Err.success → ts ≠ [] → ho'.o.isAllocated = true) ∧
      (st = Err.success → Sound (ho'.abs (arrColl k n) cs')) := by
  obtain ⟨st, ho', h', cs', base', ks, e1, e2, e3, e4, e5, e6, e7, e8⟩ := life_sim (arr_step W hA H)
    (fun ho cs h1 h2 _ => arr_ne H ho cs h1 h2) (fun _ _ _ ks => ks = []) (fun _ _ => rfl)
    (fun _ _ _ _ _ _ _ _ _ _ _ => rfl) (fun _ _ _ _ _ _ _ _ _ _ h => by rw [h]; rfl) ts base h ho cs r hs hh hvt hT
  subst e7
  have : base' = base := e4.nil
  subst this
  exact ⟨st, ho', h', cs', e1, e2, e3, e5, e6, e8⟩

theorem map_life (W : World) {A : Allocator} (hA : A.Never) {hd : Handler} {vt : ValueType} {fh : FreeHandler} {k : CellKind}
    {n : Nat} (H : MapHandler hd vt fh k n) {ts : List Str} {h : Heap} {ho : HOpt} {cs : List (Str × Word)}
    {base : Nat → Option Blk} (r : Rep (mapColl k n) base h ho cs) (hs : Sound (ho.abs (mapColl k n) cs))
    (hh : ho.o.handler = some hd) (hvt : ho.o.valueType = vt) (hT : HarmlessAll (ho.abs (mapColl k n) cs).isSet hd ts) :
    ∃ st ho' h' cs' base' ks, giveAllV W hd (ho.abs (mapColl k n) cs) ts = .ok (st, ho'.abs (mapColl k n) cs') ∧
      giveAllH W A hd ho h ts = .ok (st, ho', h') ∧ Rep (mapColl k n) base' h' ho' cs' ∧ Left ks base base' ∧ Fixed ho ho' ∧
      (st = Err.success → ts ≠ [] → ho'.o.isAllocated = true) ∧ LostByAll W hd vt (ho.abs (mapColl k n) cs) ts ks ∧
      (st = Err.success → Sound (ho'.abs (mapColl k n) cs')) :=
  life_sim (map_step W hA H)
    (fun ho cs h1 h2 _ => map_ne H ho cs h1 h2) (fun ho cs ts ks => LostByAll W hd vt (ho.abs (mapColl k n) cs) ts ks)
    (fun _ _ => .none _)
    (fun ho ho' cs cs' t ts st ev hc hst e => .fails _ _ st ev t ts _ hst e (by
      rw [keys_abs hc]; exact lostIn_lostKeys H.types _ _))
    (fun ho ho' cs cs' t ts ev ks hc e hq => .more _ _ ev t ts _ _ e (by
      rw [keys_abs hc]; exact lostIn_lostKeys H.types _ _) (by rw [mark_abs] at *; exact hq)) ts base h ho cs r hs hh hvt hT

/-- Every key lost is the key of a piece of some occurrence. -/
theorem LostByAll.keys {W : World} {hd : Handler} {vt : ValueType} {o : Opt} {ts ks : List Str} (h : LostByAll W hd vt o ts ks) :
    ∀ k ∈ ks, (61 : Byte) ∉ k ∧ ∃ t ∈ ts, ∃ v, k ++ c!"=" ++ v ∈ pieces t := by
  induction h with
  | none => simp
  | fails o o' st ev t ts lost h1 h2 h3 =>
    intro k hk
    obtain ⟨g1, v, g2⟩ := h3.keys k hk
    exact ⟨g1, t, by simp, v, g2⟩
  | more o o' ev t ts lost later h1 h2 h3 ih =>
    intro k hk
    rcases List.mem_append.1 hk with hk | hk
    · obtain ⟨g1, v, g2⟩ := h2.keys k hk
      exact ⟨g1, t, by simp, v, g2⟩
    · obtain ⟨g1, t', g2, g3⟩ := ih k hk
      exact ⟨g1, t', by simp [g2], g3⟩

theorem MapS.keys {o : Opt} {es : List (Str × MVal)} (h : MapS o es) : o.keys = es.map Prod.fst := by
  unfold Opt.keys
  rcases h.val with ⟨h1, h2⟩ | ⟨h1, _⟩
  · rw [h2, h1]; rfl
  · rw [h1]; simp [encPair]

/-- With different keys nothing is lost. -/
theorem LostByAll.distinct {W : World} {hd : Handler} {vt : ValueType} {o : Opt} {ts ks : List Str}
    (h : LostByAll W hd vt o ts ks) : ∀ es pss, IsMapOption o vt → o.handler = some hd → MapS o es →
    (es = [] → ∀ t, ts.head? = some t → pieces t ≠ []) → OccurrencePairs W vt ts pss →
    (es.map Prod.fst ++ pss.flatten.map Prod.fst).Nodup → ks = [] := by
  induction h with
  | none => intros; rfl
  | fails o o' st ev t ts lost h1 h2 h3 =>
    intro es pss hm hh hs hne hp hn
    obtain ⟨ps, pss', rfl, hp1, hp2⟩ := hp
    rw [hs.keys] at h3
    refine h3.distinct ps hp1 ?_
    simp only [List.flatten_cons, List.map_append, ← List.append_assoc] at hn
    exact (List.nodup_append.1 hn).1
  | more o o' ev t ts lost later h1 h2 h3 ih =>
    intro es pss hm hh hs hne hp hn
    obtain ⟨ps, pss', rfl, hp1, hp2⟩ := hp
    simp only [List.flatten_cons, List.map_append, ← List.append_assoc] at hn
    rw [hs.keys] at h2
    have hl := h2.distinct ps hp1 (List.nodup_append.1 hn).1
    subst hl
    obtain ⟨o1, es1, e1, e2, e3, e4, _⟩ := run_mapS W { tables := [[]] } hm hh hs hp1
    rw [h1] at e1
    simp only [Out.ok.injEq, Prod.mk.injEq, true_and] at e1
    obtain ⟨rfl, rfl⟩ := e1
    have hps : es ≠ [] ∨ ps ≠ [] := by
      refine Classical.or_iff_not_imp_left.2 fun hes => ?_
      have hes := Classical.not_not.1 hes
      rintro rfl
      obtain ⟨qs, g1, g2, _⟩ := hp1
      have hq : qs = [] := by simpa using g2.symm
      subst hq
      exact hne hes t rfl (by simpa using g1)
    have hes := e3 (puts_ne_nil ps es hps)
    have hmeta : o'.markSet.meta = o.meta := runHandler_meta h1
    have m3 : o'.markSet.handler = o.handler :=
      (congrArg Opt.handler hmeta : o'.markSet.meta.handler = o.meta.handler)
    rw [List.nil_append]
    refine ih es1 pss' (hm.of_meta hmeta) (m3.trans hh) (e2.mark hes) (fun hc => absurd hc hes) hp2 ?_
    rw [List.nodup_append] at hn ⊢
    refine ⟨e2.nodup, hn.2.1, fun a ha b hb => hn.2.2 a ?_ b hb⟩
    obtain ⟨e, he, rfl⟩ := List.mem_map.1 ha
    obtain ⟨l, g1, g2⟩ := e4.sub
    rcases puts_mem ps es (g2.subset (g1.mem_iff.1 he)) with h | h
    · exact List.mem_append.2 (.inl (List.mem_map.2 ⟨e, h, rfl⟩))
    · exact List.mem_append.2 (.inr (List.mem_map.2 ⟨e, h, rfl⟩))

/-! ### `is_allocated` -/

theorem runHandlerH_outcome {W : World} {A : Allocator} {hd : Handler} (hc : hd.isCollection = true) {ho ho' : HOpt} {h h' : Heap}
    {t : Str} {st : Int} (e : runHandlerH W A hd ho h t = .ok (st, ho', h')) :
    (st ≠ Err.success ∧ Kept ho ho') ∨
    (st = Err.success ∧ ∃ x : HOpt, Kept ho x ∧ ho' = ⟨{ x.o with isAllocated := true }, x.ptr⟩) := by
  cases hd
  case arrayString =>
    simp only [runHandlerH] at e
    exact collectH_kept (storePartsH_keeps A (setStringH_keeps A)) (flags := arrayFlagsH W) (fun _ _ _ _ => arrayFlagsH_kept) e
  case arrayInt =>
    simp only [runHandlerH] at e
    exact collectH_kept (storePartsH_keeps A (setIntH_keeps A)) (flags := arrayFlagsH W) (fun _ _ _ _ => arrayFlagsH_kept) e
  case arrayFloat =>
    simp only [runHandlerH] at e
    exact collectH_kept (storePartsH_keeps A (setFloatH_keeps W A)) (flags := arrayFlagsH W) (fun _ _ _ _ => arrayFlagsH_kept) e
  case variadicString =>
    simp only [runHandlerH] at e
    exact collectH_kept (setStringH_keeps A) (flags := arrayFlagsH W) (fun _ _ _ _ => arrayFlagsH_kept) e
  case variadicInt =>
    simp only [runHandlerH] at e
    exact collectH_kept (setNumH_keeps A _) (flags := arrayFlagsH W) (fun _ _ _ _ => arrayFlagsH_kept) e
  case variadicFloat =>
    simp only [runHandlerH] at e
    exact collectH_kept (setNumH_keeps A _) (flags := arrayFlagsH W) (fun _ _ _ _ => arrayFlagsH_kept) e
  case mapString =>
    simp only [runHandlerH] at e
    exact collectH_kept (storePartsH_keeps A (setKvStringH_keeps A)) (flags := mapFlagsH W A) (fun _ _ _ _ => mapFlagsH_kept) e
  case mapInt =>
    simp only [runHandlerH] at e
    exact collectH_kept (storePartsH_keeps A (setKvNumH_keeps A _)) (flags := mapFlagsH W A) (fun _ _ _ _ => mapFlagsH_kept) e
  case mapFloat =>
    simp only [runHandlerH] at e
    exact collectH_kept (storePartsH_keeps A (setKvNumH_keeps A _)) (flags := mapFlagsH W A) (fun _ _ _ _ => mapFlagsH_kept) e
  case mapBool =>
    simp only [runHandlerH] at e
    exact collectH_kept (storePartsH_keeps A (setKvNumH_keeps A _)) (flags := mapFlagsH W A) (fun _ _ _ _ => mapFlagsH_kept) e
  all_goals simp [Handler.isCollection] at hc

theorem giveAllH_alloc {W : World} {A : Allocator} {hd : Handler} (hc : hd.isCollection = true) : ∀ (ts : List Str) {ho ho' : HOpt}
    {h h' : Heap} {st : Int}, giveAllH W A hd ho h ts = .ok (st, ho', h') → ho.o.isAllocated = true → ho'.o.isAllocated = true
  | [], ho, ho', h, h', st, e, ha => by
    simp only [giveAllH, Out.ok.injEq, Prod.mk.injEq] at e
    rw [← e.2.1]; exact ha
  | t :: ts, ho, ho', h, h', st, e, ha => by
    unfold giveAllH at e
    obtain ⟨⟨st1, ho1, h1⟩, e1, e2⟩ := Out.bind_eq_ok e
    have k : ho1.o.isAllocated = true := by
      rcases runHandlerH_outcome hc e1 with ⟨_, k⟩ | ⟨_, x, _, rfl⟩
      · rw [k.alloc, ha]
      · rfl
    split at e2
    · simp only [Out.ok.injEq, Prod.mk.injEq] at e2
      rw [← e2.2.1]; exact k
    · exact giveAllH_alloc hc ts e2 k

theorem giveAllH_first {W : World} {A : Allocator} {hd : Handler} (hc : hd.isCollection = true) {t : Str} {ts : List Str}
    {ho ho' x : HOpt} {h h' y : Heap} {st : Int} (e0 : runHandlerH W A hd ho h t = .ok (Err.success, x, y))
    (e : giveAllH W A hd ho h (t :: ts) = .ok (st, ho', h')) : ho'.o.isAllocated = true := by
  unfold giveAllH at e
  rw [e0, Out.ok_bind, if_neg (by simp)] at e
  refine giveAllH_alloc hc ts e ?_
  rcases runHandlerH_outcome hc e0 with ⟨h, _⟩ | ⟨_, x, _, rfl⟩
  · exact absurd rfl h
  · rfl

end Argus
