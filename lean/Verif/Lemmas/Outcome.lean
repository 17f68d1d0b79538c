import Verif.Spec.Outcome
import Verif.Lemmas.Quiet
import Verif.Lemmas.Validate
import Verif.Lemmas.Spelling

/-! Lemmas: a successful parse taken apart option by option. -/

set_option autoImplicit false

namespace Argus

/-- Write an entry. -/
def putAt (T : List (List Opt)) (p : Ptr) (o : Opt) : List (List Opt) := T.modify p.tbl (fun os => os.set p.idx o)

theorem placeAt_getOpt {a : Argus} {p : Ptr} {o : Opt} : placeAt a.tables p = some o ↔ a.getOpt p = .ok o := by
  rw [getOpt_eq_ok]
  unfold placeAt
  rw [Option.bind_eq_some_iff]

theorem placeAt_put_self {T : List (List Opt)} {p : Ptr} {o o1 : Opt} (h : placeAt T p = some o) :
    placeAt (putAt T p o1) p = some o1 := by
  have := getOpt_setOpt_self (a := { tables := T }) (o' := o1) (placeAt_getOpt.1 h)
  exact placeAt_getOpt.2 this

theorem placeAt_put_ne {T : List (List Opt)} {p q : Ptr} {o1 : Opt} (h : q ≠ p) :
    placeAt (putAt T p o1) q = placeAt T q := by
  have := getOpt_setOpt_ne (a := { tables := T }) (o' := o1) h
  cases he : placeAt T q with
  | some o =>
    have h1 : ({ tables := T } : Argus).getOpt q = .ok o := placeAt_getOpt.1 he
    rw [← this] at h1
    exact placeAt_getOpt.2 h1
  | none =>
    cases he' : placeAt (putAt T p o1) q with
    | none => rfl
    | some o =>
      have h1 : (({ tables := T } : Argus).setOpt p o1).getOpt q = .ok o := placeAt_getOpt.1 he'
      rw [this] at h1
      rw [show placeAt T q = some o from placeAt_getOpt.2 h1] at he
      cases he

theorem putAt_sizes (T : List (List Opt)) (p : Ptr) (o : Opt) :
    (putAt T p o).map List.length = T.map List.length := by
  apply List.ext_getElem?
  intro k
  unfold putAt
  simp only [List.getElem?_map, List.getElem?_modify]
  cases T[k]? with
  | none => rfl
  | some os => by_cases h : p.tbl = k <;> simp [h]

/-- Same sizes and same entries: same tables. -/
theorem tables_sameEntries {T T' : List (List Opt)} (hs : T'.map List.length = T.map List.length)
    (h : ∀ p o, placeAt T p = some o → placeAt T' p = some o) : T' = T := by
  apply List.ext_getElem?
  intro k
  have hk : (T'[k]?).map List.length = (T[k]?).map List.length := by
    rw [← List.getElem?_map, ← List.getElem?_map, hs]
  cases h1 : T[k]? with
  | none =>
    rw [h1] at hk
    cases h2 : T'[k]? with
    | none => rfl
    | some os => rw [h2] at hk; cases hk
  | some os =>
    rw [h1] at hk
    cases h2 : T'[k]? with
    | none => rw [h2] at hk; cases hk
    | some os' =>
      rw [h2] at hk
      simp only [Option.map_some, Option.some.injEq] at hk
      congr 1
      apply List.ext_getElem?
      intro i
      cases h3 : os[i]? with
      | none =>
        rw [List.getElem?_eq_none_iff] at h3 ⊢; omega
      | some o =>
        have := h ⟨k, i⟩ o (by simp [placeAt, h1, h3])
        simpa [placeAt, h2] using this

/-- Changes of entries, one after the other. -/
def Applies : List (Ptr × (Opt → Opt → Prop)) → List (List Opt) → List (List Opt) → Prop
  | [], T, T' => T' = T
  | (p, r) :: ops, T, T' => ∃ o o1, placeAt T p = some o ∧ r o o1 ∧ Applies ops (putAt T p o1) T'

/-- The changes of one entry. -/
def changesAt (p : Ptr) (ops : List (Ptr × (Opt → Opt → Prop))) : List (Opt → Opt → Prop) :=
  ops.filterMap (fun c => if c.1 = p then some c.2 else none)

theorem changesAt_append (p : Ptr) (xs ys : List (Ptr × (Opt → Opt → Prop))) :
    changesAt p (xs ++ ys) = changesAt p xs ++ changesAt p ys := List.filterMap_append ..

theorem applies_append : ∀ (xs ys : List (Ptr × (Opt → Opt → Prop))) (T T' : List (List Opt)),
    Applies (xs ++ ys) T T' ↔ ∃ T1, Applies xs T T1 ∧ Applies ys T1 T'
  | [], ys, T, T' => by
    simp only [List.nil_append, Applies]
    exact ⟨fun h => ⟨T, rfl, h⟩, fun ⟨T1, h1, h2⟩ => h1 ▸ h2⟩
  | (p, r) :: xs, ys, T, T' => by
    simp only [List.cons_append, Applies, applies_append xs ys]
    constructor
    · rintro ⟨o, o1, h1, h2, T1, h3, h4⟩; exact ⟨T1, ⟨o, o1, h1, h2, h3⟩, h4⟩
    · rintro ⟨T1, ⟨o, o1, h1, h2, h3⟩, h4⟩; exact ⟨o, o1, h1, h2, T1, h3, h4⟩

theorem applies_sizes : ∀ (ops : List (Ptr × (Opt → Opt → Prop))) {T T' : List (List Opt)}, Applies ops T T' →
    T'.map List.length = T.map List.length
  | [], T, T', h => by rw [show T' = T from h]
  | (p, r) :: ops, T, T', ⟨o, o1, _, _, h⟩ => (applies_sizes ops h).trans (putAt_sizes T p o1)

/-- Changes of existing entries, taken apart by entry. -/
theorem applies_iff : ∀ (ops : List (Ptr × (Opt → Opt → Prop))) (T T' : List (List Opt)),
    (∀ c ∈ ops, ∃ o, placeAt T c.1 = some o) →
    (Applies ops T T' ↔ T'.map List.length = T.map List.length ∧
      ∀ p o, placeAt T p = some o → ∃ o', placeAt T' p = some o' ∧ Through (changesAt p ops) o o')
  | [], T, T', _ => by
    simp only [Applies, changesAt, List.filterMap_nil, Through]
    constructor
    · rintro rfl; exact ⟨rfl, fun p o h => ⟨o, h, rfl⟩⟩
    · rintro ⟨h1, h2⟩
      exact tables_sameEntries h1 (fun p o h => by obtain ⟨o', h3, rfl⟩ := h2 p o h; exact h3)
  | (q, r) :: ops, T, T', hex => by
    obtain ⟨oq, hq⟩ := hex (q, r) (by simp)
    have hput : ∀ o1, ∀ c ∈ ops, ∃ o, placeAt (putAt T q o1) c.1 = some o := by
      intro o1 c hc
      by_cases h : c.1 = q
      · rw [h]; exact ⟨o1, placeAt_put_self hq⟩
      · rw [placeAt_put_ne h]; exact hex c (by simp [hc])
    simp only [Applies]
    constructor
    · rintro ⟨o, o1, h1, h2, h3⟩
      obtain ⟨h4, h5⟩ := (applies_iff ops _ _ (hput o1)).1 h3
      refine ⟨h4.trans (putAt_sizes T q o1), ?_⟩
      intro p o2 ho2
      by_cases h : p = q
      · subst h
        rw [h1] at ho2; cases ho2
        obtain ⟨o', h6, h7⟩ := h5 p o1 (placeAt_put_self h1)
        refine ⟨o', h6, ?_⟩
        simp only [changesAt, List.filterMap_cons, if_true]
        exact ⟨o1, h2, h7⟩
      · obtain ⟨o', h6, h7⟩ := h5 p o2 (by rw [placeAt_put_ne h]; exact ho2)
        refine ⟨o', h6, ?_⟩
        simp only [changesAt, List.filterMap_cons]
        rw [if_neg (fun e => h e.symm)]
        exact h7
    · rintro ⟨h1, h2⟩
      obtain ⟨o', h3, h4⟩ := h2 q oq hq
      simp only [changesAt, List.filterMap_cons, if_true] at h4
      obtain ⟨o1, h5, h6⟩ := h4
      refine ⟨oq, o1, hq, h5, (applies_iff ops _ _ (hput o1)).2 ⟨h1.trans (putAt_sizes T q o1).symm, ?_⟩⟩
      intro p o2 ho2
      by_cases h : p = q
      · subst h
        rw [placeAt_put_self hq] at ho2; cases ho2
        exact ⟨o', h3, h6⟩
      · rw [placeAt_put_ne h] at ho2
        obtain ⟨o3, h7, h8⟩ := h2 p o2 ho2
        refine ⟨o3, h7, ?_⟩
        simp only [changesAt, List.filterMap_cons] at h8
        rw [if_neg (fun e => h e.symm)] at h8
        exact h8

/-! ### The callbacks -/

theorem runPreAll_of_met {W : World} {x : Option Str} : ∀ (vs : List Validator) (a : Argus),
    (∀ v ∈ vs, v.order = .pre → MeetsText W x v.kind) → ∃ a', runPreAll W a x vs = .ok (Err.success, a')
  | [], a, _ => ⟨a, rfl⟩
  | v :: vs, a, h => by
    unfold runPreAll
    by_cases hp : v.order = .pre
    · obtain ⟨m, hm⟩ := runPre_success_iff.2 (h v (by simp) hp)
      simp only [hp, if_true, hm, Out.ok_bind, ne_eq, not_true_eq_false, if_false]
      exact runPreAll_of_met vs _ (fun w hw => h w (by simp [hw]))
    · simp only [hp, if_false]
      exact runPreAll_of_met vs a (fun w hw => h w (by simp [hw]))

theorem markSet_exit (o : Opt) : o.markSet.flags = o.flags := rfl

/-- The callbacks succeed exactly if the option takes the text. -/
theorem execCallbacks_takes {W : World} {a : Argus} {p : Ptr} {o : Opt} {x : Option Str} (ho : a.getOpt p = .ok o)
    (hx : o.handler = some .help → o.flags.has .exit = true) (o' : Opt) :
    TakesText W x o o' ↔ ∃ a', execCallbacks W a p x = .ok (Err.success, a') ∧ Sim a' (a.setOpt p o') := by
  constructor
  · rintro ⟨hv, he, hg⟩
    unfold execCallbacks
    rw [ho, Out.ok_bind]
    unfold Opt.give at hg
    cases hh : o.handler with
    | none => rw [hh] at hg; cases hg
    | some hd =>
      rw [hh] at hg
      have hnh : hd ≠ .help := by
        rintro rfl
        rw [hx hh] at he; cases he
      obtain ⟨a1, h1⟩ := runPreAll_of_met _ a hv
      obtain ⟨es, hes⟩ := runPreAll_eq _ h1
      simp only at hes hg ⊢
      rw [h1, Out.ok_bind]
      simp only [ne_eq, not_true_eq_false, if_false]
      have hctx : runHandler W a1 hd o x = runHandler W { tables := [] } hd o x := by
        cases hd <;> first | rfl | exact absurd rfl hnh
      rw [hctx]
      cases hr : runHandler W { tables := [] } hd o x with
      | ub u => rw [hr] at hg; cases hg
      | ok r =>
        rw [hr] at hg
        simp only at hg
        split at hg
        · rename_i hst
          simp only [Option.some.injEq] at hg
          rw [Out.ok_bind]
          simp only [hst, not_true_eq_false, if_false]
          have hfl : r.2.1.markSet.flags = o.flags := by
            have := runHandler_meta hr
            exact (congrArg Opt.flags this : r.2.1.meta.flags = o.meta.flags)
          rw [hfl, he, hg]
          refine ⟨_, by rfl, ?_⟩
          rw [hes]
          exact (((Sim.refl a).emits es []).emits r.2.2 []).setOpt p o'
        · cases hg
  · rintro ⟨a', h, hs⟩
    obtain ⟨o1, o2, es, h1, h2, h3⟩ := execCallbacks_success h
    rw [ho] at h1; cases h1
    have : o2 = o' := by
      have g1 : a'.getOpt p = .ok o2 := by rw [h3]; exact getOpt_setOpt_self (o := o) (by simp [ho])
      have g2 : a'.getOpt p = .ok o' := by rw [hs.getOpt]; exact getOpt_setOpt_self ho
      rw [g1] at g2; exact Out.ok.inj g2
    subst this
    refine ⟨execCallbacks_pre h ho, ?_, h2⟩
    unfold execCallbacks at h
    rw [ho, Out.ok_bind] at h
    split at h
    · simp only [Out.ok.injEq, Prod.mk.injEq] at h; exact absurd h.1 (by decide)
    · obtain ⟨pre, hpre, h4⟩ := Out.bind_eq_ok h
      split at h4
      · rename_i hne; simp only [Out.ok.injEq] at h4; rw [h4] at hne; exact absurd rfl hne
      · obtain ⟨r, hr, h5⟩ := Out.bind_eq_ok h4
        split at h5
        · rename_i hne; simp only [Out.ok.injEq, Prod.mk.injEq] at h5; exact absurd h5.1 hne
        · simp only [Out.ok.injEq, Prod.mk.injEq] at h5
          have hfl : r.2.1.markSet.flags = o.flags := by
            have := runHandler_meta hr
            exact (congrArg Opt.flags this : r.2.1.meta.flags = o.meta.flags)
          rw [hfl] at h5
          cases he : o.flags.has .exit with
          | false => rfl
          | true => rw [he] at h5; exact absurd h5.1 (by decide)

/-! ### The command line -/

/-- The changes a list of things asked for makes. -/
def Act.op (W : World) : Act → Option (Ptr × (Opt → Opt → Prop))
  | .give q x => some (q, TakesText W x)
  | .enter q => some (q, fun o o' => o' = { o with isSet := true })
  | _ => none

theorem changesAt_acts (W : World) (p : Ptr) : ∀ acts : List Act,
    changesAt p (acts.filterMap (Act.op W)) = acts.filterMap (Act.change W p)
  | [] => rfl
  | x :: acts => by
    have ih := changesAt_acts W p acts
    unfold changesAt at ih ⊢
    cases x with
    | give q y =>
      simp only [List.filterMap_cons, Act.op, Act.change, ih]
    | enter q =>
      simp only [List.filterMap_cons, Act.op, Act.change, ih]
    | fail c => simp only [List.filterMap_cons, Act.op, Act.change, ih]
    | noTable => simp only [List.filterMap_cons, Act.op, Act.change, ih]

theorem helpExits_shape {a b : Argus} (h : b.shape = a.shape) (hx : HelpExits a.tables) : HelpExits b.tables := by
  intro p o ho hh
  obtain ⟨o1, h1, h2⟩ := shape_getOpt h.symm (placeAt_getOpt.1 ho)
  have e1 : o1.handler = o.handler := (congrArg Opt.handler h2 : o1.meta.handler = o.meta.handler)
  have e2 : o1.flags = o.flags := (congrArg Opt.flags h2 : o1.meta.flags = o.meta.flags)
  rw [← e2]
  exact hx p o1 (placeAt_getOpt.2 h1) (e1.trans hh)

theorem setOpt_putAt (a : Argus) (p : Ptr) (o : Opt) : (a.setOpt p o).tables = putAt a.tables p o := rfl

theorem enterSub_eq {a : Argus} {p : Ptr} {o : Opt} (ho : a.getOpt p = .ok o) :
    enterSub a p = if 8 ≤ a.stack.length then .ub .stackOverflow
      else .ok (o.subOptions, { a.setOpt p { o with isSet := true } with stack := a.stack ++ [p] }) := by
  unfold enterSub
  rw [ho, Out.ok_bind]
  rfl

/-- Things asked for are carried out exactly if each entry goes through its own and there is room on the stack. -/
theorem run_applies {W : World} : ∀ (acts : List Act) (a : Argus) (T : List (List Opt)) (path : List Ptr),
    HelpExits a.tables → (∀ x ∈ acts, x.Wish) →
    ((∃ a', run W a acts = .ok (Err.success, a') ∧ Sim a' { a with tables := T, stack := path }) ↔
      Applies (acts.filterMap (Act.op W)) a.tables T ∧ path = a.stack ++ entered acts ∧
        (entered acts = [] ∨ path.length ≤ 8))
  | [], a, T, path, _, _ => by
    simp only [run, List.filterMap_nil, Applies, entered, List.append_nil, true_or, and_true, Out.ok.injEq,
      Prod.mk.injEq, true_and]
    constructor
    · rintro ⟨a', rfl, hs⟩; exact ⟨hs.tables.symm, hs.stack.symm⟩
    · rintro ⟨rfl, rfl⟩; exact ⟨a, rfl, .refl _⟩
  | .give q x :: acts, a, T, path, hx, hw => by
    have hw' : ∀ y ∈ acts, y.Wish := fun y hy => hw y (by simp [hy])
    have he : entered (.give q x :: acts) = entered acts := rfl
    rw [he]
    simp only [List.filterMap_cons, Act.op, Applies]
    constructor
    · rintro ⟨a', h, hs⟩
      unfold run at h
      obtain ⟨r, hr, h1⟩ := Out.bind_eq_ok h
      split at h1
      · rename_i hne; simp only [Out.ok.injEq] at h1; rw [h1] at hne; exact absurd rfl hne
      · rename_i hne
        have hst : r.1 = Err.success := by simpa using hne
        have hr' : execCallbacks W a q x = .ok (Err.success, r.2) := by rw [hr, ← hst]
        obtain ⟨o, o', es, h2, h3, h4⟩ := execCallbacks_success hr'
        have hsim : Sim r.2 (a.setOpt q o') := by rw [h4]; exact (Sim.emits_left a es).setOpt q o'
        have ht := (execCallbacks_takes h2 (hx q o (placeAt_getOpt.2 h2)) o').2 ⟨r.2, hr', hsim⟩
        have hs2 : Sim a' { r.2 with tables := T, stack := path } := by
          refine hs.trans ?_
          have := ((Sim.symm hsim).withTables T).push path
          exact this
        have := (run_applies acts r.2 T path (helpExits_shape (execCallbacks_one hr).frame.shape hx) hw').1 ⟨a', h1, hs2⟩
        rw [hsim.tables, hsim.stack, setOpt_putAt, setOpt_stack] at this
        exact ⟨⟨o, o', placeAt_getOpt.2 h2, ht, this.1⟩, this.2⟩
    · rintro ⟨⟨o, o1, h1, h2, h3⟩, h4, h5⟩
      have ho := placeAt_getOpt.1 h1
      obtain ⟨a1, h6, hsim⟩ := (execCallbacks_takes ho (hx q o h1) o1).1 h2
      have := (run_applies acts a1 T path (helpExits_shape (execCallbacks_one h6).frame.shape hx) hw').2
        ⟨by rw [hsim.tables]; exact h3, by rw [hsim.stack]; exact h4, h5⟩
      obtain ⟨a', h7, h8⟩ := this
      refine ⟨a', ?_, ?_⟩
      · unfold run
        rw [h6, Out.ok_bind]
        simp only [ne_eq, not_true_eq_false, if_false]
        exact h7
      · refine h8.trans ?_
        exact (hsim.withTables T).push path
  | .enter q :: acts, a, T, path, hx, hw => by
    have hw' : ∀ y ∈ acts, y.Wish := fun y hy => hw y (by simp [hy])
    have he : entered (.enter q :: acts) = q :: entered acts := rfl
    rw [he]
    simp only [List.filterMap_cons, Act.op, Applies]
    constructor
    · rintro ⟨a', h, hs⟩
      unfold run at h
      obtain ⟨e, he, h1⟩ := Out.bind_eq_ok h
      have hsh := (enterSub_frame he).1.shape
      obtain ⟨o, ho, _⟩ := Out.bind_eq_ok (show (a.getOpt q >>= _) = _ from he)
      rw [enterSub_eq ho] at he
      split at he
      · cases he
      · rename_i hlt
        simp only [Out.ok.injEq] at he
        subst he
        simp only at h1 hsh
        have := (run_applies acts _ T path (helpExits_shape hsh hx) hw').1 ⟨a', h1, hs⟩
        simp only [setOpt_putAt, List.append_assoc, List.singleton_append] at this
        obtain ⟨g1, g2, g3⟩ := this
        refine ⟨⟨o, _, placeAt_getOpt.2 ho, rfl, g1⟩, g2, .inr ?_⟩
        rcases g3 with g3 | g3
        · rw [g2, g3]; simp; omega
        · exact g3
    · rintro ⟨⟨o, o1, h1, rfl, h3⟩, h4, h5⟩
      have ho := placeAt_getOpt.1 h1
      have hl : ¬ 8 ≤ a.stack.length := by
        rcases h5 with h5 | h5
        · cases h5
        · rw [h4] at h5; simp at h5; omega
      have hen := enterSub_eq ho
      rw [if_neg hl] at hen
      have hsh := (enterSub_frame hen).1.shape
      simp only at hsh
      have := (run_applies acts { a.setOpt q { o with isSet := true } with stack := a.stack ++ [q] } T path
        (helpExits_shape hsh hx) hw').2 ⟨h3, by simpa using h4, .inr (by simpa using h5)⟩
      obtain ⟨a', h7, h8⟩ := this
      refine ⟨a', ?_, h8⟩
      unfold run
      rw [hen, Out.ok_bind]
      exact h7
  | .fail c :: acts, a, T, path, _, hw => absurd (hw (.fail c) (by simp)) (by simp [Act.Wish])
  | .noTable :: acts, a, T, path, _, hw => absurd (hw .noTable (by simp)) (by simp [Act.Wish])

/-! ### The environment -/

theorem putAt_same {T : List (List Opt)} {p : Ptr} {o : Opt} (h : placeAt T p = some o) : putAt T p o = T := by
  refine tables_sameEntries (putAt_sizes T p o) ?_
  intro q oq hq
  by_cases he : q = p
  · subst he; rw [h] at hq; cases hq; exact placeAt_put_self h
  · rw [placeAt_put_ne he]; exact hq

theorem sim_setOpt_same {a : Argus} {p : Ptr} {o : Opt} (h : a.getOpt p = .ok o) : Sim a (a.setOpt p o) := by
  have : a.setOpt p o = a := by
    show ({ a with tables := putAt a.tables p o } : Argus) = a
    rw [putAt_same (placeAt_getOpt.2 h)]
  rw [this]; exact .refl _

theorem loadEnvStep_looksUp {W : World} {env : Env} {a : Argus} {p : Ptr} {o : Opt} (ho : a.getOpt p = .ok o)
    (hx : o.handler = some .help → o.flags.has .exit = true) (o' : Opt) :
    LooksUp W env a.envPrefix o o' ↔ ∃ a', loadEnvStep W env a p = .ok (Err.success, a') ∧ Sim a' (a.setOpt p o') := by
  have same : ∀ {o1 : Opt}, Sim a (a.setOpt p o1) → o1 = o := by
    intro o1 hs
    have g := hs.getOpt p
    rw [ho, getOpt_setOpt_self ho] at g
    exact (Out.ok.inj g).symm
  constructor
  · intro h
    cases h with
    | idle hi =>
      refine ⟨a, ?_, sim_setOpt_same ho⟩
      unfold loadEnvStep
      rw [ho, Out.ok_bind]
      split
      · rfl
      · rename_i h1
        split
        · rfl
        · rename_i h2
          rcases hi with hi | hi | hi | hi
          · exact absurd (.inl hi) h1
          · exact absurd (.inr hi) h1
          · exact absurd hi h2
          · split
            · rfl
            · rename_i n hn
              rw [hi n hn]
    | read n v _ ht hs hn hv htk =>
      obtain ⟨a', h1, h2⟩ := (execCallbacks_takes ho hx o').1 htk
      refine ⟨a', ?_, h2⟩
      unfold loadEnvStep
      rw [ho, Out.ok_bind, if_neg (by rcases ht with ht | ht <;> rw [ht] <;> simp),
        if_neg (by rcases hs with hs | hs <;> rw [hs] <;> simp), hn]
      simp only [hv, h1, Out.ok_bind, ne_eq, not_true_eq_false, if_false]
  · rintro ⟨a', h, hs⟩
    unfold loadEnvStep at h
    rw [ho, Out.ok_bind] at h
    split at h
    · rename_i ht
      simp only [Out.ok.injEq, Prod.mk.injEq, true_and] at h; subst h
      rw [same hs]
      exact .idle (by rcases ht with ht | ht; exact .inl ht; exact .inr (.inl ht))
    · rename_i ht
      split at h
      · rename_i h2
        simp only [Out.ok.injEq, Prod.mk.injEq, true_and] at h; subst h
        rw [same hs]
        exact .idle (.inr (.inr (.inl h2)))
      · rename_i h2
        split at h
        · rename_i hn
          simp only [Out.ok.injEq, Prod.mk.injEq, true_and] at h; subst h
          rw [same hs]
          exact .idle (.inr (.inr (.inr (fun n h => by rw [hn] at h; cases h))))
        · rename_i n hn
          split at h
          · rename_i hv
            simp only [Out.ok.injEq, Prod.mk.injEq, true_and] at h; subst h
            rw [same hs]
            exact .idle (.inr (.inr (.inr (fun m h => by rw [hn] at h; cases h; exact hv))))
          · rename_i v hv
            obtain ⟨r, hr, h3⟩ := Out.bind_eq_ok h
            have hr1 : r = (Err.success, a') := by
              split at h3
              · rename_i hne
                split at h3
                · obtain ⟨o1, _, h4⟩ := Out.bind_eq_ok h3
                  simp only [Out.ok.injEq, Prod.mk.injEq] at h4
                  exact absurd h4.1 hne
                · simp only [Out.ok.injEq] at h3; exact h3
              · simp only [Out.ok.injEq] at h3; exact h3
            subst hr1
            refine .read n v o' ?_ ?_ hn hv ((execCallbacks_takes ho hx o').2 ⟨a', hr, hs⟩)
            · cases ht' : o.type with
              | option => exact .inl rfl
              | positional => exact .inr rfl
              | group => exact absurd (.inl ht') ht
              | subcommand => exact absurd (.inr ht') ht
            · cases hset : o.isSet with
              | false => exact .inl rfl
              | true =>
                right
                cases hov : o.flags.has .envOverride with
                | true => rfl
                | false => exact absurd ⟨hset, hov⟩ h2

/-- A successful look-up changes nothing but the entry. -/
theorem loadEnvStep_setOpt {W : World} {env : Env} {a a' : Argus} {p : Ptr} {o1 : Opt}
    (h : loadEnvStep W env a p = .ok (Err.success, a')) (ho1 : a'.getOpt p = .ok o1) : Sim a' (a.setOpt p o1) := by
  obtain ⟨o, ho, h0⟩ := Out.bind_eq_ok (show (a.getOpt p >>= _) = _ from h)
  have same : a' = a → Sim a' (a.setOpt p o1) := by
    rintro rfl
    rw [ho] at ho1; cases ho1
    exact sim_setOpt_same ho
  split at h0
  · simp only [Out.ok.injEq, Prod.mk.injEq, true_and] at h0; exact same h0.symm
  · split at h0
    · simp only [Out.ok.injEq, Prod.mk.injEq, true_and] at h0; exact same h0.symm
    · split at h0
      · simp only [Out.ok.injEq, Prod.mk.injEq, true_and] at h0; exact same h0.symm
      · split at h0
        · simp only [Out.ok.injEq, Prod.mk.injEq, true_and] at h0; exact same h0.symm
        · obtain ⟨r, hr, h3⟩ := Out.bind_eq_ok h0
          have hr1 : r = (Err.success, a') := by
            split at h3
            · rename_i hne
              split at h3
              · obtain ⟨o1, _, h4⟩ := Out.bind_eq_ok h3
                simp only [Out.ok.injEq, Prod.mk.injEq] at h4
                exact absurd h4.1 hne
              · simp only [Out.ok.injEq] at h3; exact h3
            · simp only [Out.ok.injEq] at h3; exact h3
          subst hr1
          obtain ⟨o2, o3, es, g1, g2, g3⟩ := execCallbacks_success hr
          have : o3 = o1 := by
            have g4 : a'.getOpt p = .ok o3 := by rw [g3]; exact getOpt_setOpt_self (o := o2) (by simp [g1])
            rw [ho1] at g4; exact (Out.ok.inj g4).symm
          subst this
          rw [g3]; exact (Sim.emits_left a es).setOpt p o3

/-- The entries of a table, in order. -/
def visitsOf (k n i : Nat) : List Ptr := (List.range' i n).map (fun j => ⟨k, j⟩)

theorem loadEnvLoop_applies {W : World} {env : Env} {k : Nat} : ∀ (n i : Nat) (a : Argus) (T : List (List Opt)),
    HelpExits a.tables →
    ((∃ a', loadEnvLoop W env k n i a = .ok (Err.success, a') ∧ Sim a' { a with tables := T }) ↔
      Applies ((visitsOf k n i).map (fun p => (p, LooksUp W env a.envPrefix))) a.tables T)
  | 0, i, a, T, _ => by
    simp only [loadEnvLoop, visitsOf, List.range'_zero, List.map_nil, Applies, Out.ok.injEq, Prod.mk.injEq, true_and]
    constructor
    · rintro ⟨a', rfl, hs⟩; exact hs.tables.symm
    · rintro rfl; exact ⟨a, rfl, .refl _⟩
  | n + 1, i, a, T, hx => by
    have hv : visitsOf k (n + 1) i = ⟨k, i⟩ :: visitsOf k n (i + 1) := by simp [visitsOf, List.range'_succ]
    rw [hv]
    simp only [List.map_cons, Applies, loadEnvLoop]
    constructor
    · rintro ⟨a', h, hs⟩
      obtain ⟨r, hr, h1⟩ := Out.bind_eq_ok h
      split at h1
      · rename_i hne; simp only [Out.ok.injEq] at h1; rw [h1] at hne; exact absurd rfl hne
      · rename_i hne
        have hst : r.1 = Err.success := by simpa using hne
        have hone := loadEnvStep_one hr
        have hr' : loadEnvStep W env a ⟨k, i⟩ = .ok (Err.success, r.2) := by rw [hr, ← hst]
        obtain ⟨o, ho, _⟩ := Out.bind_eq_ok (show (a.getOpt ⟨k, i⟩ >>= _) = _ from hr')
        obtain ⟨o1, ho1, _⟩ := shape_getOpt hone.frame.shape ho
        have hsim : Sim r.2 (a.setOpt ⟨k, i⟩ o1) := by
          exact loadEnvStep_setOpt hr' ho1
        have hl := (loadEnvStep_looksUp ho (hx _ o (placeAt_getOpt.2 ho)) o1).2 ⟨r.2, hr', hsim⟩
        have := (loadEnvLoop_applies n (i + 1) r.2 T (helpExits_shape hone.frame.shape hx)).1
          ⟨a', h1, hs.trans ((Sim.symm hsim).withTables T)⟩
        rw [hsim.tables, hsim.envPrefix] at this
        exact ⟨o, o1, placeAt_getOpt.2 ho, hl, this⟩
    · rintro ⟨o, o1, h1, h2, h3⟩
      have ho := placeAt_getOpt.1 h1
      obtain ⟨a1, h4, hsim⟩ := (loadEnvStep_looksUp ho (hx _ o h1) o1).1 h2
      have hone := loadEnvStep_one h4
      obtain ⟨a', h5, h6⟩ := (loadEnvLoop_applies n (i + 1) a1 T (helpExits_shape hone.frame.shape hx)).2
        (by rw [hsim.tables, hsim.envPrefix]; exact h3)
      refine ⟨a', ?_, h6.trans (hsim.withTables T)⟩
      rw [h4, Out.ok_bind]
      simp only [ne_eq, not_true_eq_false, if_false]
      exact h5

theorem tableBelow_subOf (a : Argus) (p : Ptr) : tableBelow a.tables p = a.subOf p := by
  unfold tableBelow Argus.subOf
  cases h : a.getOpt p with
  | ok o => rw [placeAt_getOpt.2 h]; rfl
  | ub u =>
    cases he : placeAt a.tables p with
    | none => rfl
    | some o => rw [placeAt_getOpt.1 he] at h; cases h

theorem tableBelow_shape {a b : Argus} (h : b.shape = a.shape) (p : Ptr) :
    tableBelow b.tables p = tableBelow a.tables p := by
  rw [tableBelow_subOf, tableBelow_subOf, subOf_shape h]

theorem shape_sizes {a b : Argus} (h : b.shape = a.shape) : b.tables.map List.length = a.tables.map List.length := by
  unfold Argus.shape at h
  have := congrArg (List.map List.length) h
  simpa [List.map_map, Function.comp_def] using this

/-- The entries of the tables `ks`, table by table; `sizes` are the lengths of all tables. -/
def visitAll (sizes ks : List Nat) : List Ptr := ks.flatMap (fun k => visitsOf k (sizes[k]?.getD 0) 0)

theorem loadEnvTable_applies {W : World} {env : Env} (k : Nat) (a : Argus) (T : List (List Opt))
    (hx : HelpExits a.tables) :
    (∃ a', loadEnvTable W env a k = .ok (Err.success, a') ∧ Sim a' { a with tables := T }) ↔
      (∃ os, a.tables[k]? = some os) ∧
      Applies ((visitAll (a.tables.map List.length) [k]).map (fun p => (p, LooksUp W env a.envPrefix))) a.tables T := by
  constructor
  · rintro ⟨a', h, hs⟩
    unfold loadEnvTable at h
    obtain ⟨os, ho, h1⟩ := Out.bind_eq_ok h
    obtain ⟨k', hk, h2⟩ := table_eq_ok.1 ho
    simp only [Option.some.injEq] at hk; subst hk
    refine ⟨⟨os, h2⟩, ?_⟩
    have := (loadEnvLoop_applies _ _ a T hx).1 ⟨a', h1, hs⟩
    simpa [visitAll, h2] using this
  · rintro ⟨⟨os, h2⟩, h⟩
    obtain ⟨a', h3, h4⟩ := (loadEnvLoop_applies (W := W) (env := env) (k := k) os.length 0 a T hx).2
      (by simpa [visitAll, h2] using h)
    refine ⟨a', ?_, h4⟩
    unfold loadEnvTable
    rw [table_eq_ok.2 ⟨k, rfl, h2⟩, Out.ok_bind]
    exact h3

theorem sim_tables {a b : Argus} (h : Sim a b) : Sim a { b with tables := a.tables } := by
  have := h.withTables a.tables
  exact this

theorem loadEnvTable_sim_self {W : World} {env : Env} {k : Nat} {a a' : Argus} (hx : HelpExits a.tables)
    (h : loadEnvTable W env a k = .ok (Err.success, a')) : Sim a' { a with tables := a'.tables } := by
  unfold loadEnvTable at h
  obtain ⟨os, _, h1⟩ := Out.bind_eq_ok h
  have key : ∀ (n i : Nat) (a a' : Argus), HelpExits a.tables → loadEnvLoop W env k n i a = .ok (Err.success, a') →
      Sim a' { a with tables := a'.tables } := by
    intro n
    induction n with
    | zero =>
      intro i a a' _ h
      simp only [loadEnvLoop, Out.ok.injEq, Prod.mk.injEq, true_and] at h
      subst h; exact .refl _
    | succ n ih =>
      intro i a a' hx h
      unfold loadEnvLoop at h
      obtain ⟨r, hr, h1⟩ := Out.bind_eq_ok h
      split at h1
      · rename_i hne; simp only [Out.ok.injEq] at h1; rw [h1] at hne; exact absurd rfl hne
      · rename_i hne
        have hst : r.1 = Err.success := by simpa using hne
        have hone := loadEnvStep_one hr
        have hr' : loadEnvStep W env a ⟨k, i⟩ = .ok (Err.success, r.2) := by rw [hr, ← hst]
        obtain ⟨o, ho, _⟩ := Out.bind_eq_ok (show (a.getOpt ⟨k, i⟩ >>= _) = _ from hr')
        obtain ⟨o1, ho1, _⟩ := shape_getOpt hone.frame.shape ho
        have hsim := loadEnvStep_setOpt hr' ho1
        have := ih (i + 1) r.2 a' (helpExits_shape hone.frame.shape hx) h1
        exact this.trans (hsim.withTables a'.tables)
  exact key _ _ _ _ hx h1

theorem loadEnvStack_applies {W : World} {env : Env} : ∀ (ps : List Ptr) (a : Argus) (T : List (List Opt)),
    HelpExits a.tables →
    ((∃ a', loadEnvStack W env a ps = .ok (Err.success, a') ∧ Sim a' { a with tables := T }) ↔
      (∀ p ∈ ps, ∃ o, placeAt a.tables p = some o) ∧
      (∀ k ∈ ps.filterMap (tableBelow a.tables), ∃ os, a.tables[k]? = some os) ∧
      Applies ((visitAll (a.tables.map List.length) (ps.filterMap (tableBelow a.tables))).map
        (fun p => (p, LooksUp W env a.envPrefix))) a.tables T)
  | [], a, T, _ => by
    simp only [loadEnvStack, List.filterMap_nil, visitAll, List.flatMap_nil, List.map_nil, Applies, Out.ok.injEq,
      Prod.mk.injEq, true_and, List.not_mem_nil, false_implies, implies_true]
    constructor
    · rintro ⟨a', rfl, hs⟩; exact hs.tables.symm
    · rintro rfl; exact ⟨a, rfl, .refl _⟩
  | p :: ps, a, T, hx => by
    constructor
    · rintro ⟨a', h, hs⟩
      unfold loadEnvStack at h
      obtain ⟨cmd, hcmd, h1⟩ := Out.bind_eq_ok h
      have hb : tableBelow a.tables p = cmd.subOptions := by rw [tableBelow_subOf, subOf_eq hcmd]
      split at h1
      · rename_i hn
        obtain ⟨g1, g2, g3⟩ := (loadEnvStack_applies ps a T hx).1 ⟨a', h1, hs⟩
        simp only [List.filterMap_cons, hb, hn]
        refine ⟨?_, g2, g3⟩
        intro q hq
        rcases List.mem_cons.1 hq with rfl | hq
        · exact ⟨cmd, placeAt_getOpt.2 hcmd⟩
        · exact g1 q hq
      · rename_i k hk
        obtain ⟨r, hr, h2⟩ := Out.bind_eq_ok h1
        split at h2
        · rename_i hne; simp only [Out.ok.injEq] at h2; rw [h2] at hne; exact absurd rfl hne
        · rename_i hne
          have hst : r.1 = Err.success := by simpa using hne
          have hr' : loadEnvTable W env a k = .ok (Err.success, r.2) := by rw [hr, ← hst]
          have hsh := (loadEnvTable_frame hr).frame.shape
          have hself := loadEnvTable_sim_self hx hr'
          obtain ⟨e1, e2⟩ := (loadEnvTable_applies (W := W) (env := env) k a r.2.tables hx).1 ⟨r.2, hr', hself⟩
          obtain ⟨g1, g2, g3⟩ := (loadEnvStack_applies ps r.2 T (helpExits_shape hsh hx)).1
            ⟨a', h2, hs.trans ((Sim.symm hself).withTables T)⟩
          have hfm : ps.filterMap (tableBelow r.2.tables) = ps.filterMap (tableBelow a.tables) := by
            congr 1; funext q; exact tableBelow_shape hsh q
          rw [hfm] at g2 g3
          rw [shape_sizes hsh, hself.envPrefix] at g3
          simp only [List.filterMap_cons, hb, hk]
          refine ⟨?_, ?_, ?_⟩
          · intro q hq
            rcases List.mem_cons.1 hq with rfl | hq
            · exact ⟨cmd, placeAt_getOpt.2 hcmd⟩
            · obtain ⟨o1, ho1⟩ := g1 q hq
              obtain ⟨o2, ho2, _⟩ := shape_getOpt hsh.symm (placeAt_getOpt.1 ho1)
              exact ⟨o2, placeAt_getOpt.2 ho2⟩
          · intro j hj
            rcases List.mem_cons.1 hj with rfl | hj
            · exact e1
            · obtain ⟨os, hos⟩ := g2 j hj
              obtain ⟨os', h3, _⟩ := shape_table hsh.symm (table_eq_ok.2 ⟨j, rfl, hos⟩)
              obtain ⟨j', hj', h4⟩ := table_eq_ok.1 h3
              cases hj'
              exact ⟨os', h4⟩
          · rw [show visitAll (a.tables.map List.length) (k :: ps.filterMap (tableBelow a.tables)) =
              visitAll (a.tables.map List.length) [k] ++
                visitAll (a.tables.map List.length) (ps.filterMap (tableBelow a.tables)) by simp [visitAll],
              List.map_append, applies_append]
            exact ⟨r.2.tables, e2, g3⟩
    · rintro ⟨h1, h2, h3⟩
      obtain ⟨cmd, hc⟩ := h1 p (by simp)
      have hcmd := placeAt_getOpt.1 hc
      have hb : tableBelow a.tables p = cmd.subOptions := by rw [tableBelow_subOf, subOf_eq hcmd]
      unfold loadEnvStack
      simp only [List.filterMap_cons, hb] at h2 h3
      rw [hcmd, Out.ok_bind]
      cases hk : cmd.subOptions with
      | none =>
        rw [hk] at h2 h3
        exact (loadEnvStack_applies ps a T hx).2 ⟨fun q hq => h1 q (by simp [hq]), h2, h3⟩
      | some k =>
        rw [hk] at h2 h3
        simp only at h2 h3 ⊢
        rw [show visitAll (a.tables.map List.length) (k :: ps.filterMap (tableBelow a.tables)) =
              visitAll (a.tables.map List.length) [k] ++
                visitAll (a.tables.map List.length) (ps.filterMap (tableBelow a.tables)) by simp [visitAll],
              List.map_append, applies_append] at h3
        obtain ⟨T1, e1, e2⟩ := h3
        obtain ⟨a1, hr, hs1⟩ := (loadEnvTable_applies k a T1 hx).2 ⟨h2 k (by simp), e1⟩
        have hsh := (loadEnvTable_frame hr).frame.shape
        have hT : a1.tables = T1 := hs1.tables
        simp only at hsh
        have hfm : ps.filterMap (tableBelow a1.tables) = ps.filterMap (tableBelow a.tables) := by
          congr 1; funext q; exact tableBelow_shape hsh q
        obtain ⟨a', h4, h5⟩ := (loadEnvStack_applies ps a1 T (helpExits_shape hsh hx)).2 (by
          refine ⟨?_, ?_, ?_⟩
          · intro q hq
            obtain ⟨o1, ho1⟩ := h1 q (by simp [hq])
            obtain ⟨o2, ho2, _⟩ := shape_getOpt hsh (placeAt_getOpt.1 ho1)
            exact ⟨o2, placeAt_getOpt.2 ho2⟩
          · rw [hfm]
            intro j hj
            obtain ⟨os, hos⟩ := h2 j (by simp [hj])
            obtain ⟨os', h3, _⟩ := shape_table hsh (table_eq_ok.2 ⟨j, rfl, hos⟩)
            obtain ⟨j', hj', h4⟩ := table_eq_ok.1 h3
            cases hj'
            exact ⟨os', h4⟩
          · rw [hfm, shape_sizes hsh, hs1.envPrefix, hT]
            exact e2)
        refine ⟨a', ?_, h5.trans (hs1.withTables T)⟩
        rw [hr, Out.ok_bind]
        simp only [ne_eq, not_true_eq_false, if_false]
        exact h4

theorem loadEnvVars_applies {W : World} {env : Env} (a : Argus) (T : List (List Opt)) (hx : HelpExits a.tables) :
    (∃ a', loadEnvVars W env a = .ok (Err.success, a') ∧ Sim a' { a with tables := T }) ↔
      (∀ p ∈ a.stack, ∃ o, placeAt a.tables p = some o) ∧
      (∀ k ∈ pathTables a a.stack, ∃ os, a.tables[k]? = some os) ∧
      Applies ((visitAll (a.tables.map List.length) (pathTables a a.stack)).map
        (fun p => (p, LooksUp W env a.envPrefix))) a.tables T := by
  have hsplit : visitAll (a.tables.map List.length) (pathTables a a.stack) =
      visitAll (a.tables.map List.length) [a.root] ++
        visitAll (a.tables.map List.length) (a.stack.filterMap (tableBelow a.tables)) := by
    simp [visitAll, pathTables]
  rw [hsplit, List.map_append, applies_append]
  constructor
  · rintro ⟨a', h, hs⟩
    unfold loadEnvVars at h
    obtain ⟨r, hr, h2⟩ := Out.bind_eq_ok h
    split at h2
    · rename_i hne; simp only [Out.ok.injEq] at h2; rw [h2] at hne; exact absurd rfl hne
    · rename_i hne
      have hst : r.1 = Err.success := by simpa using hne
      have hr' : loadEnvTable W env a a.root = .ok (Err.success, r.2) := by rw [hr, ← hst]
      have hsh := (loadEnvTable_frame hr).frame.shape
      have hself := loadEnvTable_sim_self hx hr'
      obtain ⟨e1, e2⟩ := (loadEnvTable_applies (W := W) (env := env) a.root a r.2.tables hx).1 ⟨r.2, hr', hself⟩
      rw [hself.stack] at h2
      obtain ⟨g1, g2, g3⟩ := (loadEnvStack_applies _ r.2 T (helpExits_shape hsh hx)).1
        ⟨a', h2, hs.trans ((Sim.symm hself).withTables T)⟩
      have hfm : a.stack.filterMap (tableBelow r.2.tables) = a.stack.filterMap (tableBelow a.tables) := by
        congr 1; funext q; exact tableBelow_shape hsh q
      simp only at g1 g2 g3
      rw [hfm] at g2 g3
      rw [shape_sizes hsh, hself.envPrefix] at g3
      refine ⟨?_, ?_, r.2.tables, e2, g3⟩
      · intro q hq
        obtain ⟨o1, ho1⟩ := g1 q hq
        obtain ⟨o2, ho2, _⟩ := shape_getOpt hsh.symm (placeAt_getOpt.1 ho1)
        exact ⟨o2, placeAt_getOpt.2 ho2⟩
      · intro j hj
        rcases List.mem_cons.1 hj with rfl | hj
        · exact e1
        · obtain ⟨os, hos⟩ := g2 j hj
          obtain ⟨os', h3, _⟩ := shape_table hsh.symm (table_eq_ok.2 ⟨j, rfl, hos⟩)
          obtain ⟨j', hj', h4⟩ := table_eq_ok.1 h3
          cases hj'
          exact ⟨os', h4⟩
  · rintro ⟨h1, h2, T1, e1, e2⟩
    obtain ⟨a1, hr, hs1⟩ := (loadEnvTable_applies a.root a T1 hx).2 ⟨h2 a.root (by simp [pathTables]), e1⟩
    have hsh := (loadEnvTable_frame hr).frame.shape
    have hT : a1.tables = T1 := hs1.tables
    simp only at hsh
    have hfm : a.stack.filterMap (tableBelow a1.tables) = a.stack.filterMap (tableBelow a.tables) := by
      congr 1; funext q; exact tableBelow_shape hsh q
    obtain ⟨a', h4, h5⟩ := (loadEnvStack_applies a.stack a1 T (helpExits_shape hsh hx)).2 (by
      refine ⟨?_, ?_, ?_⟩
      · intro q hq
        obtain ⟨o1, ho1⟩ := h1 q hq
        obtain ⟨o2, ho2, _⟩ := shape_getOpt hsh (placeAt_getOpt.1 ho1)
        exact ⟨o2, placeAt_getOpt.2 ho2⟩
      · rw [hfm]
        intro j hj
        obtain ⟨os, hos⟩ := h2 j (by simp only [pathTables, List.mem_cons]; exact .inr hj)
        obtain ⟨os', h3, _⟩ := shape_table hsh (table_eq_ok.2 ⟨j, rfl, hos⟩)
        obtain ⟨j', hj', h4⟩ := table_eq_ok.1 h3
        cases hj'
        exact ⟨os', h4⟩
      · rw [hfm, shape_sizes hsh, hs1.envPrefix, hT]
        exact e2)
    refine ⟨a', ?_, h5.trans (hs1.withTables T)⟩
    unfold loadEnvVars
    rw [hr, Out.ok_bind]
    simp only [ne_eq, not_true_eq_false, if_false]
    rw [hs1.stack]
    exact h4

/-! ### All together -/

theorem mem_visitsOf {p : Ptr} {k n i : Nat} : p ∈ visitsOf k n i ↔ p.tbl = k ∧ i ≤ p.idx ∧ p.idx < i + n := by
  unfold visitsOf
  simp only [List.mem_map, List.mem_range'_1]
  constructor
  · rintro ⟨j, hj, rfl⟩; exact ⟨rfl, hj.1, hj.2⟩
  · rintro ⟨rfl, h1, h2⟩; exact ⟨p.idx, ⟨h1, h2⟩, rfl⟩

theorem changesAt_visit (p : Ptr) (R : Opt → Opt → Prop) (l : List Ptr) :
    changesAt p (l.map (fun q => (q, R))) = List.replicate (l.count p) R := by
  induction l with
  | nil => rfl
  | cons q l ih =>
    unfold changesAt at ih ⊢
    simp only [List.map_cons, List.filterMap_cons, ih, List.count_cons]
    by_cases h : q = p
    · simp [h, List.replicate_succ]
    · simp [h]

theorem count_visitsOf (p : Ptr) (k n : Nat) (h : p.tbl = k → p.idx < n) :
    (visitsOf k n 0).count p = if k = p.tbl then 1 else 0 := by
  have hnd : (visitsOf k n 0).Nodup := by
    unfold visitsOf
    exact List.Pairwise.map (S := (· ≠ ·)) _ (fun x y hxy e => hxy (by simpa using e)) (List.nodup_range' (step := 1))
  by_cases hk : k = p.tbl
  · rw [if_pos hk]
    exact List.Nodup.count hnd |>.trans (if_pos (mem_visitsOf.2 ⟨hk.symm, Nat.zero_le _, by simpa using h hk.symm⟩))
  · rw [if_neg hk]
    exact List.count_eq_zero.2 (fun hm => hk (mem_visitsOf.1 hm).1.symm)

theorem count_visitAll (p : Ptr) (sizes ks : List Nat) (n : Nat) (hs : sizes[p.tbl]? = some n) (hp : p.idx < n) :
    (visitAll sizes ks).count p = ks.count p.tbl := by
  induction ks with
  | nil => rfl
  | cons k ks ih =>
    have : visitAll sizes (k :: ks) = visitsOf k (sizes[k]?.getD 0) 0 ++ visitAll sizes ks := by simp [visitAll]
    rw [this, List.count_append, ih, count_visitsOf, List.count_cons, Nat.add_comm]
    · by_cases hk : k = p.tbl <;> simp [hk]
    · rintro rfl; rw [hs]; exact hp

theorem visitAll_exists {T : List (List Opt)} {ks : List Nat} {p : Ptr} (h : p ∈ visitAll (T.map List.length) ks) :
    ∃ o, placeAt T p = some o := by
  unfold visitAll at h
  obtain ⟨k, _, h1⟩ := List.mem_flatMap.1 h
  obtain ⟨rfl, _, h2⟩ := mem_visitsOf.1 h1
  rw [List.getElem?_map] at h2
  cases hk : T[p.tbl]? with
  | none => rw [hk] at h2; simp at h2
  | some os =>
    rw [hk] at h2
    simp only [Option.map_some, Option.getD_some, Nat.zero_add] at h2
    exact ⟨os[p.idx], by simp [placeAt, hk, h2]⟩

theorem placeAt_size {T : List (List Opt)} {p : Ptr} {o : Opt} (h : placeAt T p = some o) :
    ∃ n, (T.map List.length)[p.tbl]? = some n ∧ p.idx < n := by
  unfold placeAt at h
  obtain ⟨os, h1, h2⟩ := Option.bind_eq_some_iff.1 h
  exact ⟨os.length, by rw [List.getElem?_map, h1]; rfl, (List.getElem?_eq_some_iff.1 h2).1⟩

theorem sizes_entry {T T' : List (List Opt)} (hs : T'.map List.length = T.map List.length) {p : Ptr} {o : Opt}
    (h : placeAt T p = some o) : ∃ o', placeAt T' p = some o' := by
  obtain ⟨n, h1, h2⟩ := placeAt_size h
  rw [← hs, List.getElem?_map] at h1
  obtain ⟨os, h3, h4⟩ := Option.map_eq_some_iff.1 h1
  exact ⟨os[p.idx]'(by omega), by unfold placeAt; rw [h3]; simp only [Option.bind_some]; exact List.getElem?_eq_getElem _⟩

theorem sizes_table {T T' : List (List Opt)} (hs : T'.map List.length = T.map List.length) {k : Nat} {os : List Opt}
    (h : T[k]? = some os) : ∃ os', T'[k]? = some os' := by
  have : (T'.map List.length)[k]? = some os.length := by rw [hs, List.getElem?_map, h]; rfl
  rw [List.getElem?_map] at this
  obtain ⟨os', h1, _⟩ := Option.map_eq_some_iff.1 this
  exact ⟨os', h1⟩

theorem act_op_exists {W : World} {a : Argus} {args : List Str} {c : Ptr × (Opt → Opt → Prop)}
    (h : c ∈ (a.asks args).filterMap (Act.op W)) : ∃ o, placeAt a.tables c.1 = some o := by
  obtain ⟨x, hx, he⟩ := List.mem_filterMap.1 h
  have hf := meaning_fits _ _ _ _ _ _ x hx
  cases x with
  | give q y =>
    simp only [Act.op, Option.some.injEq] at he; subst he
    obtain ⟨os, o, h1, h2, _⟩ := hf
    exact ⟨o, by simp [placeAt, h1, h2]⟩
  | enter q =>
    simp only [Act.op, Option.some.injEq] at he; subst he
    obtain ⟨os, o, h1, h2, _⟩ := hf
    exact ⟨o, by simp [placeAt, h1, h2]⟩
  | fail c => simp [Act.op] at he
  | noTable => simp [Act.op] at he

/-- The changes of a whole parse. -/
theorem through_split {W : World} {env : Env} {a : Argus} {args : List Str} {path : List Ptr} {T : List (List Opt)} :
    Applies ((a.asks args).filterMap (Act.op W) ++
        (visitAll (a.tables.map List.length) (pathTables a path)).map (fun p => (p, LooksUp W env a.envPrefix)))
      a.tables T ↔
    T.map List.length = a.tables.map List.length ∧
      ∀ p o, placeAt a.tables p = some o → ∃ o', placeAt T p = some o' ∧
        Through ((a.asks args).filterMap (Act.change W p) ++
          List.replicate ((pathTables a path).count p.tbl) (LooksUp W env a.envPrefix)) o o' := by
  rw [applies_iff]
  · constructor
    · rintro ⟨h1, h2⟩
      refine ⟨h1, fun p o ho => ?_⟩
      obtain ⟨n, hn, hlt⟩ := placeAt_size ho
      have := h2 p o ho
      rw [changesAt_append, changesAt_acts, changesAt_visit, count_visitAll p _ _ n hn hlt] at this
      exact this
    · rintro ⟨h1, h2⟩
      refine ⟨h1, fun p o ho => ?_⟩
      obtain ⟨n, hn, hlt⟩ := placeAt_size ho
      rw [changesAt_append, changesAt_acts, changesAt_visit, count_visitAll p _ _ n hn hlt]
      exact h2 p o ho
  · intro c hc
    rcases List.mem_append.1 hc with hc | hc
    · exact act_op_exists hc
    · obtain ⟨q, hq, rfl⟩ := List.mem_map.1 hc
      exact visitAll_exists hq

theorem wish_iff {x : Act} : x.Wish ↔ x ≠ .noTable ∧ ∀ c, x ≠ .fail c := by
  cases x <;> simp [Act.Wish]

/-- A run that succeeds leaves everything but tables, stack and messages alone. -/
theorem run_sim_self {W : World} : ∀ (acts : List Act) (a a' : Argus), (∀ x ∈ acts, x.Wish) →
    run W a acts = .ok (Err.success, a') → Sim a' { a with tables := a'.tables, stack := a'.stack }
  | [], a, a', _, h => by
    simp only [run, Out.ok.injEq, Prod.mk.injEq, true_and] at h; subst h; exact .refl _
  | .give q x :: acts, a, a', hw, h => by
    unfold run at h
    obtain ⟨r, hr, h1⟩ := Out.bind_eq_ok h
    split at h1
    · rename_i hne; simp only [Out.ok.injEq] at h1; rw [h1] at hne; exact absurd rfl hne
    · rename_i hne
      have hst : r.1 = Err.success := by simpa using hne
      obtain ⟨o, o', es, h2, h3, h4⟩ := execCallbacks_success
        (show execCallbacks W a q x = .ok (Err.success, r.2) by rw [hr, ← hst])
      have ih := run_sim_self acts r.2 a' (fun y hy => hw y (by simp [hy])) h1
      have hsim : Sim r.2 (a.setOpt q o') := by rw [h4]; exact (Sim.emits_left a es).setOpt q o'
      exact ih.trans ((hsim.withTables a'.tables).push a'.stack)
  | .enter q :: acts, a, a', hw, h => by
    unfold run at h
    obtain ⟨e, he, h1⟩ := Out.bind_eq_ok h
    have ih := run_sim_self acts e.2 a' (fun y hy => hw y (by simp [hy])) h1
    obtain ⟨o, ho, _⟩ := Out.bind_eq_ok (show (a.getOpt q >>= _) = _ from he)
    rw [enterSub_eq ho] at he
    split at he
    · cases he
    · simp only [Out.ok.injEq] at he
      subst he
      exact ih
  | .fail c :: acts, a, a', hw, _ => absurd (hw (.fail c) (by simp)) (by simp [Act.Wish])
  | .noTable :: acts, a, a', hw, _ => absurd (hw .noTable (by simp)) (by simp [Act.Wish])

theorem allNamed_shape {a b : Argus} (h : b.shape = a.shape) (hn : ∀ os ∈ a.tables, AllNamed os) :
    ∀ os ∈ b.tables, AllNamed os := by
  intro os hos o ho ht
  obtain ⟨k, hk⟩ := List.getElem?_of_mem hos
  obtain ⟨i, hi⟩ := List.getElem?_of_mem ho
  obtain ⟨o1, h1, h2⟩ := shape_getOpt h.symm (p := ⟨k, i⟩) (getOpt_eq_ok.2 ⟨os, hk, hi⟩)
  have e1 : o1.type = o.type := (congrArg Opt.type h2 : o1.meta.type = o.meta.type)
  have e2 : o1.name = o.name := (congrArg Opt.name h2 : o1.meta.name = o.meta.name)
  obtain ⟨os1, g1, g2⟩ := getOpt_eq_ok.1 h1
  rw [← e2]
  exact hn os1 (List.mem_of_getElem? g1) o1 (List.mem_of_getElem? g2) (by rw [e1]; exact ht)

theorem loadEnvStack_sim_self {W : World} {env : Env} : ∀ (ps : List Ptr) {a a' : Argus}, HelpExits a.tables →
    loadEnvStack W env a ps = .ok (Err.success, a') → Sim a' { a with tables := a'.tables }
  | [], a, a', _, h => by
    simp only [loadEnvStack, Out.ok.injEq, Prod.mk.injEq, true_and] at h; subst h; exact .refl _
  | p :: ps, a, a', hx, h => by
    unfold loadEnvStack at h
    obtain ⟨cmd, hcmd, h1⟩ := Out.bind_eq_ok h
    split at h1
    · exact loadEnvStack_sim_self ps hx h1
    · obtain ⟨r, hr, h2⟩ := Out.bind_eq_ok h1
      split at h2
      · rename_i hne; simp only [Out.ok.injEq] at h2; rw [h2] at hne; exact absurd rfl hne
      · rename_i hne
        have hst : r.1 = Err.success := by simpa using hne
        have g1 := loadEnvTable_sim_self hx (show _ = Out.ok (Err.success, r.2) by rw [hr, ← hst])
        have g2 := loadEnvStack_sim_self ps (helpExits_shape (loadEnvTable_frame hr).frame.shape hx) h2
        exact g2.trans (g1.withTables a'.tables)

theorem validateStack_exists {W : World} : ∀ (ps : List Ptr) {a a' : Argus},
    validateStack W a ps = .ok (Err.success, a') → ∀ q ∈ ps, ∃ cmd k os, a.getOpt q = .ok cmd ∧
      cmd.subOptions = some k ∧ a.tables[k]? = some os
  | [], a, a', h, q, hq => by cases hq
  | p :: ps, a, a', h, q, hq => by
    unfold validateStack at h
    obtain ⟨c, hc, h1⟩ := Out.bind_eq_ok h
    obtain ⟨r, hr, h2⟩ := Out.bind_eq_ok h1
    split at h2
    · rename_i hne; simp only [Out.ok.injEq] at h2; rw [h2] at hne; exact absurd rfl hne
    · obtain ⟨es, hes⟩ := validateTable_eq hr
      rcases List.mem_cons.1 hq with rfl | hq
      · unfold validateTable at hr
        obtain ⟨os, hos, _⟩ := Out.bind_eq_ok hr
        obtain ⟨k, hk, h3⟩ := table_eq_ok.1 hos
        exact ⟨c, k, os, hc, hk, h3⟩
      · obtain ⟨cmd, k, os, g1, g2, g3⟩ := validateStack_exists ps h2 q hq
        rw [hes] at g1 g3
        simp only [getOpt_emits, emits_tables] at g1 g3
        exact ⟨cmd, k, os, g1, g2, g3⟩

theorem postValidation_exists {W : World} {a a' : Argus} (h : postValidation W a = .ok (Err.success, a')) :
    (∃ os, a.tables[a.root]? = some os) ∧ ∀ q ∈ a.stack, ∃ cmd k os, a.getOpt q = .ok cmd ∧
      cmd.subOptions = some k ∧ a.tables[k]? = some os := by
  unfold postValidation at h
  obtain ⟨r, hr, h2⟩ := Out.bind_eq_ok h
  split at h2
  · rename_i hne; simp only [Out.ok.injEq] at h2; rw [h2] at hne; exact absurd rfl hne
  · obtain ⟨es, hes⟩ := validateTable_eq hr
    have hr' := hr
    unfold validateTable at hr'
    obtain ⟨os, hos, _⟩ := Out.bind_eq_ok hr'
    obtain ⟨k, hk, h3⟩ := table_eq_ok.1 hos
    cases hk
    refine ⟨⟨os, h3⟩, fun q hq => ?_⟩
    rw [hes] at h2
    simp only [emits_stack] at h2
    obtain ⟨cmd, k, os, g1, g2, g3⟩ := validateStack_exists _ h2 q hq
    simp only [getOpt_emits, emits_tables] at g1 g3
    exact ⟨cmd, k, os, g1, g2, g3⟩

theorem pathTables_shape {a b : Argus} (h : b.shape = a.shape) (hr : b.root = a.root) (path : List Ptr) :
    pathTables b path = pathTables a path := by
  unfold pathTables
  rw [hr]
  congr 2; funext q; exact tableBelow_shape h q

/-- A parse succeeds, with these tables and this command path, exactly if the command line and the environment are
    accepted with them. -/
theorem argusParse_accepted {W : World} {env : Env} {a : Argus} {args : List Str} {T : List (List Opt)}
    {path : List Ptr} (hx : HelpExits a.tables) (hn : ∀ os ∈ a.tables, AllNamed os) :
    (∃ a', argusParse W env a args = .ok (.returned Err.success, a') ∧ a'.tables = T ∧ a'.stack = path) ↔
      Accepted W env a args T path := by
  constructor
  · rintro ⟨a', h, rfl, rfl⟩
    obtain ⟨a1, a2, h1, h2, h3⟩ := argusParse_success h
    rw [parseArgs_run] at h1
    have hw : ∀ x ∈ a.asks args, x.Wish := run_success_wishes W _ a a1 h1 (asks_no_fail0 a args)
    have hs1 := run_sim_self _ a a1 hw h1
    obtain ⟨b1, b2, b3⟩ := (run_applies _ a a1.tables a1.stack hx hw).1 ⟨a1, h1, hs1⟩
    have hsh1 : a1.shape = a.shape := by
      obtain ⟨_, _, _, hf⟩ := parseLoop_frame args (show parseLoop W (some a.root) a 0 false false args = .ok (Err.success, a1) by
        rw [← h1, ← parseArgs_run]; rfl)
      exact hf.shape
    have hx1 : HelpExits a1.tables := helpExits_shape hsh1 hx
    have hself : Sim a2 { ({ a1 with errorCode := Err.success } : Argus) with tables := a2.tables } := by
      have hf := loadEnvVars_frame h2
      unfold loadEnvVars at h2
      obtain ⟨r, hr, h4⟩ := Out.bind_eq_ok h2
      split at h4
      · rename_i hne; simp only [Out.ok.injEq] at h4; rw [h4] at hne; exact absurd rfl hne
      · rename_i hne
        have hst : r.1 = Err.success := by simpa using hne
        have g1 := loadEnvTable_sim_self (show HelpExits ({ a1 with errorCode := Err.success } : Argus).tables from hx1)
          (show _ = Out.ok (Err.success, r.2) by rw [hr, ← hst])
        have g2 := loadEnvStack_sim_self _ (helpExits_shape (loadEnvTable_frame hr).frame.shape hx1) h4
        exact g2.trans (g1.withTables a2.tables)
    obtain ⟨c1, c2, c3⟩ := (loadEnvVars_applies { a1 with errorCode := Err.success } a2.tables hx1).1 ⟨a2, h2, hself⟩
    simp only at c1 c2 c3
    obtain ⟨es, hes⟩ := postValidation_eq h3
    simp only at hes
    have ht : a'.tables = a2.tables := by rw [hes]; simp
    have hst : a'.stack = a1.stack := by rw [hes, emits_stack, hself.stack]
    have hroot : a1.root = a.root := hs1.root
    have hpt : pathTables { a1 with errorCode := Err.success } a1.stack = pathTables a a1.stack :=
      pathTables_shape hsh1 hroot _
    rw [hpt, shape_sizes hsh1, hs1.envPrefix] at c3
    have hsh2 : a2.shape = a.shape := by
      have := (loadEnvVars_frame h2).frame.shape
      rw [this]; exact hsh1
    obtain ⟨e1, e2⟩ := postValidation_exists h3
    have hlev : ∀ (k : Nat) (os : List Opt), a2.OnPath k → a2.tables[k]? = some os → LevelOk W os := by
      intro k os hp hk
      exact (validateSet_levelOk (allNamed_shape hsh2 hn os (List.mem_of_getElem? hk))).1
        (postValidation_checked h3 hp hk)
    have hr2 : a2.root = a.root := by rw [hself.root]; exact hroot
    rw [ht, hst]
    obtain ⟨d1, d2⟩ := through_split.1 (applies_append _ _ _ _ |>.2 ⟨a1.tables, b1, c3⟩)
    refine ⟨fun x hx => wish_iff.1 (hw x hx), b2, b3, d1, d2, ?_, ?_⟩
    · obtain ⟨os, hos⟩ := e1
      rw [hr2] at hos
      exact ⟨os, hos, hlev a.root os (.inl hr2.symm) hos⟩
    · intro p hp
      rw [show a1.stack = a2.stack by rw [hself.stack]] at hp
      obtain ⟨cmd, k, os, g1, g2, g3⟩ := e2 p hp
      refine ⟨k, os, ?_, g3, hlev k os (.inr ⟨p, hp, cmd, g1, g2⟩) g3⟩
      rw [← tableBelow_shape hsh2, tableBelow_subOf, subOf_eq g1, g2]
  · intro h
    have hw : ∀ x ∈ a.asks args, x.Wish := fun x hx => wish_iff.2 (h.readable x hx)
    obtain ⟨T1, b1, c3⟩ := (applies_append _ _ _ _).1 (through_split.2 ⟨h.sizes, h.entries⟩)
    obtain ⟨a1, h1, hs1⟩ := (run_applies _ a T1 path hx hw).2 ⟨b1, h.selected, h.depth⟩
    have hp1 : parseArgs W a (some a.root) args = .ok (Err.success, a1) := by rw [parseArgs_run]; exact h1
    have hsh1 : a1.shape = a.shape := by
      obtain ⟨_, _, _, hf⟩ := parseLoop_frame args (show parseLoop W (some a.root) a 0 false false args = .ok (Err.success, a1) from hp1)
      exact hf.shape
    have hx1 : HelpExits a1.tables := helpExits_shape hsh1 hx
    have hst1 : a1.stack = path := hs1.stack
    have hroot : a1.root = a.root := hs1.root
    have hT1 : a1.tables = T1 := hs1.tables
    have hsz : T.map List.length = a1.tables.map List.length := by rw [h.sizes, shape_sizes hsh1]
    have hpt : pathTables { a1 with errorCode := Err.success } a1.stack = pathTables a path := by
      rw [hst1]; exact pathTables_shape hsh1 hroot _
    obtain ⟨a2, h2, hs2⟩ := (loadEnvVars_applies (W := W) (env := env) { a1 with errorCode := Err.success } T hx1).2 (by
      refine ⟨?_, ?_, ?_⟩
      · intro p hp
        rw [show ({ a1 with errorCode := Err.success } : Argus).stack = path from hst1] at hp
        obtain ⟨k, os, g1, _⟩ := h.levels p hp
        unfold tableBelow at g1
        obtain ⟨o, ho, _⟩ := Option.bind_eq_some_iff.1 g1
        exact sizes_entry (shape_sizes hsh1) ho
      · intro k hk
        rw [show ({ a1 with errorCode := Err.success } : Argus).stack = a1.stack from rfl, hpt] at hk
        rcases List.mem_cons.1 hk with rfl | hk
        · obtain ⟨os, hos, _⟩ := h.root
          exact sizes_table hsz.symm hos
        · obtain ⟨p, hp, he⟩ := List.mem_filterMap.1 hk
          obtain ⟨k', os, g1, g2, _⟩ := h.levels p hp
          rw [he] at g1; cases g1
          exact sizes_table hsz.symm g2
      · rw [show ({ a1 with errorCode := Err.success } : Argus).stack = a1.stack from rfl, hpt]
        show Applies ((visitAll (a1.tables.map List.length) _).map (fun p => (p, LooksUp W env a1.envPrefix))) a1.tables T
        rw [shape_sizes hsh1, hs1.envPrefix, hT1]
        exact c3)
    have hT : a2.tables = T := hs2.tables
    have hst2 : a2.stack = path := by rw [hs2.stack]; exact hst1
    have hr2 : a2.root = a.root := by rw [hs2.root]; exact hroot
    have hsh2 : a2.shape = a.shape := by
      rw [(loadEnvVars_frame h2).frame.shape]; exact hsh1
    have hnam : ∀ (k : Nat) (os : List Opt), T[k]? = some os → LevelOk W os → Checked W os := by
      intro k os hk hl
      rw [← hT] at hk
      exact (validateSet_levelOk (allNamed_shape hsh2 hn os (List.mem_of_getElem? hk))).2 hl
    obtain ⟨os, hos, hl⟩ := h.root
    obtain ⟨es, h3⟩ := postValidation_of_checked (W := W) (a := a2) (os := os) (by rw [hT, hr2]; exact hos)
      (hnam _ _ hos hl) (by
        intro q hq
        rw [hst2] at hq
        obtain ⟨k, os, g1, g2, g3⟩ := h.levels q hq
        rw [← tableBelow_shape hsh2] at g1
        obtain ⟨o, ho, hk⟩ := Option.bind_eq_some_iff.1 (show (placeAt a2.tables q).bind (·.subOptions) = some k from g1)
        exact ⟨o, k, os, placeAt_getOpt.1 ho, hk, by rw [hT]; exact g2, hnam _ _ g2 g3⟩)
    refine ⟨a2.emits es, ?_, by simp [hT], by simp [hst2]⟩
    unfold argusParse
    rw [hp1, Out.ok_bind]
    simp only [show Err.success ≠ Err.shouldExit by decide, if_false, ne_eq, not_true_eq_false]
    rw [h2, Out.ok_bind]
    simp only [not_true_eq_false, if_false]
    rw [h3, Out.ok_bind]
    simp only [not_true_eq_false, if_false]

end Argus
