import Verif.Lemmas.HeapRelease

/-!
# Lemmas: `argus_parse` in memory
-/

set_option autoImplicit false

namespace Argus

/-! ### What validators find -/

theorem ArrHandler.not_map {hd : Handler} {vt : ValueType} {fh : FreeHandler} {k : CellKind} {n : Nat} (H : ArrHandler hd vt fh k n) :
    vt.mapKind.isSome = false := by cases H <;> rfl

theorem MapHandler.is_map {hd : Handler} {vt : ValueType} {fh : FreeHandler} {k : CellKind} {n : Nat} (H : MapHandler hd vt fh k n) :
    vt.mapKind.isSome = true := by cases H <;> rfl

theorem Entry.seen {base : Nat → Option Blk} {h : Heap} {ho : HOpt} {o : Opt} (e : Entry base h ho o) : ho.seen h = o := by
  unfold HOpt.seen
  cases e with
  | plain h1 h2 h3 h4 _ =>
    rw [h3]
    cases hh : o.handler with
    | none => rfl
    | some hd => simp only [h1 hd hh, Bool.false_eq_true, if_false]
  | arr hd fh k n cs H h1 h2 r h3 =>
    subst h3
    rw [h1]
    simp only [H.coll, if_true]
    cases hp : ho.ptr with
    | none => rw [HOpt.abs_none hp]
    | some x =>
      have hp' : ho.ptr ≠ none := by simp [hp]
      simp only [r.words hp', H.not_map, Bool.false_eq_true, if_false, HOpt.abs_some hp']
      congr 1
      show Val.arr _ = Val.arr cs
      rw [List.map_map]
      congr 1
      exact List.map_id' cs
  | map hd fh k n cs H h1 h2 r h3 =>
    subst h3
    rw [h1]
    simp only [H.coll, if_true]
    cases hp : ho.ptr with
    | none => rw [HOpt.abs_none hp]
    | some x =>
      have hp' : ho.ptr ≠ none := by simp [hp]
      simp only [r.words hp', H.is_map, if_true, HOpt.abs_some hp']
      congr 1
      show Val.map _ = Val.map cs
      rw [List.map_map]
      congr 1
      exact List.map_id' cs

theorem shape_row {a b : Argus} (h : b.shape = a.shape) (k : Nat) : (b.tables[k]?).map (List.map Opt.meta) = (a.tables[k]?).map (List.map Opt.meta) := by
  have h2 : (b.shape)[k]? = (a.shape)[k]? := by rw [h]
  unfold Argus.shape at h2
  rw [List.getElem?_map, List.getElem?_map] at h2
  exact h2

theorem Held.seen {base : Ptr → Nat → Option Blk} {B : Nat → Option Blk} {sel : List Nat} {lk : Ptr → Prop} {c : MemArgus} {a : Argus}
    (H : Held base B sel lk c a) : c.seen.tables = a.tables := by
  unfold MemArgus.seen
  apply List.ext_getElem?
  intro k
  rw [List.getElem?_mapIdx]
  have hr := shape_row H.shape k
  cases h1 : a.tables[k]? with
  | none =>
    rw [h1] at hr
    cases h2 : c.a.tables[k]? with
    | none => rfl
    | some os => rw [h2] at hr; cases hr
  | some os =>
    rw [h1] at hr
    cases h2 : c.a.tables[k]? with
    | none => rw [h2] at hr; cases hr
    | some os' =>
      rw [h2] at hr
      simp only [Option.map_some, Option.some.injEq] at hr ⊢
      apply List.ext_getElem?
      intro i
      rw [List.getElem?_mapIdx]
      have hi : (os'[i]?).map Opt.meta = (os[i]?).map Opt.meta := by rw [← List.getElem?_map, hr, List.getElem?_map]
      cases h3 : os[i]? with
      | none =>
        rw [h3] at hi
        cases h4 : os'[i]? with
        | none => rfl
        | some o => rw [h4] at hi; cases hi
      | some o =>
        rw [h3] at hi
        cases h4 : os'[i]? with
        | none => rw [h4] at hi; cases hi
        | some o' =>
          have g : a.getOpt ⟨k, i⟩ = .ok o := getOpt_eq_ok.2 ⟨os, h1, h3⟩
          have g' : c.a.getOpt ⟨k, i⟩ = .ok o' := getOpt_eq_ok.2 ⟨os', h2, h4⟩
          obtain ⟨ho, f1, f2, _⟩ := H.each _ _ g
          rw [opt_of g'] at f1
          simp only [Out.ok.injEq] at f1
          subst f1
          simp only [Option.map_some, Option.some.injEq]
          exact f2.seen

theorem validateTable_elsewhere {W : World} {a b : Argus} (ht : b.tables = a.tables) {t : Option Nat} {r : Int × Argus}
    (h : validateTable W a t = .ok r) : ∃ es, validateTable W b t = .ok (r.1, b.emits es) := by
  unfold validateTable at h ⊢
  obtain ⟨os, h1, h2⟩ := Out.bind_eq_ok h
  obtain ⟨q, h3, h4⟩ := Out.bind_eq_ok h2
  simp only [Out.ok.injEq] at h4
  subst h4
  have h5 : b.table t = .ok os := by
    obtain ⟨k, hk, h6⟩ := table_eq_ok.1 h1
    exact table_eq_ok.2 ⟨k, hk, by rw [ht]; exact h6⟩
  rw [h5, Out.ok_bind, h3, Out.ok_bind]
  exact ⟨_, rfl⟩

theorem validateStack_elsewhere {W : World} : ∀ (ps : List Ptr) {a b : Argus}, b.tables = a.tables → ∀ {r : Int × Argus},
    validateStack W a ps = .ok r → ∃ es, validateStack W b ps = .ok (r.1, b.emits es)
  | [], a, b, _, r, h => by
    simp only [validateStack, Out.ok.injEq] at h
    subst h
    exact ⟨[], rfl⟩
  | p :: ps, a, b, ht, r, h => by
    unfold validateStack at h ⊢
    obtain ⟨cmd, h1, h2⟩ := Out.bind_eq_ok h
    obtain ⟨q, h3, h4⟩ := Out.bind_eq_ok h2
    obtain ⟨es, hes⟩ := validateTable_eq h3
    obtain ⟨es', h5⟩ := validateTable_elsewhere ht h3
    rw [getOpt_congr ht, h1, Out.ok_bind, h5, Out.ok_bind]
    simp only
    split at h4
    · rename_i hne
      simp only [Out.ok.injEq] at h4
      subst h4
      rw [if_pos hne]
      exact ⟨es', rfl⟩
    · rename_i hne
      rw [if_neg hne]
      obtain ⟨es2, h6⟩ := validateStack_elsewhere ps (b := b.emits es') (by rw [hes]; simpa using ht) h4
      exact ⟨es' ++ es2, by rw [h6]; simp [Argus.emits, List.foldl_append]⟩

theorem postValidation_elsewhere {W : World} {a b : Argus} (ht : b.tables = a.tables) (hs : b.stack = a.stack) (hr : b.root = a.root)
    {r : Int × Argus} (h : postValidation W a = .ok r) : ∃ b', postValidation W b = .ok (r.1, b') := by
  unfold postValidation at h ⊢
  obtain ⟨q, h3, h4⟩ := Out.bind_eq_ok h
  obtain ⟨es, hes⟩ := validateTable_eq h3
  obtain ⟨es', h5⟩ := validateTable_elsewhere ht h3
  rw [hr, h5, Out.ok_bind]
  simp only
  split at h4
  · rename_i hne
    simp only [Out.ok.injEq] at h4
    subst h4
    rw [if_pos hne]
    exact ⟨_, rfl⟩
  · rename_i hne
    rw [if_neg hne]
    rw [hes] at h4
    obtain ⟨es2, h6⟩ := validateStack_elsewhere a.stack (b := b.emits es') (a := a.emits es) (by simpa using ht) (by simpa using h4)
    exact ⟨_, by simp only [emits_stack, hs]; exact h6⟩

/-! ### The start -/

theorem Entry.start {o : Opt} (hp : o.Proper) {h : Heap} (hs : h.Sound) : Entry h.live h ⟨o, none⟩ o := by
  have p0 : Part h.live h [] := ⟨List.nodup_nil, hs, by simp, by simp, fun _ _ => rfl⟩
  have hS := hp.sound
  by_cases hc : ∃ hd, o.handler = some hd ∧ hd.isCollection = true
  · obtain ⟨hd, hh, hcc⟩ := hc
    have u : (⟨o, none⟩ : HOpt).Unused hd := ⟨hh, hcc, hp, rfl⟩
    obtain ⟨fh, hfh, ⟨k, n, H, _⟩ | ⟨k, n, H, _⟩⟩ := u.kinds
    · exact .arr hd fh k n [] H hh hfh (u.rep _ hs) (u.abs _).symm
    · exact .map hd fh k n [] H hh hfh (u.rep _ hs) (u.abs _).symm
  · have hpl : ∀ hd, o.handler = some hd → hd.isCollection = false := by
      intro hd hh
      cases hx : hd.isCollection with
      | false => rfl
      | true => exact absurd ⟨hd, hh, hx⟩ hc
    refine .plain hpl ?_ rfl rfl p0
    cases hh : o.handler with
    | none => exact (hS.none hh)
    | some hd => exact (hS.plain hh (hpl hd hh)).1

theorem Argus.Proper.entry {a : Argus} (h : a.Proper) {p : Ptr} {o : Opt} (ho : a.getOpt p = .ok o) : o.Proper := by
  obtain ⟨os, h1, h2⟩ := getOpt_eq_ok.1 ho
  exact h.entries os (List.mem_of_getElem? h1) o (List.mem_of_getElem? h2)

theorem Held.start {a : Argus} (hp : a.Proper) {h : Heap} (hs : h.Sound) (sel : List Nat) :
    Held (fun _ => h.live) h.live sel (fun _ => False) (MemArgus.start a h) a := by
  refine ⟨rfl, rfl, rfl, rfl, fun p o ho => ?_, fun p _ => rfl, Shares.start hs⟩
  exact ⟨⟨o, none⟩, opt_of ho, Entry.start (hp.entry ho) hs, fun hx => absurd rfl hx, fun hx => absurd rfl hx⟩

/-! ### `argus_parse` -/

/-- `argus_parse` in memory. -/
theorem parse_held (W : World) (env : Env) {A : Allocator} (hA : A.Never) {E : Argus → List Act → Prop} {P : Str → Prop}
    (T : Tracks W env E P) {a : Argus} (hp : a.Proper) (hst : a.stack = []) {args : List Str} (hT : a.TextsFit args env) {h0 : Heap}
    (hs : h0.Sound) (hE : E a (a.asks args)) {e : ParseEnd} {a1 : Argus} (hr : argusParse W env a args = .ok (e, a1)) :
    ∃ c1 ks B, argusParseH W A env (MemArgus.start a h0) args = .ok (e, c1) ∧ Left ks h0.live B ∧ (∀ k ∈ ks, P k) ∧
      (e = .returned Err.success → Good a.shape a.root a1 ∧
        ∃ base, Held base B (pathTables a1 a1.stack) (fun _ => False) c1 a1) ∧
      (e ≠ .returned Err.success → ∃ base leak, Rel (fun _ => False) (fun q => leak = some q) base B c1 ∧ (e = .exited → leak = none)) := by
  obtain ⟨hS, hG⟩ := hp.good hst
  have hF : Fits env a (a.asks args) := hG.texts rfl rfl rfl hT
  have hlev : Levels a.tables (pathTables a a.stack) (a.asks args) :=
    meaning_levels a.tables args _ _ _ _ (fun k hk => by
      simp only [Option.some.injEq] at hk
      subst hk; simp [pathTables])
  have hw : ∀ x ∈ a.asks args, ActWell a.shape x := by
    rw [asks_shape]
    exact meaning_well hS args _ _ _ _ hS.root
  unfold argusParse at hr
  obtain ⟨r, h1, h2⟩ := Out.bind_eq_ok hr
  rw [parseArgs_run] at h1
  obtain ⟨c1, base1, B1, ks1, leak, f1, f2, f3, f4, f5, f6, f7⟩ := (Held.start hp hs (pathTables a a.stack)).run W env hA hS T _ hG hw hF
    hlev hE r h1
  unfold argusParseH
  have f1' : runH W A (MemArgus.start a h0) ((MemArgus.start a h0).a.asks args) = .ok (r.1, c1) := f1
  rw [f1', Out.ok_bind]
  simp only at h2 ⊢
  -- the release after a failure
  have rel : ∀ {c : MemArgus} {b : Argus} {base : Ptr → Nat → Option Blk} {B : Nat → Option Blk} {ks : List Str} {lk : Option Ptr}
      {x : ParseEnd}, Held base B (pathTables b b.stack) (fun q => lk = some q) c b → Good a.shape a.root b → Left ks h0.live B →
      (∀ k ∈ ks, P k) → x ≠ .returned Err.success → (x = .exited → lk = none) →
      ∃ c1 ks B, (argusFreeH c >>= fun c2 => Out.ok (x, c2)) = .ok (x, c1) ∧ Left ks h0.live B ∧ (∀ k ∈ ks, P k) ∧
      (x = .returned Err.success → Good a.shape a.root a1 ∧
        ∃ base, Held base B (pathTables a1 a1.stack) (fun _ => False) c1 a1) ∧
      (x ≠ .returned Err.success → ∃ base leak, Rel (fun _ => False) (fun q => leak = some q) base B c1 ∧ (x = .exited → leak = none)) := by
    intro c b base B ks lk x H hGb l hk hx hex
    obtain ⟨c', base', g1, g2, _⟩ := H.free hS hGb
    rw [g1, Out.ok_bind]
    exact ⟨c', ks, B, rfl, l, hk, fun h => absurd h hx, fun _ => ⟨base', lk, g2, hex⟩⟩
  split at h2
  · rename_i hex
    rw [if_pos hex]
    obtain ⟨y, _, h4⟩ := Out.bind_eq_ok h2
    simp only [Out.ok.injEq, Prod.mk.injEq] at h4
    rw [← h4.1]
    exact rel f4 f6 f2 f3 (by simp) (fun _ => f5 (.inr hex))
  · rename_i hex
    rw [if_neg hex]
    split at h2
    · rename_i hne
      rw [if_pos hne]
      obtain ⟨y, _, h4⟩ := Out.bind_eq_ok h2
      simp only [Out.ok.injEq, Prod.mk.injEq] at h4
      rw [← h4.1]
      exact rel f4 f6 f2 f3 (by simpa using hne) (by simp)
    · rename_i hne
      rw [if_neg hne]
      have hok : r.1 = Err.success := Decidable.not_not.1 hne
      obtain ⟨f8, f9⟩ := f7 hok
      obtain ⟨x, h3, h4⟩ := Out.bind_eq_ok h2
      have hG1 : Good a.shape a.root { r.2 with errorCode := r.1 } := f6.same rfl rfl rfl
      have H1 : Held base1 B1 (pathTables r.2 r.2.stack) (fun _ => False) c1 { r.2 with errorCode := r.1 } :=
        Held.mono (f4.congr (b := { r.2 with errorCode := r.1 }) rfl rfl rfl rfl) (fun q hq => by rw [f5 (.inl hok)] at hq; cases hq)
      have hF1 : Fits env { r.2 with errorCode := r.1 } [] := f8
      obtain ⟨x', g1, g2⟩ := loadEnvVars_good W env hS hF1 hG1
      rw [h3] at g1; simp only [Out.ok.injEq] at g1; subst g1
      have hsel : ∀ p ∈ r.2.stack, ∀ o k, r.2.getOpt p = .ok o → o.subOptions = some k → k ∈ pathTables r.2 r.2.stack := by
        intro p hp o k ho hk
        refine List.mem_cons_of_mem _ (List.mem_filterMap.2 ⟨p, hp, ?_⟩)
        rw [tableBelow_subOf, subOf_eq ho, hk]
      obtain ⟨c2, base2, B2, ks2, leak2, k1, k2, k3, k4, k5, k6⟩ := H1.envVars W env hA hS T hG1 hF1 (T.same (a := r.2) (b := { r.2 with errorCode := r.1 }) rfl rfl f9)
        (by simp [pathTables]) hsel h3
      have hpt : pathTables x.2 x.2.stack = pathTables r.2 r.2.stack := by
        have hst2 : x.2.stack = r.2.stack := (loadEnvVars_frame h3).stack
        rw [pathTables_same (g2.shape.trans f6.shape.symm) (g2.root.trans f6.root.symm), hst2]
      rw [k1, Out.ok_bind]
      simp only
      have hks : ∀ k ∈ ks1 ++ ks2, P k := fun k hk => by
        rcases List.mem_append.1 hk with hk | hk
        · exact f3 k hk
        · exact k3 k hk
      split at h4
      · rename_i hne2
        rw [if_pos hne2]
        obtain ⟨y, _, h5⟩ := Out.bind_eq_ok h4
        simp only [Out.ok.injEq, Prod.mk.injEq] at h5
        rw [← h5.1]
        exact rel (by rw [hpt]; exact k4) g2 (f2.trans k2) hks (by simpa using hne2) (by simp)
      · rename_i hne2
        rw [if_neg hne2]
        have hok2 := k5 (.inl (Decidable.not_not.1 hne2))
        subst hok2
        obtain ⟨v, h5, h6⟩ := Out.bind_eq_ok h4
        obtain ⟨b', hb'⟩ := postValidation_elsewhere (b := c2.seen) k4.seen (by show c2.a.stack = _; exact k4.stack)
          (by show c2.a.root = _; exact k4.root) h5
        rw [hb', Out.ok_bind]
        simp only
        obtain ⟨es, hes⟩ := postValidation_eq h5
        split at h6
        · rename_i hne3
          rw [if_pos hne3]
          obtain ⟨y, _, h7⟩ := Out.bind_eq_ok h6
          simp only [Out.ok.injEq, Prod.mk.injEq] at h7
          rw [← h7.1]
          exact rel (by rw [hpt]; exact k4) g2 (f2.trans k2) hks (by simpa using hne3) (by simp)
        · rename_i hne3
          rw [if_neg hne3]
          simp only [Out.ok.injEq, Prod.mk.injEq] at h6
          obtain ⟨rfl, rfl⟩ := h6
          have hok3 : v.1 = Err.success := Decidable.not_not.1 hne3
          refine ⟨c2, ks1 ++ ks2, B2, rfl, f2.trans k2, hks, fun _ => ⟨?_, base2, ?_⟩, fun h => absurd (by rw [hok3]) h⟩
          · rw [hes]; exact g2.emits es
          · have hp2 : pathTables v.2 v.2.stack = pathTables r.2 r.2.stack := by
              rw [← hpt, hes]
              rw [pathTables_same (a := x.2) (by simp [Argus.shape]) (by simp)]
              simp
            rw [hp2]
            exact Held.mono (k4.congr (by rw [hes]; simp) (by rw [hes]; simp) (by rw [hes]; simp) (by rw [hes]; simp))
              (fun q hq => by cases hq)

end Argus
