import Verif.Lemmas.FirstFault

/-! Lemmas: the first fault on the line and in the environment. -/

set_option autoImplicit false

namespace Argus

theorem through_two : ∀ (rs ss : List (Opt → Opt → Prop)) (o o2 : Opt),
    Through (rs ++ ss) o o2 ↔ ∃ o1, Through rs o o1 ∧ Through ss o1 o2
  | [], ss, o, o2 => ⟨fun h => ⟨o, rfl, h⟩, fun ⟨_, h1, h2⟩ => by cases h1; exact h2⟩
  | r :: rs, ss, o, o2 => by
    constructor
    · rintro ⟨o1, h1, h2⟩
      obtain ⟨o3, h3, h4⟩ := (through_two rs ss o1 o2).1 h2
      exact ⟨o3, ⟨o1, h1, h3⟩, h4⟩
    · rintro ⟨o3, ⟨o1, h1, h3⟩, h4⟩
      exact ⟨o1, h1, (through_two rs ss o1 o2).2 ⟨o3, h3, h4⟩⟩

/-- A change leaves at most one result. -/
def OneResult (r : Opt → Opt → Prop) : Prop := ∀ o o1 o2, r o o1 → r o o2 → o1 = o2

theorem takesText_oneResult (W : World) (x : Option Str) : OneResult (TakesText W x) := fun o o1 o2 h1 h2 => by
  have := h1.handled; rw [h2.handled] at this; cases this; rfl

theorem looksUp_oneResult (W : World) (env : Env) (ep : Option Str) : OneResult (LooksUp W env ep) := by
  have no : ∀ {o o' : Opt} {n v : Str}, EnvIdle env ep o → o.type = .option ∨ o.type = .positional →
      o.isSet = false ∨ o.flags.has .envOverride = true → envVarName ep o = some n → env n = some v → TakesText W (some v) o o' →
      False := by
    intro o o' n v hi ht hs hn hv _
    unfold EnvIdle at hi
    rcases hi with h | h | ⟨h, h'⟩ | h
    · rcases ht with ht | ht <;> rw [h] at ht <;> cases ht
    · rcases ht with ht | ht <;> rw [h] at ht <;> cases ht
    · rcases hs with hs | hs
      · rw [h] at hs; cases hs
      · rw [h'] at hs; cases hs
    · rw [h n hn] at hv; cases hv
  intro o o1 o2 h1 h2
  cases h1 with
  | idle hi =>
    cases h2 with
    | idle => rfl
    | read n v _ a b c d e => exact (no hi a b c d e).elim
  | read n v _ a b c d e =>
    cases h2 with
    | idle hi => exact (no hi a b c d e).elim
    | read n' v' _ _ _ c' d' e' =>
      rw [c] at c'; cases c'; rw [d] at d'; cases d'
      exact takesText_oneResult W _ _ _ _ e e'

theorem through_oneResult : ∀ (rs : List (Opt → Opt → Prop)), (∀ r ∈ rs, OneResult r) → OneResult (Through rs)
  | [], _, o, o1, o2, h1, h2 => by cases h1; cases h2; rfl
  | r :: rs, hr, o, o1, o2, ⟨p1, h1, h1'⟩, ⟨p2, h2, h2'⟩ => by
    have := hr r (by simp) o p1 p2 h1 h2
    subst this
    exact through_oneResult rs (fun r h => hr r (by simp [h])) _ _ _ h1' h2'

theorem change_oneResult {W : World} {p : Ptr} {acts : List Act} : ∀ r ∈ acts.filterMap (Act.change W p), OneResult r := by
  intro r hr
  obtain ⟨x, _, hx⟩ := List.mem_filterMap.1 hr
  cases x with
  | give q y =>
    simp only [Act.change] at hx
    split at hx
    · cases hx; exact takesText_oneResult W y
    · cases hx
  | enter q =>
    simp only [Act.change] at hx
    split at hx
    · cases hx; intro o o1 o2 h1 h2; rw [h1, h2]
    · cases hx
  | fail c => cases hx
  | noTable => cases hx

theorem settled_oneResult {W : World} {env : Env} {ep : Option Str} {p : Ptr} {acts : List Act} {n : Nat} :
    ∀ r ∈ acts.filterMap (Act.change W p) ++ List.replicate n (LooksUp W env ep), OneResult r := by
  intro r hr
  rcases List.mem_append.1 hr with hr | hr
  · exact change_oneResult r hr
  · rw [List.eq_of_mem_replicate hr]; exact looksUp_oneResult W env ep

/-- Two ways to split a list. -/
theorem two_splits {α : Type} : ∀ {b b' c c' : List α} {x x' : α}, b ++ x :: c = b' ++ x' :: c' →
    (b = b' ∧ x = x' ∧ c = c') ∨ (∃ m, b' = b ++ x :: m) ∨ ∃ m, b = b' ++ x' :: m
  | [], [], c, c', x, x', h => by cases h; exact .inl ⟨rfl, rfl, rfl⟩
  | [], y :: b', c, c', x, x', h => by
    simp only [List.nil_append, List.cons_append, List.cons.injEq] at h
    exact .inr (.inl ⟨b', by rw [h.1]; rfl⟩)
  | y :: b, [], c, c', x, x', h => by
    simp only [List.nil_append, List.cons_append, List.cons.injEq] at h
    exact .inr (.inr ⟨b, by rw [h.1]; rfl⟩)
  | y :: b, y' :: b', c, c', x, x', h => by
    simp only [List.cons_append, List.cons.injEq] at h
    obtain ⟨rfl, h⟩ := h
    rcases two_splits h with ⟨rfl, h1⟩ | ⟨m, rfl⟩ | ⟨m, rfl⟩
    · exact .inl ⟨rfl, h1⟩
    · exact .inr (.inl ⟨m, rfl⟩)
    · exact .inr (.inr ⟨m, rfl⟩)

/-! ## The line -/

/-- A run that does not succeed: what came before did, the next thing did not. -/
theorem run_stops {W : World} : ∀ (acts : List Act) {a : Argus} {r : Int × Argus}, run W a acts = .ok r → r.1 ≠ Err.success →
    ∃ done act rest a1, acts = done ++ act :: rest ∧ (∀ x ∈ done, x.Wish) ∧ run W a done = .ok (Err.success, a1) ∧
      (act = .fail r.1 ∨ ∃ p x, act = .give p x ∧ execCallbacks W a1 p x = .ok r)
  | [], a, r, h, hr => by simp only [run, Out.ok.injEq] at h; subst h; exact absurd rfl hr
  | .give p x :: acts, a, r, h, hr => by
    unfold run at h
    obtain ⟨q, hq, h1⟩ := Out.bind_eq_ok h
    by_cases hs : q.1 = Err.success
    · rw [if_neg (by simpa using hs)] at h1
      obtain ⟨done, act, rest, a1, rfl, g1, g2, g3⟩ := run_stops acts h1 hr
      refine ⟨.give p x :: done, act, rest, a1, rfl, ?_, ?_, g3⟩
      · intro z hz
        rcases List.mem_cons.1 hz with rfl | hz
        · exact trivial
        · exact g1 z hz
      · unfold run
        rw [hq, Out.ok_bind, if_neg (by simpa using hs)]
        exact g2
    · rw [if_pos hs] at h1
      simp only [Out.ok.injEq] at h1; subst h1
      exact ⟨[], .give p x, acts, a, rfl, by simp, rfl, .inr ⟨p, x, rfl, hq⟩⟩
  | .enter p :: acts, a, r, h, hr => by
    unfold run at h
    obtain ⟨q, hq, h1⟩ := Out.bind_eq_ok h
    obtain ⟨done, act, rest, a1, rfl, g1, g2, g3⟩ := run_stops acts h1 hr
    refine ⟨.enter p :: done, act, rest, a1, rfl, ?_, ?_, g3⟩
    · intro z hz
      rcases List.mem_cons.1 hz with rfl | hz
      · exact trivial
      · exact g1 z hz
    · unfold run
      rw [hq, Out.ok_bind]
      exact g2
  | .fail c :: acts, a, r, h, hr => by
    simp only [run, Out.ok.injEq] at h; subst h
    exact ⟨[], .fail c, acts, a, rfl, by simp, rfl, .inl rfl⟩
  | .noTable :: acts, a, r, h, hr => by simp [run] at h

theorem op_exists {W : World} {a : Argus} {args : List Str} {done : List Act} (hsub : ∀ x ∈ done, x ∈ a.asks args) :
    ∀ c ∈ done.filterMap (Act.op W), ∃ o, placeAt a.tables c.1 = some o := by
  intro c hc
  obtain ⟨x, hx, he⟩ := List.mem_filterMap.1 hc
  exact act_op_exists (W := W) (List.mem_filterMap.2 ⟨x, hsub x hx, he⟩)

/-- The part of a line that was carried out, entry by entry. -/
theorem run_entries {W : World} {a a1 : Argus} {args : List Str} {done : List Act} (hx : HelpExits a.tables)
    (hsub : ∀ x ∈ done, x ∈ a.asks args) (hw : ∀ x ∈ done, x.Wish) (h : run W a done = .ok (Err.success, a1)) :
    a1.stack = a.stack ++ entered done ∧ (entered done = [] ∨ (a.stack ++ entered done).length ≤ 8) ∧
    a1.tables.map List.length = a.tables.map List.length ∧
    ∀ p o, placeAt a.tables p = some o → ∃ o', placeAt a1.tables p = some o' ∧ Through (done.filterMap (Act.change W p)) o o' := by
  obtain ⟨h1, h2, h3⟩ := (run_applies done a a1.tables a1.stack hx hw).1 ⟨a1, h, run_sim_self done a a1 hw h⟩
  obtain ⟨h4, h5⟩ := (applies_iff _ _ _ (op_exists hsub)).1 h1
  refine ⟨h2, by rw [← h2]; exact h3, h4, fun p o hp => ?_⟩
  obtain ⟨o', g1, g2⟩ := h5 p o hp
  rw [changesAt_acts] at g2
  exact ⟨o', g1, g2⟩

theorem parseArgs_stops {W : World} {a : Argus} {args : List Str} {r : Int × Argus} (hx : HelpExits a.tables)
    (h : parseArgs W a (some a.root) args = .ok r) (hr : r.1 ≠ Err.success) :
    ∃ done act rest, LineStops W a args r.1 done act rest := by
  rw [parseArgs_run] at h
  obtain ⟨done, act, rest, a1, h1, h2, h3, h4⟩ := run_stops _ h hr
  obtain ⟨g1, g2, g3, g4⟩ := run_entries hx (args := args) (fun x hx => by rw [h1]; simp [hx]) h2 h3
  refine ⟨done, act, rest, h1, fun x hx => wish_iff.1 (h2 x hx), g2, fun p o hp => ?_, ?_⟩
  · obtain ⟨o', _, h5⟩ := g4 p o hp
    exact ⟨o', h5⟩
  · rcases h4 with h4 | ⟨p, x, h4, h5⟩
    · exact .inl h4
    · obtain ⟨o, ho⟩ := act_op_exists (W := W) (a := a) (args := args) (c := (p, TakesText W x))
        (List.mem_filterMap.2 ⟨act, by rw [h1]; simp, by rw [h4]; rfl⟩)
      obtain ⟨o', h6, h7⟩ := g4 p o ho
      exact .inr ⟨p, x, o, o', h4, ho, h7, execCallbacks_stops (placeAt_getOpt.1 h6) h5 hr⟩

theorem Act.change_append {W : World} {p : Ptr} (xs : List Act) (x : Act) (ys : List Act) :
    (xs ++ x :: ys).filterMap (Act.change W p) =
      xs.filterMap (Act.change W p) ++ ((x :: ys).filterMap (Act.change W p)) := List.filterMap_append ..

/-- A fault on the line is not followed by anything that is carried out. -/
theorem lineStops_ends {W : World} {a : Argus} {args : List Str} {st : Int} {done rest : List Act} {act : Act} {more : List Act}
    (h : LineStops W a args st done act rest)
    (hr : ∀ x ∈ done ++ act :: more, x ≠ .noTable ∧ ∀ c, x ≠ .fail c)
    (ht : ∀ p o, placeAt a.tables p = some o → ∃ o', Through ((done ++ act :: more).filterMap (Act.change W p)) o o') : False := by
  rcases h.stops with h1 | ⟨p, x, o, o', rfl, h2, h3, h4⟩
  · exact (hr act (by simp)).2 st h1
  · obtain ⟨o2, h5⟩ := ht p o h2
    rw [Act.change_append, through_two] at h5
    obtain ⟨o1, h6, h7⟩ := h5
    have := through_oneResult _ change_oneResult _ _ _ h3 h6
    subst this
    rw [List.filterMap_cons, show Act.change W p (.give p x) = some (TakesText W x) from if_pos rfl] at h7
    obtain ⟨o3, h8, _⟩ := h7
    exact stopsAt_not_taken h4 h8

theorem lineStops_one {W : World} {a : Argus} {args : List Str} {st st' : Int} {done rest done' rest' : List Act} {act act' : Act}
    (h : LineStops W a args st done act rest) (h' : LineStops W a args st' done' act' rest') : st' = st := by
  rcases two_splits (h.split.symm.trans h'.split) with ⟨rfl, rfl, rfl⟩ | ⟨m, rfl⟩ | ⟨m, rfl⟩
  · rcases h.stops with h1 | ⟨p, x, o, o', h1, h2, h3, h4⟩
    · rcases h'.stops with h1' | ⟨p, x, o, o', h1', _⟩
      · rw [h1] at h1'; cases h1'; rfl
      · rw [h1] at h1'; cases h1'
    · rcases h'.stops with h1' | ⟨p', x', o2, o2', h1', h2', h3', h4'⟩
      · rw [h1] at h1'; cases h1'
      · rw [h1] at h1'; cases h1'
        rw [h2] at h2'; cases h2'
        have := through_oneResult _ change_oneResult _ _ _ h3 h3'
        subst this
        exact stopsAt_one h4 h4'
  · exact (lineStops_ends h h'.readable h'.taken).elim
  · exact (lineStops_ends h' h.readable h.taken).elim

theorem lineStops_not_done {W : World} {a : Argus} {args : List Str} {st : Int} {done rest : List Act} {act : Act} {path : List Ptr}
    (h : LineStops W a args st done act rest) (hd : LineDone W a args path)
    (ht : ∀ p o, placeAt a.tables p = some o → ∃ o', Through ((a.asks args).filterMap (Act.change W p)) o o') : False :=
  lineStops_ends (more := rest) h (by rw [← h.split]; exact hd.readable) (by rw [← h.split]; exact ht)

/-! ## The environment -/

theorem loadEnvLoop_stops {W : World} {env : Env} {k : Nat} : ∀ (n i : Nat) {a : Argus} {r : Int × Argus},
    loadEnvLoop W env k n i a = .ok r → r.1 ≠ Err.success → ∃ j a1, j < n ∧
      loadEnvLoop W env k j i a = .ok (Err.success, a1) ∧ loadEnvStep W env a1 ⟨k, i + j⟩ = .ok r
  | 0, i, a, r, h, hr => by simp only [loadEnvLoop, Out.ok.injEq] at h; subst h; exact absurd rfl hr
  | n + 1, i, a, r, h, hr => by
    unfold loadEnvLoop at h
    obtain ⟨q, hq, h1⟩ := Out.bind_eq_ok h
    by_cases hs : q.1 = Err.success
    · rw [if_neg (by simpa using hs)] at h1
      obtain ⟨j, a1, g1, g2, g3⟩ := loadEnvLoop_stops n (i + 1) h1 hr
      refine ⟨j + 1, a1, by omega, ?_, ?_⟩
      · unfold loadEnvLoop
        rw [hq, Out.ok_bind, if_neg (by simpa using hs)]
        exact g2
      · rw [show i + (j + 1) = i + 1 + j by omega]; exact g3
    · rw [if_pos hs] at h1
      simp only [Out.ok.injEq] at h1; subst h1
      exact ⟨0, a, by omega, rfl, hq⟩

/-- Looking up the tables `ks` stops at `p`: the entries before are looked up with success. -/
structure EnvHalts (W : World) (env : Env) (a : Argus) (ks : List Nat) (r : Int × Argus) (before after : List Ptr) (p : Ptr) (a1 : Argus) :
    Prop where
  split : visitAll (a.tables.map List.length) ks = before ++ p :: after
  applies : Applies (before.map (fun p => (p, LooksUp W env a.envPrefix))) a.tables a1.tables
  sim : Sim a1 { a with tables := a1.tables }
  step : loadEnvStep W env a1 p = .ok r

theorem loadEnvLoop_sim_self {W : World} {env : Env} {k : Nat} : ∀ (n i : Nat) (a a' : Argus), HelpExits a.tables →
    loadEnvLoop W env k n i a = .ok (Err.success, a') → Sim a' { a with tables := a'.tables }
  | 0, i, a, a', _, h => by simp only [loadEnvLoop, Out.ok.injEq, Prod.mk.injEq, true_and] at h; subst h; exact .refl _
  | n + 1, i, a, a', hx, h => by
    unfold loadEnvLoop at h
    obtain ⟨q, hq, h1⟩ := Out.bind_eq_ok h
    split at h1
    · rename_i hne; simp only [Out.ok.injEq] at h1; rw [h1] at hne; exact absurd rfl hne
    · rename_i hne
      have hs : q.1 = Err.success := by simpa using hne
      have hq' : loadEnvStep W env a ⟨k, i⟩ = .ok (Err.success, q.2) := by rw [hq, ← hs]
      have hone := loadEnvStep_one hq
      obtain ⟨o, ho, _⟩ := Out.bind_eq_ok (show (a.getOpt ⟨k, i⟩ >>= _) = _ from hq')
      obtain ⟨o1, ho1, _⟩ := shape_getOpt hone.frame.shape ho
      have hsim := loadEnvStep_setOpt hq' ho1
      have ih := loadEnvLoop_sim_self n (i + 1) q.2 a' (helpExits_shape hone.frame.shape hx) h1
      exact ih.trans (hsim.withTables a'.tables)

theorem loadEnvTable_stops {W : World} {env : Env} {k : Nat} {a : Argus} {r : Int × Argus} (hx : HelpExits a.tables)
    (h : loadEnvTable W env a k = .ok r) (hr : r.1 ≠ Err.success) : ∃ before after p a1, EnvHalts W env a [k] r before after p a1 := by
  unfold loadEnvTable at h
  obtain ⟨os, ho, h1⟩ := Out.bind_eq_ok h
  obtain ⟨k', hk, h2⟩ := table_eq_ok.1 ho
  simp only [Option.some.injEq] at hk; subst hk
  obtain ⟨j, a1, g1, g2, g3⟩ := loadEnvLoop_stops _ _ h1 hr
  have hs := loadEnvLoop_sim_self j 0 a a1 hx g2
  refine ⟨visitsOf k j 0, visitsOf k (os.length - j - 1) (j + 1), ⟨k, 0 + j⟩, a1, ?_, ?_, hs, g3⟩
  · rw [Nat.zero_add]
    have e : visitAll (a.tables.map List.length) [k] = visitsOf k os.length 0 := by simp [visitAll, h2]
    rw [e]
    unfold visitsOf
    have : List.range' 0 os.length = List.range' 0 j ++ j :: List.range' (j + 1) (os.length - j - 1) := by
      rw [← List.range'_succ, show (os.length - j - 1) + 1 = os.length - j by omega]
      have := List.range'_append_1 (s := 0) (m := j) (n := os.length - j)
      rw [Nat.zero_add] at this
      rw [this]
      congr 1; omega
    rw [this]; simp
  · exact (loadEnvLoop_applies j 0 a a1.tables hx).1 ⟨a1, g2, hs⟩

theorem loadEnvStack_stops {W : World} {env : Env} : ∀ (ps : List Ptr) {a : Argus} {r : Int × Argus}, HelpExits a.tables →
    loadEnvStack W env a ps = .ok r → r.1 ≠ Err.success →
    ∃ before after p a1, EnvHalts W env a (ps.filterMap (tableBelow a.tables)) r before after p a1
  | [], a, r, _, h, hr => by simp only [loadEnvStack, Out.ok.injEq] at h; subst h; exact absurd rfl hr
  | p :: ps, a, r, hx, h, hr => by
    unfold loadEnvStack at h
    obtain ⟨cmd, hcmd, h1⟩ := Out.bind_eq_ok h
    have hb : tableBelow a.tables p = cmd.subOptions := by rw [tableBelow_subOf, subOf_eq hcmd]
    cases hk : cmd.subOptions with
    | none =>
      rw [hk] at h1
      simp only [List.filterMap_cons, hb, hk]
      exact loadEnvStack_stops ps hx h1 hr
    | some k =>
      rw [hk] at h1
      simp only at h1
      obtain ⟨q, hq, h2⟩ := Out.bind_eq_ok h1
      simp only [List.filterMap_cons, hb, hk]
      have hsplit : visitAll (a.tables.map List.length) (k :: ps.filterMap (tableBelow a.tables)) =
          visitAll (a.tables.map List.length) [k] ++
            visitAll (a.tables.map List.length) (ps.filterMap (tableBelow a.tables)) := by simp [visitAll]
      by_cases hs : q.1 = Err.success
      · rw [if_neg (by simpa using hs)] at h2
        have hq' : loadEnvTable W env a k = .ok (Err.success, q.2) := by rw [hq, ← hs]
        have hsh := (loadEnvTable_frame hq).frame.shape
        have hself := loadEnvTable_sim_self hx hq'
        obtain ⟨_, e2⟩ := (loadEnvTable_applies (W := W) (env := env) k a q.2.tables hx).1 ⟨q.2, hq', hself⟩
        obtain ⟨before, after, p1, a1, g⟩ := loadEnvStack_stops ps (helpExits_shape hsh hx) h2 hr
        have hfm : ps.filterMap (tableBelow q.2.tables) = ps.filterMap (tableBelow a.tables) := by
          congr 1; funext q; exact tableBelow_shape hsh q
        refine ⟨visitAll (a.tables.map List.length) [k] ++ before, after, p1, a1, ?_, ?_, ?_, g.step⟩
        · rw [hsplit, ← hfm, ← shape_sizes hsh, g.split, List.append_assoc]
        · rw [List.map_append, applies_append]
          refine ⟨q.2.tables, e2, ?_⟩
          have := g.applies
          rw [hself.envPrefix] at this
          exact this
        · exact g.sim.trans (hself.withTables a1.tables)
      · rw [if_pos hs] at h2
        simp only [Out.ok.injEq] at h2; subst h2
        obtain ⟨before, after, p1, a1, g⟩ := loadEnvTable_stops hx hq hs
        refine ⟨before, after ++ visitAll (a.tables.map List.length) (ps.filterMap (tableBelow a.tables)), p1, a1, ?_, g.applies, g.sim, g.step⟩
        rw [hsplit, g.split]; simp

theorem loadEnvVars_stops {W : World} {env : Env} {a : Argus} {r : Int × Argus} (hx : HelpExits a.tables)
    (h : loadEnvVars W env a = .ok r) (hr : r.1 ≠ Err.success) :
    ∃ before after p a1, EnvHalts W env a (pathTables a a.stack) r before after p a1 := by
  have hsplit : visitAll (a.tables.map List.length) (pathTables a a.stack) =
      visitAll (a.tables.map List.length) [a.root] ++
        visitAll (a.tables.map List.length) (a.stack.filterMap (tableBelow a.tables)) := by
    simp [visitAll, pathTables]
  unfold loadEnvVars at h
  obtain ⟨q, hq, h2⟩ := Out.bind_eq_ok h
  by_cases hs : q.1 = Err.success
  · rw [if_neg (by simpa using hs)] at h2
    have hq' : loadEnvTable W env a a.root = .ok (Err.success, q.2) := by rw [hq, ← hs]
    have hsh := (loadEnvTable_frame hq).frame.shape
    have hself := loadEnvTable_sim_self hx hq'
    obtain ⟨_, e2⟩ := (loadEnvTable_applies (W := W) (env := env) a.root a q.2.tables hx).1 ⟨q.2, hq', hself⟩
    rw [hself.stack] at h2
    obtain ⟨before, after, p1, a1, g⟩ := loadEnvStack_stops _ (helpExits_shape hsh hx) h2 hr
    simp only at g
    have hfm : a.stack.filterMap (tableBelow q.2.tables) = a.stack.filterMap (tableBelow a.tables) := by
      congr 1; funext q; exact tableBelow_shape hsh q
    refine ⟨visitAll (a.tables.map List.length) [a.root] ++ before, after, p1, a1, ?_, ?_, ?_, g.step⟩
    · have := g.split
      rw [hfm, shape_sizes hsh] at this
      rw [hsplit, this, List.append_assoc]
    · rw [List.map_append, applies_append]
      refine ⟨q.2.tables, e2, ?_⟩
      have := g.applies
      rw [hself.envPrefix] at this
      exact this
    · exact g.sim.trans (hself.withTables a1.tables)
  · rw [if_pos hs] at h2
    simp only [Out.ok.injEq] at h2; subst h2
    obtain ⟨before, after, p1, a1, g⟩ := loadEnvTable_stops hx hq hs
    refine ⟨before, after ++ visitAll (a.tables.map List.length) (a.stack.filterMap (tableBelow a.tables)), p1, a1, ?_, g.applies, g.sim, g.step⟩
    rw [hsplit, g.split]; simp

/-- A look into the environment that does not succeed. -/
theorem loadEnvStep_stops {W : World} {env : Env} {a : Argus} {p : Ptr} {o : Opt} {r : Int × Argus} (ho : a.getOpt p = .ok o)
    (h : loadEnvStep W env a p = .ok r) (hr : r.1 ≠ Err.success) : ∃ n v, (o.type = .option ∨ o.type = .positional) ∧
      (o.isSet = false ∨ o.flags.has .envOverride = true) ∧ envVarName a.envPrefix o = some n ∧ env n = some v ∧
      StopsAt W (some v) o r.1 := by
  unfold loadEnvStep at h
  rw [ho, Out.ok_bind] at h
  by_cases ht : o.type = .group ∨ o.type = .subcommand
  · rw [if_pos ht] at h; simp only [Out.ok.injEq] at h; subst h; exact absurd rfl hr
  rw [if_neg ht] at h
  by_cases hs : o.isSet = true ∧ o.flags.has .envOverride = false
  · rw [if_pos hs] at h; simp only [Out.ok.injEq] at h; subst h; exact absurd rfl hr
  rw [if_neg hs] at h
  cases hn : envVarName a.envPrefix o with
  | none => rw [hn] at h; simp only [Out.ok.injEq] at h; subst h; exact absurd rfl hr
  | some n =>
    rw [hn] at h
    simp only at h
    cases hv : env n with
    | none => rw [hv] at h; simp only [Out.ok.injEq] at h; subst h; exact absurd rfl hr
    | some v =>
      rw [hv] at h
      simp only at h
      obtain ⟨q, hq, h1⟩ := Out.bind_eq_ok h
      have hq1 : q.1 = r.1 := by
        split at h1
        · split at h1
          · obtain ⟨o1, _, h2⟩ := Out.bind_eq_ok h1
            simp only [Out.ok.injEq] at h2; subst h2; rfl
          · simp only [Out.ok.injEq] at h1; subst h1; rfl
        · simp only [Out.ok.injEq] at h1; subst h1; rfl
      refine ⟨n, v, ?_, ?_, rfl, hv, ?_⟩
      · cases hty : o.type <;> simp [hty] at ht ⊢
      · cases h1 : o.isSet with
        | false => exact .inl rfl
        | true =>
          cases h2 : o.flags.has .envOverride with
          | true => exact .inr rfl
          | false => exact absurd ⟨h1, h2⟩ hs
      · rw [← hq1]; exact execCallbacks_stops ho hq (by rw [hq1]; exact hr)

theorem lookups_visitAll (T : List (List Opt)) (ks : List Nat) : visitAll (T.map List.length) ks = lookups T ks := by
  unfold visitAll lookups visitsOf
  congr 1; funext k
  rw [List.getElem?_map, ← List.range_eq_range']

end Argus
