import Verif.Lemmas.History

/-! Messages and the error code have no influence on what happens. -/

set_option autoImplicit false

namespace Argus

/-- The context without its messages and error code. -/
def Argus.quiet (a : Argus) : Argus := { a with out := [], errorCode := 0 }

/-- Equal apart from messages and error code. -/
def Sim (a b : Argus) : Prop := a.quiet = b.quiet

namespace Sim
variable {a b c : Argus}

theorem refl (a : Argus) : Sim a a := rfl
theorem symm (h : Sim a b) : Sim b a := Eq.symm h
theorem trans (h : Sim a b) (h2 : Sim b c) : Sim a c := Eq.trans h h2
theorem tables (h : Sim a b) : a.tables = b.tables := by
  have := congrArg (fun x : Argus => x.tables) (show a.quiet = b.quiet from h)
  exact this
theorem stack (h : Sim a b) : a.stack = b.stack := by
  have := congrArg (fun x : Argus => x.stack) (show a.quiet = b.quiet from h)
  exact this
theorem root (h : Sim a b) : a.root = b.root := by
  have := congrArg (fun x : Argus => x.root) (show a.quiet = b.quiet from h)
  exact this
theorem envPrefix (h : Sim a b) : a.envPrefix = b.envPrefix := by
  have := congrArg (fun x : Argus => x.envPrefix) (show a.quiet = b.quiet from h)
  exact this

theorem getOpt (h : Sim a b) (p : Ptr) : a.getOpt p = b.getOpt p := getOpt_congr h.tables p
theorem table (h : Sim a b) (t : Option Nat) : a.table t = b.table t := table_congr h.tables t

theorem emits_left (a : Argus) (es : List Event) : Sim (a.emits es) a := by
  obtain ⟨c, hc⟩ := emits_eq a es
  rw [hc]; rfl

theorem emits (h : Sim a b) (es es' : List Event) : Sim (a.emits es) (b.emits es') :=
  (emits_left a es).trans (h.trans (emits_left b es').symm)

theorem emit (h : Sim a b) (e e' : Event) : Sim (a.emit e) (b.emit e') := h.emits [e] [e']

theorem report (h : Sim a b) (c c' : Int) : Sim (a.report c) (b.report c') := h.emits [_] [_]

theorem setCode (h : Sim a b) (c c' : Int) : Sim { a with errorCode := c } { b with errorCode := c' } := h

theorem withTables (h : Sim a b) (ts : List (List Opt)) : Sim { a with tables := ts } { b with tables := ts } := by
  have := congrArg (fun x : Argus => { x with tables := ts }) h
  exact this

theorem setOpt (h : Sim a b) (p : Ptr) (o : Opt) : Sim (a.setOpt p o) (b.setOpt p o) := by
  unfold Argus.setOpt
  rw [h.tables]
  exact h.withTables _

theorem push (h : Sim a b) (st : List Ptr) : Sim { a with stack := st } { b with stack := st } := by
  have := congrArg (fun x : Argus => { x with stack := st }) h
  exact this

theorem activeOptions (h : Sim a b) : a.activeOptions = b.activeOptions := by
  unfold Argus.activeOptions
  rw [h.stack, h.root]
  split
  · rw [h.getOpt]
  · rfl

end Sim

/-- Two outcomes agree apart from messages and error code. -/
def OutSim {α : Type} : Out (α × Argus) → Out (α × Argus) → Prop
  | .ok r, .ok r' => r.1 = r'.1 ∧ Sim r.2 r'.2
  | .ub u, .ub u' => u = u'
  | _, _ => False

theorem OutSim.refl {α : Type} : ∀ (x : Out (α × Argus)), OutSim x x
  | .ok _ => ⟨rfl, .refl _⟩
  | .ub _ => rfl

theorem OutSim.symm {α : Type} : ∀ {x y : Out (α × Argus)}, OutSim x y → OutSim y x
  | .ok _, .ok _, h => ⟨h.1.symm, h.2.symm⟩
  | .ub _, .ub _, h => Eq.symm h
  | .ok _, .ub _, h => h.elim
  | .ub _, .ok _, h => h.elim

theorem OutSim.trans {α : Type} : ∀ {x y z : Out (α × Argus)}, OutSim x y → OutSim y z → OutSim x z
  | .ok _, .ok _, .ok _, h, h' => ⟨h.1.trans h'.1, h.2.trans h'.2⟩
  | .ub _, .ub _, .ub _, h, h' => Eq.trans h h'
  | .ok _, .ub _, _, h, _ => h.elim
  | .ub _, .ok _, _, h, _ => h.elim
  | .ok _, .ok _, .ub _, _, h => h.elim
  | .ub _, .ub _, .ok _, _, h => h.elim

theorem OutSim.ok {α : Type} (s : α) {a b : Argus} (h : Sim a b) : OutSim (.ok (s, a)) (.ok (s, b)) := ⟨rfl, h⟩

theorem OutSim.bind {α β : Type} {x y : Out (α × Argus)} {f g : α × Argus → Out (β × Argus)} (h : OutSim x y)
    (hf : ∀ s a b, Sim a b → OutSim (f (s, a)) (g (s, b))) : OutSim (x >>= f) (y >>= g) := by
  cases x with
  | ub u => cases y with
    | ub u' => exact h
    | ok r => exact h.elim
  | ok r => cases y with
    | ub u' => exact h.elim
    | ok r' =>
      obtain ⟨s, a⟩ := r
      obtain ⟨s', b⟩ := r'
      obtain ⟨h1, h2⟩ := h
      simp only at h1; subst h1
      exact hf s a b h2

theorem OutSim.of_ok {α : Type} {x y : Out (α × Argus)} {s : α} {a : Argus} (h : OutSim x y) (hx : x = .ok (s, a)) :
    ∃ b, y = .ok (s, b) ∧ Sim a b := by
  subst hx
  cases y with
  | ub u => exact h.elim
  | ok r => exact ⟨r.2, by rw [show s = r.1 from h.1], h.2⟩

theorem OutSim.bindSame {α β : Type} (x : Out α) {f g : α → Out (β × Argus)}
    (hf : ∀ r, OutSim (f r) (g r)) : OutSim (x >>= f) (x >>= g) := by
  cases x with
  | ub u => exact rfl
  | ok r => exact hf r

theorem runPreAll_sim {W : World} {arg : Option Str} : ∀ (vs : List Validator) {a b : Argus}, Sim a b →
    OutSim (runPreAll W a arg vs) (runPreAll W b arg vs)
  | [], a, b, h => .ok _ h
  | v :: vs, a, b, h => by
    unfold runPreAll
    split
    · refine .bindSame _ (fun r => ?_)
      simp only
      split
      · exact .ok _ (h.emits _ _)
      · exact runPreAll_sim vs (h.emits _ _)
    · exact runPreAll_sim vs h

theorem runHandler_sim {W : World} {a b : Argus} (h : Sim a b) (hd : Handler) (o : Opt) (x : Option Str) :
    runHandler W a hd o x = runHandler W b hd o x := by
  cases hd with
  | help => unfold runHandler; rw [h.activeOptions]
  | _ => rfl

theorem execCallbacks_sim {W : World} {a b : Argus} (h : Sim a b) (p : Ptr) (x : Option Str) :
    OutSim (execCallbacks W a p x) (execCallbacks W b p x) := by
  unfold execCallbacks
  rw [h.getOpt]
  refine .bindSame _ (fun o => ?_)
  split
  · exact .ok _ (h.report _ _)
  · refine (runPreAll_sim _ h).bind (fun s a1 b1 h1 => ?_)
    simp only
    split
    · exact .ok _ h1
    · rw [runHandler_sim h1]
      refine .bindSame _ (fun r => ?_)
      split
      · exact .ok _ ((h1.emits _ _).setOpt _ _)
      · exact .ok _ ((h1.emits _ _).setOpt _ _)

theorem enterSub_sim {a b : Argus} (h : Sim a b) (p : Ptr) : OutSim (enterSub a p) (enterSub b p) := by
  unfold enterSub
  rw [h.getOpt, h.stack]
  refine .bindSame _ (fun o => ?_)
  split
  · exact rfl
  · refine .ok _ ?_
    simp only [setOpt_stack, h.stack]
    exact (h.setOpt _ _).push _

theorem run_sim {W : World} : ∀ (acts : List Act) {a b : Argus}, Sim a b →
    OutSim (run W a acts) (run W b acts)
  | [], a, b, h => .ok _ h
  | .give p x :: acts, a, b, h => by
    unfold run
    refine (execCallbacks_sim h p x).bind (fun s a1 b1 h1 => ?_)
    simp only
    split
    · exact .ok _ h1
    · exact run_sim acts h1
  | .enter p :: acts, a, b, h => by
    unfold run
    exact (enterSub_sim h p).bind (fun s a1 b1 h1 => run_sim acts h1)
  | .fail c :: acts, a, b, h => by unfold run; exact .ok _ (h.report _ _)
  | .noTable :: acts, a, b, h => by simp [run, OutSim]

theorem loadEnvStep_sim {W : World} {env : Env} {a b : Argus} (h : Sim a b) (p : Ptr) :
    OutSim (loadEnvStep W env a p) (loadEnvStep W env b p) := by
  unfold loadEnvStep
  rw [h.getOpt, h.envPrefix]
  refine .bindSame _ (fun o => ?_)
  split
  · exact .ok _ h
  · split
    · exact .ok _ h
    · split
      · exact .ok _ h
      · split
        · exact .ok _ h
        · refine (execCallbacks_sim h p _).bind (fun s a1 b1 h1 => ?_)
          simp only
          split
          · split
            · rw [h1.getOpt]
              exact .bindSame _ (fun o1 => .ok _ (h1.setOpt _ _))
            · exact .ok _ h1
          · exact .ok _ h1

theorem loadEnvLoop_sim {W : World} {env : Env} {k : Nat} : ∀ (n i : Nat) {a b : Argus}, Sim a b →
    OutSim (loadEnvLoop W env k n i a) (loadEnvLoop W env k n i b)
  | 0, _, a, b, h => .ok _ h
  | n + 1, i, a, b, h => by
    unfold loadEnvLoop
    refine (loadEnvStep_sim h _).bind (fun s a1 b1 h1 => ?_)
    simp only
    split
    · exact .ok _ h1
    · exact loadEnvLoop_sim n _ h1

theorem loadEnvTable_sim {W : World} {env : Env} {a b : Argus} (h : Sim a b) (k : Nat) :
    OutSim (loadEnvTable W env a k) (loadEnvTable W env b k) := by
  unfold loadEnvTable
  rw [h.table]
  exact .bindSame _ (fun os => loadEnvLoop_sim _ _ h)

theorem loadEnvStack_sim {W : World} {env : Env} : ∀ (ps : List Ptr) {a b : Argus}, Sim a b →
    OutSim (loadEnvStack W env a ps) (loadEnvStack W env b ps)
  | [], a, b, h => .ok _ h
  | p :: ps, a, b, h => by
    unfold loadEnvStack
    rw [h.getOpt]
    refine .bindSame _ (fun o => ?_)
    split
    · exact loadEnvStack_sim ps h
    · refine (loadEnvTable_sim h _).bind (fun s a1 b1 h1 => ?_)
      simp only
      split
      · exact .ok _ h1
      · exact loadEnvStack_sim ps h1

theorem loadEnvVars_sim {W : World} {env : Env} {a b : Argus} (h : Sim a b) :
    OutSim (loadEnvVars W env a) (loadEnvVars W env b) := by
  unfold loadEnvVars
  rw [h.root]
  refine (loadEnvTable_sim h _).bind (fun s a1 b1 h1 => ?_)
  simp only
  split
  · exact .ok _ h1
  · rw [h1.stack]; exact loadEnvStack_sim _ h1

theorem validateTable_sim {W : World} {a b : Argus} (h : Sim a b) (t : Option Nat) :
    OutSim (validateTable W a t) (validateTable W b t) := by
  unfold validateTable
  rw [h.table]
  exact .bindSame _ (fun os => .bindSame _ (fun r => .ok _ (h.emits _ _)))

theorem validateStack_sim {W : World} : ∀ (ps : List Ptr) {a b : Argus}, Sim a b →
    OutSim (validateStack W a ps) (validateStack W b ps)
  | [], a, b, h => .ok _ h
  | p :: ps, a, b, h => by
    unfold validateStack
    rw [h.getOpt]
    refine .bindSame _ (fun o => ?_)
    refine (validateTable_sim h _).bind (fun s a1 b1 h1 => ?_)
    simp only
    split
    · exact .ok _ h1
    · exact validateStack_sim ps h1

theorem postValidation_sim {W : World} {a b : Argus} (h : Sim a b) :
    OutSim (postValidation W a) (postValidation W b) := by
  unfold postValidation
  rw [h.root]
  refine (validateTable_sim h _).bind (fun s a1 b1 h1 => ?_)
  simp only
  split
  · exact .ok _ h1
  · rw [h1.stack]; exact validateStack_sim _ h1

/-- `argus_free` with a dummy result. -/
def freeU (a : Argus) : Out (Unit × Argus) := do
  let a1 ← argusFree a
  .ok ((), a1)

def freeTableU (a : Argus) (t : Option Nat) : Out (Unit × Argus) := do
  let a1 ← freeTable a t
  .ok ((), a1)

def freeStackU (a : Argus) (ps : List Ptr) : Out (Unit × Argus) := do
  let a1 ← freeStack a ps
  .ok ((), a1)

theorem freeTable_sim {a b : Argus} (h : Sim a b) (t : Option Nat) :
    OutSim (freeTableU a t) (freeTableU b t) := by
  unfold freeTableU freeTable
  rw [h.table]
  cases b.table t with
  | ub u => exact rfl
  | ok os =>
    simp only [Out.ok_bind]
    cases freeOpts os with
    | ub u => exact rfl
    | ok os1 =>
      simp only [Out.ok_bind]
      cases t with
      | none => exact .ok _ h
      | some k => rw [h.tables]; exact .ok _ (h.withTables _)

theorem freeStackU_cons (a : Argus) (p : Ptr) (ps : List Ptr) : freeStackU a (p :: ps) = (do
    let cmd ← a.getOpt p
    let r ← freeTableU a cmd.subOptions
    freeStackU r.2 ps) := by
  unfold freeStackU freeTableU
  simp only [freeStack]
  cases a.getOpt p with
  | ub u => rfl
  | ok cmd =>
    simp only [Out.ok_bind]
    cases freeTable a cmd.subOptions <;> rfl

theorem freeStack_sim : ∀ (ps : List Ptr) {a b : Argus}, Sim a b →
    OutSim (freeStackU a ps) (freeStackU b ps)
  | [], a, b, h => .ok _ h
  | p :: ps, a, b, h => by
    rw [freeStackU_cons, freeStackU_cons, h.getOpt]
    refine .bindSame _ (fun o => ?_)
    exact (freeTable_sim h _).bind (fun s a1 b1 h1 => freeStack_sim ps h1)

theorem freeU_eq (a : Argus) : freeU a = (do
    let r ← freeTableU a (some a.root)
    freeStackU r.2 r.2.stack) := by
  unfold freeU freeStackU freeTableU argusFree
  cases freeTable a (some a.root) <;> rfl

theorem argusFree_sim {a b : Argus} (h : Sim a b) : OutSim (freeU a) (freeU b) := by
  rw [freeU_eq, freeU_eq, h.root]
  refine (freeTable_sim h _).bind (fun s a1 b1 h1 => ?_)
  simp only
  rw [h1.stack]; exact freeStack_sim _ h1

/-- What `argus_parse` does after `parse_args`. -/
def afterParse (W : World) (env : Env) (r : Int × Argus) : Out (ParseEnd × Argus) :=
  let a1 := { r.2 with errorCode := r.1 }
  if r.1 = Err.shouldExit then do
    let a2 ← argusFree a1
    .ok (.exited, a2)
  else if r.1 ≠ Err.success then do
    let a2 ← argusFree ((a1.emit (.usage none)).emit .tryHelp)
    .ok (.returned r.1, a2)
  else do
    let e ← loadEnvVars W env a1
    if e.1 ≠ Err.success then do
      let a2 ← argusFree e.2
      .ok (.returned e.1, a2)
    else do
      let v ← postValidation W e.2
      if v.1 ≠ Err.success then do
        let a2 ← argusFree v.2
        .ok (.returned v.1, a2)
      else .ok (.returned v.1, v.2)

theorem argusParse_eq (W : World) (env : Env) (a : Argus) (args : List Str) :
    argusParse W env a args = (do
      let r ← parseArgs W a (some a.root) args
      afterParse W env r) := rfl

theorem free_sim {a b : Argus} (h : Sim a b) (e : ParseEnd) :
    OutSim (do let a2 ← argusFree a
               .ok (e, a2)) (do let a2 ← argusFree b
                                .ok (e, a2)) := by
  have h1 := argusFree_sim h
  unfold freeU at h1
  cases ha : argusFree a with
  | ub u =>
    rw [ha] at h1
    cases hb : argusFree b with
    | ub u' => rw [hb] at h1; exact h1
    | ok b1 => rw [hb] at h1; exact h1.elim
  | ok a1 =>
    rw [ha] at h1
    cases hb : argusFree b with
    | ub u' => rw [hb] at h1; exact h1.elim
    | ok b1 => rw [hb] at h1; exact ⟨rfl, h1.2⟩

theorem afterParse_sim {W : World} {env : Env} (s : Int) {a b : Argus} (h : Sim a b) :
    OutSim (afterParse W env (s, a)) (afterParse W env (s, b)) := by
  unfold afterParse
  simp only
  have h1 := h.setCode s s
  split
  · exact free_sim h1 _
  · split
    · exact free_sim ((h1.emit _ _).emit _ _) _
    · refine (loadEnvVars_sim h1).bind (fun s a1 b1 h2 => ?_)
      simp only
      split
      · exact free_sim h2 _
      · refine (postValidation_sim h2).bind (fun s a1 b1 h3 => ?_)
        simp only
        split
        · exact free_sim h3 _
        · exact .ok _ h3

theorem argusParse_sim {W : World} {env : Env} {a b : Argus} (h : Sim a b) (args : List Str) :
    OutSim (argusParse W env a args) (argusParse W env b args) := by
  rw [argusParse_eq, argusParse_eq, parseArgs_run, parseArgs_run]
  have : a.asks args = b.asks args := by unfold Argus.asks; rw [h.tables, h.root]
  rw [this]
  exact (run_sim _ h).bind (fun s a1 b1 h1 => afterParse_sim s h1)

end Argus
