import Verif.Spec.Elsewhere
import Verif.Lemmas.Declare
import Verif.Lemmas.Quiet
import Verif.Lemmas.SafeRun

/-!
# Lemmas on programs that differ in commands that are not called
-/

set_option autoImplicit false

namespace Argus

/-- Two outcomes agree apart from options arrays outside of `K`. -/
def OutWithin (K : Nat → Prop) {α : Type} : Out (α × Argus) → Out (α × Argus) → Prop
  | .ok r, .ok s => s.1 = r.1 ∧ SameWithin K r.2 s.2
  | .ub u, .ub v => u = v
  | _, _ => False

section

variable {K : Nat → Prop}

theorem OutWithin.ok {α : Type} (s : α) {a b : Argus} (h : SameWithin K a b) :
    OutWithin K (.ok (s, a)) (.ok (s, b)) := ⟨rfl, h⟩

theorem OutWithin.bind {α β : Type} {x y : Out (α × Argus)} {f g : α × Argus → Out (β × Argus)} (h : OutWithin K x y)
    (hf : ∀ s a b, x = .ok (s, a) → SameWithin K a b → OutWithin K (f (s, a)) (g (s, b))) :
    OutWithin K (x >>= f) (y >>= g) := by
  cases x with
  | ub u => cases y with
    | ub v => exact h
    | ok r => exact h.elim
  | ok r => cases y with
    | ub v => exact h.elim
    | ok s =>
      obtain ⟨c, a⟩ := r
      obtain ⟨d, b⟩ := s
      obtain ⟨h1, h2⟩ := h
      simp only at h1; subst h1
      exact hf _ a b rfl h2

theorem OutWithin.bindSame {α β : Type} (x : Out α) {f g : α → Out (β × Argus)}
    (hf : ∀ r, x = .ok r → OutWithin K (f r) (g r)) : OutWithin K (x >>= f) (x >>= g) := by
  cases x with
  | ub u => exact rfl
  | ok r => exact hf r rfl

namespace SameWithin

variable {a b : Argus}

theorem refl (K : Nat → Prop) (a : Argus) : SameWithin K a a := ⟨fun _ _ => rfl, rfl⟩

theorem root (h : SameWithin K a b) : b.root = a.root := by
  have := congrArg Argus.root h.rest; exact this
theorem stack (h : SameWithin K a b) : b.stack = a.stack := by
  have := congrArg Argus.stack h.rest; exact this
theorem out (h : SameWithin K a b) : b.out = a.out := by
  have := congrArg Argus.out h.rest; exact this
theorem errorCode (h : SameWithin K a b) : b.errorCode = a.errorCode := by
  have := congrArg Argus.errorCode h.rest; exact this
theorem envPrefix (h : SameWithin K a b) : b.envPrefix = a.envPrefix := by
  have := congrArg Argus.envPrefix h.rest; exact this

theorem table (h : SameWithin K a b) {k : Nat} (hk : K k) : b.table (some k) = a.table (some k) := by
  unfold Argus.table
  simp only [h.tables k hk]

theorem getOpt (h : SameWithin K a b) {p : Ptr} (hk : K p.tbl) : b.getOpt p = a.getOpt p := by
  unfold Argus.getOpt
  rw [h.tables p.tbl hk]

theorem setOpt (h : SameWithin K a b) (p : Ptr) (o : Opt) : SameWithin K (a.setOpt p o) (b.setOpt p o) := by
  refine ⟨fun k hk => ?_, ?_⟩
  · simp only [setOpt_tables, List.getElem?_modify, h.tables k hk]
  · have := h.rest
    exact congrArg (fun x : Argus => x.setOpt p o) this

theorem emit (h : SameWithin K a b) (e : Event) : SameWithin K (a.emit e) (b.emit e) :=
  ⟨h.tables, congrArg (fun x : Argus => x.emit e) h.rest⟩

theorem emits (h : SameWithin K a b) (es : List Event) : SameWithin K (a.emits es) (b.emits es) := by
  induction es generalizing a b with
  | nil => exact h
  | cons e es ih => exact ih (h.emit e)

theorem report (h : SameWithin K a b) (c : Int) : SameWithin K (a.report c) (b.report c) := h.emit _

theorem push (h : SameWithin K a b) (p : Ptr) :
    SameWithin K { a with stack := a.stack ++ [p] } { b with stack := b.stack ++ [p] } :=
  ⟨h.tables, congrArg (fun x : Argus => { x with stack := x.stack ++ [p] }) h.rest⟩

theorem code (h : SameWithin K a b) (c : Int) : SameWithin K { a with errorCode := c } { b with errorCode := c } :=
  ⟨h.tables, congrArg (fun x : Argus => { x with errorCode := c }) h.rest⟩

theorem withTable (h : SameWithin K a b) {k : Nat} (hk : K k) (os : List Opt) :
    SameWithin K { a with tables := a.tables.set k os } { b with tables := b.tables.set k os } := by
  refine ⟨fun j hj => ?_, congrArg (fun x : Argus => { x with tables := a.tables.set k os }) h.rest⟩
  simp only [List.getElem?_set]
  by_cases e : k = j
  · subst e
    have hl : k < b.tables.length ↔ k < a.tables.length := by
      have h1 : b.tables[k]? = none ↔ a.tables[k]? = none := by rw [h.tables k hk]
      simp only [List.getElem?_eq_none_iff] at h1
      omega
    simp [hl]
  · simp only [e, if_false]; exact h.tables j hj

end SameWithin

/-- The subcommands on the stack and their options arrays are within `K`. -/
def StackIn (K : Nat → Prop) (a : Argus) : Prop :=
  ∀ p ∈ a.stack, K p.tbl ∧ ∀ k, a.subOf p = some k → K k

theorem StackIn.mono {a b : Argus} (h : StackIn K a) (hsh : b.shape = a.shape) (hst : b.stack = a.stack) :
    StackIn K b := by
  intro p hp
  rw [hst] at hp
  refine ⟨(h p hp).1, fun k hk => (h p hp).2 k ?_⟩
  rw [subOf_shape hsh] at hk; exact hk

/-! ### Reading the command line -/

/-- The pointers of the acts, and the arrays of selected subcommands, are within `K`. -/
def ActIn (K : Nat → Prop) (tables : List (List Opt)) : Act → Prop
  | .give p _ => K p.tbl
  | .enter p => K p.tbl ∧ ∀ os o k, tables[p.tbl]? = some os → os[p.idx]? = some o → o.subOptions = some k → K k
  | _ => True

theorem within_meaning (ta tb : List (List Opt)) (ht : ∀ k, K k → tb[k]? = ta[k]?) : ∀ (args : List Str)
    (t : Option Nat) (pos : Nat) (only skip : Bool), (∀ k, t = some k → K k) →
    (∀ p, Act.enter p ∈ meaning ta t pos only skip args → ∀ os o k, ta[p.tbl]? = some os → os[p.idx]? = some o →
      o.subOptions = some k → K k) →
    meaning tb t pos only skip args = meaning ta t pos only skip args
  | [], _, _, _, skip, _, _ => by cases skip <;> rfl
  | arg :: rest, t, pos, only, true, hk, h => by
    unfold meaning at h ⊢
    exact within_meaning ta tb ht rest t pos only false hk h
  | arg :: rest, t, pos, only, false, hk, h => by
    have ih := within_meaning ta tb ht rest
    unfold meaning at h ⊢
    split
    · rename_i h1; rw [if_pos h1] at h
      exact ih t pos true false hk h
    rename_i h1; rw [if_neg h1] at h
    split
    · rename_i h2; rw [if_pos h2] at h
      exact ih t pos only false hk h
    rename_i h2; rw [if_neg h2] at h
    cases t with
    | none => rfl
    | some j =>
      simp only [Option.bind_some, ht j (hk j rfl)] at h ⊢
      cases htab : ta[j]? with
      | none => rfl
      | some os =>
        rw [htab] at h
        simp only at h ⊢
        cases only with
        | true =>
          simp only [if_true] at h ⊢
          rw [ih (some j) (pos + 1) true false hk (fun p hp => h p (List.mem_append_right _ hp))]
        | false =>
          simp only [Bool.false_eq_true, if_false] at h ⊢
          cases hkind : argKind arg with
          | dashes => rfl
          | long name value =>
            rw [hkind] at h
            simp only at h ⊢
            rw [ih (some j) pos false _ hk (fun p hp => h p (List.mem_append_right _ hp))]
          | short cluster =>
            rw [hkind] at h
            simp only at h ⊢
            split
            · rename_i h3; rw [if_pos h3] at h
              rw [ih (some j) (pos + 1) false false hk (fun p hp => h p (List.mem_append_right _ hp))]
            · rename_i h3; rw [if_neg h3] at h
              rw [ih (some j) pos false _ hk (fun p hp => h p (List.mem_append_right _ hp))]
          | word =>
            rw [hkind] at h
            simp only at h ⊢
            cases hs : subChoice os arg with
            | none =>
              rw [hs] at h
              simp only at h ⊢
              rw [ih (some j) (pos + 1) false false hk (fun p hp => h p (List.mem_append_right _ hp))]
            | some e =>
              rw [hs] at h
              cases e with
              | error c => rfl
              | ok x =>
                simp only at h ⊢
                rw [ih x.1.subOptions 0 false false
                  (fun k he => h ⟨j, x.2⟩ List.mem_cons_self os x.1 k htab (subChoice_get hs).1 he)
                  (fun p hp => h p (List.mem_cons_of_mem _ hp))]

theorem posActs_in {j : Nat} (hj : K j) (tables : List (List Opt)) (os : List Opt) (pos : Nat) (arg : Str) :
    ∀ x ∈ posActs j os pos arg, ActIn K tables x := by
  intro x hx
  unfold posActs at hx
  split at hx <;> simp only [List.mem_singleton] at hx <;> subst hx
  · exact hj
  · trivial

theorem longActs_in {j : Nat} (hj : K j) (tables : List (List Opt)) (os : List Opt) (name : Str) (v n : Option Str) :
    ∀ x ∈ (longActs j os name v n).1, ActIn K tables x := by
  intro x hx
  unfold longActs at hx
  repeat' split at hx
  all_goals
    simp only [List.mem_singleton] at hx
    subst hx
    first | exact hj | trivial

theorem shortActs_in {j : Nat} (hj : K j) (tables : List (List Opt)) (os : List Opt) (n : Option Str) : ∀ (cs : Str),
    ∀ x ∈ (shortActs j os n cs).1, ActIn K tables x
  | [], x, hx => by simp [shortActs] at hx
  | c :: cs, x, hx => by
    unfold shortActs at hx
    split at hx
    · simp only [List.mem_singleton] at hx; subst hx; trivial
    · split at hx
      · rcases List.mem_cons.1 hx with rfl | hx
        · exact hj
        · exact shortActs_in hj tables os n cs x hx
      · split at hx <;> simp only [List.mem_singleton] at hx <;> subst hx
        · exact hj
        · exact hj
        · trivial

theorem within_acts (ta : List (List Opt)) : ∀ (args : List Str)
    (t : Option Nat) (pos : Nat) (only skip : Bool), (∀ k, t = some k → K k) →
    (∀ p, Act.enter p ∈ meaning ta t pos only skip args → ∀ os o k, ta[p.tbl]? = some os → os[p.idx]? = some o →
      o.subOptions = some k → K k) →
    ∀ x ∈ meaning ta t pos only skip args, ActIn K ta x
  | [], _, _, _, skip, _, _, x, hx => by cases skip <;> simp [meaning] at hx
  | arg :: rest, t, pos, only, true, hk, h, x, hx => by
    unfold meaning at h hx
    exact within_acts ta rest t pos only false hk h x hx
  | arg :: rest, t, pos, only, false, hk, h, x, hx => by
    have ih := within_acts ta rest
    unfold meaning at h hx
    split at hx
    · rename_i h1; rw [if_pos h1] at h
      exact ih t pos true false hk h x hx
    rename_i h1; rw [if_neg h1] at h
    split at hx
    · rename_i h2; rw [if_pos h2] at h
      exact ih t pos only false hk h x hx
    rename_i h2; rw [if_neg h2] at h
    cases t with
    | none => simp only [Option.bind_none, List.mem_singleton] at hx; subst hx; trivial
    | some j =>
      have hj := hk j rfl
      simp only [Option.bind_some] at h hx
      cases htab : ta[j]? with
      | none => rw [htab] at hx; simp only [List.mem_singleton] at hx; subst hx; trivial
      | some os =>
        rw [htab] at h hx
        simp only at h hx
        cases only with
        | true =>
          simp only [if_true] at h hx
          rcases List.mem_append.1 hx with hx | hx
          · exact posActs_in hj ta os pos arg x hx
          · exact ih (some j) (pos + 1) true false hk (fun p hp => h p (List.mem_append_right _ hp)) x hx
        | false =>
          simp only [Bool.false_eq_true, if_false] at h hx
          cases hkind : argKind arg with
          | dashes => rw [hkind] at hx; simp at hx
          | long name value =>
            rw [hkind] at h hx
            simp only at h hx
            rcases List.mem_append.1 hx with hx | hx
            · exact longActs_in hj ta os name value _ x hx
            · exact ih (some j) pos false _ hk (fun p hp => h p (List.mem_append_right _ hp)) x hx
          | short cluster =>
            rw [hkind] at h hx
            simp only at h hx
            split at hx
            · rename_i h3; rw [if_pos h3] at h
              rcases List.mem_append.1 hx with hx | hx
              · exact posActs_in hj ta os pos arg x hx
              · exact ih (some j) (pos + 1) false false hk (fun p hp => h p (List.mem_append_right _ hp)) x hx
            · rename_i h3; rw [if_neg h3] at h
              rcases List.mem_append.1 hx with hx | hx
              · exact shortActs_in hj ta os _ cluster x hx
              · exact ih (some j) pos false _ hk (fun p hp => h p (List.mem_append_right _ hp)) x hx
          | word =>
            rw [hkind] at h hx
            simp only at h hx
            cases hs : subChoice os arg with
            | none =>
              rw [hs] at h hx
              simp only at h hx
              rcases List.mem_append.1 hx with hx | hx
              · exact posActs_in hj ta os pos arg x hx
              · exact ih (some j) (pos + 1) false false hk (fun p hp => h p (List.mem_append_right _ hp)) x hx
            | some e =>
              rw [hs] at h hx
              cases e with
              | error c => simp only [List.mem_singleton] at hx; subst hx; trivial
              | ok y =>
                simp only at h hx
                rcases List.mem_cons.1 hx with hx | hx
                · subst hx; exact ⟨hj, h ⟨j, y.2⟩ List.mem_cons_self⟩
                · exact ih y.1.subOptions 0 false false
                    (fun k he => h ⟨j, y.2⟩ List.mem_cons_self os y.1 k htab (subChoice_get hs).1 he)
                    (fun p hp => h p (List.mem_cons_of_mem _ hp)) x hx

/-! ### Carrying it out -/

theorem within_runPreAll {W : World} {arg : Option Str} : ∀ (vs : List Validator) {a b : Argus}, SameWithin K a b →
    OutWithin K (runPreAll W a arg vs) (runPreAll W b arg vs)
  | [], a, b, h => .ok _ h
  | v :: vs, a, b, h => by
    unfold runPreAll
    split
    · refine .bindSame _ (fun r _ => ?_)
      simp only
      split
      · exact .ok _ (h.emits _)
      · exact within_runPreAll vs (h.emits _)
    · exact within_runPreAll vs h

theorem within_runHandler {W : World} {a b : Argus} (h : SameWithin K a b) (hs : StackIn K a) (hd : Handler) (o : Opt)
    (x : Option Str) : runHandler W b hd o x = runHandler W a hd o x := by
  have e : b.activeOptions = a.activeOptions := by
    unfold Argus.activeOptions
    rw [h.stack, h.root]
    cases hl : a.stack.getLast? with
    | none => rfl
    | some p => simp only [h.getOpt (hs p (List.mem_of_getLast? hl)).1]
  cases hd <;> simp only [runHandler, e]

theorem within_execCallbacks {W : World} {a b : Argus} (h : SameWithin K a b) (hs : StackIn K a) {p : Ptr}
    (hp : K p.tbl) (x : Option Str) : OutWithin K (execCallbacks W a p x) (execCallbacks W b p x) := by
  unfold execCallbacks
  rw [h.getOpt hp]
  refine .bindSame _ (fun o _ => ?_)
  cases o.handler with
  | none => exact .ok _ (h.report _)
  | some hd =>
    simp only
    refine (within_runPreAll _ h).bind (fun s a1 b1 e1 h1 => ?_)
    simp only
    split
    · exact .ok _ h1
    · obtain ⟨es, hes⟩ := runPreAll_eq _ e1
      simp only at hes
      have hs1 : StackIn K a1 := by rw [hes]; exact hs.mono (by simp) (by simp)
      rw [within_runHandler h1 hs1]
      refine .bindSame _ (fun r _ => ?_)
      split
      · exact .ok _ ((h1.emits _).setOpt _ _)
      · exact .ok _ ((h1.emits _).setOpt _ _)

theorem within_enter {a : Argus} {p : Ptr} {r : Option Nat × Argus} (hs : StackIn K a)
    (hv : ActIn K a.shape (.enter p)) (e1 : enterSub a p = .ok r) : StackIn K r.2 := by
  obtain ⟨hp, hsub⟩ := hv
  have hf := enterSub_frame e1
  intro q hq
  have hst : r.2.stack = a.stack ++ [p] := by
    unfold enterSub at e1
    obtain ⟨o, ho, e2⟩ := Out.bind_eq_ok e1
    split at e2
    · exact (nomatch e2)
    · cases e2; rfl
  rw [hst] at hq
  rcases List.mem_append.1 hq with hq | hq
  · refine ⟨(hs q hq).1, fun k hk => (hs q hq).2 k ?_⟩
    rw [subOf_shape hf.1.shape] at hk; exact hk
  · rw [List.mem_singleton.1 hq]
    refine ⟨hp, fun k hk => ?_⟩
    rw [subOf_shape hf.1.shape] at hk
    unfold Argus.subOf at hk
    cases ho : a.getOpt p with
    | ub u => rw [ho] at hk; exact (nomatch hk)
    | ok o =>
      rw [ho] at hk
      obtain ⟨os, h2, h3⟩ := getOpt_eq_ok.1 ho
      refine hsub (os.map Opt.meta) o.meta k ?_ ?_ hk
      · simp [Argus.shape, h2]
      · simp [h3]

theorem within_run_stack {W : World} : ∀ (acts : List Act) {a : Argus} {r : Int × Argus}, StackIn K a →
    (∀ x ∈ acts, ActIn K a.shape x) → run W a acts = .ok r → StackIn K r.2
  | [], a, r, hs, _, h => by simp only [run, Out.ok.injEq] at h; subst h; exact hs
  | .give p x :: rest, a, r, hs, hv, h => by
    unfold run at h
    obtain ⟨q, hq, h1⟩ := Out.bind_eq_ok h
    have hf := execCallbacks_one hq
    have hs1 := hs.mono hf.frame.shape hf.stack
    split at h1
    · simp only [Out.ok.injEq] at h1; subst h1; exact hs1
    · refine within_run_stack rest hs1 ?_ h1
      rw [hf.frame.shape]
      exact fun y hy => hv y (List.mem_cons_of_mem _ hy)
  | .enter p :: rest, a, r, hs, hv, h => by
    unfold run at h
    obtain ⟨q, hq, h1⟩ := Out.bind_eq_ok h
    refine within_run_stack rest (within_enter hs (hv _ List.mem_cons_self) hq) ?_ h1
    rw [(enterSub_frame hq).1.shape]
    exact fun y hy => hv y (List.mem_cons_of_mem _ hy)
  | .fail c :: rest, a, r, hs, _, h => by
    simp only [run, Out.ok.injEq] at h; subst h; exact hs
  | .noTable :: rest, a, r, _, _, h => by simp [run] at h

theorem within_run {W : World} : ∀ (acts : List Act) {a b : Argus}, SameWithin K a b → StackIn K a →
    (∀ x ∈ acts, ActIn K a.shape x) → OutWithin K (run W a acts) (run W b acts)
  | [], a, b, h, _, _ => .ok _ h
  | .give p x :: rest, a, b, h, hs, hv => by
    unfold run
    refine (within_execCallbacks h hs (hv _ List.mem_cons_self) x).bind (fun s a1 b1 e1 h1 => ?_)
    have hf := execCallbacks_one e1
    simp only
    split
    · exact .ok _ h1
    · refine within_run rest h1 (hs.mono hf.frame.shape hf.stack) ?_
      rw [hf.frame.shape]
      exact fun y hy => hv y (List.mem_cons_of_mem _ hy)
  | .enter p :: rest, a, b, h, hs, hv => by
    obtain ⟨hp, hsub⟩ := hv _ List.mem_cons_self
    unfold run
    have key : OutWithin K (enterSub a p) (enterSub b p) := by
      unfold enterSub
      rw [h.getOpt hp, h.stack]
      refine .bindSame _ (fun o _ => ?_)
      split
      · exact rfl
      · exact .ok _ ((h.setOpt p _).push p)
    refine key.bind (fun s a1 b1 e1 h1 => ?_)
    have hf := enterSub_frame e1
    simp only at hf ⊢
    refine within_run rest h1 (within_enter hs (hv _ List.mem_cons_self) e1) ?_
    · rw [hf.1.shape]
      exact fun y hy => hv y (List.mem_cons_of_mem _ hy)
  | .fail c :: rest, a, b, h, _, _ => .ok _ (h.report _)
  | .noTable :: rest, a, b, _, _, _ => rfl

/-! ### The environment -/

theorem within_loadEnvStep {W : World} {env : Env} {a b : Argus} (h : SameWithin K a b) (hs : StackIn K a) {p : Ptr}
    (hp : K p.tbl) : OutWithin K (loadEnvStep W env a p) (loadEnvStep W env b p) := by
  unfold loadEnvStep
  rw [h.getOpt hp, h.envPrefix]
  refine .bindSame _ (fun o _ => ?_)
  split
  · exact .ok _ h
  split
  · exact .ok _ h
  cases envVarName a.envPrefix o with
  | none => exact .ok _ h
  | some n =>
    simp only
    cases env n with
    | none => exact .ok _ h
    | some v =>
      simp only
      refine (within_execCallbacks h hs hp (some v)).bind (fun s a1 b1 e1 h1 => ?_)
      simp only
      split
      · split
        · rw [h1.getOpt hp]
          exact .bindSame _ (fun o1 _ => .ok _ (h1.setOpt _ _))
        · exact .ok _ h1
      · exact .ok _ h1

theorem within_loadEnvLoop {W : World} {env : Env} {j : Nat} (hj : K j) : ∀ (n i : Nat) {a b : Argus},
    SameWithin K a b → StackIn K a → OutWithin K (loadEnvLoop W env j n i a) (loadEnvLoop W env j n i b)
  | 0, i, a, b, h, _ => .ok _ h
  | n + 1, i, a, b, h, hs => by
    unfold loadEnvLoop
    refine (within_loadEnvStep h hs hj).bind (fun s a1 b1 e1 h1 => ?_)
    have hf := loadEnvStep_one e1
    simp only
    split
    · exact .ok _ h1
    · exact within_loadEnvLoop hj n (i + 1) h1 (hs.mono hf.frame.shape hf.stack)

theorem within_loadEnvTable {W : World} {env : Env} {j : Nat} (hj : K j) {a b : Argus} (h : SameWithin K a b)
    (hs : StackIn K a) : OutWithin K (loadEnvTable W env a j) (loadEnvTable W env b j) := by
  unfold loadEnvTable
  rw [h.table hj]
  exact .bindSame _ (fun os _ => within_loadEnvLoop hj _ _ h hs)

theorem within_loadEnvStack {W : World} {env : Env} : ∀ (ps : List Ptr) {a b : Argus}, SameWithin K a b → StackIn K a →
    (∀ p ∈ ps, K p.tbl ∧ ∀ k, a.subOf p = some k → K k) →
    OutWithin K (loadEnvStack W env a ps) (loadEnvStack W env b ps)
  | [], a, b, h, _, _ => .ok _ h
  | p :: ps, a, b, h, hs, hv => by
    obtain ⟨hp, hsub⟩ := hv p List.mem_cons_self
    unfold loadEnvStack
    rw [h.getOpt hp]
    refine .bindSame _ (fun o ho => ?_)
    cases hso : o.subOptions with
    | none => exact within_loadEnvStack ps h hs (fun q hq => hv q (List.mem_cons_of_mem _ hq))
    | some k =>
      simp only
      refine (within_loadEnvTable (hsub k (by rw [subOf_eq ho, hso])) h hs).bind (fun s a1 b1 e1 h1 => ?_)
      have hf := loadEnvTable_frame e1
      simp only
      split
      · exact .ok _ h1
      · refine within_loadEnvStack ps h1 (hs.mono hf.frame.shape hf.stack) (fun q hq => ?_)
        have := hv q (List.mem_cons_of_mem _ hq)
        refine ⟨this.1, fun k hk => this.2 k ?_⟩
        rw [subOf_shape hf.frame.shape] at hk; exact hk

theorem within_loadEnvVars {W : World} {env : Env} {a b : Argus} (hr : K a.root) (h : SameWithin K a b)
    (hs : StackIn K a) : OutWithin K (loadEnvVars W env a) (loadEnvVars W env b) := by
  unfold loadEnvVars
  rw [h.root]
  refine (within_loadEnvTable hr h hs).bind (fun s a1 b1 e1 h1 => ?_)
  have hf := loadEnvTable_frame e1
  simp only
  split
  · exact .ok _ h1
  · rw [h1.stack]
    have hs1 := hs.mono hf.frame.shape hf.stack
    exact within_loadEnvStack _ h1 hs1 hs1

/-! ### Validation -/

theorem within_validateTable {W : World} {a b : Argus} (h : SameWithin K a b) {t : Option Nat}
    (ht : ∀ k, t = some k → K k) : OutWithin K (validateTable W a t) (validateTable W b t) := by
  unfold validateTable
  cases t with
  | none => exact rfl
  | some j =>
    rw [h.table (ht j rfl)]
    refine .bindSame _ (fun os _ => ?_)
    exact .bindSame _ (fun r _ => .ok _ (h.emits _))

theorem within_validateStack {W : World} : ∀ (ps : List Ptr) {a b : Argus}, SameWithin K a b →
    (∀ p ∈ ps, K p.tbl ∧ ∀ k, a.subOf p = some k → K k) →
    OutWithin K (validateStack W a ps) (validateStack W b ps)
  | [], a, b, h, _ => .ok _ h
  | p :: ps, a, b, h, hv => by
    obtain ⟨hp, hsub⟩ := hv p List.mem_cons_self
    unfold validateStack
    rw [h.getOpt hp]
    refine .bindSame _ (fun o ho => ?_)
    refine (within_validateTable h (fun k hk => hsub k (by rw [subOf_eq ho, hk]))).bind (fun s a1 b1 e1 h1 => ?_)
    obtain ⟨es, hes⟩ := validateTable_eq e1
    simp only at hes ⊢
    split
    · exact .ok _ h1
    · refine within_validateStack ps h1 (fun q hq => ?_)
      have := hv q (List.mem_cons_of_mem _ hq)
      refine ⟨this.1, fun k hk => this.2 k ?_⟩
      rw [subOf_shape (show a1.shape = a.shape by rw [hes]; simp)] at hk; exact hk

theorem within_postValidation {W : World} {a b : Argus} (hr : K a.root) (h : SameWithin K a b) (hs : StackIn K a) :
    OutWithin K (postValidation W a) (postValidation W b) := by
  unfold postValidation
  rw [h.root]
  refine (within_validateTable h (fun k hk => by cases hk; exact hr)).bind (fun s a1 b1 e1 h1 => ?_)
  obtain ⟨es, hes⟩ := validateTable_eq e1
  simp only at hes ⊢
  split
  · exact .ok _ h1
  · rw [h1.stack]
    have hs1 : StackIn K a1 := hs.mono (by rw [hes]; simp) (by rw [hes]; simp)
    exact within_validateStack _ h1 hs1

/-! ### Release -/

theorem within_freeTable {a b : Argus} (h : SameWithin K a b) {t : Option Nat} (ht : ∀ k, t = some k → K k) :
    OutWithin K (freeTableU a t) (freeTableU b t) := by
  unfold freeTableU freeTable
  cases t with
  | none => exact rfl
  | some j =>
    rw [h.table (ht j rfl)]
    cases a.table (some j) with
    | ub u => exact rfl
    | ok os =>
      simp only [Out.ok_bind]
      cases freeOpts os with
      | ub u => exact rfl
      | ok os1 => exact .ok _ (h.withTable (ht j rfl) os1)

theorem freeTableU_frame {a a1 : Argus} {t : Option Nat} {s : Unit} (h : freeTableU a t = .ok (s, a1)) :
    a1.shape = a.shape ∧ a1.stack = a.stack := by
  unfold freeTableU at h
  obtain ⟨c, hc, h1⟩ := Out.bind_eq_ok h
  cases h1
  exact freeTable_shape_stack hc

theorem within_freeStack : ∀ (ps : List Ptr) {a b : Argus}, SameWithin K a b →
    (∀ p ∈ ps, K p.tbl ∧ ∀ k, a.subOf p = some k → K k) →
    OutWithin K (freeStackU a ps) (freeStackU b ps)
  | [], a, b, h, _ => .ok _ h
  | p :: ps, a, b, h, hv => by
    obtain ⟨hp, hsub⟩ := hv p List.mem_cons_self
    rw [freeStackU_cons, freeStackU_cons, h.getOpt hp]
    refine .bindSame _ (fun o ho => ?_)
    refine (within_freeTable h (fun k hk => hsub k (by rw [subOf_eq ho, hk]))).bind (fun s a1 b1 e1 h1 => ?_)
    refine within_freeStack ps h1 (fun q hq => ?_)
    have := hv q (List.mem_cons_of_mem _ hq)
    refine ⟨this.1, fun k hk => this.2 k ?_⟩
    rw [subOf_shape (freeTableU_frame e1).1] at hk; exact hk

theorem within_argusFree {a b : Argus} (hr : K a.root) (h : SameWithin K a b) (hs : StackIn K a) (e : ParseEnd) :
    OutWithin K (do let a2 ← argusFree a; Out.ok (e, a2)) (do let b2 ← argusFree b; Out.ok (e, b2)) := by
  have key : OutWithin K (freeU a) (freeU b) := by
    rw [freeU_eq, freeU_eq, h.root]
    refine (within_freeTable h (fun k hk => by cases hk; exact hr)).bind (fun s a1 b1 e1 h1 => ?_)
    simp only
    rw [h1.stack]
    have hs1 := hs.mono (freeTableU_frame e1).1 (freeTableU_frame e1).2
    exact within_freeStack _ h1 hs1
  unfold freeU at key
  cases h1 : argusFree a with
  | ub u => cases h2 : argusFree b with
    | ub v => rw [h1, h2] at key; exact key
    | ok c => rw [h1, h2] at key; exact key.elim
  | ok c => cases h2 : argusFree b with
    | ub v => rw [h1, h2] at key; exact key.elim
    | ok d => rw [h1, h2] at key; exact ⟨rfl, key.2⟩

/-! ### The whole parse -/

theorem within_argusParse {W : World} {env : Env} {a b : Argus} (hr : K a.root) (h : SameWithin K a b)
    (hs : StackIn K a) (args : List Str)
    (hsub : ∀ p, Act.enter p ∈ a.asks args → ∀ os o k, a.tables[p.tbl]? = some os → os[p.idx]? = some o →
      o.subOptions = some k → K k) :
    OutWithin K (argusParse W env a args) (argusParse W env b args) := by
  have hroot : ∀ k, some a.root = some k → K k := fun k hk => by cases hk; exact hr
  have hasks : b.asks args = a.asks args := by
    unfold Argus.asks at hsub ⊢
    rw [h.root]
    exact within_meaning a.tables b.tables h.tables args _ _ _ _ hroot hsub
  have hacts : ∀ x ∈ a.asks args, ActIn K a.shape x := by
    rw [asks_shape]
    refine within_acts a.shape args _ _ _ _ hroot ?_
    rw [← asks_shape]
    intro p hp os o k h1 h2 h3
    simp only [Argus.shape, List.getElem?_map, Option.map_eq_some_iff] at h1
    obtain ⟨os0, h4, rfl⟩ := h1
    simp only [List.getElem?_map, Option.map_eq_some_iff] at h2
    obtain ⟨o0, h5, rfl⟩ := h2
    exact hsub p hp os0 o0 k h4 h5 h3
  have hrun : OutWithin K (parseArgs W a (some a.root) args) (parseArgs W b (some b.root) args) := by
    rw [parseArgs_run, parseArgs_run, hasks]
    exact within_run _ h hs hacts
  unfold argusParse
  refine hrun.bind (fun s a1 b1 e1 h1 => ?_)
  have e2 := e1
  rw [parseArgs_run] at e2
  obtain ⟨ext, -, -, hf⟩ := parseLoop_frame args e1
  simp only at hf ⊢
  have hr1 : K a1.root := by rw [hf.root]; exact hr
  have hs1 : StackIn K a1 := within_run_stack _ hs hacts e2
  have hs2 : StackIn K { a1 with errorCode := s } := hs1.mono rfl rfl
  have h2 := h1.code s
  split
  · exact within_argusFree (a := { a1 with errorCode := s }) hr1 h2 hs2 _
  split
  · exact within_argusFree (a := (({ a1 with errorCode := s } : Argus).emit (.usage none)).emit .tryHelp) hr1
      ((h2.emit _).emit _) (hs2.mono rfl rfl) _
  · refine (within_loadEnvVars (a := { a1 with errorCode := s }) hr1 h2 hs2).bind (fun s3 a3 b3 e3 h3 => ?_)
    have hf3 := loadEnvVars_frame e3
    have hr3 : K a3.root := by
      have := hf3.frame.root; simp only at this; rw [this]; exact hr1
    have hs3 : StackIn K a3 := hs2.mono hf3.frame.shape hf3.stack
    simp only
    split
    · exact within_argusFree hr3 h3 hs3 _
    · refine (within_postValidation hr3 h3 hs3).bind (fun s4 a4 b4 e4 h4 => ?_)
      obtain ⟨es, hes⟩ := postValidation_eq e4
      simp only at hes ⊢
      split
      · exact within_argusFree (by rw [hes]; simpa using hr3) h4 (hs3.mono (by rw [hes]; simp) (by rw [hes]; simp)) _
      · exact .ok _ h4

end

end Argus
