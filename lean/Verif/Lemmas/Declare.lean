import Verif.Spec.Declare
import Verif.Lemmas.Meaning
import Verif.Lemmas.FrameApi
import Verif.Lemmas.History

/-!
# Lemmas on declaring further options
-/

set_option autoImplicit false

namespace Argus

theorem declare_tables (a : Argus) (k : Nat) (new : List Opt) :
    (a.declare k new).tables = a.tables.modify k (· ++ new) := rfl

theorem declare_table_get (a : Argus) (k : Nat) (new : List Opt) (j : Nat) :
    (a.declare k new).tables[j]? = (a.tables[j]?).map (fun os => if k = j then os ++ new else os) := by
  rw [declare_tables, List.getElem?_modify]
  by_cases h : k = j <;> simp [h]

theorem declare_getOpt {a : Argus} {p : Ptr} {o : Opt} (h : a.getOpt p = .ok o) (k : Nat) (new : List Opt) :
    (a.declare k new).getOpt p = .ok o := by
  obtain ⟨os, h1, h2⟩ := getOpt_eq_ok.1 h
  refine getOpt_eq_ok.2 ⟨if k = p.tbl then os ++ new else os, ?_, ?_⟩
  · rw [declare_table_get, h1]; rfl
  · split
    · rw [List.getElem?_append_left (List.getElem?_eq_some_iff.1 h2).1]; exact h2
    · exact h2

theorem declare_table (a : Argus) (k : Nat) (new : List Opt) (j : Nat) :
    (a.declare k new).table (some j) =
      (do let os ← a.table (some j); Out.ok (if k = j then os ++ new else os)) := by
  unfold Argus.table
  simp only [declare_table_get]
  cases a.tables[j]? <;> rfl

theorem declare_setOpt {a : Argus} {p : Ptr} {o o' : Opt} (h : a.getOpt p = .ok o) (k : Nat) (new : List Opt) :
    (a.declare k new).setOpt p o' = (a.setOpt p o').declare k new := by
  obtain ⟨os, h1, h2⟩ := getOpt_eq_ok.1 h
  unfold Argus.setOpt Argus.declare
  simp only [Argus.mk.injEq, and_true]
  apply List.ext_getElem?
  intro j
  simp only [List.getElem?_modify]
  cases h3 : a.tables[j]? with
  | none => rfl
  | some xs =>
    by_cases e1 : k = j <;> by_cases e2 : p.tbl = j
    · subst e2
      rw [h1] at h3; cases h3
      have hl : p.idx < os.length := (List.getElem?_eq_some_iff.1 h2).1
      simp only [e1, if_true, Option.map_eq_map, Option.map_some]
      rw [List.set_append_left _ _ hl]
    all_goals simp [e1, e2]

theorem declare_emits (a : Argus) (es : List Event) (k : Nat) (new : List Opt) :
    (a.declare k new).emits es = (a.emits es).declare k new := by
  induction es generalizing a with
  | nil => rfl
  | cons e es ih =>
    have : (a.declare k new).emits (e :: es) = ((a.emit e).declare k new).emits es := rfl
    rw [this, ih]; rfl

/-! ## Reading the command line -/

theorem filter_zipIdx_append {α : Type} (p : α × Nat → Bool) (xs ys : List α)
    (h : ∀ y ∈ ys, ∀ i, p (y, i) = false) : (xs ++ ys).zipIdx.filter p = xs.zipIdx.filter p := by
  rw [List.zipIdx_append, List.filter_append]
  have : (ys.zipIdx (0 + xs.length)).filter p = [] := by
    rw [List.filter_eq_nil_iff]
    intro x hx
    have := h x.1 (List.fst_mem_of_mem_zipIdx hx) x.2
    simp [this]
  rw [this, List.append_nil]

section Reading

variable {new : List Opt} (hn : ∀ o ∈ new, o.Idle)

include hn in
theorem declare_slotAt (os : List Opt) (pos : Nat) : slotAt (os ++ new) pos = slotAt os pos := by
  unfold slotAt
  rw [filter_zipIdx_append _ os new]
  intro y hy i
  simp [(hn y hy).kind]

theorem declare_subMatches (os : List Opt) {arg : Str} (hw : ∀ o ∈ new, Uncalled o arg) :
    subMatches (os ++ new) arg = subMatches os arg := by
  unfold subMatches
  rw [filter_zipIdx_append _ os new]
  intro y hy i
  have := hw y hy
  unfold Uncalled at this
  simp only [decide_eq_false_iff_not, not_and]
  intro ht
  cases hnm : y.name with
  | none => simp
  | some n => simpa using this ht n hnm

include hn in
theorem declare_posActs (t : Nat) (os : List Opt) (pos : Nat) (arg : Str) :
    posActs t (os ++ new) pos arg = posActs t os pos arg := by
  unfold posActs; rw [declare_slotAt hn]

theorem declare_subChoice (os : List Opt) {arg : Str} (hw : ∀ o ∈ new, Uncalled o arg) :
    subChoice (os ++ new) arg = subChoice os arg := by
  unfold subChoice; rw [declare_subMatches os hw]

include hn in
theorem declare_negNumber (os : List Opt) (pos : Nat) (cl : Str) :
    negNumber (os ++ new) pos cl = negNumber os pos cl := by
  unfold negNumber; rw [declare_slotAt hn]

theorem declare_isFlagAt (os : List Opt) {i : Nat} (hi : i < os.length) :
    isFlagAt (os ++ new) i = isFlagAt os i := by
  unfold isFlagAt; rw [List.getElem?_append_left hi]

theorem longIdx_lt {os : List Opt} {n : Str} {i : Nat} (h : longIdx os n = some i) : i < os.length :=
  (List.findIdx?_eq_some_iff_getElem.1 h).1

theorem shortIdx_lt {os : List Opt} {c : Byte} {i : Nat} (h : shortIdx os c = some i) : i < os.length :=
  (List.findIdx?_eq_some_iff_getElem.1 h).1

theorem declare_longActs (t : Nat) (os : List Opt) (name : Str) (v n : Option Str)
    (h : Act.fail Err.invalidArgument ∉ (longActs t os name v n).1 ∨ ∀ o ∈ new, o.lname ≠ some name) :
    longActs t (os ++ new) name v n = longActs t os name v n := by
  cases hl : longIdx os name with
  | none =>
    have hnew : longIdx (os ++ new) name = none := by
      rcases h with h | h
      · exact absurd (by unfold longActs; rw [hl]; exact List.mem_singleton.2 rfl) h
      · unfold longIdx at hl ⊢
        rw [List.findIdx?_append, hl]
        simp only [Option.none_or, Option.map_eq_none_iff, List.findIdx?_eq_none_iff]
        intro o ho
        simp [h o ho]
    unfold longActs; rw [hl, hnew]
  | some i =>
    have hnew : longIdx (os ++ new) name = some i := by
      unfold longIdx at hl ⊢
      rw [List.findIdx?_append, hl]; rfl
    unfold longActs; rw [hl, hnew]
    simp only [declare_isFlagAt os (longIdx_lt hl)]

theorem declare_shortActs (t : Nat) (os : List Opt) (n : Option Str) : ∀ (cs : Str),
    (Act.fail Err.invalidArgument ∉ (shortActs t os n cs).1 ∨ ∀ o ∈ new, o.sname ∉ cs) →
    shortActs t (os ++ new) n cs = shortActs t os n cs
  | [], _ => rfl
  | c :: cs, h => by
    cases hl : shortIdx os c with
    | none =>
      have hnew : shortIdx (os ++ new) c = none := by
        rcases h with h | h
        · exact absurd (by unfold shortActs; rw [hl]; exact List.mem_singleton.2 rfl) h
        · unfold shortIdx at hl ⊢
          rw [List.findIdx?_append, hl]
          simp only [Option.none_or, Option.map_eq_none_iff, List.findIdx?_eq_none_iff]
          intro o ho
          have : o.sname ≠ c := fun e => h o ho (e ▸ List.mem_cons_self)
          simp [this]
      unfold shortActs; rw [hl, hnew]
    | some i =>
      have hnew : shortIdx (os ++ new) c = some i := by
        unfold shortIdx at hl ⊢
        rw [List.findIdx?_append, hl]; rfl
      by_cases hf : isFlagAt os i
      · have ih := declare_shortActs t os n cs (by
          rcases h with h | h
          · refine Or.inl (fun hm => h ?_)
            unfold shortActs; rw [hl]; simp only [hf, if_true]
            exact List.mem_cons_of_mem _ hm
          · exact Or.inr (fun o ho hm => h o ho (List.mem_cons_of_mem _ hm)))
        unfold shortActs; rw [hl, hnew]
        simp only [declare_isFlagAt os (shortIdx_lt hl), hf, if_true, ih]
      · unfold shortActs; rw [hl, hnew]
        simp only [declare_isFlagAt os (shortIdx_lt hl), hf, Bool.false_eq_true, if_false]

end Reading

section Asking

variable {new : List Opt} (hn : ∀ o ∈ new, o.Idle)

include hn in
theorem declare_meaning (tables : List (List Opt)) (k : Nat) : ∀ (args : List Str) (t : Option Nat) (pos : Nat)
    (only skip : Bool), (∀ arg ∈ args, ∀ o ∈ new, Uncalled o arg) →
    (Act.fail Err.invalidArgument ∉ meaning tables t pos only skip args ∨
      ∀ arg ∈ args, ∀ o ∈ new, Unspelled o arg) →
    meaning (tables.modify k (· ++ new)) t pos only skip args = meaning tables t pos only skip args
  | [], _, _, _, skip, _, _ => by cases skip <;> rfl
  | arg :: rest, t, pos, only, true, hw, h => by
    unfold meaning at h ⊢
    exact declare_meaning tables k rest t pos only false (fun x hx => hw x (List.mem_cons_of_mem _ hx))
      (h.imp id (fun h x hx => h x (List.mem_cons_of_mem _ hx)))
  | arg :: rest, t, pos, only, false, hw, h => by
    have hr : (∀ x ∈ arg :: rest, ∀ o ∈ new, Unspelled o x) → ∀ x ∈ rest, ∀ o ∈ new, Unspelled o x :=
      fun h x hx => h x (List.mem_cons_of_mem _ hx)
    have ih := fun t pos only skip => declare_meaning tables k rest t pos only skip
      (fun x hx => hw x (List.mem_cons_of_mem _ hx))
    unfold meaning at h ⊢
    split
    · rename_i h1
      rw [if_pos h1] at h
      exact ih t pos true false (h.imp id hr)
    rename_i h1
    rw [if_neg h1] at h
    split
    · rename_i h2
      rw [if_pos h2] at h
      exact ih t pos only false (h.imp id hr)
    rename_i h2
    rw [if_neg h2] at h
    cases t with
    | none => rfl
    | some j =>
      simp only [Option.bind_some] at h ⊢
      have hj : (tables.modify k (· ++ new))[j]? = (tables[j]?).map (fun os => if k = j then os ++ new else os) := by
        rw [List.getElem?_modify]
        by_cases e : k = j <;> simp [e]
      rw [hj]
      cases htab : tables[j]? with
      | none => rfl
      | some os =>
        rw [htab] at h
        simp only [Option.map_some] at h ⊢
        have e1 : ∀ pos arg, posActs j (if k = j then os ++ new else os) pos arg = posActs j os pos arg := by
          intro pos arg; split
          · exact declare_posActs hn j os pos arg
          · rfl
        have e2 : subChoice (if k = j then os ++ new else os) arg = subChoice os arg := by
          split
          · exact declare_subChoice os (hw arg List.mem_cons_self)
          · rfl
        have e3 : ∀ pos cl, negNumber (if k = j then os ++ new else os) pos cl = negNumber os pos cl := by
          intro pos cl; split
          · exact declare_negNumber hn os pos cl
          · rfl
        rw [e1]
        cases only with
        | true =>
          simp only [if_true] at h ⊢
          rw [ih]
          exact h.imp (fun h hm => h (List.mem_append_right _ hm)) hr
        | false =>
          simp only [Bool.false_eq_true, if_false] at h ⊢
          cases hk : argKind arg with
          | dashes => rfl
          | long name value =>
            rw [hk] at h
            simp only at h ⊢
            have e4 : longActs j (if k = j then os ++ new else os) name value rest.head? =
                longActs j os name value rest.head? := by
              split
              · refine declare_longActs j os name value _ (h.imp (fun h hm => h (List.mem_append_left _ hm)) ?_)
                intro h o ho
                have := h arg List.mem_cons_self o ho
                unfold Unspelled at this; rw [hk] at this; exact this
              · rfl
            rw [e4, ih]
            exact h.imp (fun h hm => h (List.mem_append_right _ hm)) hr
          | short cluster =>
            rw [hk] at h
            simp only [e3] at h ⊢
            split
            · rename_i h3
              rw [if_pos h3] at h
              rw [ih]
              exact h.imp (fun h hm => h (List.mem_append_right _ hm)) hr
            · rename_i h3
              rw [if_neg h3] at h
              have e4 : shortActs j (if k = j then os ++ new else os) rest.head? cluster =
                  shortActs j os rest.head? cluster := by
                split
                · refine declare_shortActs j os _ cluster (h.imp (fun h hm => h (List.mem_append_left _ hm)) ?_)
                  intro h o ho
                  have := h arg List.mem_cons_self o ho
                  unfold Unspelled at this; rw [hk] at this; exact this
                · rfl
              rw [e4, ih]
              exact h.imp (fun h hm => h (List.mem_append_right _ hm)) hr
          | word =>
            rw [hk] at h
            simp only [e2] at h ⊢
            cases hs : subChoice os arg with
            | none =>
              rw [hs] at h
              simp only at h ⊢
              rw [ih]
              exact h.imp (fun h hm => h (List.mem_append_right _ hm)) hr
            | some e =>
              rw [hs] at h
              cases e with
              | error c => rfl
              | ok x =>
                simp only at h ⊢
                rw [ih]
                exact h.imp (fun h hm => h (List.mem_cons_of_mem _ hm)) hr

include hn in
theorem declare_asks (a : Argus) (k : Nat) (args : List Str) (hw : ∀ arg ∈ args, ∀ o ∈ new, Uncalled o arg)
    (h : Act.fail Err.invalidArgument ∉ a.asks args ∨ ∀ arg ∈ args, ∀ o ∈ new, Unspelled o arg) :
    (a.declare k new).asks args = a.asks args :=
  declare_meaning hn a.tables k args _ _ _ _ hw h

end Asking

/-! ## Carrying it out -/

/-- The same outcome with the new entries added to the state. -/
def Out.declared (k : Nat) (new : List Opt) {α : Type} (x : Out (α × Argus)) : Out (α × Argus) := do
  let r ← x
  .ok (r.1, r.2.declare k new)

@[simp] theorem Out.declared_ok {k : Nat} {new : List Opt} {α : Type} (r : α × Argus) :
    Out.declared k new (Out.ok r) = Out.ok (r.1, r.2.declare k new) := rfl

@[simp] theorem Out.declared_ub {k : Nat} {new : List Opt} {α : Type} (u : Ub) :
    Out.declared k new (Out.ub u : Out (α × Argus)) = Out.ub u := rfl

/-- The pointers of the subcommand stack point to entries. -/
def StackOk (a : Argus) : Prop := ∀ p ∈ a.stack, ∃ o, a.getOpt p = .ok o

section Running

variable (k : Nat) (new : List Opt)

theorem declare_runPreAll (W : World) (arg : Option Str) : ∀ (vs : List Validator) (a : Argus),
    runPreAll W (a.declare k new) arg vs = (runPreAll W a arg vs).declared k new
  | [], a => rfl
  | v :: vs, a => by
    unfold runPreAll
    split
    · cases runPre W v.kind arg with
      | ub u => rfl
      | ok r =>
        simp only [Out.ok_bind, declare_emits]
        split
        · rfl
        · exact declare_runPreAll W arg vs _
    · exact declare_runPreAll W arg vs a

theorem declare_activeOptions {a : Argus} (hs : StackOk a) : (a.declare k new).activeOptions = a.activeOptions := by
  unfold Argus.activeOptions
  have : (a.declare k new).stack = a.stack := rfl
  rw [this]
  cases h : a.stack.getLast? with
  | none => rfl
  | some p =>
    obtain ⟨o, ho⟩ := hs p (List.mem_of_getLast? h)
    simp only [declare_getOpt ho, ho]

theorem declare_runHandler (W : World) {a : Argus} (hs : StackOk a) (h : Handler) (o : Opt) (arg : Option Str) :
    runHandler W (a.declare k new) h o arg = runHandler W a h o arg := by
  cases h <;> simp only [runHandler, declare_activeOptions k new hs]

theorem declare_execCallbacks (W : World) {a : Argus} (hs : StackOk a) {p : Ptr} {o : Opt} (hp : a.getOpt p = .ok o)
    (arg : Option Str) : execCallbacks W (a.declare k new) p arg = (execCallbacks W a p arg).declared k new := by
  unfold execCallbacks
  rw [declare_getOpt hp, hp]
  simp only [Out.ok_bind]
  cases o.handler with
  | none => rfl
  | some h =>
    simp only [declare_runPreAll]
    cases hpre : runPreAll W a arg (o.validators.getD []) with
    | ub u => rfl
    | ok pre =>
      obtain ⟨es, hes⟩ := runPreAll_eq _ hpre
      have hs1 : StackOk pre.2 := by
        intro q hq; rw [hes] at hq ⊢; simpa using hs q (by simpa using hq)
      have hp1 : pre.2.getOpt p = .ok o := by rw [hes]; simpa using hp
      simp only [Out.declared_ok, Out.ok_bind]
      split
      · rfl
      · rw [declare_runHandler k new W hs1]
        cases runHandler W pre.2 h o arg with
        | ub u => rfl
        | ok r =>
          have hp2 : (pre.2.emits r.2.2).getOpt p = .ok o := by simpa using hp1
          simp only [Out.ok_bind, declare_emits, declare_setOpt hp2]
          split <;> rfl

theorem StackOk.mono {a b : Argus} (h : StackOk a) (hsh : b.shape = a.shape) (hst : b.stack = a.stack) : StackOk b := by
  intro p hp
  obtain ⟨o, ho⟩ := h p (hst ▸ hp)
  obtain ⟨o', ho', -⟩ := shape_getOpt hsh ho
  exact ⟨o', ho'⟩

/-- The pointers of an act point to entries. -/
def Act.Valid (a : Argus) : Act → Prop
  | .give p _ | .enter p => ∃ o, a.getOpt p = .ok o
  | _ => True

theorem Act.Valid.mono {a b : Argus} {x : Act} (h : x.Valid a) (hsh : b.shape = a.shape) : x.Valid b := by
  cases x with
  | give p _ => obtain ⟨o, ho⟩ := h; obtain ⟨o', ho', -⟩ := shape_getOpt hsh ho; exact ⟨o', ho'⟩
  | enter p => obtain ⟨o, ho⟩ := h; obtain ⟨o', ho', -⟩ := shape_getOpt hsh ho; exact ⟨o', ho'⟩
  | fail c => trivial
  | noTable => trivial

theorem declare_run (W : World) : ∀ (acts : List Act) (a : Argus), StackOk a → (∀ x ∈ acts, x.Valid a) →
    run W (a.declare k new) acts = (run W a acts).declared k new
  | [], a, _, _ => rfl
  | .give p x :: rest, a, hs, hv => by
    obtain ⟨o, ho⟩ : ∃ o, a.getOpt p = .ok o := hv _ List.mem_cons_self
    unfold run
    rw [declare_execCallbacks k new W hs ho]
    cases hx : execCallbacks W a p x with
    | ub u => rfl
    | ok r =>
      have h1 := execCallbacks_one hx
      simp only [Out.declared_ok, Out.ok_bind]
      split
      · rfl
      · exact declare_run W rest r.2 (hs.mono h1.frame.shape h1.stack)
          (fun y hy => (hv y (List.mem_cons_of_mem _ hy)).mono h1.frame.shape)
  | .enter p :: rest, a, hs, hv => by
    obtain ⟨o, ho⟩ : ∃ o, a.getOpt p = .ok o := hv _ List.mem_cons_self
    unfold run
    cases hx : enterSub a p with
    | ub u =>
      have : enterSub (a.declare k new) p = .ub u := by
        unfold enterSub at hx ⊢
        rw [ho] at hx; rw [declare_getOpt ho]
        simp only [Out.ok_bind] at hx ⊢
        have e : (a.declare k new).stack = a.stack := rfl
        rw [e]
        split at hx
        · rename_i hd; rw [if_pos hd]; exact hx
        · exact (nomatch hx)
      rw [this]; rfl
    | ok e =>
      have h1 := enterSub_frame hx
      have h2 : enterSub (a.declare k new) p = .ok (e.1, e.2.declare k new) ∧ e.2.stack = a.stack ++ [p] := by
        unfold enterSub at hx ⊢
        rw [ho] at hx; rw [declare_getOpt ho]
        simp only [Out.ok_bind] at hx ⊢
        have e0 : (a.declare k new).stack = a.stack := rfl
        rw [e0]
        split at hx
        · exact (nomatch hx)
        · rename_i hd
          rw [if_neg hd, declare_setOpt ho]
          cases hx
          exact ⟨rfl, rfl⟩
      rw [h2.1]
      simp only [Out.ok_bind]
      refine declare_run W rest e.2 ?_ (fun y hy => (hv y (List.mem_cons_of_mem _ hy)).mono h1.1.shape)
      intro q hq
      rw [h2.2] at hq
      rcases List.mem_append.1 hq with hq | hq
      · obtain ⟨o1, ho1⟩ := hs q hq
        obtain ⟨o', ho', -⟩ := shape_getOpt h1.1.shape ho1
        exact ⟨o', ho'⟩
      · rw [List.mem_singleton.1 hq]
        obtain ⟨o', ho', -⟩ := shape_getOpt h1.1.shape ho
        exact ⟨o', ho'⟩
  | .fail c :: rest, a, _, _ => rfl
  | .noTable :: rest, a, _, _ => rfl

end Running

theorem asks_valid (a : Argus) (args : List Str) : ∀ x ∈ a.asks args, x.Valid a := by
  intro x hx
  have h := meaning_fits a.tables args _ _ _ _ x hx
  cases x with
  | give p _ => obtain ⟨os, o, h1, h2, -⟩ := h; exact ⟨o, getOpt_eq_ok.2 ⟨os, h1, h2⟩⟩
  | enter p => obtain ⟨os, o, h1, h2, -⟩ := h; exact ⟨o, getOpt_eq_ok.2 ⟨os, h1, h2⟩⟩
  | fail c => trivial
  | noTable => trivial

/-- Running keeps the pointers of the stack valid. -/
theorem run_stackOk {W : World} : ∀ (acts : List Act) {a : Argus} {r : Int × Argus}, StackOk a →
    (∀ x ∈ acts, x.Valid a) → run W a acts = .ok r → StackOk r.2
  | [], a, r, hs, _, h => by simp only [run, Out.ok.injEq] at h; subst h; exact hs
  | .give p x :: rest, a, r, hs, hv, h => by
    unfold run at h
    obtain ⟨q, hq, h1⟩ := Out.bind_eq_ok h
    have h2 := execCallbacks_one hq
    have hs2 := hs.mono h2.frame.shape h2.stack
    split at h1
    · simp only [Out.ok.injEq] at h1; subst h1; exact hs2
    · exact run_stackOk rest hs2 (fun y hy => (hv y (List.mem_cons_of_mem _ hy)).mono h2.frame.shape) h1
  | .enter p :: rest, a, r, hs, hv, h => by
    unfold run at h
    obtain ⟨q, hq, h1⟩ := Out.bind_eq_ok h
    have hf := enterSub_frame hq
    obtain ⟨o, ho⟩ : ∃ o, a.getOpt p = .ok o := hv _ List.mem_cons_self
    have hst : q.2.stack = a.stack ++ [p] := by
      unfold enterSub at hq
      rw [ho] at hq
      simp only [Out.ok_bind] at hq
      split at hq
      · exact (nomatch hq)
      · cases hq; rfl
    refine run_stackOk rest ?_ (fun y hy => (hv y (List.mem_cons_of_mem _ hy)).mono hf.1.shape) h1
    intro z hz
    rw [hst] at hz
    rcases List.mem_append.1 hz with hz | hz
    · obtain ⟨o1, ho1⟩ := hs z hz
      obtain ⟨o', ho', -⟩ := shape_getOpt hf.1.shape ho1
      exact ⟨o', ho'⟩
    · rw [List.mem_singleton.1 hz]
      obtain ⟨o', ho', -⟩ := shape_getOpt hf.1.shape ho
      exact ⟨o', ho'⟩
  | .fail c :: rest, a, r, hs, _, h => by simp only [run, Out.ok.injEq] at h; subst h; exact hs
  | .noTable :: rest, a, r, _, _, h => by simp [run] at h

/-! ## The environment -/

section Environment

variable (k : Nat) (new : List Opt)

theorem declare_loadEnvStep (W : World) (env : Env) {a : Argus} (hs : StackOk a) {p : Ptr} {o : Opt}
    (hp : a.getOpt p = .ok o) :
    loadEnvStep W env (a.declare k new) p = (loadEnvStep W env a p).declared k new := by
  unfold loadEnvStep
  rw [declare_getOpt hp, hp]
  simp only [Out.ok_bind]
  split
  · rfl
  split
  · rfl
  have e0 : (a.declare k new).envPrefix = a.envPrefix := rfl
  rw [e0]
  cases envVarName a.envPrefix o with
  | none => rfl
  | some n =>
    simp only
    cases env n with
    | none => rfl
    | some v =>
      simp only [declare_execCallbacks k new W hs hp]
      cases hx : execCallbacks W a p (some v) with
      | ub u => rfl
      | ok r =>
        simp only [Out.declared_ok, Out.ok_bind]
        split
        · split
          · obtain ⟨o1, ho1, -⟩ := shape_getOpt (execCallbacks_one hx).frame.shape hp
            rw [declare_getOpt ho1, ho1]
            simp only [Out.ok_bind, declare_setOpt ho1, Out.declared_ok]
          · rfl
        · rfl

theorem declare_loadEnvLoop (W : World) (env : Env) (j : Nat) : ∀ (n i : Nat) (a : Argus), StackOk a →
    (∀ m, i ≤ m → m < i + n → ∃ o, a.getOpt ⟨j, m⟩ = .ok o) →
    loadEnvLoop W env j n i (a.declare k new) = (loadEnvLoop W env j n i a).declared k new
  | 0, i, a, _, _ => rfl
  | n + 1, i, a, hs, hv => by
    obtain ⟨o, ho⟩ := hv i (Nat.le_refl _) (by omega)
    unfold loadEnvLoop
    rw [declare_loadEnvStep k new W env hs ho]
    cases hx : loadEnvStep W env a ⟨j, i⟩ with
    | ub u => rfl
    | ok r =>
      have h1 := loadEnvStep_one hx
      simp only [Out.declared_ok, Out.ok_bind]
      split
      · rfl
      · refine declare_loadEnvLoop W env j n (i + 1) r.2 (hs.mono h1.frame.shape h1.stack) ?_
        intro m hm1 hm2
        obtain ⟨o1, ho1⟩ := hv m (by omega) (by omega)
        obtain ⟨o', ho', -⟩ := shape_getOpt h1.frame.shape ho1
        exact ⟨o', ho'⟩

/-- Rounds over entries without a variable do nothing. -/
theorem loadEnvLoop_idle (W : World) (env : Env) (j : Nat) {a : Argus} : ∀ (n i : Nat),
    (∀ m, i ≤ m → m < i + n → ∃ o, a.getOpt ⟨j, m⟩ = .ok o ∧ NoVariable env a.envPrefix o) →
    loadEnvLoop W env j n i a = .ok (Err.success, a)
  | 0, i, _ => rfl
  | n + 1, i, h => by
    obtain ⟨o, ho, hv⟩ := h i (Nat.le_refl _) (by omega)
    have : loadEnvStep W env a ⟨j, i⟩ = .ok (Err.success, a) := by
      unfold loadEnvStep
      rw [ho]
      simp only [Out.ok_bind]
      split
      · rfl
      split
      · rfl
      cases hn : envVarName a.envPrefix o with
      | none => rfl
      | some x => simp only [hv x hn]
    unfold loadEnvLoop
    rw [this]
    simp only [Out.ok_bind, ne_eq, not_true_eq_false, if_false]
    exact loadEnvLoop_idle W env j n (i + 1) (fun m h1 h2 => h m (by omega) (by omega))

theorem loadEnvLoop_add (W : World) (env : Env) (j : Nat) : ∀ (n m i : Nat) (a : Argus),
    loadEnvLoop W env j (n + m) i a = (do
      let r ← loadEnvLoop W env j n i a
      if r.1 ≠ Err.success then .ok r else loadEnvLoop W env j m (i + n) r.2)
  | 0, m, i, a => by simp [loadEnvLoop]
  | n + 1, m, i, a => by
    have e : n + 1 + m = (n + m) + 1 := by omega
    rw [e]
    simp only [loadEnvLoop]
    cases loadEnvStep W env a ⟨j, i⟩ with
    | ub u => rfl
    | ok r =>
      simp only [Out.ok_bind]
      split
      · rename_i h; rw [Out.ok_bind, if_pos h]
      · rw [loadEnvLoop_add W env j n m (i + 1) r.2]
        have e2 : i + 1 + n = i + (n + 1) := by omega
        rw [e2]

theorem declare_loadEnvTable (W : World) (env : Env) {a : Argus} (hs : StackOk a)
    (hv : ∀ o ∈ new, NoVariable env a.envPrefix o) (j : Nat) :
    loadEnvTable W env (a.declare k new) j = (loadEnvTable W env a j).declared k new := by
  unfold loadEnvTable
  rw [declare_table]
  cases ht : a.table (some j) with
  | ub u => rfl
  | ok os =>
    simp only [Out.ok_bind]
    have hos : a.tables[j]? = some os := by
      unfold Argus.table at ht; simp only at ht
      cases h : a.tables[j]? with
      | none => rw [h] at ht; exact (nomatch ht)
      | some xs => rw [h] at ht; cases ht; rfl
    have hvalid : ∀ m, 0 ≤ m → m < 0 + os.length → ∃ o, a.getOpt ⟨j, m⟩ = .ok o := by
      intro m _ hm
      have hm' : m < os.length := by omega
      exact ⟨os[m], getOpt_eq_ok.2 ⟨os, hos, List.getElem?_eq_getElem hm'⟩⟩
    by_cases e : k = j
    · simp only [e, if_true, List.length_append]
      rw [loadEnvLoop_add, ← e, declare_loadEnvLoop k new W env k os.length 0 a hs (by rw [e]; exact hvalid)]
      cases hx : loadEnvLoop W env k os.length 0 a with
      | ub u => rfl
      | ok r =>
        simp only [Out.declared_ok, Out.ok_bind]
        split
        · rfl
        · have hf := loadEnvLoop_frame os.length 0 hx
          rw [loadEnvLoop_idle]
          · rename_i hr
            have : r.1 = Err.success := Classical.not_not.1 hr
            rw [this]
          · intro m hm1 hm2
            have hm' : m - os.length < new.length := by omega
            obtain ⟨os', ho', hl⟩ : ∃ os', r.2.tables[k]? = some os' ∧ os'.length = os.length := by
              have hsh := hf.frame.shape
              have := congrArg (fun s => s[k]?) hsh
              simp only [Argus.shape, List.getElem?_map] at this
              rw [show a.tables[k]? = some os from e ▸ hos] at this
              cases hr2 : r.2.tables[k]? with
              | none => rw [hr2] at this; exact (nomatch this)
              | some os' =>
                rw [hr2] at this
                simp only [Option.map_some, Option.some.injEq] at this
                exact ⟨os', rfl, by simpa using congrArg List.length this⟩
            refine ⟨new[m - os.length], ?_, ?_⟩
            · refine getOpt_eq_ok.2 ⟨os' ++ new, ?_, ?_⟩
              · rw [declare_table_get, ho']; simp
              · rw [List.getElem?_append_right (by simp only [hl]; omega)]
                simp only [hl]
                rw [List.getElem?_eq_getElem hm']
            · have hp : (r.2.declare k new).envPrefix = a.envPrefix := hf.frame.envPrefix
              rw [hp]
              exact hv _ (List.getElem_mem hm')
    · simp only [e, if_false]
      exact declare_loadEnvLoop k new W env j os.length 0 a hs hvalid

end Environment

section Environment2

variable (k : Nat) (new : List Opt)

theorem declare_loadEnvStack (W : World) (env : Env) : ∀ (ps : List Ptr) (a : Argus), StackOk a →
    (∀ p ∈ ps, ∃ o, a.getOpt p = .ok o) → (∀ o ∈ new, NoVariable env a.envPrefix o) →
    loadEnvStack W env (a.declare k new) ps = (loadEnvStack W env a ps).declared k new
  | [], a, _, _, _ => rfl
  | p :: ps, a, hs, hv, hn => by
    obtain ⟨o, ho⟩ := hv p List.mem_cons_self
    unfold loadEnvStack
    rw [declare_getOpt ho, ho]
    simp only [Out.ok_bind]
    cases o.subOptions with
    | none => exact declare_loadEnvStack W env ps a hs (fun q hq => hv q (List.mem_cons_of_mem _ hq)) hn
    | some j =>
      simp only [declare_loadEnvTable k new W env hs hn]
      cases hx : loadEnvTable W env a j with
      | ub u => rfl
      | ok r =>
        have hf := loadEnvTable_frame hx
        simp only [Out.declared_ok, Out.ok_bind]
        split
        · rfl
        · refine declare_loadEnvStack W env ps r.2 (hs.mono hf.frame.shape hf.stack) ?_ ?_
          · intro q hq
            obtain ⟨o1, ho1⟩ := hv q (List.mem_cons_of_mem _ hq)
            obtain ⟨o', ho', -⟩ := shape_getOpt hf.frame.shape ho1
            exact ⟨o', ho'⟩
          · rw [hf.frame.envPrefix]; exact hn

theorem declare_loadEnvVars (W : World) (env : Env) {a : Argus} (hs : StackOk a)
    (hn : ∀ o ∈ new, NoVariable env a.envPrefix o) :
    loadEnvVars W env (a.declare k new) = (loadEnvVars W env a).declared k new := by
  unfold loadEnvVars
  have e : (a.declare k new).root = a.root := rfl
  rw [e, declare_loadEnvTable k new W env hs hn]
  cases hx : loadEnvTable W env a a.root with
  | ub u => rfl
  | ok r =>
    have hf := loadEnvTable_frame hx
    simp only [Out.declared_ok, Out.ok_bind]
    split
    · rfl
    · have hs2 := hs.mono hf.frame.shape hf.stack
      exact declare_loadEnvStack k new W env r.2.stack r.2 hs2 hs2 (by rw [hf.frame.envPrefix]; exact hn)

end Environment2

/-! ## Validation -/

theorem requiresOld_meta (os new : List Opt) : RequiresOld (os.map Opt.meta) new ↔ RequiresOld os new := by
  unfold RequiresOld
  constructor
  · intro h o ho n hn
    rcases h o.meta (List.mem_map_of_mem ho) n hn with ⟨x, hx, he⟩ | h
    · obtain ⟨y, hy, rfl⟩ := List.mem_map.1 hx
      exact .inl ⟨y, hy, he⟩
    · exact .inr h
  · intro h o ho n hn
    obtain ⟨y, hy, rfl⟩ := List.mem_map.1 ho
    rcases h y hy n hn with ⟨x, hx, he⟩ | h
    · exact .inl ⟨x.meta, List.mem_map_of_mem hx, he⟩
    · exact .inr h

/-- What a name refers to after new entries were added. -/
theorem declare_findName (os new : List Opt) (n : Str) :
    (findName (os ++ new) n).bind (fun i => (os ++ new)[i]?) =
      ((findName os n).bind (fun i => os[i]?)).or ((findName new n).bind (fun i => new[i]?)) := by
  unfold findName
  rw [List.findIdx?_append]
  cases h : os.findIdx? (fun o => o.name == some n) with
  | some i =>
    have hi := (List.findIdx?_eq_some_iff_getElem.1 h).1
    simp only [Option.some_or, Option.bind_some, List.getElem?_append_left hi]
    rw [List.getElem?_eq_getElem hi]; rfl
  | none =>
    simp only [Option.none_or, Option.bind_none]
    cases h2 : new.findIdx? (fun o => o.name == some n) with
    | none => rfl
    | some i =>
      simp only [Option.map_some, Option.bind_some]
      rw [List.getElem?_append_right (by omega)]
      congr 1; omega

theorem findName_some_of {os : List Opt} {n : Str} (h : ∃ x ∈ os, x.name = some n) :
    ((findName os n).bind (fun i => os[i]?)).isSome := by
  unfold findName
  cases hf : os.findIdx? (fun o => o.name == some n) with
  | none =>
    obtain ⟨x, hx, he⟩ := h
    have := List.findIdx?_eq_none_iff.1 hf x hx
    simp [he] at this
  | some i =>
    have hi := (List.findIdx?_eq_some_iff_getElem.1 hf).1
    simp only [Option.bind_some, List.getElem?_eq_getElem hi, Option.isSome_some]

theorem findName_none_of {new : List Opt} {n : Str} (h : ∀ x ∈ new, x.name ≠ some n) : findName new n = none := by
  unfold findName
  rw [List.findIdx?_eq_none_iff]
  intro x hx
  simp [h x hx]

theorem findName_get_mem {new : List Opt} {n : Str} {r : Opt}
    (h : (findName new n).bind (fun i => new[i]?) = some r) : r ∈ new := by
  cases hf : findName new n with
  | none => rw [hf] at h; exact (nomatch h)
  | some i => rw [hf] at h; exact List.mem_of_getElem? h

theorem declare_validateRequired {os new : List Opt} : ∀ (ns : List Str),
    (∀ n ∈ ns, (∃ x ∈ os, x.name = some n) ∨ ∀ x ∈ new, x.name ≠ some n) →
    validateRequired (os ++ new) ns = validateRequired os ns
  | [], _ => rfl
  | n :: ns, h => by
    have ih := declare_validateRequired ns (fun m hm => h m (List.mem_cons_of_mem _ hm))
    unfold validateRequired
    rw [declare_findName, ih]
    rcases h n List.mem_cons_self with hx | hx
    · obtain ⟨r, hr⟩ := Option.isSome_iff_exists.1 (findName_some_of hx)
      rw [hr]; rfl
    · rw [findName_none_of hx]
      simp only [Option.bind_none, Option.or_none]

theorem declare_validateConflicts {os new : List Opt} (hn : ∀ o ∈ new, o.isSet = false) : ∀ (ns : List Str),
    validateConflicts (os ++ new) ns = validateConflicts os ns
  | [] => rfl
  | n :: ns => by
    unfold validateConflicts
    rw [declare_findName, declare_validateConflicts hn ns]
    cases h : (findName os n).bind (fun i => os[i]?) with
    | some r => rfl
    | none =>
      simp only [Option.none_or]
      cases h2 : (findName new n).bind (fun i => new[i]?) with
      | none => rfl
      | some r =>
        simp only [hn r (findName_get_mem h2), Bool.false_eq_true, if_false]

theorem validateSet_idle (W : World) (T : List Opt) : ∀ (new : List Opt) (excl : Bool) (first : Option Str),
    (∀ o ∈ new, o.Idle) → validateSet W T excl first new = .ok (Err.success, [])
  | [], _, _, _ => rfl
  | o :: new, excl, first, h => by
    have ho := h o List.mem_cons_self
    have ih := fun e f => validateSet_idle W T new e f (fun x hx => h x (List.mem_cons_of_mem _ hx))
    unfold validateSet
    split
    · exact ih _ _
    split
    · rename_i h2
      exact absurd h2.1 ho.kind
    · simp only [ho.unset, Bool.false_eq_true, if_false]
      exact ih _ _

theorem declare_validateSet (W : World) {os new : List Opt} (hn : ∀ o ∈ new, o.Idle) (hr : RequiresOld os new) :
    ∀ (xs : List Opt) (excl : Bool) (first : Option Str), (∀ o ∈ xs, o ∈ os) →
    validateSet W (os ++ new) excl first (xs ++ new) = validateSet W os excl first xs
  | [], excl, first, _ => by
    rw [List.nil_append, validateSet_idle W _ new excl first hn]; rfl
  | o :: xs, excl, first, h => by
    have ih := fun e f => declare_validateSet W hn hr xs e f (fun x hx => h x (List.mem_cons_of_mem _ hx))
    rw [List.cons_append]
    unfold validateSet
    simp only [ih, declare_validateRequired _ (hr o (h o List.mem_cons_self)),
      declare_validateConflicts (fun x hx => (hn x hx).unset)]

section Validation

variable (k : Nat) {new : List Opt} (hn : ∀ o ∈ new, o.Idle)

include hn in
theorem declare_validateTable (W : World) {a : Argus} (hr : ∀ os, a.tables[k]? = some os → RequiresOld os new)
    (t : Option Nat) : validateTable W (a.declare k new) t = (validateTable W a t).declared k new := by
  cases t with
  | none => rfl
  | some j =>
    unfold validateTable
    rw [declare_table]
    cases ht : a.table (some j) with
    | ub u => rfl
    | ok os =>
      have hos : a.tables[j]? = some os := by
        unfold Argus.table at ht; simp only at ht
        cases h : a.tables[j]? with
        | none => rw [h] at ht; exact (nomatch ht)
        | some xs => rw [h] at ht; cases ht; rfl
      simp only [Out.ok_bind]
      have e : validateSet W (if k = j then os ++ new else os) false none (if k = j then os ++ new else os) =
          validateSet W os false none os := by
        split
        · rename_i e
          exact declare_validateSet W hn (hr os (e ▸ hos)) os false none (fun _ h => h)
        · rfl
      rw [e]
      cases validateSet W os false none os with
      | ub u => rfl
      | ok r => simp only [Out.ok_bind, declare_emits, Out.declared_ok]

include hn in
theorem declare_validateStack (W : World) : ∀ (ps : List Ptr) (a : Argus),
    (∀ os, a.tables[k]? = some os → RequiresOld os new) → (∀ p ∈ ps, ∃ o, a.getOpt p = .ok o) →
    validateStack W (a.declare k new) ps = (validateStack W a ps).declared k new
  | [], a, _, _ => rfl
  | p :: ps, a, hr, hv => by
    obtain ⟨o, ho⟩ := hv p List.mem_cons_self
    unfold validateStack
    rw [declare_getOpt ho, ho]
    simp only [Out.ok_bind, declare_validateTable k hn W hr]
    cases hx : validateTable W a o.subOptions with
    | ub u => rfl
    | ok r =>
      obtain ⟨es, hes⟩ := validateTable_eq hx
      simp only [Out.declared_ok, Out.ok_bind]
      split
      · rfl
      · refine declare_validateStack W ps r.2 (by rw [hes]; simpa using hr) ?_
        intro q hq
        rw [hes]; simpa using hv q (List.mem_cons_of_mem _ hq)

include hn in
theorem declare_postValidation (W : World) {a : Argus} (hs : StackOk a)
    (hr : ∀ os, a.tables[k]? = some os → RequiresOld os new) :
    postValidation W (a.declare k new) = (postValidation W a).declared k new := by
  unfold postValidation
  have e : (a.declare k new).root = a.root := rfl
  rw [e, declare_validateTable k hn W hr]
  cases hx : validateTable W a (some a.root) with
  | ub u => rfl
  | ok r =>
    obtain ⟨es, hes⟩ := validateTable_eq hx
    simp only [Out.declared_ok, Out.ok_bind]
    split
    · rfl
    · refine declare_validateStack k hn W r.2.stack r.2 (by rw [hes]; simpa using hr) ?_
      rw [hes]; intro q hq; simpa using hs q (by simpa using hq)

/-! ## Release -/

theorem freeOpts_idle : ∀ (new : List Opt), (∀ o ∈ new, o.isAllocated = false) → freeOpts new = .ok new
  | [], _ => rfl
  | o :: new, h => by
    unfold freeOpts
    have : freeOptionValue o = .ok o := by unfold freeOptionValue; rw [if_pos (h o List.mem_cons_self)]
    rw [this, freeOpts_idle new (fun x hx => h x (List.mem_cons_of_mem _ hx))]
    rfl

theorem freeOpts_append_idle {new : List Opt} (h : ∀ o ∈ new, o.isAllocated = false) : ∀ (os : List Opt),
    freeOpts (os ++ new) = (do let xs ← freeOpts os; Out.ok (xs ++ new))
  | [] => by rw [List.nil_append, freeOpts_idle new h]; rfl
  | o :: os => by
    rw [List.cons_append]
    unfold freeOpts
    rw [freeOpts_append_idle h os]
    cases freeOptionValue o with
    | ub u => rfl
    | ok o1 =>
      simp only [Out.ok_bind]
      cases freeOpts os <;> rfl

include hn in
theorem declare_freeTable (a : Argus) (t : Option Nat) :
    freeTable (a.declare k new) t = (do let b ← freeTable a t; Out.ok (b.declare k new)) := by
  cases t with
  | none => rfl
  | some j =>
    unfold freeTable
    rw [declare_table]
    cases ht : a.table (some j) with
    | ub u => rfl
    | ok os =>
      simp only [Out.ok_bind]
      have e : freeOpts (if k = j then os ++ new else os) =
          (do let xs ← freeOpts os; Out.ok (if k = j then xs ++ new else xs)) := by
        split
        · exact freeOpts_append_idle (fun o ho => (hn o ho).free) os
        · cases freeOpts os <;> rfl
      rw [e]
      cases freeOpts os with
      | ub u => rfl
      | ok xs =>
        simp only [Out.ok_bind, Out.ok.injEq]
        unfold Argus.declare
        simp only [Argus.mk.injEq, and_true]
        apply List.ext_getElem?
        intro m
        simp only [List.getElem?_modify, List.getElem?_set, List.length_modify]
        by_cases e1 : j = m
        · subst e1
          by_cases e2 : j < a.tables.length
          · by_cases e3 : k = j <;> simp [e2, e3]
          · simp [e2]
        · by_cases e3 : k = m <;> simp [e1, e3]

theorem freeTable_shape_stack {a b : Argus} {t : Option Nat} (h : freeTable a t = .ok b) :
    b.shape = a.shape ∧ b.stack = a.stack :=
  ⟨(freeTable_frame h).frame.shape, (freeTable_frame h).stack⟩

include hn in
theorem declare_freeStack : ∀ (ps : List Ptr) (a : Argus), (∀ p ∈ ps, ∃ o, a.getOpt p = .ok o) →
    freeStack (a.declare k new) ps = (do let b ← freeStack a ps; Out.ok (b.declare k new))
  | [], a, _ => rfl
  | p :: ps, a, hv => by
    obtain ⟨o, ho⟩ := hv p List.mem_cons_self
    unfold freeStack
    rw [declare_getOpt ho, ho]
    simp only [Out.ok_bind, declare_freeTable k hn]
    cases hx : freeTable a o.subOptions with
    | ub u => rfl
    | ok b =>
      simp only [Out.ok_bind]
      refine declare_freeStack ps b ?_
      intro q hq
      obtain ⟨o1, ho1⟩ := hv q (List.mem_cons_of_mem _ hq)
      obtain ⟨o', ho', -⟩ := shape_getOpt (freeTable_shape_stack hx).1 ho1
      exact ⟨o', ho'⟩

include hn in
theorem declare_argusFree {a : Argus} (hs : StackOk a) :
    argusFree (a.declare k new) = (do let b ← argusFree a; Out.ok (b.declare k new)) := by
  unfold argusFree
  have e : (a.declare k new).root = a.root := rfl
  rw [e, declare_freeTable k hn]
  cases hx : freeTable a (some a.root) with
  | ub u => rfl
  | ok b =>
    simp only [Out.ok_bind]
    have h1 := freeTable_shape_stack hx
    exact declare_freeStack k hn b.stack b (hs.mono h1.1 h1.2)

/-! ## The whole parse -/

include hn in
theorem declare_argusParse (W : World) (env : Env) {a : Argus} {args : List Str} (hs : StackOk a)
    (hw : ∀ arg ∈ args, ∀ o ∈ new, Uncalled o arg)
    (hargs : Act.fail Err.invalidArgument ∉ a.asks args ∨ ∀ arg ∈ args, ∀ o ∈ new, Unspelled o arg)
    (henv : ∀ o ∈ new, NoVariable env a.envPrefix o)
    (hr : ∀ os, a.tables[k]? = some os → RequiresOld os new) :
    argusParse W env (a.declare k new) args = (argusParse W env a args).declared k new := by
  have hrun : parseArgs W (a.declare k new) (some (a.declare k new).root) args =
      (parseArgs W a (some a.root) args).declared k new := by
    rw [parseArgs_run, parseArgs_run, declare_asks hn a k args hw hargs]
    exact declare_run k new W _ a hs (asks_valid a args)
  unfold argusParse
  rw [hrun]
  cases hp : parseArgs W a (some a.root) args with
  | ub u => rfl
  | ok r =>
    have hp' := hp
    rw [parseArgs_run] at hp'
    have hsh := run_shape _ hp'
    have hs1 : StackOk r.2 := run_stackOk _ hs (asks_valid a args) hp'
    have hcfg : r.2.envPrefix = a.envPrefix := by
      obtain ⟨ext, -, -, hf⟩ := parseLoop_frame args hp
      exact hf.envPrefix
    have key : ∀ (c : Int), ({ r.2.declare k new with errorCode := c } : Argus) =
        ({ r.2 with errorCode := c } : Argus).declare k new := fun _ => rfl
    have hs2 : ∀ (c : Int), StackOk { r.2 with errorCode := c } := fun c =>
      hs1.mono rfl rfl
    have hfree : ∀ {b : Argus} (w : ParseEnd), StackOk b →
        (do let a2 ← argusFree (b.declare k new); Out.ok (w, a2)) =
          Out.declared k new (do let a2 ← argusFree b; Out.ok (w, a2)) := by
      intro b w hb
      rw [declare_argusFree k hn hb]
      cases argusFree b <;> rfl
    simp only [Out.declared_ok, Out.ok_bind, key]
    split
    · exact hfree _ (hs2 _)
    split
    · have e2 : ((({ r.2 with errorCode := r.1 } : Argus).declare k new).emit (.usage none)).emit .tryHelp =
          ((({ r.2 with errorCode := r.1 } : Argus).emit (.usage none)).emit .tryHelp).declare k new := rfl
      rw [e2]
      exact hfree _ ((hs2 r.1).mono rfl rfl)
    · rw [declare_loadEnvVars k new W env (hs2 r.1) (by simpa [hcfg] using henv)]
      cases he : loadEnvVars W env { r.2 with errorCode := r.1 } with
      | ub u => rfl
      | ok e =>
        have hf := loadEnvVars_frame he
        have hs3 : StackOk e.2 := (hs2 r.1).mono hf.frame.shape hf.stack
        simp only [Out.declared_ok, Out.ok_bind]
        split
        · exact hfree _ hs3
        · have hr3 : ∀ os, e.2.tables[k]? = some os → RequiresOld os new := by
            intro os hos
            have h1 : e.2.shape = a.shape := hf.frame.shape.trans (by
              rw [show ({ r.2 with errorCode := r.1 } : Argus).shape = r.2.shape from rfl]; exact hsh)
            have h2 := congrArg (fun s => s[k]?) h1
            simp only [Argus.shape, List.getElem?_map, hos, Option.map_some] at h2
            cases h3 : a.tables[k]? with
            | none => rw [h3] at h2; exact (nomatch h2)
            | some os0 =>
              rw [h3] at h2
              simp only [Option.map_some, Option.some.injEq] at h2
              rw [← requiresOld_meta, h2, requiresOld_meta]
              exact hr os0 h3
          rw [declare_postValidation k hn W hs3 hr3]
          cases hv : postValidation W e.2 with
          | ub u => rfl
          | ok v =>
            obtain ⟨es, hes⟩ := postValidation_eq hv
            have hs4 : StackOk v.2 := by
              rw [hes]; exact hs3.mono (by simp) (by simp)
            simp only [Out.declared_ok, Out.ok_bind]
            split
            · exact hfree _ hs4
            · rfl

end Validation

/-! ## Looking options up -/

section Lookup

variable (k : Nat) {new : List Opt}

theorem declare_findNameIn (a : Argus) (t : Option Nat) {n : Str} (hn : ∀ o ∈ new, o.name ≠ some n) :
    (a.declare k new).findNameIn t n = a.findNameIn t n := by
  cases t with
  | none => rfl
  | some j =>
    unfold Argus.findNameIn
    rw [declare_table]
    cases a.table (some j) with
    | ub u => rfl
    | ok os =>
      have e : findName (if k = j then os ++ new else os) n = findName os n := by
        split
        · have := findName_none_of hn
          unfold findName at this ⊢
          rw [List.findIdx?_append, this]
          simp
        · rfl
      simp only [Out.ok_bind, e]

theorem declare_findRelative {a : Argus} {n : Str} (hn : ∀ o ∈ new, o.name ≠ some n) : ∀ (ps : List Ptr),
    (∀ p ∈ ps, ∃ o, a.getOpt p = .ok o) → (a.declare k new).findRelative n ps = a.findRelative n ps
  | [], _ => by unfold Argus.findRelative; exact declare_findNameIn k a _ hn
  | p :: ps, hv => by
    obtain ⟨o, ho⟩ := hv p List.mem_cons_self
    unfold Argus.findRelative
    rw [declare_getOpt ho, ho]
    simp only [Out.ok_bind, declare_findNameIn k a _ hn,
      declare_findRelative hn ps (fun q hq => hv q (List.mem_cons_of_mem _ hq))]

theorem declare_findComponents {a : Argus} : ∀ (n : Nat) (c : Str) (t : Option Nat) (ps : List Ptr),
    (∀ o ∈ new, ∀ m, o.name = some m → ¬ m <:+ c) → (∀ p ∈ ps, ∃ o, a.getOpt p = .ok o) →
    (a.declare k new).findComponents n c t ps = a.findComponents n c t ps
  | 0, c, t, ps, hn, _ => by
    unfold Argus.findComponents
    exact declare_findNameIn k a t (fun o ho e => hn o ho c e (List.suffix_refl c))
  | n + 1, c, t, ps, hn, hv => by
    unfold Argus.findComponents
    have hc : ∀ o ∈ new, o.name ≠ some c := fun o ho e => hn o ho c e (List.suffix_refl c)
    cases hs : strchrSplit 46 c with
    | none => exact declare_findNameIn k a t hc
    | some pq =>
      obtain ⟨comp, rest⟩ := pq
      simp only
      cases ps with
      | nil => rfl
      | cons p ps =>
        obtain ⟨o, ho⟩ := hv p List.mem_cons_self
        simp only [declare_getOpt ho, ho, Out.ok_bind]
        cases o.name with
        | none => rfl
        | some cname =>
          simp only
          have hsuf : rest <:+ c := by
            have := ((strchrSplit_some_iff 46 c comp rest).1 hs).1
            exact ⟨comp ++ [46], by rw [this]; simp⟩
          rw [declare_findComponents n rest o.subOptions ps
            (fun x hx m hm h => hn x hx m hm (h.trans hsuf)) (fun q hq => hv q (List.mem_cons_of_mem _ hq))]

theorem declare_lookup {a : Argus} (hs : StackOk a) {path : Str}
    (hn : ∀ o ∈ new, ∀ m, o.name = some m → ¬ m <:+ path) :
    (a.declare k new).findPath path = a.findPath path := by
  unfold Argus.findPath
  have e1 : (a.declare k new).stack = a.stack := rfl
  have e2 : (a.declare k new).root = a.root := rfl
  rw [e1, e2]
  split
  · split
    · exact declare_findNameIn k a _ (fun o ho e => hn o ho _ e (List.tail_suffix path))
    split
    · rfl
    · exact declare_findComponents k _ path _ a.stack hn hs
  · exact declare_findRelative k (fun o ho e => hn o ho _ e (List.suffix_refl path)) _
      (fun p hp => hs p (List.mem_reverse.1 hp))

/-- The stack after a parse. -/
theorem argusParse_stackOk {W : World} {env : Env} {a : Argus} {args : List Str} {r : ParseEnd × Argus}
    (hs : StackOk a) (h : argusParse W env a args = .ok r) : StackOk r.2 := by
  unfold argusParse at h
  obtain ⟨q, hq, h1⟩ := Out.bind_eq_ok h
  have hq' := hq
  rw [parseArgs_run] at hq'
  have hs1 : StackOk q.2 := run_stackOk _ hs (asks_valid a args) hq'
  have hs2 : StackOk { q.2 with errorCode := q.1 } := hs1.mono rfl rfl
  have hfree : ∀ {b c : Argus}, StackOk b → argusFree b = .ok c → StackOk c := fun hb hc =>
    hb.mono (argusFree_frame hc).frame.shape (argusFree_frame hc).stack
  split at h1
  · obtain ⟨a2, h2, h3⟩ := Out.bind_eq_ok h1; cases h3; exact hfree hs2 h2
  split at h1
  · obtain ⟨a2, h2, h3⟩ := Out.bind_eq_ok h1; cases h3
    exact hfree (b := (({ q.2 with errorCode := q.1 } : Argus).emit (.usage none)).emit .tryHelp)
      (hs2.mono rfl rfl) h2
  · obtain ⟨e, he, h2⟩ := Out.bind_eq_ok h1
    have hf := loadEnvVars_frame he
    have hs3 : StackOk e.2 := hs2.mono hf.frame.shape hf.stack
    split at h2
    · obtain ⟨a2, h3, h4⟩ := Out.bind_eq_ok h2; cases h4; exact hfree hs3 h3
    · obtain ⟨v, hv, h3⟩ := Out.bind_eq_ok h2
      obtain ⟨es, hes⟩ := postValidation_eq hv
      have hs4 : StackOk v.2 := by rw [hes]; exact hs3.mono (by simp) (by simp)
      split at h3
      · obtain ⟨a2, h4, h5⟩ := Out.bind_eq_ok h3; cases h5; exact hfree hs4 h4
      · cases h3; exact hs4

end Lookup

end Argus
