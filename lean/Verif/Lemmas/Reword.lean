import Verif.Spec.Reword
import Verif.Lemmas.Relax

/-!
# Lemmas on programs that differ in what they show only
-/

set_option autoImplicit false

namespace Argus

namespace Reworded

variable {o o' : Opt}

theorem refl (o : Opt) : Reworded o o := ⟨rfl, fun _ _ => rfl⟩

theorem wear_eq (h : Reworded o o') : o.wear o' = o' := by
  have hs := h.same
  cases o; cases o'
  simp only [Opt.mk.injEq] at hs
  simp only [Opt.wear, Opt.mk.injEq]
  simp_all

theorem of_meta (h : Reworded o o') {o1 : Opt} (hm : o1.meta = o.meta) : Reworded o1 (o1.wear o') := by
  obtain ⟨hs, h1⟩ := h
  cases o; cases o'; cases o1
  simp only [Opt.mk.injEq] at hs
  simp only [Opt.meta, Opt.mk.injEq] at hm
  simp only [Opt.wear]
  refine ⟨?_, ?_⟩ <;> simp_all

theorem flag (h : Reworded o o') (f : Flag) (hf : f ≠ .hidden ∧ f ≠ .advanced ∧ f ≠ .deprecated ∧ f ≠ .experimental) :
    o'.flags.has f = o.flags.has f :=
  h.flags f (by rintro (h | h | h | h); exact hf.1 h; exact hf.2.1 h; exact hf.2.2.1 h; exact hf.2.2.2 h)

theorem sortAlike (h : Reworded o o') : SortAlike o'.flags o.flags :=
  ⟨h.flag _ (by decide), h.flag _ (by decide), h.flag _ (by decide), h.flag _ (by decide), h.flag _ (by decide)⟩

theorem field {α : Type} (h : Reworded o o') (g : Opt → α)
    (hg : ∀ x : Opt, g (x.wear o') = g x) : g o' = g o := by
  have := hg o
  rw [h.wear_eq] at this; exact this

theorem type (h : Reworded o o') : o'.type = o.type := h.field (·.type) (fun _ => rfl)
theorem name (h : Reworded o o') : o'.name = o.name := h.field (·.name) (fun _ => rfl)
theorem lname (h : Reworded o o') : o'.lname = o.lname := h.field (·.lname) (fun _ => rfl)
theorem envName (h : Reworded o o') : o'.envName = o.envName := h.field (·.envName) (fun _ => rfl)
theorem isSet (h : Reworded o o') : o'.isSet = o.isSet := h.field (·.isSet) (fun _ => rfl)
theorem value (h : Reworded o o') : o'.value = o.value := h.field (·.value) (fun _ => rfl)
theorem valueCount (h : Reworded o o') : o'.valueCount = o.valueCount := h.field (·.valueCount) (fun _ => rfl)
theorem valueCapacity (h : Reworded o o') : o'.valueCapacity = o.valueCapacity :=
  h.field (·.valueCapacity) (fun _ => rfl)
theorem valueType (h : Reworded o o') : o'.valueType = o.valueType := h.field (·.valueType) (fun _ => rfl)
theorem isAllocated (h : Reworded o o') : o'.isAllocated = o.isAllocated := h.field (·.isAllocated) (fun _ => rfl)
theorem handler (h : Reworded o o') : o'.handler = o.handler := h.field (·.handler) (fun _ => rfl)
theorem freeHandler (h : Reworded o o') : o'.freeHandler = o.freeHandler := h.field (·.freeHandler) (fun _ => rfl)
theorem subOptions (h : Reworded o o') : o'.subOptions = o.subOptions := h.field (·.subOptions) (fun _ => rfl)
theorem validators (h : Reworded o o') : o'.validators = o.validators := by
  have := congrArg Opt.validators h.same; exact this
theorem require (h : Reworded o o') : o'.require = o.require := by
  have := congrArg Opt.require h.same; exact this
theorem conflict (h : Reworded o o') : o'.conflict = o.conflict := by
  have := congrArg Opt.conflict h.same; exact this

theorem envVarName (h : Reworded o o') (ep : Option Str) : Argus.envVarName ep o' = Argus.envVarName ep o := by
  unfold Argus.envVarName
  rw [h.envName, h.flag .noEnvPrefix (by decide), h.flag .autoEnv (by decide), h.name, h.lname]

/-- Changes of the fields that are not for display. -/
theorem change (h : Reworded o o') (g : Opt → Opt) (hm : (g o).meta = o.meta) (hg : g (o.wear o') = (g o).wear o') :
    Reworded (g o) (g o') := by
  have := h.of_meta hm
  rw [h.wear_eq] at hg
  rw [hg]; exact this

theorem markSet (h : Reworded o o') : Reworded o.markSet o'.markSet := h.change Opt.markSet rfl rfl

end Reworded

/-- Entry by entry. -/
def RewordedRow : List Opt → List Opt → Prop
  | [], [] => True
  | o :: os, o' :: os' => Reworded o o' ∧ RewordedRow os os'
  | _, _ => False

theorem rewordedRow_of : ∀ {os os' : List Opt}, os'.length = os.length →
    (∀ (i : Nat) (o : Opt), os[i]? = some o → ∃ o', os'[i]? = some o' ∧ Reworded o o') → RewordedRow os os'
  | [], [], _, _ => trivial
  | o :: os, o' :: os', hl, h => by
    refine ⟨?_, rewordedRow_of (by simpa using hl) (fun i x hx => ?_)⟩
    · obtain ⟨x, hx, hr⟩ := h 0 o rfl
      simp only [List.getElem?_cons_zero, Option.some.injEq] at hx
      subst hx; exact hr
    · have := h (i + 1) x (by simpa using hx)
      simpa using this
  | [], _ :: _, hl, _ => by simp at hl
  | _ :: _, [], hl, _ => by simp at hl

theorem rewordedRow_get : ∀ {os os' : List Opt}, RewordedRow os os' → ∀ (i : Nat) (o : Opt), os[i]? = some o →
    ∃ o', os'[i]? = some o' ∧ Reworded o o'
  | [], [], _, i, o, h => by simp at h
  | o :: os, o' :: os', ⟨h1, h2⟩, i, x, h => by
    cases i with
    | zero =>
      simp only [List.getElem?_cons_zero, Option.some.injEq] at h
      subst h; exact ⟨o', rfl, h1⟩
    | succ i => exact rewordedRow_get h2 i x (by simpa using h)
  | [], _ :: _, h, _, _, _ => h.elim
  | _ :: _, [], h, _, _, _ => h.elim

theorem rewordedRow_length : ∀ {os os' : List Opt}, RewordedRow os os' → os'.length = os.length
  | [], [], _ => rfl
  | _ :: _, _ :: _, ⟨_, h2⟩ => by simp [rewordedRow_length h2]
  | [], _ :: _, h => h.elim
  | _ :: _, [], h => h.elim

theorem rewordedRow_bare : ∀ {os os' : List Opt}, RewordedRow os os' → os'.map Opt.bare = os.map Opt.bare
  | [], [], _ => rfl
  | o :: os, o' :: os', ⟨h1, h2⟩ => by
    have : (o.wear o').bare = o.bare := rfl
    rw [h1.wear_eq] at this
    simp only [List.map_cons, this, rewordedRow_bare h2]
  | [], _ :: _, h => h.elim
  | _ :: _, [], h => h.elim

/-- Two outcomes agree apart from what is for display. -/
def OutShown {α : Type} : Out (α × Argus) → Out (α × Argus) → Prop
  | .ok r, .ok s => s.1 = r.1 ∧ ShownOtherwise r.2 s.2
  | .ub u, .ub v => u = v
  | _, _ => False

theorem OutShown.ok {α : Type} (s : α) {a b : Argus} (h : ShownOtherwise a b) :
    OutShown (.ok (s, a)) (.ok (s, b)) := ⟨rfl, h⟩

theorem OutShown.bind {α β : Type} {x y : Out (α × Argus)} {f g : α × Argus → Out (β × Argus)} (h : OutShown x y)
    (hf : ∀ s a b, ShownOtherwise a b → OutShown (f (s, a)) (g (s, b))) :
    OutShown (x >>= f) (y >>= g) := by
  cases x with
  | ub u => cases y with
    | ub v => exact h
    | ok r => exact h.elim
  | ok r => cases y with
    | ub v => exact h.elim
    | ok s =>
      obtain ⟨c, a⟩ := r
      obtain ⟨d, b⟩ := s
      obtain ⟨h1, h2⟩ := h
      simp only at h1; subst h1
      exact hf _ a b h2

theorem OutShown.bindSame {α β : Type} (x : Out α) {f g : α → Out (β × Argus)}
    (hf : ∀ r, OutShown (f r) (g r)) : OutShown (x >>= f) (x >>= g) := by
  cases x with
  | ub u => exact rfl
  | ok r => exact hf r

namespace ShownOtherwise

variable {a b : Argus}

theorem root (h : ShownOtherwise a b) : b.root = a.root := by
  have := congrArg Argus.root h.rest; exact this
theorem stack (h : ShownOtherwise a b) : b.stack = a.stack := by
  have := congrArg Argus.stack h.rest; exact this
theorem out (h : ShownOtherwise a b) : b.out = a.out := by
  have := congrArg Argus.out h.rest; exact this
theorem errorCode (h : ShownOtherwise a b) : b.errorCode = a.errorCode := by
  have := congrArg Argus.errorCode h.rest; exact this
theorem envPrefix (h : ShownOtherwise a b) : b.envPrefix = a.envPrefix := by
  have := congrArg Argus.envPrefix h.rest; exact this

theorem row (h : ShownOtherwise a b) {k : Nat} {os : List Opt} (hk : a.tables[k]? = some os) :
    ∃ os', b.tables[k]? = some os' ∧ RewordedRow os os' := by
  obtain ⟨os', h1, h2⟩ := lengths_getElem h.sizes hk
  refine ⟨os', h1, rewordedRow_of h2 (fun i o ho => ?_)⟩
  obtain ⟨o', h3, h4⟩ := h.entries ⟨k, i⟩ o (by simp [placeAt, hk, ho])
  simp only [placeAt, h1, Option.bind_some] at h3
  exact ⟨o', h3, h4⟩

theorem noRow (h : ShownOtherwise a b) {k : Nat} (hk : a.tables[k]? = none) : b.tables[k]? = none := by
  cases h1 : b.tables[k]? with
  | none => rfl
  | some os =>
    obtain ⟨os', h2, _⟩ := lengths_getElem h.sizes.symm h1
    rw [hk] at h2; cases h2

theorem ofRows {T T' : List (List Opt)} (hl : T'.length = T.length)
    (h : ∀ (k : Nat) os, T[k]? = some os → ∃ os', T'[k]? = some os' ∧ RewordedRow os os') :
    T'.map List.length = T.map List.length ∧
      ∀ p o, placeAt T p = some o → ∃ o', placeAt T' p = some o' ∧ Reworded o o' := by
  refine ⟨?_, fun p o ho => ?_⟩
  · apply List.ext_getElem?
    intro k
    simp only [List.getElem?_map]
    cases hk : T[k]? with
    | none =>
      have : T'[k]? = none := by rw [List.getElem?_eq_none_iff] at hk ⊢; omega
      rw [this]
    | some os =>
      obtain ⟨os', h1, h2⟩ := h k os hk
      rw [h1]
      simp [rewordedRow_length h2]
  · obtain ⟨os, h1, h2⟩ := Option.bind_eq_some_iff.1 ho
    obtain ⟨os', h3, h4⟩ := h p.tbl os h1
    obtain ⟨o', h5, h6⟩ := rewordedRow_get h4 p.idx o h2
    exact ⟨o', by simp [placeAt, h3, h5], h6⟩

theorem withTable (h : ShownOtherwise a b) (k : Nat) {os os' : List Opt} (hr : RewordedRow os os') :
    ShownOtherwise { a with tables := a.tables.set k os } { b with tables := b.tables.set k os' } := by
  have hl : b.tables.length = a.tables.length := by
    have := congrArg List.length h.sizes; simpa using this
  obtain ⟨h1, h2⟩ := ofRows (T := a.tables.set k os) (T' := b.tables.set k os') (by simp [hl]) (by
    intro j row hj
    rw [List.getElem?_set] at hj ⊢
    by_cases e : k = j
    · subst e
      rw [if_pos rfl] at hj ⊢
      rw [hl]
      split at hj
      · rename_i hlt
        rw [if_pos hlt]
        cases hj; exact ⟨os', rfl, hr⟩
      · cases hj
    · rw [if_neg e] at hj ⊢
      exact h.row hj)
  exact ⟨h1, h2, congrArg (fun x : Argus => { x with tables := a.tables.set k os }) h.rest⟩

theorem setOpt (h : ShownOtherwise a b) (p : Ptr) {o o' : Opt} (hr : Reworded o o') :
    ShownOtherwise (a.setOpt p o) (b.setOpt p o') := by
  refine ⟨?_, ?_, congrArg (fun x : Argus => x.setOpt p o) h.rest⟩
  · show (putAt b.tables p o').map List.length = (putAt a.tables p o).map List.length
    rw [putAt_sizes, putAt_sizes, h.sizes]
  · intro q x hx
    change placeAt (putAt a.tables p o) q = some x at hx
    show ∃ x', placeAt (putAt b.tables p o') q = some x' ∧ _
    by_cases e : q = p
    · subst e
      cases ha : placeAt a.tables q with
      | none =>
        -- writing to a place that does not exist does nothing
        have : placeAt (putAt a.tables q o) q = none := by
          unfold placeAt putAt at *
          rw [List.getElem?_modify]
          cases hk : a.tables[q.tbl]? with
          | none => rfl
          | some os =>
            rw [hk] at ha
            simp only [Option.bind_some] at ha
            simp only [if_true, Option.map_eq_map, Option.map_some, Option.bind_some]
            rw [List.getElem?_eq_none_iff] at ha ⊢
            simpa using ha
        rw [this] at hx; cases hx
      | some y =>
        obtain ⟨y', hy', _⟩ := h.entries q y ha
        rw [placeAt_put_self ha] at hx
        cases hx
        exact ⟨o', placeAt_put_self hy', hr⟩
    · rw [placeAt_put_ne e] at hx
      rw [placeAt_put_ne e]
      exact h.entries q x hx

theorem emit (h : ShownOtherwise a b) (e : Event) : ShownOtherwise (a.emit e) (b.emit e) :=
  ⟨h.sizes, h.entries, congrArg (fun x : Argus => x.emit e) h.rest⟩

theorem emits (h : ShownOtherwise a b) (es : List Event) : ShownOtherwise (a.emits es) (b.emits es) := by
  induction es generalizing a b with
  | nil => exact h
  | cons e es ih => exact ih (h.emit e)

theorem report (h : ShownOtherwise a b) (c : Int) : ShownOtherwise (a.report c) (b.report c) := h.emit _

theorem push (h : ShownOtherwise a b) (p : Ptr) :
    ShownOtherwise { a with stack := a.stack ++ [p] } { b with stack := b.stack ++ [p] } :=
  ⟨h.sizes, h.entries, congrArg (fun x : Argus => { x with stack := x.stack ++ [p] }) h.rest⟩

theorem code (h : ShownOtherwise a b) (c : Int) : ShownOtherwise { a with errorCode := c } { b with errorCode := c } :=
  ⟨h.sizes, h.entries, congrArg (fun x : Argus => { x with errorCode := c }) h.rest⟩

/-- The entry at a place, in both programs. -/
theorem getOpt (h : ShownOtherwise a b) (p : Ptr) :
    (∃ o o', a.getOpt p = .ok o ∧ b.getOpt p = .ok o' ∧ Reworded o o') ∨
      ∃ u, a.getOpt p = .ub u ∧ b.getOpt p = .ub u := by
  unfold Argus.getOpt
  cases hk : a.tables[p.tbl]? with
  | none => rw [h.noRow hk]; exact .inr ⟨_, rfl, rfl⟩
  | some os =>
    obtain ⟨os', h1, h2⟩ := h.row hk
    rw [h1]
    simp only
    cases hi : os[p.idx]? with
    | none =>
      have : os'[p.idx]? = none := by
        rw [List.getElem?_eq_none_iff] at hi ⊢
        rw [rewordedRow_length h2]; exact hi
      rw [this]; exact .inr ⟨_, rfl, rfl⟩
    | some o =>
      obtain ⟨o', h3, h4⟩ := rewordedRow_get h2 p.idx o hi
      rw [h3]; exact .inl ⟨o, o', rfl, rfl, h4⟩

theorem bindOpt (h : ShownOtherwise a b) (p : Ptr) {β : Type} {f g : Opt → Out (β × Argus)}
    (hf : ∀ o o', Reworded o o' → OutShown (f o) (g o')) : OutShown (a.getOpt p >>= f) (b.getOpt p >>= g) := by
  rcases h.getOpt p with ⟨o, o', h1, h2, h3⟩ | ⟨u, h1, h2⟩
  · rw [h1, h2]; exact hf o o' h3
  · rw [h1, h2]; exact rfl

theorem bindTable (h : ShownOtherwise a b) (t : Option Nat) {β : Type} {f g : List Opt → Out (β × Argus)}
    (hf : ∀ os os', RewordedRow os os' → OutShown (f os) (g os')) :
    OutShown (a.table t >>= f) (b.table t >>= g) := by
  unfold Argus.table
  cases t with
  | none => exact rfl
  | some k =>
    simp only
    cases hk : a.tables[k]? with
    | none => rw [h.noRow hk]; exact rfl
    | some os =>
      obtain ⟨os', h1, h2⟩ := h.row hk
      rw [h1]; exact hf os os' h2

theorem activeOptions (h : ShownOtherwise a b) : b.activeOptions = a.activeOptions := by
  unfold Argus.activeOptions
  rw [h.stack, h.root]
  cases a.stack.getLast? with
  | none => rfl
  | some p =>
    simp only
    rcases h.getOpt p with ⟨o, o', h1, h2, h3⟩ | ⟨u, h1, h2⟩
    · rw [h1, h2, Out.ok_bind, Out.ok_bind, h3.subOptions]
    · rw [h1, h2]

theorem asks (h : ShownOtherwise a b) (args : List Str) : b.asks args = a.asks args := by
  unfold Argus.asks
  rw [h.root, ← meaning_keys bare_keys b.tables, ← meaning_keys bare_keys a.tables]
  congr 1
  apply List.ext_getElem?
  intro k
  simp only [List.getElem?_map]
  cases hk : a.tables[k]? with
  | none => rw [h.noRow hk]
  | some os =>
    obtain ⟨os', h1, h2⟩ := h.row hk
    rw [h1]
    simp only [Option.map_some, rewordedRow_bare h2]

end ShownOtherwise

/-! ### Carrying it out -/

section

variable {W : World} (hw : MindsNoTexts W)

theorem shown_runPreAll {arg : Option Str} : ∀ (vs : List Validator) {a b : Argus}, ShownOtherwise a b →
    OutShown (runPreAll W a arg vs) (runPreAll W b arg vs)
  | [], a, b, h => .ok _ h
  | v :: vs, a, b, h => by
    unfold runPreAll
    split
    · refine .bindSame _ (fun r => ?_)
      simp only
      split
      · exact .ok _ (h.emits _)
      · exact shown_runPreAll vs (h.emits _)
    · exact shown_runPreAll vs h

theorem runHandler_active {a b : Argus} (e : b.activeOptions = a.activeOptions) (hd : Handler) (o : Opt)
    (x : Option Str) : runHandler W b hd o x = runHandler W a hd o x := by
  cases hd <;> simp only [runHandler, e]

include hw in
theorem shown_execCallbacks {a b : Argus} (h : ShownOtherwise a b) (p : Ptr) (x : Option Str) :
    OutShown (execCallbacks W a p x) (execCallbacks W b p x) := by
  unfold execCallbacks
  refine h.bindOpt p (fun o o' hr => ?_)
  rw [hr.handler]
  cases o.handler with
  | none => exact .ok _ (h.report _)
  | some hd =>
    simp only [hr.validators]
    refine (shown_runPreAll _ h).bind (fun s a1 b1 h1 => ?_)
    simp only
    split
    · exact .ok _ h1
    · rw [runHandler_active h1.activeOptions]
      have key := runHandler_wear (W := W) a1 hd x hr.sortAlike
        (fun id => by rw [hr.wear_eq]; exact hw.handler id o o' x hr)
      rw [hr.wear_eq] at key
      rw [key]
      cases hrun : runHandler W a1 hd o x with
      | ub u => exact rfl
      | ok r =>
        have hm := runHandler_meta hrun
        have hr1 := hr.of_meta hm
        simp only [Out.ok_bind, HRes.wear]
        split
        · exact .ok _ ((h1.emits _).setOpt _ hr1)
        · have hf : (r.2.1.wear o').markSet.flags.has .exit = r.2.1.markSet.flags.has .exit :=
            hr1.markSet.flag _ (by decide)
          rw [hf]
          exact .ok _ ((h1.emits _).setOpt _ hr1.markSet)

include hw in
theorem shown_run : ∀ (acts : List Act) {a b : Argus}, ShownOtherwise a b → OutShown (run W a acts) (run W b acts)
  | [], a, b, h => .ok _ h
  | .give p x :: rest, a, b, h => by
    unfold run
    refine (shown_execCallbacks hw h p x).bind (fun s a1 b1 h1 => ?_)
    simp only
    split
    · exact .ok _ h1
    · exact shown_run rest h1
  | .enter p :: rest, a, b, h => by
    unfold run
    have key : OutShown (enterSub a p) (enterSub b p) := by
      unfold enterSub
      refine h.bindOpt p (fun o o' hr => ?_)
      have h1 := (h.setOpt p (hr.change (fun x => { x with isSet := true }) rfl rfl)).push p
      rw [h.stack]
      split
      · exact rfl
      · exact ⟨hr.subOptions, h1⟩
    exact key.bind (fun s a1 b1 h1 => shown_run rest h1)
  | .fail c :: rest, a, b, h => .ok _ (h.report _)
  | .noTable :: rest, a, b, _ => rfl

/-! ### The environment -/

include hw in
theorem shown_loadEnvStep {env : Env} {a b : Argus} (h : ShownOtherwise a b) (p : Ptr) :
    OutShown (loadEnvStep W env a p) (loadEnvStep W env b p) := by
  unfold loadEnvStep
  refine h.bindOpt p (fun o o' hr => ?_)
  rw [h.envPrefix, hr.type, hr.isSet, hr.flag .envOverride (by decide), hr.envVarName]
  split
  · exact .ok _ h
  split
  · exact .ok _ h
  cases envVarName a.envPrefix o with
  | none => exact .ok _ h
  | some n =>
    simp only
    cases env n with
    | none => exact .ok _ h
    | some v =>
      simp only
      refine (shown_execCallbacks hw h p (some v)).bind (fun s a1 b1 h1 => ?_)
      simp only
      split
      · split
        · refine h1.bindOpt p (fun o1 o1' hr1 => .ok _ (h1.setOpt p ?_))
          have hv : restoreValue o' o1' = restoreValue o o1 := by
            unfold restoreValue
            rw [hr.value, hr1.value, hr.valueCapacity, hr1.valueCapacity]
          rw [hv]
          exact hr1.change (fun x => { x with isSet := true, value := restoreValue o o1 }) rfl rfl
        · exact .ok _ h1
      · exact .ok _ h1

include hw in
theorem shown_loadEnvLoop {env : Env} (j : Nat) : ∀ (n i : Nat) {a b : Argus},
    ShownOtherwise a b → OutShown (loadEnvLoop W env j n i a) (loadEnvLoop W env j n i b)
  | 0, i, a, b, h => .ok _ h
  | n + 1, i, a, b, h => by
    unfold loadEnvLoop
    refine (shown_loadEnvStep hw h _).bind (fun s a1 b1 h1 => ?_)
    simp only
    split
    · exact .ok _ h1
    · exact shown_loadEnvLoop j n (i + 1) h1

include hw in
theorem shown_loadEnvTable {env : Env} (j : Nat) {a b : Argus} (h : ShownOtherwise a b) :
    OutShown (loadEnvTable W env a j) (loadEnvTable W env b j) := by
  unfold loadEnvTable
  refine h.bindTable (some j) (fun os os' hr => ?_)
  rw [rewordedRow_length hr]
  exact shown_loadEnvLoop hw j _ _ h

include hw in
theorem shown_loadEnvStack {env : Env} : ∀ (ps : List Ptr) {a b : Argus}, ShownOtherwise a b →
    OutShown (loadEnvStack W env a ps) (loadEnvStack W env b ps)
  | [], a, b, h => .ok _ h
  | p :: ps, a, b, h => by
    unfold loadEnvStack
    refine h.bindOpt p (fun o o' hr => ?_)
    rw [hr.subOptions]
    cases o.subOptions with
    | none => exact shown_loadEnvStack ps h
    | some k =>
      simp only
      refine (shown_loadEnvTable hw k h).bind (fun s a1 b1 h1 => ?_)
      simp only
      split
      · exact .ok _ h1
      · exact shown_loadEnvStack ps h1

include hw in
theorem shown_loadEnvVars {env : Env} {a b : Argus} (h : ShownOtherwise a b) :
    OutShown (loadEnvVars W env a) (loadEnvVars W env b) := by
  unfold loadEnvVars
  rw [h.root]
  refine (shown_loadEnvTable hw _ h).bind (fun s a1 b1 h1 => ?_)
  simp only
  split
  · exact .ok _ h1
  · rw [h1.stack]; exact shown_loadEnvStack hw _ h1

/-! ### Validation -/

theorem findName_reworded : ∀ {os os' : List Opt}, RewordedRow os os' → ∀ n : Str, findName os' n = findName os n := by
  intro os os' h n
  have := rewordedRow_bare h
  have key : ∀ l : List Opt, findName (l.map Opt.bare) n = findName l n := by
    intro l
    unfold findName
    rw [List.findIdx?_map]
    rfl
  rw [← key os', ← key os, this]

theorem named_reworded {os os' : List Opt} (h : RewordedRow os os') (n : Str) :
    ((findName os' n).bind (fun i => os'[i]?) = none ∧ (findName os n).bind (fun i => os[i]?) = none) ∨
    ∃ o o', (findName os n).bind (fun i => os[i]?) = some o ∧ (findName os' n).bind (fun i => os'[i]?) = some o' ∧
      Reworded o o' := by
  rw [findName_reworded h]
  cases findName os n with
  | none => exact .inl ⟨rfl, rfl⟩
  | some i =>
    simp only [Option.bind_some]
    cases hi : os[i]? with
    | none =>
      refine .inl ⟨?_, rfl⟩
      rw [List.getElem?_eq_none_iff] at hi ⊢
      rw [rewordedRow_length h]; exact hi
    | some o =>
      obtain ⟨o', h1, h2⟩ := rewordedRow_get h i o hi
      exact .inr ⟨o, o', rfl, h1, h2⟩

theorem shown_validateRequired {os os' : List Opt} (h : RewordedRow os os') : ∀ ns : List Str,
    validateRequired os' ns = validateRequired os ns
  | [] => rfl
  | n :: ns => by
    unfold validateRequired
    rcases named_reworded h n with ⟨h1, h2⟩ | ⟨o, o', h1, h2, h3⟩
    · rw [h1, h2]; exact shown_validateRequired h ns
    · rw [h1, h2]
      simp only [h3.isSet, shown_validateRequired h ns]

theorem shown_validateConflicts {os os' : List Opt} (h : RewordedRow os os') : ∀ ns : List Str,
    validateConflicts os' ns = validateConflicts os ns
  | [] => rfl
  | n :: ns => by
    unfold validateConflicts
    rcases named_reworded h n with ⟨h1, h2⟩ | ⟨o, o', h1, h2, h3⟩
    · rw [h1, h2]; exact shown_validateConflicts h ns
    · rw [h1, h2]
      simp only [h3.isSet, shown_validateConflicts h ns]

include hw in
theorem shown_runPost {o o' : Opt} (h : Reworded o o') (k : VKind) : runPost W k o' = runPost W k o := by
  unfold runPost
  cases k with
  | range mn mx => simp only [rangeValidator, Opt.asInt, h.value]
  | length mn mx => simp only [lengthValidator, Opt.asString, h.value]
  | count mn mx => simp only [countValidator, h.valueCount]
  | choiceStr cs => simp only [choicesString, Opt.asString, h.value]
  | choiceInt cs => simp only [choicesInt, Opt.asInt, h.value]
  | choiceFloat cs => simp only [choicesFloat, Opt.asFloat, h.value]
  | regex p q => rfl
  | custom id => simp only [hw.validator id o o' h]

include hw in
theorem shown_callValidators {o o' : Opt} (h : Reworded o o') : ∀ vs : List Validator,
    callValidators W o' vs = callValidators W o vs
  | [] => rfl
  | v :: vs => by
    unfold callValidators
    rw [shown_runPost hw h, shown_callValidators h vs]

include hw in
theorem shown_validateSet {os os' : List Opt} (h : RewordedRow os os') : ∀ (l l' : List Opt) (excl : Bool)
    (first : Option Str), RewordedRow l l' → validateSet W os' excl first l' = validateSet W os excl first l
  | [], [], _, _, _ => rfl
  | o :: l, o' :: l', excl, first, ⟨h1, h2⟩ => by
    have ih := fun e f => shown_validateSet h l l' e f h2
    unfold validateSet
    rw [h1.type, h1.flag .exclusive (by decide), h1.flag .required (by decide), h1.isSet, h1.name, h1.validators,
      h1.require, h1.conflict, shown_callValidators hw h1]
    simp only [ih, shown_validateRequired h, shown_validateConflicts h]
  | [], _ :: _, _, _, h => h.elim
  | _ :: _, [], _, _, h => h.elim

include hw in
theorem shown_validateTable {a b : Argus} (h : ShownOtherwise a b) (t : Option Nat) :
    OutShown (validateTable W a t) (validateTable W b t) := by
  unfold validateTable
  refine h.bindTable t (fun os os' hr => ?_)
  rw [shown_validateSet hw hr os os' _ _ hr]
  exact .bindSame _ (fun r => .ok _ (h.emits _))

include hw in
theorem shown_validateStack : ∀ (ps : List Ptr) {a b : Argus}, ShownOtherwise a b →
    OutShown (validateStack W a ps) (validateStack W b ps)
  | [], a, b, h => .ok _ h
  | p :: ps, a, b, h => by
    unfold validateStack
    refine h.bindOpt p (fun o o' hr => ?_)
    rw [hr.subOptions]
    refine (shown_validateTable hw h _).bind (fun s a1 b1 h1 => ?_)
    simp only
    split
    · exact .ok _ h1
    · exact shown_validateStack ps h1

include hw in
theorem shown_postValidation {a b : Argus} (h : ShownOtherwise a b) :
    OutShown (postValidation W a) (postValidation W b) := by
  unfold postValidation
  rw [h.root]
  refine (shown_validateTable hw h _).bind (fun s a1 b1 h1 => ?_)
  simp only
  split
  · exact .ok _ h1
  · rw [h1.stack]; exact shown_validateStack hw _ h1

/-! ### Release -/

theorem shown_freeOptionValue {o o' : Opt} (h : Reworded o o') :
    (∃ u, freeOptionValue o = .ub u ∧ freeOptionValue o' = .ub u) ∨
    ∃ x x', freeOptionValue o = .ok x ∧ freeOptionValue o' = .ok x' ∧ Reworded x x' := by
  have hc := h.change (fun x => { x with isAllocated := false, value := .null }) rfl rfl
  have ha := h.isAllocated
  have e : runFree o'.freeHandler o' = runFree o.freeHandler o := by
    rw [h.freeHandler]; unfold runFree; rw [h.value, h.valueCount]
  cases hal : o.isAllocated with
  | false =>
    exact .inr ⟨o, o', by simp only [freeOptionValue, hal, if_true], by simp only [freeOptionValue, ha, hal, if_true], h⟩
  | true =>
    rw [hal] at ha
    have hn : ¬ true = false := by decide
    cases hrf : runFree o.freeHandler o with
    | ub u =>
      refine .inl ⟨u, ?_, ?_⟩
      · simp only [freeOptionValue, hal, if_neg hn, hrf]; rfl
      · simp only [freeOptionValue, ha, if_neg hn, e, hrf]; rfl
    | ok w =>
      refine .inr ⟨_, _, ?_, ?_, hc⟩
      · simp only [freeOptionValue, hal, if_neg hn, hrf]; rfl
      · simp only [freeOptionValue, ha, if_neg hn, e, hrf]; rfl

theorem shown_freeOpts : ∀ {os os' : List Opt}, RewordedRow os os' →
    (∃ u, freeOpts os = .ub u ∧ freeOpts os' = .ub u) ∨
    ∃ x x', freeOpts os = .ok x ∧ freeOpts os' = .ok x' ∧ RewordedRow x x'
  | [], [], _ => .inr ⟨[], [], rfl, rfl, trivial⟩
  | o :: os, o' :: os', ⟨h1, h2⟩ => by
    unfold freeOpts
    rcases shown_freeOptionValue h1 with ⟨u, e1, e2⟩ | ⟨x, x', e1, e2, hx⟩
    · rw [e1, e2]; exact .inl ⟨u, rfl, rfl⟩
    · rw [e1, e2]
      simp only [Out.ok_bind]
      rcases shown_freeOpts h2 with ⟨u, e3, e4⟩ | ⟨y, y', e3, e4, hy⟩
      · rw [e3, e4]; exact .inl ⟨u, rfl, rfl⟩
      · rw [e3, e4]; exact .inr ⟨_, _, rfl, rfl, hx, hy⟩
  | [], _ :: _, h => h.elim
  | _ :: _, [], h => h.elim

theorem shown_freeTable {a b : Argus} (h : ShownOtherwise a b) (t : Option Nat) :
    OutShown (freeTableU a t) (freeTableU b t) := by
  unfold freeTableU freeTable
  cases t with
  | none => exact rfl
  | some j =>
    unfold Argus.table
    simp only
    cases hk : a.tables[j]? with
    | none => rw [h.noRow hk]; exact rfl
    | some os =>
      obtain ⟨os', h1, h2⟩ := h.row hk
      rw [h1]
      simp only [Out.ok_bind]
      rcases shown_freeOpts h2 with ⟨u, e3, e4⟩ | ⟨y, y', e3, e4, hy⟩
      · rw [e3, e4]; exact rfl
      · rw [e3, e4]; exact .ok _ (h.withTable j hy)

theorem shown_freeStack : ∀ (ps : List Ptr) {a b : Argus}, ShownOtherwise a b →
    OutShown (freeStackU a ps) (freeStackU b ps)
  | [], a, b, h => .ok _ h
  | p :: ps, a, b, h => by
    rw [freeStackU_cons, freeStackU_cons]
    refine h.bindOpt p (fun o o' hr => ?_)
    rw [hr.subOptions]
    exact (shown_freeTable h _).bind (fun s a1 b1 h1 => shown_freeStack ps h1)

theorem shown_argusFree {a b : Argus} (h : ShownOtherwise a b) (e : ParseEnd) :
    OutShown (do let a2 ← argusFree a; Out.ok (e, a2)) (do let b2 ← argusFree b; Out.ok (e, b2)) := by
  have key : OutShown (freeU a) (freeU b) := by
    rw [freeU_eq, freeU_eq, h.root]
    refine (shown_freeTable h _).bind (fun s a1 b1 h1 => ?_)
    simp only
    rw [h1.stack]
    exact shown_freeStack _ h1
  unfold freeU at key
  cases h1 : argusFree a with
  | ub u => cases h2 : argusFree b with
    | ub v => rw [h1, h2] at key; exact key
    | ok c => rw [h1, h2] at key; exact key.elim
  | ok c => cases h2 : argusFree b with
    | ub v => rw [h1, h2] at key; exact key.elim
    | ok d => rw [h1, h2] at key; exact ⟨rfl, key.2⟩

/-! ### The whole parse -/

include hw in
theorem shown_argusParse {env : Env} {a b : Argus} (h : ShownOtherwise a b) (args : List Str) :
    OutShown (argusParse W env a args) (argusParse W env b args) := by
  unfold argusParse
  rw [parseArgs_run, parseArgs_run, h.asks]
  refine (shown_run hw _ h).bind (fun s a1 b1 h1 => ?_)
  have h2 := h1.code s
  simp only
  split
  · exact shown_argusFree h2 _
  split
  · exact shown_argusFree ((h2.emit _).emit _) _
  · refine (shown_loadEnvVars hw h2).bind (fun s3 a3 b3 h3 => ?_)
    simp only
    split
    · exact shown_argusFree h3 _
    · refine (shown_postValidation hw h3).bind (fun s4 a4 b4 h4 => ?_)
      simp only
      split
      · exact shown_argusFree h4 _
      · exact .ok _ h4

end

/-! ### Reading the options -/

theorem shown_findNameIn {a b : Argus} (h : ShownOtherwise a b) (t : Option Nat) (n : Str) :
    b.findNameIn t n = a.findNameIn t n := by
  unfold Argus.findNameIn Argus.table
  cases t with
  | none => rfl
  | some k =>
    simp only
    cases hk : a.tables[k]? with
    | none => rw [h.noRow hk]
    | some os =>
      obtain ⟨os', h1, h2⟩ := h.row hk
      rw [h1]
      simp only [Out.ok_bind, findName_reworded h2]

theorem shown_findRelative {a b : Argus} (h : ShownOtherwise a b) (n : Str) : ∀ ps : List Ptr,
    b.findRelative n ps = a.findRelative n ps
  | [] => by
    unfold Argus.findRelative
    rw [h.root]; exact shown_findNameIn h _ n
  | p :: ps => by
    unfold Argus.findRelative
    rcases h.getOpt p with ⟨o, o', h1, h2, h3⟩ | ⟨u, h1, h2⟩
    · rw [h1, h2]
      simp only [Out.ok_bind, h3.subOptions, shown_findNameIn h, shown_findRelative h n ps]
    · rw [h1, h2]; rfl

theorem shown_findComponents {a b : Argus} (h : ShownOtherwise a b) : ∀ (n : Nat) (c : Str) (t : Option Nat)
    (ps : List Ptr), b.findComponents n c t ps = a.findComponents n c t ps
  | 0, c, t, ps => shown_findNameIn h t c
  | n + 1, c, t, ps => by
    unfold Argus.findComponents
    cases strchrSplit 46 c with
    | none => exact shown_findNameIn h t c
    | some r =>
      obtain ⟨comp, rest⟩ := r
      cases ps with
      | nil => rfl
      | cons p ps =>
        simp only
        rcases h.getOpt p with ⟨o, o', h1, h2, h3⟩ | ⟨u, h1, h2⟩
        · rw [h1, h2]
          simp only [Out.ok_bind, h3.name, h3.subOptions, shown_findComponents h n]
        · rw [h1, h2]; rfl

theorem shown_findPath {a b : Argus} (h : ShownOtherwise a b) (path : Str) : b.findPath path = a.findPath path := by
  unfold Argus.findPath
  simp only [h.root, h.stack, shown_findNameIn h, shown_findRelative h, shown_findComponents h]

theorem shown_lookup {a b : Argus} (h : ShownOtherwise a b) (path : Str) :
    (∃ u, a.lookup path = .ub u ∧ b.lookup path = .ub u) ∨ (a.lookup path = .ok none ∧ b.lookup path = .ok none) ∨
    ∃ o o', a.lookup path = .ok (some o) ∧ b.lookup path = .ok (some o') ∧ Reworded o o' := by
  unfold Argus.lookup
  rw [shown_findPath h]
  cases a.findPath path with
  | ub u => exact .inl ⟨u, rfl, rfl⟩
  | ok q =>
    cases q with
    | none => exact .inr (.inl ⟨rfl, rfl⟩)
    | some p =>
      simp only [Out.ok_bind]
      rcases h.getOpt p with ⟨o, o', h1, h2, h3⟩ | ⟨u, h1, h2⟩
      · rw [h1, h2]; exact .inr (.inr ⟨o, o', rfl, rfl, h3⟩)
      · rw [h1, h2]; exact .inl ⟨u, rfl, rfl⟩

end Argus
