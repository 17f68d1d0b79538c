import Verif.Spec.Rename
import Verif.Lemmas.Reword
import Verif.Lemmas.Dub
import Verif.Lemmas.Env

/-!
# Lemmas on programs that differ in names only
-/

set_option autoImplicit false

namespace Argus

variable {N : Naming}

namespace Renamed

variable {o o' : Opt}

theorem dub_eq (h : Renamed N o o') : o.dub o' = o' := by
  have hs := h.same
  cases o; cases o'
  simp only [Opt.mk.injEq] at hs
  simp only [Opt.dub, Opt.mk.injEq]
  simp_all

theorem of_meta (h : Renamed N o o') {o1 : Opt} (hm : o1.meta = o.meta) : Renamed N o1 (o1.dub o') := by
  have hn : o1.name = o.name := by have := congrArg Opt.name hm; exact this
  have hr : o1.require = o.require := by have := congrArg Opt.require hm; exact this
  have hc : o1.conflict = o.conflict := by have := congrArg Opt.conflict hm; exact this
  have hf : o1.flags = o.flags := by have := congrArg Opt.flags hm; exact this
  have hv : o'.validators = o1.validators := by
    have h1 := congrArg Opt.validators h.same
    have h2 : o1.validators = o.validators := by have := congrArg Opt.validators hm; exact this
    exact Eq.trans h1 h2.symm
  refine ⟨?_, ?_, ?_, ?_, ?_, ?_⟩
  · cases o1; simp only [Opt.dub]; simp only at hv; rw [hv]
  · intro f hd; rw [hf]; exact h.flags f hd
  · rw [hn]; exact h.name
  · rw [hr]; exact h.require
  · rw [hc]; exact h.conflict
  · rw [envVarName_meta hm N.envPrefix]; exact h.says

theorem flag (h : Renamed N o o') (f : Flag) (hf : f ≠ .hidden ∧ f ≠ .advanced ∧ f ≠ .deprecated ∧ f ≠ .experimental) :
    o'.flags.has f = o.flags.has f :=
  h.flags f (by rintro (h | h | h | h); exact hf.1 h; exact hf.2.1 h; exact hf.2.2.1 h; exact hf.2.2.2 h)

theorem sortAlike (h : Renamed N o o') : SortAlike o'.flags o.flags :=
  ⟨h.flag _ (by decide), h.flag _ (by decide), h.flag _ (by decide), h.flag _ (by decide), h.flag _ (by decide)⟩

theorem field {α : Type} (h : Renamed N o o') (g : Opt → α)
    (hg : ∀ x : Opt, g (x.dub o') = g x) : g o' = g o := by
  have := hg o
  rw [h.dub_eq] at this; exact this

theorem type (h : Renamed N o o') : o'.type = o.type := h.field (·.type) (fun _ => rfl)
theorem isSet (h : Renamed N o o') : o'.isSet = o.isSet := h.field (·.isSet) (fun _ => rfl)
theorem value (h : Renamed N o o') : o'.value = o.value := h.field (·.value) (fun _ => rfl)
theorem valueCount (h : Renamed N o o') : o'.valueCount = o.valueCount := h.field (·.valueCount) (fun _ => rfl)
theorem valueCapacity (h : Renamed N o o') : o'.valueCapacity = o.valueCapacity :=
  h.field (·.valueCapacity) (fun _ => rfl)
theorem valueType (h : Renamed N o o') : o'.valueType = o.valueType := h.field (·.valueType) (fun _ => rfl)
theorem isAllocated (h : Renamed N o o') : o'.isAllocated = o.isAllocated := h.field (·.isAllocated) (fun _ => rfl)
theorem handler (h : Renamed N o o') : o'.handler = o.handler := h.field (·.handler) (fun _ => rfl)
theorem freeHandler (h : Renamed N o o') : o'.freeHandler = o.freeHandler := h.field (·.freeHandler) (fun _ => rfl)
theorem subOptions (h : Renamed N o o') : o'.subOptions = o.subOptions := h.field (·.subOptions) (fun _ => rfl)
theorem validators (h : Renamed N o o') : o'.validators = o.validators := by
  have := congrArg Opt.validators h.same; exact this
/-- Changes of the fields that are not for display. -/
theorem change (h : Renamed N o o') (g : Opt → Opt) (hm : (g o).meta = o.meta) (hg : g (o.dub o') = (g o).dub o') :
    Renamed N (g o) (g o') := by
  have := h.of_meta hm
  rw [h.dub_eq] at hg
  rw [hg]; exact this

theorem markSet (h : Renamed N o o') : Renamed N o.markSet o'.markSet := h.change Opt.markSet rfl rfl

end Renamed

/-- Entry by entry. -/
def RenamedRow (N : Naming) : List Opt → List Opt → Prop
  | [], [] => True
  | o :: os, o' :: os' => Renamed N o o' ∧ RenamedRow N os os'
  | _, _ => False

theorem renamedRow_of : ∀ {os os' : List Opt}, os'.length = os.length →
    (∀ (i : Nat) (o : Opt), os[i]? = some o → ∃ o', os'[i]? = some o' ∧ Renamed N o o') → RenamedRow N os os'
  | [], [], _, _ => trivial
  | o :: os, o' :: os', hl, h => by
    refine ⟨?_, renamedRow_of (by simpa using hl) (fun i x hx => ?_)⟩
    · obtain ⟨x, hx, hr⟩ := h 0 o rfl
      simp only [List.getElem?_cons_zero, Option.some.injEq] at hx
      subst hx; exact hr
    · have := h (i + 1) x (by simpa using hx)
      simpa using this
  | [], _ :: _, hl, _ => by simp at hl
  | _ :: _, [], hl, _ => by simp at hl

theorem renamedRow_get : ∀ {os os' : List Opt}, RenamedRow N os os' → ∀ (i : Nat) (o : Opt), os[i]? = some o →
    ∃ o', os'[i]? = some o' ∧ Renamed N o o'
  | [], [], _, i, o, h => by simp at h
  | o :: os, o' :: os', ⟨h1, h2⟩, i, x, h => by
    cases i with
    | zero =>
      simp only [List.getElem?_cons_zero, Option.some.injEq] at h
      subst h; exact ⟨o', rfl, h1⟩
    | succ i => exact renamedRow_get h2 i x (by simpa using h)
  | [], _ :: _, h, _, _, _ => h.elim
  | _ :: _, [], h, _, _, _ => h.elim

theorem renamedRow_length : ∀ {os os' : List Opt}, RenamedRow N os os' → os'.length = os.length
  | [], [], _ => rfl
  | _ :: _, _ :: _, ⟨_, h2⟩ => by simp [renamedRow_length h2]
  | [], _ :: _, h => h.elim
  | _ :: _, [], h => h.elim

/-- Two outcomes agree apart from names and texts. -/
def OutNamed (N : Naming) {α : Type} : Out (α × Argus) → Out (α × Argus) → Prop
  | .ok r, .ok s => s.1 = r.1 ∧ NamedOtherwise N r.2 s.2
  | .ub u, .ub v => u = v
  | _, _ => False

theorem OutNamed.ok {α : Type} (s : α) {a b : Argus} (h : NamedOtherwise N a b) :
    OutNamed N (.ok (s, a)) (.ok (s, b)) := ⟨rfl, h⟩

theorem OutNamed.bind {α β : Type} {x y : Out (α × Argus)} {f g : α × Argus → Out (β × Argus)} (h : OutNamed N x y)
    (hf : ∀ s a b, NamedOtherwise N a b → OutNamed N (f (s, a)) (g (s, b))) :
    OutNamed N (x >>= f) (y >>= g) := by
  cases x with
  | ub u => cases y with
    | ub v => exact h
    | ok r => exact h.elim
  | ok r => cases y with
    | ub v => exact h.elim
    | ok s =>
      obtain ⟨c, a⟩ := r
      obtain ⟨d, b⟩ := s
      obtain ⟨h1, h2⟩ := h
      simp only at h1; subst h1
      exact hf _ a b h2

theorem OutNamed.bindSame {α β : Type} (x : Out α) {f g : α → Out (β × Argus)}
    (hf : ∀ r, OutNamed N (f r) (g r)) : OutNamed N (x >>= f) (x >>= g) := by
  cases x with
  | ub u => exact rfl
  | ok r => exact hf r

namespace NamedOtherwise

variable {a b : Argus}

theorem root (h : NamedOtherwise N a b) : b.root = a.root := by
  have := congrArg Argus.root h.rest; exact this
theorem stack (h : NamedOtherwise N a b) : b.stack = a.stack := by
  have := congrArg Argus.stack h.rest; exact this
theorem out (h : NamedOtherwise N a b) : b.out = a.out := by
  have := congrArg Argus.out h.rest; exact this
theorem errorCode (h : NamedOtherwise N a b) : b.errorCode = a.errorCode := by
  have := congrArg Argus.errorCode h.rest; exact this
theorem row (h : NamedOtherwise N a b) {k : Nat} {os : List Opt} (hk : a.tables[k]? = some os) :
    ∃ os', b.tables[k]? = some os' ∧ RenamedRow N os os' := by
  obtain ⟨os', h1, h2⟩ := lengths_getElem h.sizes hk
  refine ⟨os', h1, renamedRow_of h2 (fun i o ho => ?_)⟩
  obtain ⟨o', h3, h4⟩ := h.entries ⟨k, i⟩ o (by simp [placeAt, hk, ho])
  simp only [placeAt, h1, Option.bind_some] at h3
  exact ⟨o', h3, h4⟩

theorem noRow (h : NamedOtherwise N a b) {k : Nat} (hk : a.tables[k]? = none) : b.tables[k]? = none := by
  cases h1 : b.tables[k]? with
  | none => rfl
  | some os =>
    obtain ⟨os', h2, _⟩ := lengths_getElem h.sizes.symm h1
    rw [hk] at h2; cases h2

theorem ofRows {T T' : List (List Opt)} (hl : T'.length = T.length)
    (h : ∀ (k : Nat) os, T[k]? = some os → ∃ os', T'[k]? = some os' ∧ RenamedRow N os os') :
    T'.map List.length = T.map List.length ∧
      ∀ p o, placeAt T p = some o → ∃ o', placeAt T' p = some o' ∧ Renamed N o o' := by
  refine ⟨?_, fun p o ho => ?_⟩
  · apply List.ext_getElem?
    intro k
    simp only [List.getElem?_map]
    cases hk : T[k]? with
    | none =>
      have : T'[k]? = none := by rw [List.getElem?_eq_none_iff] at hk ⊢; omega
      rw [this]
    | some os =>
      obtain ⟨os', h1, h2⟩ := h k os hk
      rw [h1]
      simp [renamedRow_length h2]
  · obtain ⟨os, h1, h2⟩ := Option.bind_eq_some_iff.1 ho
    obtain ⟨os', h3, h4⟩ := h p.tbl os h1
    obtain ⟨o', h5, h6⟩ := renamedRow_get h4 p.idx o h2
    exact ⟨o', by simp [placeAt, h3, h5], h6⟩

theorem withTable (h : NamedOtherwise N a b) (k : Nat) {os os' : List Opt} (hr : RenamedRow N os os') :
    NamedOtherwise N { a with tables := a.tables.set k os } { b with tables := b.tables.set k os' } := by
  have hl : b.tables.length = a.tables.length := by
    have := congrArg List.length h.sizes; simpa using this
  obtain ⟨h1, h2⟩ := ofRows (T := a.tables.set k os) (T' := b.tables.set k os') (by simp [hl]) (by
    intro j row hj
    rw [List.getElem?_set] at hj ⊢
    by_cases e : k = j
    · subst e
      rw [if_pos rfl] at hj ⊢
      rw [hl]
      split at hj
      · rename_i hlt
        rw [if_pos hlt]
        cases hj; exact ⟨os', rfl, hr⟩
      · cases hj
    · rw [if_neg e] at hj ⊢
      exact h.row hj)
  exact ⟨h1, h2, congrArg (fun x : Argus => { x with tables := a.tables.set k os }) h.rest, h.envPrefix, h.envPrefix'⟩

theorem setOpt (h : NamedOtherwise N a b) (p : Ptr) {o o' : Opt} (hr : Renamed N o o') :
    NamedOtherwise N (a.setOpt p o) (b.setOpt p o') := by
  refine ⟨?_, ?_, congrArg (fun x : Argus => x.setOpt p o) h.rest, h.envPrefix, h.envPrefix'⟩
  · show (putAt b.tables p o').map List.length = (putAt a.tables p o).map List.length
    rw [putAt_sizes, putAt_sizes, h.sizes]
  · intro q x hx
    change placeAt (putAt a.tables p o) q = some x at hx
    show ∃ x', placeAt (putAt b.tables p o') q = some x' ∧ _
    by_cases e : q = p
    · subst e
      cases ha : placeAt a.tables q with
      | none =>
        -- writing to a place that does not exist does nothing
        have : placeAt (putAt a.tables q o) q = none := by
          unfold placeAt putAt at *
          rw [List.getElem?_modify]
          cases hk : a.tables[q.tbl]? with
          | none => rfl
          | some os =>
            rw [hk] at ha
            simp only [Option.bind_some] at ha
            simp only [if_true, Option.map_eq_map, Option.map_some, Option.bind_some]
            rw [List.getElem?_eq_none_iff] at ha ⊢
            simpa using ha
        rw [this] at hx; cases hx
      | some y =>
        obtain ⟨y', hy', _⟩ := h.entries q y ha
        rw [placeAt_put_self ha] at hx
        cases hx
        exact ⟨o', placeAt_put_self hy', hr⟩
    · rw [placeAt_put_ne e] at hx
      rw [placeAt_put_ne e]
      exact h.entries q x hx

theorem emit (h : NamedOtherwise N a b) (e : Event) : NamedOtherwise N (a.emit e) (b.emit e) :=
  ⟨h.sizes, h.entries, congrArg (fun x : Argus => x.emit e) h.rest, h.envPrefix, h.envPrefix'⟩

theorem emits (h : NamedOtherwise N a b) (es : List Event) : NamedOtherwise N (a.emits es) (b.emits es) := by
  induction es generalizing a b with
  | nil => exact h
  | cons e es ih => exact ih (h.emit e)

theorem report (h : NamedOtherwise N a b) (c : Int) : NamedOtherwise N (a.report c) (b.report c) := h.emit _

theorem push (h : NamedOtherwise N a b) (p : Ptr) :
    NamedOtherwise N { a with stack := a.stack ++ [p] } { b with stack := b.stack ++ [p] } :=
  ⟨h.sizes, h.entries, congrArg (fun x : Argus => { x with stack := x.stack ++ [p] }) h.rest, h.envPrefix, h.envPrefix'⟩

theorem code (h : NamedOtherwise N a b) (c : Int) : NamedOtherwise N { a with errorCode := c } { b with errorCode := c } :=
  ⟨h.sizes, h.entries, congrArg (fun x : Argus => { x with errorCode := c }) h.rest, h.envPrefix, h.envPrefix'⟩

/-- The entry at a place, in both programs. -/
theorem getOpt (h : NamedOtherwise N a b) (p : Ptr) :
    (∃ o o', a.getOpt p = .ok o ∧ b.getOpt p = .ok o' ∧ Renamed N o o') ∨
      ∃ u, a.getOpt p = .ub u ∧ b.getOpt p = .ub u := by
  unfold Argus.getOpt
  cases hk : a.tables[p.tbl]? with
  | none => rw [h.noRow hk]; exact .inr ⟨_, rfl, rfl⟩
  | some os =>
    obtain ⟨os', h1, h2⟩ := h.row hk
    rw [h1]
    simp only
    cases hi : os[p.idx]? with
    | none =>
      have : os'[p.idx]? = none := by
        rw [List.getElem?_eq_none_iff] at hi ⊢
        rw [renamedRow_length h2]; exact hi
      rw [this]; exact .inr ⟨_, rfl, rfl⟩
    | some o =>
      obtain ⟨o', h3, h4⟩ := renamedRow_get h2 p.idx o hi
      rw [h3]; exact .inl ⟨o, o', rfl, rfl, h4⟩

theorem bindOpt (h : NamedOtherwise N a b) (p : Ptr) {β : Type} {f g : Opt → Out (β × Argus)}
    (hf : ∀ o o', Renamed N o o' → OutNamed N (f o) (g o')) : OutNamed N (a.getOpt p >>= f) (b.getOpt p >>= g) := by
  rcases h.getOpt p with ⟨o, o', h1, h2, h3⟩ | ⟨u, h1, h2⟩
  · rw [h1, h2]; exact hf o o' h3
  · rw [h1, h2]; exact rfl

theorem bindTable (h : NamedOtherwise N a b) (t : Option Nat) {β : Type} {f g : List Opt → Out (β × Argus)}
    (hf : ∀ os os', RenamedRow N os os' → OutNamed N (f os) (g os')) :
    OutNamed N (a.table t >>= f) (b.table t >>= g) := by
  unfold Argus.table
  cases t with
  | none => exact rfl
  | some k =>
    simp only
    cases hk : a.tables[k]? with
    | none => rw [h.noRow hk]; exact rfl
    | some os =>
      obtain ⟨os', h1, h2⟩ := h.row hk
      rw [h1]; exact hf os os' h2

theorem activeOptions (h : NamedOtherwise N a b) : b.activeOptions = a.activeOptions := by
  unfold Argus.activeOptions
  rw [h.stack, h.root]
  cases a.stack.getLast? with
  | none => rfl
  | some p =>
    simp only
    rcases h.getOpt p with ⟨o, o', h1, h2, h3⟩ | ⟨u, h1, h2⟩
    · rw [h1, h2, Out.ok_bind, Out.ok_bind, h3.subOptions]
    · rw [h1, h2]

end NamedOtherwise

/-! ### Carrying it out -/

section

variable {W : World} (hw : MindsNoNames N W)

theorem named_runPreAll {arg : Option Str} : ∀ (vs : List Validator) {a b : Argus}, NamedOtherwise N a b →
    OutNamed N (runPreAll W a arg vs) (runPreAll W b arg vs)
  | [], a, b, h => .ok _ h
  | v :: vs, a, b, h => by
    unfold runPreAll
    split
    · refine .bindSame _ (fun r => ?_)
      simp only
      split
      · exact .ok _ (h.emits _)
      · exact named_runPreAll vs (h.emits _)
    · exact named_runPreAll vs h

include hw in
theorem named_execCallbacks {a b : Argus} (h : NamedOtherwise N a b) (p : Ptr) (x : Option Str) :
    OutNamed N (execCallbacks W a p x) (execCallbacks W b p x) := by
  unfold execCallbacks
  refine h.bindOpt p (fun o o' hr => ?_)
  rw [hr.handler]
  cases o.handler with
  | none => exact .ok _ (h.report _)
  | some hd =>
    simp only [hr.validators]
    refine (named_runPreAll _ h).bind (fun s a1 b1 h1 => ?_)
    simp only
    split
    · exact .ok _ h1
    · rw [runHandler_active h1.activeOptions]
      have key := runHandler_dub (W := W) a1 hd x hr.sortAlike
        (fun id => by rw [hr.dub_eq]; exact hw.handler id o o' x hr)
      rw [hr.dub_eq] at key
      rw [key]
      cases hrun : runHandler W a1 hd o x with
      | ub u => exact rfl
      | ok r =>
        have hm := runHandler_meta hrun
        have hr1 := hr.of_meta hm
        simp only [Out.ok_bind, HRes.dub]
        split
        · exact .ok _ ((h1.emits _).setOpt _ hr1)
        · have hf : (r.2.1.dub o').markSet.flags.has .exit = r.2.1.markSet.flags.has .exit :=
            hr1.markSet.flag _ (by decide)
          rw [hf]
          exact .ok _ ((h1.emits _).setOpt _ hr1.markSet)

include hw in
theorem named_run : ∀ (acts : List Act) {a b : Argus}, NamedOtherwise N a b → OutNamed N (run W a acts) (run W b acts)
  | [], a, b, h => .ok _ h
  | .give p x :: rest, a, b, h => by
    unfold run
    refine (named_execCallbacks hw h p x).bind (fun s a1 b1 h1 => ?_)
    simp only
    split
    · exact .ok _ h1
    · exact named_run rest h1
  | .enter p :: rest, a, b, h => by
    unfold run
    have key : OutNamed N (enterSub a p) (enterSub b p) := by
      unfold enterSub
      refine h.bindOpt p (fun o o' hr => ?_)
      have h1 := (h.setOpt p (hr.change (fun x => { x with isSet := true }) rfl rfl)).push p
      rw [h.stack]
      split
      · exact rfl
      · exact ⟨hr.subOptions, h1⟩
    exact key.bind (fun s a1 b1 h1 => named_run rest h1)
  | .fail c :: rest, a, b, h => .ok _ (h.report _)
  | .noTable :: rest, a, b, _ => rfl

/-! ### The environment -/

include hw in
theorem named_loadEnvStep {a b : Argus} (h : NamedOtherwise N a b) (p : Ptr) :
    OutNamed N (loadEnvStep W N.env a p) (loadEnvStep W N.env' b p) := by
  unfold loadEnvStep
  refine h.bindOpt p (fun o o' hr => ?_)
  rw [h.envPrefix, h.envPrefix', hr.type, hr.isSet, hr.flag .envOverride (by decide)]
  split
  · exact .ok _ h
  split
  · exact .ok _ h
  have hs := hr.says
  cases hn : (envVarName N.envPrefix o).bind N.env with
  | none =>
    rw [hn] at hs
    have q : ∀ (ep : Option Str) (e : Env) (x : Opt), (envVarName ep x).bind e = none →
        envVarName ep x = none ∨ ∃ n, envVarName ep x = some n ∧ e n = none := by
      intro ep e x he
      cases h1 : envVarName ep x with
      | none => exact .inl rfl
      | some n => rw [h1, Option.bind_some] at he; exact .inr ⟨n, rfl, he⟩
    rcases q _ _ _ hn with h1 | ⟨n, h1, h2⟩ <;> rcases q _ _ _ hs with h3 | ⟨n', h3, h4⟩
    · rw [h1, h3]; exact .ok _ h
    · rw [h1, h3]; simp only [h4]; exact .ok _ h
    · rw [h1, h3]; simp only [h2]; exact .ok _ h
    · rw [h1, h3]; simp only [h2, h4]; exact .ok _ h
  | some v =>
    rw [hn] at hs
    obtain ⟨n, h1, h2⟩ := Option.bind_eq_some_iff.1 hn
    obtain ⟨n', h1', h2'⟩ := Option.bind_eq_some_iff.1 hs
    rw [h1, h1']
    simp only [h2, h2']
    refine (named_execCallbacks hw h p (some v)).bind (fun s a1 b1 h1 => ?_)
    simp only
    split
    · split
      · refine h1.bindOpt p (fun o1 o1' hr1 => .ok _ (h1.setOpt p ?_))
        have hv : restoreValue o' o1' = restoreValue o o1 := by
          unfold restoreValue
          rw [hr.value, hr1.value, hr.valueCapacity, hr1.valueCapacity]
        rw [hv]
        exact hr1.change (fun x => { x with isSet := true, value := restoreValue o o1 }) rfl rfl
      · exact .ok _ h1
    · exact .ok _ h1

include hw in
theorem named_loadEnvLoop (j : Nat) : ∀ (n i : Nat) {a b : Argus},
    NamedOtherwise N a b → OutNamed N (loadEnvLoop W N.env j n i a) (loadEnvLoop W N.env' j n i b)
  | 0, i, a, b, h => .ok _ h
  | n + 1, i, a, b, h => by
    unfold loadEnvLoop
    refine (named_loadEnvStep hw h _).bind (fun s a1 b1 h1 => ?_)
    simp only
    split
    · exact .ok _ h1
    · exact named_loadEnvLoop j n (i + 1) h1

include hw in
theorem named_loadEnvTable (j : Nat) {a b : Argus} (h : NamedOtherwise N a b) :
    OutNamed N (loadEnvTable W N.env a j) (loadEnvTable W N.env' b j) := by
  unfold loadEnvTable
  refine h.bindTable (some j) (fun os os' hr => ?_)
  rw [renamedRow_length hr]
  exact named_loadEnvLoop hw j _ _ h

include hw in
theorem named_loadEnvStack : ∀ (ps : List Ptr) {a b : Argus}, NamedOtherwise N a b →
    OutNamed N (loadEnvStack W N.env a ps) (loadEnvStack W N.env' b ps)
  | [], a, b, h => .ok _ h
  | p :: ps, a, b, h => by
    unfold loadEnvStack
    refine h.bindOpt p (fun o o' hr => ?_)
    rw [hr.subOptions]
    cases o.subOptions with
    | none => exact named_loadEnvStack ps h
    | some k =>
      simp only
      refine (named_loadEnvTable hw k h).bind (fun s a1 b1 h1 => ?_)
      simp only
      split
      · exact .ok _ h1
      · exact named_loadEnvStack ps h1

include hw in
theorem named_loadEnvVars {a b : Argus} (h : NamedOtherwise N a b) :
    OutNamed N (loadEnvVars W N.env a) (loadEnvVars W N.env' b) := by
  unfold loadEnvVars
  rw [h.root]
  refine (named_loadEnvTable hw _ h).bind (fun s a1 b1 h1 => ?_)
  simp only
  split
  · exact .ok _ h1
  · rw [h1.stack]; exact named_loadEnvStack hw _ h1

/-! ### Validation -/

theorem findName_renamed (hd : N.Distinct) : ∀ {os os' : List Opt}, RenamedRow N os os' → ∀ n : Str,
    findName os' (N.name n) = findName os n
  | [], [], _, _ => rfl
  | o :: os, o' :: os', ⟨h1, h2⟩, n => by
    have ih := findName_renamed hd h2 n
    unfold findName at ih ⊢
    rw [List.findIdx?_cons, List.findIdx?_cons, ih, h1.name]
    have : (o.name.map N.name == some (N.name n)) = (o.name == some n) := by
      cases o.name with
      | none => rfl
      | some x =>
        by_cases e : x = n
        · subst e; simp
        · have e' : N.name x ≠ N.name n := fun h => e (hd x n h)
          rw [Option.map_some]
          show (N.name x == N.name n) = (x == n)
          rw [beq_eq_false_iff_ne.2 e, beq_eq_false_iff_ne.2 e']
    rw [this]
  | [], _ :: _, h, _ => h.elim
  | _ :: _, [], h, _ => h.elim

theorem named_renamed (hd : N.Distinct) {os os' : List Opt} (h : RenamedRow N os os') (n : Str) :
    ((findName os' (N.name n)).bind (fun i => os'[i]?) = none ∧ (findName os n).bind (fun i => os[i]?) = none) ∨
    ∃ o o', (findName os n).bind (fun i => os[i]?) = some o ∧ (findName os' (N.name n)).bind (fun i => os'[i]?) = some o' ∧
      Renamed N o o' := by
  rw [findName_renamed hd h]
  cases findName os n with
  | none => exact .inl ⟨rfl, rfl⟩
  | some i =>
    simp only [Option.bind_some]
    cases hi : os[i]? with
    | none =>
      refine .inl ⟨?_, rfl⟩
      rw [List.getElem?_eq_none_iff] at hi ⊢
      rw [renamedRow_length h]; exact hi
    | some o =>
      obtain ⟨o', h1, h2⟩ := renamedRow_get h i o hi
      exact .inr ⟨o, o', rfl, h1, h2⟩

theorem named_validateRequired (hd : N.Distinct) {os os' : List Opt} (h : RenamedRow N os os') : ∀ ns : List Str,
    validateRequired os' (ns.map N.name) = validateRequired os ns
  | [] => rfl
  | n :: ns => by
    rw [List.map_cons]
    unfold validateRequired
    rcases named_renamed hd h n with ⟨h1, h2⟩ | ⟨o, o', h1, h2, h3⟩
    · rw [h1, h2]; exact named_validateRequired hd h ns
    · rw [h1, h2]
      simp only [h3.isSet, named_validateRequired hd h ns]

theorem named_validateConflicts (hd : N.Distinct) {os os' : List Opt} (h : RenamedRow N os os') : ∀ ns : List Str,
    validateConflicts os' (ns.map N.name) = validateConflicts os ns
  | [] => rfl
  | n :: ns => by
    rw [List.map_cons]
    unfold validateConflicts
    rcases named_renamed hd h n with ⟨h1, h2⟩ | ⟨o, o', h1, h2, h3⟩
    · rw [h1, h2]; exact named_validateConflicts hd h ns
    · rw [h1, h2]
      simp only [h3.isSet, named_validateConflicts hd h ns]

include hw in
theorem named_runPost {o o' : Opt} (h : Renamed N o o') (k : VKind) : runPost W k o' = runPost W k o := by
  unfold runPost
  cases k with
  | range mn mx => simp only [rangeValidator, Opt.asInt, h.value]
  | length mn mx => simp only [lengthValidator, Opt.asString, h.value]
  | count mn mx => simp only [countValidator, h.valueCount]
  | choiceStr cs => simp only [choicesString, Opt.asString, h.value]
  | choiceInt cs => simp only [choicesInt, Opt.asInt, h.value]
  | choiceFloat cs => simp only [choicesFloat, Opt.asFloat, h.value]
  | regex p q => rfl
  | custom id => simp only [hw.validator id o o' h]

include hw in
theorem named_callValidators {o o' : Opt} (h : Renamed N o o') : ∀ vs : List Validator,
    callValidators W o' vs = callValidators W o vs
  | [] => rfl
  | v :: vs => by
    unfold callValidators
    rw [named_runPost hw h, named_callValidators h vs]

include hw in
theorem named_validateSet (hd : N.Distinct) {os os' : List Opt} (h : RenamedRow N os os') : ∀ (l l' : List Opt) (excl : Bool)
    (first first' : Option Str), RenamedRow N l l' → first'.isSome = first.isSome →
    validateSet W os' excl first' l' = validateSet W os excl first l
  | [], [], _, _, _, _, _ => rfl
  | o :: l, o' :: l', excl, first, first', ⟨h1, h2⟩, hf => by
    have ih := fun e f f' => named_validateSet hd h l l' e f f' h2
    have hq : validateRequired os' (o'.require.getD []) = validateRequired os (o.require.getD []) := by
      rw [h1.require]
      cases o.require with
      | none => rfl
      | some ns => exact named_validateRequired hd h ns
    have hc : validateConflicts os' (o'.conflict.getD []) = validateConflicts os (o.conflict.getD []) := by
      rw [h1.conflict]
      cases o.conflict with
      | none => rfl
      | some ns => exact named_validateConflicts hd h ns
    unfold validateSet
    rw [h1.type, h1.flag .exclusive (by decide), h1.flag .required (by decide), h1.isSet, h1.validators,
      named_callValidators hw h1, hq, hc, hf, ih _ none none rfl, ih _ first first' hf]
    have hn : (if excl = true then o'.name else first').isSome = (if excl = true then o.name else first).isSome := by
      split
      · rw [h1.name, Option.isSome_map]
      · exact hf
    rw [ih _ _ _ hn]
  | [], _ :: _, _, _, _, h, _ => h.elim
  | _ :: _, [], _, _, _, h, _ => h.elim

include hw in
theorem named_validateTable (hd : N.Distinct) {a b : Argus} (h : NamedOtherwise N a b) (t : Option Nat) :
    OutNamed N (validateTable W a t) (validateTable W b t) := by
  unfold validateTable
  refine h.bindTable t (fun os os' hr => ?_)
  rw [named_validateSet hw hd hr os os' _ none none hr rfl]
  exact .bindSame _ (fun r => .ok _ (h.emits _))

include hw in
theorem named_validateStack (hd : N.Distinct) : ∀ (ps : List Ptr) {a b : Argus}, NamedOtherwise N a b →
    OutNamed N (validateStack W a ps) (validateStack W b ps)
  | [], a, b, h => .ok _ h
  | p :: ps, a, b, h => by
    unfold validateStack
    refine h.bindOpt p (fun o o' hr => ?_)
    rw [hr.subOptions]
    refine (named_validateTable hw hd h _).bind (fun s a1 b1 h1 => ?_)
    simp only
    split
    · exact .ok _ h1
    · exact named_validateStack hd ps h1

include hw in
theorem named_postValidation (hd : N.Distinct) {a b : Argus} (h : NamedOtherwise N a b) :
    OutNamed N (postValidation W a) (postValidation W b) := by
  unfold postValidation
  rw [h.root]
  refine (named_validateTable hw hd h _).bind (fun s a1 b1 h1 => ?_)
  simp only
  split
  · exact .ok _ h1
  · rw [h1.stack]; exact named_validateStack hw hd _ h1

/-! ### Release -/

theorem named_freeOptionValue {o o' : Opt} (h : Renamed N o o') :
    (∃ u, freeOptionValue o = .ub u ∧ freeOptionValue o' = .ub u) ∨
    ∃ x x', freeOptionValue o = .ok x ∧ freeOptionValue o' = .ok x' ∧ Renamed N x x' := by
  have hc := h.change (fun x => { x with isAllocated := false, value := .null }) rfl rfl
  have ha := h.isAllocated
  have e : runFree o'.freeHandler o' = runFree o.freeHandler o := by
    rw [h.freeHandler]; unfold runFree; rw [h.value, h.valueCount]
  cases hal : o.isAllocated with
  | false =>
    exact .inr ⟨o, o', by simp only [freeOptionValue, hal, if_true], by simp only [freeOptionValue, ha, hal, if_true], h⟩
  | true =>
    rw [hal] at ha
    have hn : ¬ true = false := by decide
    cases hrf : runFree o.freeHandler o with
    | ub u =>
      refine .inl ⟨u, ?_, ?_⟩
      · simp only [freeOptionValue, hal, if_neg hn, hrf]; rfl
      · simp only [freeOptionValue, ha, if_neg hn, e, hrf]; rfl
    | ok w =>
      refine .inr ⟨_, _, ?_, ?_, hc⟩
      · simp only [freeOptionValue, hal, if_neg hn, hrf]; rfl
      · simp only [freeOptionValue, ha, if_neg hn, e, hrf]; rfl

theorem named_freeOpts : ∀ {os os' : List Opt}, RenamedRow N os os' →
    (∃ u, freeOpts os = .ub u ∧ freeOpts os' = .ub u) ∨
    ∃ x x', freeOpts os = .ok x ∧ freeOpts os' = .ok x' ∧ RenamedRow N x x'
  | [], [], _ => .inr ⟨[], [], rfl, rfl, trivial⟩
  | o :: os, o' :: os', ⟨h1, h2⟩ => by
    unfold freeOpts
    rcases named_freeOptionValue h1 with ⟨u, e1, e2⟩ | ⟨x, x', e1, e2, hx⟩
    · rw [e1, e2]; exact .inl ⟨u, rfl, rfl⟩
    · rw [e1, e2]
      simp only [Out.ok_bind]
      rcases named_freeOpts h2 with ⟨u, e3, e4⟩ | ⟨y, y', e3, e4, hy⟩
      · rw [e3, e4]; exact .inl ⟨u, rfl, rfl⟩
      · rw [e3, e4]; exact .inr ⟨_, _, rfl, rfl, hx, hy⟩
  | [], _ :: _, h => h.elim
  | _ :: _, [], h => h.elim

theorem named_freeTable {a b : Argus} (h : NamedOtherwise N a b) (t : Option Nat) :
    OutNamed N (freeTableU a t) (freeTableU b t) := by
  unfold freeTableU freeTable
  cases t with
  | none => exact rfl
  | some j =>
    unfold Argus.table
    simp only
    cases hk : a.tables[j]? with
    | none => rw [h.noRow hk]; exact rfl
    | some os =>
      obtain ⟨os', h1, h2⟩ := h.row hk
      rw [h1]
      simp only [Out.ok_bind]
      rcases named_freeOpts h2 with ⟨u, e3, e4⟩ | ⟨y, y', e3, e4, hy⟩
      · rw [e3, e4]; exact rfl
      · rw [e3, e4]; exact .ok _ (h.withTable j hy)

theorem named_freeStack : ∀ (ps : List Ptr) {a b : Argus}, NamedOtherwise N a b →
    OutNamed N (freeStackU a ps) (freeStackU b ps)
  | [], a, b, h => .ok _ h
  | p :: ps, a, b, h => by
    rw [freeStackU_cons, freeStackU_cons]
    refine h.bindOpt p (fun o o' hr => ?_)
    rw [hr.subOptions]
    exact (named_freeTable h _).bind (fun s a1 b1 h1 => named_freeStack ps h1)

theorem named_argusFree {a b : Argus} (h : NamedOtherwise N a b) (e : ParseEnd) :
    OutNamed N (do let a2 ← argusFree a; Out.ok (e, a2)) (do let b2 ← argusFree b; Out.ok (e, b2)) := by
  have key : OutNamed N (freeU a) (freeU b) := by
    rw [freeU_eq, freeU_eq, h.root]
    refine (named_freeTable h _).bind (fun s a1 b1 h1 => ?_)
    simp only
    rw [h1.stack]
    exact named_freeStack _ h1
  unfold freeU at key
  cases h1 : argusFree a with
  | ub u => cases h2 : argusFree b with
    | ub v => rw [h1, h2] at key; exact key
    | ok c => rw [h1, h2] at key; exact key.elim
  | ok c => cases h2 : argusFree b with
    | ub v => rw [h1, h2] at key; exact key.elim
    | ok d => rw [h1, h2] at key; exact ⟨rfl, key.2⟩

/-! ### The whole parse -/

include hw in
theorem named_argusParse (hd : N.Distinct) {a b : Argus} (h : NamedOtherwise N a b) {args args' : List Str}
    (he : b.asks args' = a.asks args) :
    OutNamed N (argusParse W N.env a args) (argusParse W N.env' b args') := by
  unfold argusParse
  rw [parseArgs_run, parseArgs_run, he]
  refine (named_run hw _ h).bind (fun s a1 b1 h1 => ?_)
  have h2 := h1.code s
  simp only
  split
  · exact named_argusFree h2 _
  split
  · exact named_argusFree ((h2.emit _).emit _) _
  · refine (named_loadEnvVars hw h2).bind (fun s3 a3 b3 h3 => ?_)
    simp only
    split
    · exact named_argusFree h3 _
    · refine (named_postValidation hw hd h3).bind (fun s4 a4 b4 h4 => ?_)
      simp only
      split
      · exact named_argusFree h4 _
      · exact .ok _ h4

end

end Argus
