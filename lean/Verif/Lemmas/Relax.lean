import Verif.Spec.Relax
import Verif.Lemmas.Wear
import Verif.Lemmas.Keys
import Verif.Lemmas.Outcome

/-!
# Lemmas on programs with fewer constraints
-/

set_option autoImplicit false

namespace Argus

namespace Relaxed

variable {o o' : Opt}

theorem wear_eq (h : Relaxed o o') : o.wear o' = o' := by
  have hs := h.same
  cases o; cases o'
  simp only [Opt.mk.injEq] at hs
  simp only [Opt.wear, Opt.mk.injEq]
  simp_all

theorem of_meta (h : Relaxed o o') {o1 : Opt} (hm : o1.meta = o.meta) : Relaxed o1 (o1.wear o') := by
  obtain ⟨hs, h1, h2, h3, h4, h5, h6⟩ := h
  cases o; cases o'; cases o1
  simp only [Opt.mk.injEq] at hs
  simp only [Opt.meta, Opt.mk.injEq] at hm
  simp only [Opt.wear]
  refine ⟨?_, ?_, ?_, ?_, ?_, ?_, ?_⟩ <;> simp_all

theorem sortAlike (h : Relaxed o o') : SortAlike o'.flags o.flags :=
  ⟨h.flags _ (by decide) (by decide), h.flags _ (by decide) (by decide), h.flags _ (by decide) (by decide),
    h.flags _ (by decide) (by decide), h.flags _ (by decide) (by decide)⟩

theorem field {α : Type} (h : Relaxed o o') (g : Opt → α)
    (hg : ∀ x : Opt, g (x.wear o') = g x) : g o' = g o := by
  have := hg o
  rw [h.wear_eq] at this; exact this

theorem type (h : Relaxed o o') : o'.type = o.type := h.field (·.type) (fun _ => rfl)
theorem name (h : Relaxed o o') : o'.name = o.name := h.field (·.name) (fun _ => rfl)
theorem isSet (h : Relaxed o o') : o'.isSet = o.isSet := h.field (·.isSet) (fun _ => rfl)
theorem value (h : Relaxed o o') : o'.value = o.value := h.field (·.value) (fun _ => rfl)
theorem valueCount (h : Relaxed o o') : o'.valueCount = o.valueCount := h.field (·.valueCount) (fun _ => rfl)
theorem handler (h : Relaxed o o') : o'.handler = o.handler := h.field (·.handler) (fun _ => rfl)
theorem envName (h : Relaxed o o') : o'.envName = o.envName := h.field (·.envName) (fun _ => rfl)
theorem lname (h : Relaxed o o') : o'.lname = o.lname := h.field (·.lname) (fun _ => rfl)
theorem subOptions (h : Relaxed o o') : o'.subOptions = o.subOptions := h.field (·.subOptions) (fun _ => rfl)

theorem give {W : World} (hw : MindsValues W) (h : Relaxed o o') {x : Option Str} {o1 : Opt}
    (hg : o.give W x = some o1) : o'.give W x = some (o1.wear o') := by
  unfold Opt.give at hg ⊢
  rw [h.handler]
  cases hh : o.handler with
  | none => rw [hh] at hg; cases hg
  | some hd =>
    rw [hh] at hg
    simp only at hg ⊢
    have key := runHandler_wear (W := W) { tables := [] } hd x h.sortAlike
      (fun id => by rw [h.wear_eq]; exact hw.handler id o o' x h)
    rw [h.wear_eq] at key
    rw [key]
    cases hr : runHandler W { tables := [] } hd o x with
    | ub u => rw [hr] at hg; cases hg
    | ok r =>
      rw [hr] at hg
      simp only [Out.ok_bind, HRes.wear] at hg ⊢
      split at hg
      · rename_i hs
        rw [if_pos hs]
        simp only [Option.some.injEq] at hg
        subst hg
        rfl
      · cases hg

theorem takesText {W : World} (hw : MindsValues W) (h : Relaxed o o') {x : Option Str} {o1 : Opt}
    (ht : TakesText W x o o1) : TakesText W x o' (o1.wear o') :=
  ⟨fun v hv => ht.validators v (h.validators v hv), (h.flags _ (by decide) (by decide)).trans ht.goesOn,
    h.give hw ht.handled⟩

theorem envVarName (h : Relaxed o o') (ep : Option Str) : Argus.envVarName ep o' = Argus.envVarName ep o := by
  unfold Argus.envVarName
  rw [h.envName, h.flags .noEnvPrefix (by decide) (by decide), h.flags .autoEnv (by decide) (by decide), h.name, h.lname]

theorem looksUp {W : World} (hw : MindsValues W) (h : Relaxed o o') {env : Env} {ep : Option Str} {o1 : Opt}
    (hl : LooksUp W env ep o o1) : LooksUp W env ep o' (o1.wear o') := by
  cases hl with
  | idle hi =>
    rw [h.wear_eq]
    refine .idle ?_
    unfold EnvIdle at hi ⊢
    rw [h.type, h.isSet, h.flags .envOverride (by decide) (by decide), h.envVarName]
    exact hi
  | read n v _ h1 h2 h3 h4 h5 =>
    exact .read n v _ (by rw [h.type]; exact h1)
      (by rw [h.isSet, h.flags .envOverride (by decide) (by decide)]; exact h2) (by rw [h.envVarName]; exact h3) h4
      (h.takesText hw h5)

end Relaxed

theorem looksUp_meta {W : World} {env : Env} {ep : Option Str} {o o1 : Opt} (h : LooksUp W env ep o o1) :
    o1.meta = o.meta := by
  cases h with
  | idle _ => rfl
  | read n v _ _ _ _ _ h5 => exact runHandler_keeps_meta h5.handled

/-- What happens to an entry happens to the relaxed entry, too. -/
def KeptByRelax (r : Opt → Opt → Prop) : Prop :=
  ∀ o o' o1, Relaxed o o' → r o o1 → o1.meta = o.meta ∧ r o' (o1.wear o')

theorem through_relax : ∀ (rs : List (Opt → Opt → Prop)), (∀ r ∈ rs, KeptByRelax r) → KeptByRelax (Through rs)
  | [], _, o, o', o1, h, ht => by
    have : o1 = o := ht
    subst this
    exact ⟨rfl, h.wear_eq⟩
  | r :: rs, hr, o, o', o2, h, ⟨o1, h1, h2⟩ => by
    obtain ⟨m1, k1⟩ := hr r (by simp) o o' o1 h h1
    obtain ⟨m2, k2⟩ := through_relax rs (fun r hr' => hr r (by simp [hr'])) o1 _ o2 (h.of_meta m1) h2
    exact ⟨m2.trans m1, _, k1, k2⟩

theorem change_relax {W : World} (hw : MindsValues W) (p : Ptr) (x : Act) {r : Opt → Opt → Prop}
    (h : x.change W p = some r) : KeptByRelax r := by
  intro o o' o1 hr h1
  cases x with
  | give q t =>
    simp only [Act.change] at h
    split at h
    · simp only [Option.some.injEq] at h; subst h
      exact ⟨runHandler_keeps_meta h1.handled, hr.takesText hw h1⟩
    · cases h
  | enter q =>
    simp only [Act.change] at h
    split at h
    · simp only [Option.some.injEq] at h; subst h
      simp only at h1 ⊢
      subst h1
      refine ⟨rfl, ?_⟩
      have := hr.wear_eq
      have e : ({ o with isSet := true } : Opt).wear o' = { o.wear o' with isSet := true } := rfl
      rw [e, this]
    · cases h
  | fail c => cases h
  | noTable => cases h

/-! ### Tables -/

/-- Entry by entry. -/
def RelaxedRow : List Opt → List Opt → Prop
  | [], [] => True
  | o :: os, o' :: os' => Relaxed o o' ∧ RelaxedRow os os'
  | _, _ => False

theorem relaxedRow_mem : ∀ {os os' : List Opt}, RelaxedRow os os' → ∀ o' ∈ os', ∃ o ∈ os, Relaxed o o'
  | [], [], _, o', h => by cases h
  | o :: os, p :: os', ⟨h1, h2⟩, o', h => by
    rcases List.mem_cons.1 h with rfl | h
    · exact ⟨o, by simp, h1⟩
    · obtain ⟨x, hx, hr⟩ := relaxedRow_mem h2 o' h
      exact ⟨x, by simp [hx], hr⟩
  | [], _ :: _, h, _, _ => h.elim
  | _ :: _, [], h, _, _ => h.elim

theorem relaxedRow_mem' : ∀ {os os' : List Opt}, RelaxedRow os os' → ∀ o ∈ os, ∃ o' ∈ os', Relaxed o o'
  | [], [], _, o', h => by cases h
  | p :: os, o :: os', ⟨h1, h2⟩, o', h => by
    rcases List.mem_cons.1 h with rfl | h
    · exact ⟨o, by simp, h1⟩
    · obtain ⟨x, hx, hr⟩ := relaxedRow_mem' h2 o' h
      exact ⟨x, by simp [hx], hr⟩
  | [], _ :: _, h, _, _ => h.elim
  | _ :: _, [], h, _, _ => h.elim

theorem relaxedRow_append : ∀ {os l r : List Opt}, RelaxedRow os (l ++ r) →
    ∃ l0 r0, os = l0 ++ r0 ∧ RelaxedRow l0 l ∧ RelaxedRow r0 r
  | os, [], r, h => ⟨[], os, rfl, trivial, h⟩
  | [], _ :: _, _, h => h.elim
  | o :: os, x :: l, r, ⟨h1, h2⟩ => by
    obtain ⟨l0, r0, e, k1, k2⟩ := relaxedRow_append (os := os) (l := l) h2
    exact ⟨o :: l0, r0, by rw [e]; rfl, ⟨h1, k1⟩, k2⟩

theorem relaxedRow_cons {os r : List Opt} {x : Opt} (h : RelaxedRow os (x :: r)) :
    ∃ x0 r0, os = x0 :: r0 ∧ Relaxed x0 x ∧ RelaxedRow r0 r := by
  cases os with
  | nil => exact h.elim
  | cons o os => exact ⟨o, os, rfl, h.1, h.2⟩

theorem relaxedRow_refers {os os' : List Opt} (h : RelaxedRow os os') {n : Str} {r' : Opt} (hr : Refers os' n r') :
    ∃ r, Refers os n r ∧ Relaxed r r' := by
  obtain ⟨pre, post, rfl, h1, h2⟩ := hr
  obtain ⟨pre0, rest, rfl, k1, k2⟩ := relaxedRow_append h
  obtain ⟨r0, post0, rfl, k3, k4⟩ := relaxedRow_cons k2
  refine ⟨r0, ⟨pre0, post0, rfl, by rw [← k3.name]; exact h1, fun x hx => ?_⟩, k3⟩
  obtain ⟨x', hx', hxx⟩ := relaxedRow_mem' k1 x hx
  rw [← hxx.name]; exact h2 x' hx'

theorem relaxedRow_set : ∀ {os os' : List Opt}, RelaxedRow os os' →
    (os'.filter (·.isSet)).length = (os.filter (·.isSet)).length
  | [], [], _ => rfl
  | o :: os, o' :: os', ⟨h1, h2⟩ => by
    have := relaxedRow_set h2
    simp only [List.filter_cons, h1.isSet]
    split
    · simp [this]
    · exact this
  | [], _ :: _, h => h.elim
  | _ :: _, [], h => h.elim

theorem meets_relax {W : World} (hw : MindsValues W) {o o' : Opt} (h : Relaxed o o') (k : VKind) (hm : Meets W o k) :
    Meets W o' k := by
  unfold Meets Opt.ReadsInt Opt.ReadsString Opt.ReadsFloat at *
  rw [h.value, h.valueCount]
  cases k <;> try exact hm
  simp only at hm ⊢
  rw [hw.validator _ o o' h]; exact hm

/-- What a table declares with fewer constraints holds if what it declared before holds. -/
theorem levelOk_relax {W : World} (hw : MindsValues W) {os os' : List Opt} (h : RelaxedRow os os') (hl : LevelOk W os) :
    LevelOk W os' := by
  refine ⟨?_, ?_, ?_, ?_, ?_⟩
  · intro o' ho' ht hf
    obtain ⟨o, ho, hr⟩ := relaxedRow_mem h o' ho'
    rw [hr.isSet]
    exact hl.positionals o ho (hr.type ▸ ht) (hr.required hf)
  · intro o' ho' ht hs v hv hp
    obtain ⟨o, ho, hr⟩ := relaxedRow_mem h o' ho'
    exact meets_relax hw hr _ (hl.validators o ho (hr.type ▸ ht) (hr.isSet ▸ hs) v (hr.validators v hv) hp)
  · intro o' ho' ht hs n hn r' hr'
    obtain ⟨o, ho, hr⟩ := relaxedRow_mem h o' ho'
    obtain ⟨r, h1, h2⟩ := relaxedRow_refers h hr'
    rw [h2.isSet]
    exact hl.requires o ho (hr.type ▸ ht) (hr.isSet ▸ hs) n (hr.requires n hn) r h1
  · intro o' ho' ht hs n hn r' hr'
    obtain ⟨o, ho, hr⟩ := relaxedRow_mem h o' ho'
    obtain ⟨r, h1, h2⟩ := relaxedRow_refers h hr'
    rw [h2.isSet]
    exact hl.conflicts o ho (hr.type ▸ ht) (hr.isSet ▸ hs) n (hr.conflicts n hn) r h1
  · intro g' mid' hg hx
    obtain ⟨h1, h2, pre', post', rfl⟩ := hg
    obtain ⟨pre, rest, rfl, k1, k2⟩ := relaxedRow_append h
    obtain ⟨g, rest2, rfl, k3, k4⟩ := relaxedRow_cons k2
    obtain ⟨mid, post, rfl, k5, k6⟩ := relaxedRow_append k4
    rw [relaxedRow_set k5]
    refine hl.exclusive g mid ⟨by rw [← k3.type]; exact h1, fun x hx => ?_, pre, post, rfl⟩ (k3.exclusive hx)
    obtain ⟨x', hx', hr⟩ := relaxedRow_mem' k5 x hx
    rw [← hr.type]; exact h2 x' hx'

theorem relaxedRow_of : ∀ {os os' : List Opt}, os'.length = os.length →
    (∀ (i : Nat) (o : Opt), os[i]? = some o → ∃ o', os'[i]? = some o' ∧ Relaxed o o') → RelaxedRow os os'
  | [], [], _, _ => trivial
  | o :: os, o' :: os', hl, h => by
    refine ⟨?_, relaxedRow_of (by simpa using hl) (fun i x hx => ?_)⟩
    · obtain ⟨x, hx, hr⟩ := h 0 o rfl
      simp only [List.getElem?_cons_zero, Option.some.injEq] at hx
      subst hx; exact hr
    · have := h (i + 1) x (by simpa using hx)
      simpa using this
  | [], _ :: _, hl, _ => by simp at hl
  | _ :: _, [], hl, _ => by simp at hl

theorem lengths_getElem {T T' : List (List Opt)} (h : T'.map List.length = T.map List.length) {k : Nat} {os : List Opt}
    (hk : T[k]? = some os) : ∃ os', T'[k]? = some os' ∧ os'.length = os.length := by
  have := congrArg (·[k]?) h
  simp only [List.getElem?_map, hk, Option.map_some] at this
  cases hk' : T'[k]? with
  | none => rw [hk'] at this; cases this
  | some os' =>
    rw [hk'] at this
    simp only [Option.map_some, Option.some.injEq] at this
    exact ⟨os', rfl, this⟩

theorem relaxedTables_row {T T' : List (List Opt)} (h : RelaxedTables T T') {k : Nat} {os : List Opt}
    (hk : T[k]? = some os) : ∃ os', T'[k]? = some os' ∧ RelaxedRow os os' := by
  obtain ⟨os', h1, h2⟩ := lengths_getElem h.1 hk
  refine ⟨os', h1, relaxedRow_of h2 (fun i o ho => ?_)⟩
  obtain ⟨o', h3, h4⟩ := h.2 ⟨k, i⟩ o (by simp [placeAt, hk, ho])
  simp only [placeAt, h1, Option.bind_some] at h3
  exact ⟨o', h3, h4⟩

theorem relaxedTables_back {T T' : List (List Opt)} (h : RelaxedTables T T') {p : Ptr} {o' : Opt}
    (ho : placeAt T' p = some o') : ∃ o, placeAt T p = some o ∧ Relaxed o o' := by
  obtain ⟨os', h1, h2⟩ := Option.bind_eq_some_iff.1 ho
  obtain ⟨os, h3, h4⟩ := lengths_getElem h.1.symm h1
  have hi : p.idx < os.length := by
    rw [h4]; exact (List.getElem?_eq_some_iff.1 h2).1
  have hp : placeAt T p = some os[p.idx] := by simp [placeAt, h3, hi]
  obtain ⟨o2, h5, h6⟩ := h.2 p _ hp
  rw [ho] at h5
  cases h5
  exact ⟨_, hp, h6⟩

/-- An entry without help texts, constraints and flags. -/
def Opt.bare (o : Opt) : Opt := o.wear { type := .option }

theorem bare_keys : KeepsKeys Opt.bare := ⟨fun _ => rfl, fun _ => rfl, fun _ => rfl, fun _ => rfl, fun _ => rfl, fun _ => rfl⟩

theorem Relaxed.bare {o o' : Opt} (h : Relaxed o o') : o'.bare = o.bare := by
  have : (o.wear o').bare = o.bare := rfl
  rw [h.wear_eq] at this; exact this

theorem relaxedRow_bare : ∀ {os os' : List Opt}, RelaxedRow os os' → os'.map Opt.bare = os.map Opt.bare
  | [], [], _ => rfl
  | o :: os, o' :: os', ⟨h1, h2⟩ => by
    simp only [List.map_cons, h1.bare, relaxedRow_bare h2]
  | [], _ :: _, h => h.elim
  | _ :: _, [], h => h.elim

theorem relaxedTables_bare {T T' : List (List Opt)} (h : RelaxedTables T T') :
    T'.map (·.map Opt.bare) = T.map (·.map Opt.bare) := by
  have hl : T'.length = T.length := by
    have := congrArg List.length h.1
    simpa using this
  apply List.ext_getElem?
  intro k
  simp only [List.getElem?_map]
  cases hk : T[k]? with
  | none =>
    have : T'[k]? = none := by
      rw [List.getElem?_eq_none_iff] at hk ⊢; omega
    rw [this]
  | some os =>
    obtain ⟨os', h1, h2⟩ := relaxedTables_row h hk
    rw [h1]
    simp only [Option.map_some, relaxedRow_bare h2]

theorem asks_relax {a a' : Argus} (h : RelaxedTables a.tables a'.tables) (hr : a'.root = a.root) (args : List Str) :
    a'.asks args = a.asks args := by
  unfold Argus.asks
  rw [hr, ← meaning_keys bare_keys a'.tables, ← meaning_keys bare_keys a.tables, relaxedTables_bare h]

/-- The values of `T` with the declarations of `D`. -/
def wearTables (T D : List (List Opt)) : List (List Opt) := List.zipWith (List.zipWith Opt.wear) T D

theorem wearTables_place {T D : List (List Opt)} {p : Ptr} {o d : Opt} (h : placeAt T p = some o)
    (hd : placeAt D p = some d) : placeAt (wearTables T D) p = some (o.wear d) := by
  obtain ⟨os, h1, h2⟩ := Option.bind_eq_some_iff.1 h
  obtain ⟨ds, h3, h4⟩ := Option.bind_eq_some_iff.1 hd
  simp [placeAt, wearTables, List.getElem?_zipWith, h1, h2, h3, h4]

theorem wearTables_lengths : ∀ {T D : List (List Opt)}, T.map List.length = D.map List.length →
    (wearTables T D).map List.length = D.map List.length
  | [], [], _ => rfl
  | t :: T, d :: D, h => by
    simp only [List.map_cons, List.cons.injEq] at h
    have := wearTables_lengths h.2
    unfold wearTables at this ⊢
    simp only [List.zipWith_cons_cons, List.map_cons, List.length_zipWith, this, h.1, Nat.min_self]
  | [], _ :: _, h => by simp at h
  | _ :: _, [], h => by simp at h

/-- What is accepted is accepted with fewer constraints, with the same values. -/
theorem accepted_relax {W : World} (hw : MindsValues W) {env : Env} {a a' : Argus} {args : List Str}
    {T : List (List Opt)} {path : List Ptr} (ht : RelaxedTables a.tables a'.tables)
    (hrest : { a' with tables := a.tables } = a) (h : Accepted W env a args T path) :
    Accepted W env a' args (wearTables T a'.tables) path ∧ RelaxedTables T (wearTables T a'.tables) := by
  have hroot : a'.root = a.root := by have := congrArg Argus.root hrest; exact this
  have hstack : a'.stack = a.stack := by have := congrArg Argus.stack hrest; exact this
  have hpre : a'.envPrefix = a.envPrefix := by have := congrArg Argus.envPrefix hrest; exact this
  have hasks := asks_relax ht hroot args
  have hbelow : ∀ p k, tableBelow a.tables p = some k → tableBelow a'.tables p = some k := by
    intro p k hk
    obtain ⟨o, h1, h2⟩ := Option.bind_eq_some_iff.1 hk
    obtain ⟨o', h3, h4⟩ := ht.2 p o h1
    unfold tableBelow
    rw [h3, Option.bind_some, h4.subOptions]; exact h2
  have hbelow' : ∀ p, tableBelow a'.tables p = tableBelow a.tables p := by
    intro p
    cases hk : tableBelow a.tables p with
    | some k => exact hbelow p k hk
    | none =>
      cases hk' : tableBelow a'.tables p with
      | none => rfl
      | some k =>
        obtain ⟨o', h1, h2⟩ := Option.bind_eq_some_iff.1 hk'
        obtain ⟨o, h3, h4⟩ := relaxedTables_back ht h1
        unfold tableBelow at hk
        rw [h3, Option.bind_some, ← h4.subOptions, h2] at hk
        cases hk
  have hpaths : pathTables a' path = pathTables a path := by
    unfold pathTables
    rw [hroot, show tableBelow a'.tables = tableBelow a.tables from funext hbelow']
  have hkept : ∀ p, KeptByRelax (Through ((a.asks args).filterMap (Act.change W p) ++
      List.replicate ((pathTables a path).count p.tbl) (LooksUp W env a.envPrefix))) := by
    intro p
    apply through_relax
    intro r hr
    rcases List.mem_append.1 hr with hr | hr
    · obtain ⟨x, _, hx⟩ := List.mem_filterMap.1 hr
      exact change_relax hw p x hx
    · rw [List.eq_of_mem_replicate hr]
      exact fun o o' o1 h1 h2 => ⟨looksUp_meta h2, h1.looksUp hw h2⟩
  have hrel : RelaxedTables T (wearTables T a'.tables) := by
    refine ⟨?_, ?_⟩
    · rw [wearTables_lengths (by rw [h.sizes, ht.1]), ht.1, h.sizes]
    · intro p o1 ho1
      obtain ⟨os1, h1, h2⟩ := Option.bind_eq_some_iff.1 ho1
      obtain ⟨os, h3, h4⟩ := lengths_getElem h.sizes.symm h1
      have hi : p.idx < os.length := by rw [h4]; exact (List.getElem?_eq_some_iff.1 h2).1
      have hp : placeAt a.tables p = some os[p.idx] := by simp [placeAt, h3, hi]
      obtain ⟨o', h5, h6⟩ := ht.2 p _ hp
      obtain ⟨o2, h7, h8⟩ := h.entries p _ hp
      rw [ho1] at h7
      cases h7
      exact ⟨_, wearTables_place ho1 h5, h6.of_meta (hkept p _ _ _ h6 h8).1⟩
  refine ⟨⟨?_, ?_, ?_, ?_, ?_, ?_, ?_⟩, hrel⟩
  · rw [hasks]; exact h.readable
  · rw [hasks, hstack]; exact h.selected
  · rw [hasks]; exact h.depth
  · exact wearTables_lengths (by rw [h.sizes, ht.1])
  · intro p o' ho'
    obtain ⟨o, h1, h2⟩ := relaxedTables_back ht ho'
    obtain ⟨o1, h3, h4⟩ := h.entries p o h1
    refine ⟨_, wearTables_place h3 ho', ?_⟩
    rw [hasks, hpaths, hpre]
    exact (hkept p o o' o1 h2 h4).2
  · obtain ⟨os, h1, h2⟩ := h.root
    rw [hroot]
    obtain ⟨os', h3, h4⟩ := relaxedTables_row hrel h1
    exact ⟨os', h3, levelOk_relax hw h4 h2⟩
  · intro p hp
    obtain ⟨k, os, h1, h2, h3⟩ := h.levels p hp
    obtain ⟨os', h4, h5⟩ := relaxedTables_row hrel h2
    exact ⟨k, os', hbelow p k h1, h4, levelOk_relax hw h5 h3⟩

/-! ### The way back -/

namespace Relaxed

variable {o o' : Opt}

theorem wear_back (h : Relaxed o o') : o'.wear o = o := by
  have hs := h.same
  cases o; cases o'
  simp only [Opt.mk.injEq] at hs
  simp only [Opt.wear, Opt.mk.injEq]
  simp_all

theorem back_meta (h : Relaxed o o') {o1 : Opt} (hm : o1.meta = o'.meta) : Relaxed (o1.wear o) o1 := by
  obtain ⟨hs, h1, h2, h3, h4, h5, h6⟩ := h
  cases o; cases o'; cases o1
  simp only [Opt.mk.injEq] at hs
  simp only [Opt.meta, Opt.mk.injEq] at hm
  simp only [Opt.wear]
  refine ⟨?_, ?_, ?_, ?_, ?_, ?_, ?_⟩ <;> simp_all

theorem give_back {W : World} (hw : MindsValues W) (h : Relaxed o o') {x : Option Str} {o1 : Opt}
    (hg : o'.give W x = some o1) : o.give W x = some (o1.wear o) := by
  unfold Opt.give at hg ⊢
  rw [h.handler] at hg
  cases hh : o.handler with
  | none => rw [hh] at hg; cases hg
  | some hd =>
    rw [hh] at hg
    simp only at hg ⊢
    have hf : SortAlike o.flags o'.flags :=
      ⟨h.sortAlike.1.symm, h.sortAlike.2.1.symm, h.sortAlike.2.2.1.symm, h.sortAlike.2.2.2.1.symm, h.sortAlike.2.2.2.2.symm⟩
    have key := runHandler_wear (W := W) { tables := [] } hd x hf
      (fun id => by rw [h.wear_back]; exact (hw.handler id o o' x h).symm)
    rw [h.wear_back] at key
    rw [key]
    cases hr : runHandler W { tables := [] } hd o' x with
    | ub u => rw [hr] at hg; cases hg
    | ok r =>
      rw [hr] at hg
      simp only [Out.ok_bind, HRes.wear] at hg ⊢
      split at hg
      · rename_i hs
        rw [if_pos hs]
        simp only [Option.some.injEq] at hg
        subst hg
        rfl
      · cases hg

end Relaxed

/-- What happens to the relaxed entry happens to the entry, too. -/
def KeptBack (r : Opt → Opt → Prop) : Prop :=
  ∀ o o' o1, Relaxed o o' → KeepsTextChecks o o' → r o' o1 → o1.meta = o'.meta ∧ r o (o1.wear o)

theorem takesText_back {W : World} (hw : MindsValues W) {o o' o1 : Opt} (h : Relaxed o o') (hk : KeepsTextChecks o o')
    {x : Option Str} (ht : TakesText W x o' o1) : TakesText W x o (o1.wear o) :=
  ⟨fun v hv hp => ht.validators v (hk v hv hp) hp, (h.flags _ (by decide) (by decide)).symm.trans ht.goesOn,
    h.give_back hw ht.handled⟩

theorem looksUp_back {W : World} (hw : MindsValues W) {o o' o1 : Opt} (h : Relaxed o o') (hk : KeepsTextChecks o o')
    {env : Env} {ep : Option Str} (hl : LooksUp W env ep o' o1) : LooksUp W env ep o (o1.wear o) := by
  cases hl with
  | idle hi =>
    rw [h.wear_back]
    refine .idle ?_
    unfold EnvIdle at hi ⊢
    rw [h.type, h.isSet, h.flags .envOverride (by decide) (by decide), h.envVarName] at hi
    exact hi
  | read n v _ h1 h2 h3 h4 h5 =>
    rw [h.type] at h1
    rw [h.isSet, h.flags .envOverride (by decide) (by decide)] at h2
    rw [h.envVarName] at h3
    exact .read n v _ h1 h2 h3 h4 (takesText_back hw h hk h5)

theorem through_back : ∀ (rs : List (Opt → Opt → Prop)), (∀ r ∈ rs, KeptBack r) → KeptBack (Through rs)
  | [], _, o, o', o1, h, _, ht => by
    have : o1 = o' := ht
    subst this
    exact ⟨rfl, h.wear_back⟩
  | r :: rs, hr, o, o', o2, h, hk, ⟨o1, h1, h2⟩ => by
    obtain ⟨m1, k1⟩ := hr r (by simp) o o' o1 h hk h1
    have hv : o1.validators = o'.validators := by have := congrArg Opt.validators m1; exact this
    obtain ⟨m2, k2⟩ := through_back rs (fun r hr' => hr r (by simp [hr'])) _ o1 o2 (h.back_meta m1)
      (fun v hv' hp => by rw [hv]; exact hk v hv' hp) h2
    exact ⟨m2.trans m1, _, k1, k2⟩

theorem change_back {W : World} (hw : MindsValues W) (p : Ptr) (x : Act) {r : Opt → Opt → Prop}
    (h : x.change W p = some r) : KeptBack r := by
  intro o o' o1 hr hk h1
  cases x with
  | give q t =>
    simp only [Act.change] at h
    split at h
    · simp only [Option.some.injEq] at h; subst h
      exact ⟨runHandler_keeps_meta h1.handled, takesText_back hw hr hk h1⟩
    · cases h
  | enter q =>
    simp only [Act.change] at h
    split at h
    · simp only [Option.some.injEq] at h; subst h
      simp only at h1 ⊢
      subst h1
      refine ⟨rfl, ?_⟩
      have := hr.wear_back
      have e : ({ o' with isSet := true } : Opt).wear o = { o'.wear o with isSet := true } := rfl
      rw [e, this]
    · cases h
  | fail c => cases h
  | noTable => cases h

/-- What is accepted with fewer constraints is accepted, if the constraints left out hold of the result. -/
theorem accepted_back {W : World} (hw : MindsValues W) {env : Env} {a a' : Argus} {args : List Str}
    {T : List (List Opt)} {path : List Ptr} (ht : RelaxedTables a.tables a'.tables)
    (hk : ∀ p o o', placeAt a.tables p = some o → placeAt a'.tables p = some o' → KeepsTextChecks o o')
    (hrest : { a' with tables := a.tables } = a) (h : Accepted W env a' args T path)
    (hl : ∀ k ∈ pathTables a path, ∀ os, (wearTables T a.tables)[k]? = some os → LevelOk W os) :
    Accepted W env a args (wearTables T a.tables) path ∧ RelaxedTables (wearTables T a.tables) T := by
  have hroot : a'.root = a.root := by have := congrArg Argus.root hrest; exact this
  have hstack : a'.stack = a.stack := by have := congrArg Argus.stack hrest; exact this
  have hpre : a'.envPrefix = a.envPrefix := by have := congrArg Argus.envPrefix hrest; exact this
  have hasks := asks_relax ht hroot args
  have hbelow : ∀ p, tableBelow a.tables p = tableBelow a'.tables p := by
    intro p
    unfold tableBelow
    cases h1 : placeAt a.tables p with
    | some o =>
      obtain ⟨o', h2, h3⟩ := ht.2 p o h1
      rw [h2, Option.bind_some, Option.bind_some, h3.subOptions]
    | none =>
      cases h2 : placeAt a'.tables p with
      | none => rfl
      | some o' =>
        obtain ⟨o, h3, _⟩ := relaxedTables_back ht h2
        rw [h1] at h3; cases h3
  have hpaths : pathTables a path = pathTables a' path := by
    unfold pathTables
    rw [hroot, show tableBelow a.tables = tableBelow a'.tables from funext hbelow]
  have hkept : ∀ p, KeptBack (Through ((a'.asks args).filterMap (Act.change W p) ++
      List.replicate ((pathTables a' path).count p.tbl) (LooksUp W env a'.envPrefix))) := by
    intro p
    apply through_back
    intro r hr
    rcases List.mem_append.1 hr with hr | hr
    · obtain ⟨x, _, hx⟩ := List.mem_filterMap.1 hr
      exact change_back hw p x hx
    · rw [List.eq_of_mem_replicate hr]
      exact fun o o' o1 h1 h2 h3 => ⟨looksUp_meta h3, looksUp_back hw h1 h2 h3⟩
  have hlen : (wearTables T a.tables).map List.length = a.tables.map List.length :=
    wearTables_lengths (by rw [h.sizes, ht.1])
  have hsome : ∀ {k : Nat} {os : List Opt}, T[k]? = some os → ∃ os', (wearTables T a.tables)[k]? = some os' := by
    intro k os hk
    obtain ⟨os', h1, _⟩ := lengths_getElem (T := T) (T' := wearTables T a.tables) (by rw [hlen, h.sizes, ht.1]) hk
    exact ⟨os', h1⟩
  refine ⟨⟨?_, ?_, ?_, hlen, ?_, ?_, ?_⟩, ?_, ?_⟩
  · rw [← hasks]; exact h.readable
  · rw [← hasks, ← hstack]; exact h.selected
  · rw [← hasks]; exact h.depth
  · intro p o ho
    obtain ⟨o', h1, h2⟩ := ht.2 p o ho
    obtain ⟨o1, h3, h4⟩ := h.entries p o' h1
    refine ⟨_, wearTables_place h3 ho, ?_⟩
    rw [← hasks, hpaths, ← hpre]
    exact (hkept p o o' o1 h2 (hk p o o' ho h1) h4).2
  · obtain ⟨os, h1, _⟩ := h.root
    rw [hroot] at h1
    obtain ⟨os', h2⟩ := hsome h1
    exact ⟨os', h2, hl a.root (by simp [pathTables]) os' h2⟩
  · intro p hp
    obtain ⟨k, os, h1, h2, _⟩ := h.levels p hp
    obtain ⟨os', h3⟩ := hsome h2
    rw [← hbelow] at h1
    exact ⟨k, os', h1, h3, hl k (by
      simp only [pathTables, List.mem_cons, List.mem_filterMap]
      exact .inr ⟨p, hp, h1⟩) os' h3⟩
  · rw [hlen, h.sizes, ht.1]
  · intro p o1 ho1
    obtain ⟨os1, h1, h2⟩ := Option.bind_eq_some_iff.1 ho1
    obtain ⟨os, h3, h4⟩ := lengths_getElem hlen.symm h1
    have hi : p.idx < os.length := by rw [h4]; exact (List.getElem?_eq_some_iff.1 h2).1
    have hp : placeAt a.tables p = some os[p.idx] := by simp [placeAt, h3, hi]
    obtain ⟨o', h5, h6⟩ := ht.2 p _ hp
    obtain ⟨o2, h7, h8⟩ := h.entries p _ h5
    have h9 := wearTables_place h7 hp
    rw [ho1] at h9
    cases h9
    exact ⟨o2, h7, h6.back_meta (hkept p _ _ _ h6 (hk p _ _ hp h5) h8).1⟩

end Argus
