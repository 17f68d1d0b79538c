import Verif.Lemmas.Relax
import Verif.Lemmas.EnvLine
import Verif.Spec.Unset

/-!
# Constraints of entries that are not set
-/

set_option autoImplicit false

namespace Argus

theorem getElem?_amended {α : Type} (l : List α) (i j : Nat) (f : α → α) :
    (l.modify i f)[j]? = if i = j then l[j]?.map f else l[j]? := by
  rw [List.getElem?_modify]
  by_cases h : i = j
  · simp [h]
  · simp [h]

theorem placeAt_amend {T : List (List Opt)} {p : Ptr} {f : Opt → Opt} (q : Ptr) :
    placeAt (amend T p f) q = if q = p then (placeAt T q).map f else placeAt T q := by
  unfold placeAt amend
  rw [getElem?_amended]
  by_cases ht : p.tbl = q.tbl
  · rw [if_pos ht]
    cases hT : T[q.tbl]? with
    | none => simp
    | some os =>
      simp only [Option.map_some, Option.bind_some, getElem?_amended]
      by_cases hi : p.idx = q.idx
      · have : q = p := by cases p; cases q; simp_all
        rw [if_pos this, if_pos hi]
      · have : q ≠ p := fun e => hi (by rw [e])
        rw [if_neg this, if_neg hi]
  · have : q ≠ p := fun e => ht (by rw [e])
    rw [if_neg ht, if_neg this]

theorem amend_sizes (T : List (List Opt)) (p : Ptr) (f : Opt → Opt) :
    (amend T p f).map List.length = T.map List.length := by
  apply List.ext_getElem?
  intro k
  simp only [amend, List.getElem?_map, getElem?_amended]
  cases T[k]? with
  | none => simp
  | some os =>
    by_cases h : p.tbl = k <;> simp [h]

theorem amend_row {T : List (List Opt)} {p : Ptr} {f : Opt → Opt} {k : Nat} {os : List Opt} (h : T[k]? = some os) :
    (amend T p f)[k]? = some (if k = p.tbl then os.modify p.idx f else os) := by
  simp only [amend, getElem?_amended, h]
  by_cases hk : k = p.tbl
  · simp [hk]
  · rw [if_neg hk, if_neg (fun e : p.tbl = k => hk e.symm)]

theorem amend_map {α : Type} {T : List (List Opt)} {p : Ptr} {f : Opt → Opt} {g : Opt → α} (h : ∀ o, g (f o) = g o) :
    (amend T p f).map (·.map g) = T.map (·.map g) := by
  apply List.ext_getElem?
  intro k
  simp only [amend, List.getElem?_map, getElem?_amended]
  cases T[k]? with
  | none => simp
  | some os =>
    by_cases hk : p.tbl = k
    · simp only [hk, if_true, Option.map_some, Option.some.injEq]
      apply List.ext_getElem?
      intro i
      simp only [List.getElem?_map, getElem?_amended]
      cases os[i]? with
      | none => simp
      | some o => by_cases hi : p.idx = i <;> simp [hi, h]
    · simp [hk]

theorem asks_constrain (a : Argus) (p : Ptr) (vs : Option (List Validator)) (rq cf : Option (List Str)) (args : List Str) :
    (a.constrain p vs rq cf).asks args = a.asks args := by
  unfold Argus.asks
  show meaning (amend a.tables p (Opt.constrained vs rq cf)) (some a.root) 0 false false args = _
  rw [← meaning_keys bare_keys (amend a.tables p (Opt.constrained vs rq cf)), ← meaning_keys bare_keys a.tables,
    amend_map (f := Opt.constrained vs rq cf) (g := Opt.bare) (fun _ => rfl)]

theorem tableBelow_amend {T : List (List Opt)} {p : Ptr} {f : Opt → Opt} (h : ∀ o, (f o).subOptions = o.subOptions) (q : Ptr) :
    tableBelow (amend T p f) q = tableBelow T q := by
  unfold tableBelow
  rw [placeAt_amend]
  split
  · cases placeAt T q with
    | none => rfl
    | some o => exact h o
  · rfl

/-- What leaves an entry unset does not look at its constraints. -/
theorem through_constrained {W : World} {env : Env} {ep : Option Str} {p : Ptr} {vs : Option (List Validator)}
    {rq cf : Option (List Str)} : ∀ (acts : List Act) (k : Nat) {o o' : Opt},
    Through (acts.filterMap (Act.change W p) ++ List.replicate k (LooksUp W env ep)) o o' → 
    (o.isSet = true → o'.isSet = true) ∧ (o'.isSet = false →
      Through (acts.filterMap (Act.change W p) ++ List.replicate k (LooksUp W env ep)) (o.constrained vs rq cf)
        (o'.constrained vs rq cf))
  | [], 0, o, o', h => by
    have e : o' = o := h
    rw [e]; exact ⟨id, fun _ => rfl⟩
  | [], k + 1, o, o', h => by
    obtain ⟨o1, h1, h2⟩ := h
    have ih := through_constrained (vs := vs) (rq := rq) (cf := cf) (p := p) [] k h2
    cases h1 with
    | idle hi => exact ⟨ih.1, fun h => ⟨_, .idle hi, ih.2 h⟩⟩
    | read _ _ _ _ _ _ _ h3 =>
      have := ih.1 (give_isSet h3.handled)
      exact ⟨fun _ => this, fun h => by rw [this] at h; cases h⟩
  | x :: acts, k, o, o', h => by
    rw [List.filterMap_cons] at h ⊢
    cases hx : x.change W p with
    | none => rw [hx] at h; exact through_constrained acts k h
    | some r =>
      rw [hx] at h
      obtain ⟨o1, h1, h2⟩ := h
      have ih := through_constrained (vs := vs) (rq := rq) (cf := cf) acts k h2
      have hs : o1.isSet = true := by
        cases x with
        | give q t =>
          simp only [Act.change] at hx
          split at hx
          · simp only [Option.some.injEq] at hx; subst hx
            exact give_isSet h1.handled
          · cases hx
        | enter q =>
          simp only [Act.change] at hx
          split at hx
          · simp only [Option.some.injEq] at hx; subst hx
            rw [h1]
          · cases hx
        | fail c => cases hx
        | noTable => cases hx
      have := ih.1 hs
      exact ⟨fun _ => this, fun h => by rw [this] at h; cases h⟩

/-- Two entries that are the same, apart from the constraints if they are not set. -/
def UnsetEntry (o o' : Opt) : Prop := o' = o ∨ (o.isSet = false ∧ ∃ vs rq cf, o' = o.constrained vs rq cf)

/-- Two rows that differ only in the constraints of entries that are not set. -/
def UnsetRow : List Opt → List Opt → Prop
  | [], [] => True
  | o :: os, o' :: os' => UnsetEntry o o' ∧ UnsetRow os os'
  | _, _ => False

theorem UnsetEntry.field {α : Type} {o o' : Opt} (h : UnsetEntry o o') (g : Opt → α)
    (hg : ∀ (x : Opt) vs rq cf, g (x.constrained vs rq cf) = g x) : g o' = g o := by
  rcases h with rfl | ⟨_, vs, rq, cf, rfl⟩
  · rfl
  · exact hg o vs rq cf

theorem UnsetEntry.of_set {o o' : Opt} (h : UnsetEntry o o') (hs : o'.isSet = true) : o' = o := by
  rcases h with rfl | ⟨hu, vs, rq, cf, rfl⟩
  · rfl
  · have : o.isSet = true := hs
    rw [hu] at this; cases this

theorem unsetRow_refl : ∀ os : List Opt, UnsetRow os os
  | [] => trivial
  | _ :: os => ⟨.inl rfl, unsetRow_refl os⟩

theorem unsetRow_modify {vs : Option (List Validator)} {rq cf : Option (List Str)} : ∀ {os : List Opt} {i : Nat},
    (∀ o, os[i]? = some o → o.isSet = false) → UnsetRow os (os.modify i (Opt.constrained vs rq cf))
  | [], 0, _ => trivial
  | [], _ + 1, _ => trivial
  | o :: os, 0, h => ⟨.inr ⟨h o rfl, vs, rq, cf, rfl⟩, unsetRow_refl os⟩
  | o :: os, i + 1, h => ⟨.inl rfl, unsetRow_modify (fun o ho => h o ho)⟩

theorem unsetRow_append : ∀ {os l r : List Opt}, UnsetRow os (l ++ r) →
    ∃ l0 r0, os = l0 ++ r0 ∧ UnsetRow l0 l ∧ UnsetRow r0 r
  | os, [], r, h => ⟨[], os, rfl, trivial, h⟩
  | [], _ :: _, _, h => h.elim
  | o :: os, x :: l, r, ⟨h1, h2⟩ => by
    obtain ⟨l0, r0, e, k1, k2⟩ := unsetRow_append (os := os) (l := l) h2
    exact ⟨o :: l0, r0, by rw [e]; rfl, ⟨h1, k1⟩, k2⟩

theorem unsetRow_cons {os r : List Opt} {x : Opt} (h : UnsetRow os (x :: r)) :
    ∃ x0 r0, os = x0 :: r0 ∧ UnsetEntry x0 x ∧ UnsetRow r0 r := by
  cases os with
  | nil => exact h.elim
  | cons o os => exact ⟨o, os, rfl, h.1, h.2⟩

theorem unsetRow_mem {os os' : List Opt} (h : UnsetRow os os') {o' : Opt} (ho : o' ∈ os') :
    ∃ o ∈ os, UnsetEntry o o' := by
  obtain ⟨l, r, rfl⟩ := List.append_of_mem ho
  obtain ⟨l0, r0, rfl, _, h2⟩ := unsetRow_append h
  obtain ⟨x, r1, rfl, h3, _⟩ := unsetRow_cons h2
  exact ⟨x, by simp, h3⟩

theorem unsetRow_mem' : ∀ {os os' : List Opt}, UnsetRow os os' → ∀ o ∈ os, ∃ o' ∈ os', UnsetEntry o o'
  | [], [], _, o', h => by cases h
  | p :: os, o :: os', ⟨h1, h2⟩, o', h => by
    rcases List.mem_cons.1 h with rfl | h
    · exact ⟨o, by simp, h1⟩
    · obtain ⟨x, hx, hr⟩ := unsetRow_mem' h2 o' h
      exact ⟨x, by simp [hx], hr⟩
  | [], _ :: _, h, _, _ => h.elim
  | _ :: _, [], h, _, _ => h.elim

theorem unsetRow_count : ∀ {os os' : List Opt}, UnsetRow os os' →
    (os'.filter (·.isSet)).length = (os.filter (·.isSet)).length
  | [], [], _ => rfl
  | o :: os, o' :: os', ⟨h1, h2⟩ => by
    have := unsetRow_count h2
    have hs : o'.isSet = o.isSet := UnsetEntry.field h1 (·.isSet) (fun _ _ _ _ => rfl)
    simp only [List.filter_cons, hs]
    split
    · simp [this]
    · exact this
  | [], _ :: _, h => h.elim
  | _ :: _, [], h => h.elim

theorem unsetRow_refers {os os' : List Opt} (h : UnsetRow os os') {n : Str} {r' : Opt} (hr : Refers os' n r') :
    ∃ r, Refers os n r ∧ UnsetEntry r r' := by
  obtain ⟨pre, post, rfl, h1, h2⟩ := hr
  obtain ⟨pre0, rest, rfl, k1, k2⟩ := unsetRow_append h
  obtain ⟨r0, post0, rfl, k3, k4⟩ := unsetRow_cons k2
  refine ⟨r0, ⟨pre0, post0, rfl, by rw [← k3.field (·.name) (fun _ _ _ _ => rfl)]; exact h1, fun x hx => ?_⟩, k3⟩
  obtain ⟨x', hx', hxx⟩ := unsetRow_mem' k1 x hx
  rw [← hxx.field (·.name) (fun _ _ _ _ => rfl)]; exact h2 x' hx'

theorem levelOk_unset {W : World} {os os' : List Opt} (h : UnsetRow os os') (hl : LevelOk W os) : LevelOk W os' := by
  have hset : ∀ o' ∈ os', o'.isSet = true → o' ∈ os := by
    intro o' ho' hs
    obtain ⟨o, ho, hu⟩ := unsetRow_mem h ho'
    rw [hu.of_set hs]; exact ho
  refine ⟨?_, ?_, ?_, ?_, ?_⟩
  · intro o' ho' ht hf
    obtain ⟨o, ho, hu⟩ := unsetRow_mem h ho'
    have hs := hl.positionals o ho ((hu.field (·.type) (fun _ _ _ _ => rfl)) ▸ ht)
      ((hu.field (fun x : Opt => x.flags.has .required) (fun _ _ _ _ => rfl)) ▸ hf)
    rw [← hs]
    exact hu.field (·.isSet) (fun _ _ _ _ => rfl)
  · intro o' ho' ht hs
    exact hl.validators o' (hset o' ho' hs) ht hs
  · intro o' ho' ht hs n hn r' hr'
    obtain ⟨r, h1, h2⟩ := unsetRow_refers h hr'
    have := hl.requires o' (hset o' ho' hs) ht hs n hn r h1
    rw [← this]
    exact h2.field (·.isSet) (fun _ _ _ _ => rfl)
  · intro o' ho' ht hs n hn r' hr'
    obtain ⟨r, h1, h2⟩ := unsetRow_refers h hr'
    have := hl.conflicts o' (hset o' ho' hs) ht hs n hn r h1
    rw [← this]
    exact h2.field (·.isSet) (fun _ _ _ _ => rfl)
  · intro g' mid' hg hx
    obtain ⟨h1, h2, pre', post', rfl⟩ := hg
    obtain ⟨pre, rest, rfl, k1, k2⟩ := unsetRow_append h
    obtain ⟨g, rest2, rfl, k3, k4⟩ := unsetRow_cons k2
    obtain ⟨mid, post, rfl, k5, k6⟩ := unsetRow_append k4
    rw [unsetRow_count k5]
    refine hl.exclusive g mid ⟨?_, fun x hx => ?_, pre, post, rfl⟩ ?_
    · rw [← k3.field (·.type) (fun _ _ _ _ => rfl)]; exact h1
    · obtain ⟨x', hx', hr⟩ := unsetRow_mem' k5 x hx
      rw [← hr.field (·.type) (fun _ _ _ _ => rfl)]; exact h2 x' hx'
    · rw [← k3.field (fun x : Opt => x.flags.has .exclusive) (fun _ _ _ _ => rfl)]; exact hx

/-- What is accepted and leaves an entry unset is accepted whatever that entry declares. -/
theorem accepted_constrain {W : World} {env : Env} {a : Argus} {args : List Str} {T : List (List Opt)} {path : List Ptr}
    {p : Ptr} {o' : Opt} (vs : Option (List Validator)) (rq cf : Option (List Str)) (ho : placeAt T p = some o')
    (hu : o'.isSet = false) (h : Accepted W env a args T path) :
    Accepted W env (a.constrain p vs rq cf) args (amend T p (Opt.constrained vs rq cf)) path := by
  have hasks := asks_constrain a p vs rq cf args
  have hpaths : pathTables (a.constrain p vs rq cf) path = pathTables a path := by
    unfold pathTables
    show a.root :: path.filterMap (tableBelow (amend a.tables p _)) = _
    rw [show tableBelow (amend a.tables p (Opt.constrained vs rq cf)) = tableBelow a.tables from
      funext (tableBelow_amend (fun _ => rfl))]
  have hlev : ∀ (k : Nat) (os : List Opt), T[k]? = some os → LevelOk W os →
      ∃ os', (amend T p (Opt.constrained vs rq cf))[k]? = some os' ∧ LevelOk W os' := by
    intro k os hk hl
    refine ⟨_, amend_row hk, ?_⟩
    split
    · rename_i e
      refine levelOk_unset (unsetRow_modify fun x hx => ?_) hl
      unfold placeAt at ho
      rw [← e, hk, Option.bind_some, hx, Option.some.injEq] at ho
      rw [ho]; exact hu
    · exact hl
  refine ⟨?_, ?_, ?_, ?_, ?_, ?_, ?_⟩
  · rw [hasks]; exact h.readable
  · rw [hasks]; exact h.selected
  · rw [hasks]; exact h.depth
  · show _ = (amend a.tables p _).map List.length
    rw [amend_sizes, amend_sizes]; exact h.sizes
  · intro q x hx
    rw [hasks, hpaths]
    have hx' : placeAt (amend a.tables p (Opt.constrained vs rq cf)) q = some x := hx
    rw [placeAt_amend] at hx'
    rw [placeAt_amend]
    split at hx'
    · rename_i e
      subst e
      obtain ⟨o, h1, h2⟩ := Option.map_eq_some_iff.1 hx'
      subst h2
      obtain ⟨o1, h3, h4⟩ := h.entries q o h1
      rw [ho, Option.some.injEq] at h3
      subst h3
      refine ⟨_, by rw [if_pos rfl, ho]; rfl, ?_⟩
      exact (through_constrained _ _ h4).2 hu
    · rename_i e
      obtain ⟨o1, h3, h4⟩ := h.entries q x hx'
      exact ⟨o1, by rw [if_neg e]; exact h3, h4⟩
  · obtain ⟨os, h1, h2⟩ := h.root
    exact hlev _ os h1 h2
  · intro q hq
    obtain ⟨k, os, h1, h2, h3⟩ := h.levels q hq
    obtain ⟨os', h4, h5⟩ := hlev k os h2 h3
    exact ⟨k, os', (tableBelow_amend (f := Opt.constrained vs rq cf) (fun _ => rfl) q).trans h1, h4, h5⟩

end Argus
