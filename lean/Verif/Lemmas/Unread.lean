import Verif.Spec.Unread
import Verif.Lemmas.Reword
import Verif.Lemmas.HandlerMeta
import Verif.Lemmas.Env
import Verif.Lemmas.Outcome

/-!
# Lemmas on texts that are passed on unread
-/

set_option autoImplicit false

namespace Argus

variable {Z : Telling}

theorem Opt.Unread.congr {o o1 : Opt} (hm : o1.meta = o.meta) (h : o.Unread) : o1.Unread := by
  have e1 : o1.handler = o.handler := by have := congrArg Opt.handler hm; exact this
  have e2 : o1.flags = o.flags := by have := congrArg Opt.flags hm; exact this
  have e3 : o1.validators = o.validators := by have := congrArg Opt.validators hm; exact this
  refine ⟨?_, ?_, ?_⟩
  · rw [e1, e2]; exact h.handler
  · rw [e2]; exact h.goesOn
  · rw [e3]; exact h.checks

theorem declared_congr {o o1 : Opt} (hm : o1.meta = o.meta) : o1.declared = o.declared := hm

theorem Telling.Given.congr {o o1 : Opt} (hm : o1.meta = o.meta) {x x' : Option Str} (h : Z.Given o x x') : Z.Given o1 x x' := by
  rcases h with ⟨h1, h2⟩ | ⟨h1, h2⟩
  · exact .inl ⟨fun hu => h1 (hu.congr hm.symm), h2⟩
  · refine .inr ⟨h1.congr hm, ?_⟩
    rcases h2 with h2 | ⟨s, s', e1, e2, h3, h4⟩
    · exact .inl h2
    · have e : o1.handler = o.handler := by have := congrArg Opt.handler hm; exact this
      refine .inr ⟨s, s', e1, e2, ?_, ?_⟩
      · rw [e]; exact h3
      · unfold Opt.values at h4 ⊢
        rw [e, declared_congr hm]; exact h4

namespace Retold

variable {o o' : Opt}

theorem eq (h : Retold Z o o') : o' = { o with value := o'.value } := by
  have hs := h.same
  cases o; cases o'
  simp only [Opt.mk.injEq] at hs ⊢
  simp_all

theorem meta_eq (h : Retold Z o o') : o'.meta = o.meta := by
  rw [h.eq]; rfl

/-- An option that reads its texts is the same. -/
theorem reader (h : Retold Z o o') (hu : ¬ o.Unread) : o' = o := by
  rcases h.value with ⟨_, h1⟩ | ⟨h1, _⟩
  · have := h.eq
    rw [h1] at this; exact this
  · exact absurd h1 hu

/-- Changes of what a parse writes. -/
theorem renew (h : Retold Z o o') {o1 o1' : Opt} (hm : o1.meta = o.meta) (hs : { o1' with value := o1.value } = o1)
    (hv : (¬ o.Unread ∧ o1'.value = o1.value) ∨ (o.Unread ∧ ToldVal (Z.text o.declared) o1.value o1'.value)) : Retold Z o1 o1' := by
  refine ⟨hs, ?_, ?_⟩
  · rcases hv with ⟨h1, h2⟩ | ⟨h1, h2⟩
    · exact .inl ⟨fun hu => h1 (hu.congr hm.symm), h2⟩
    · exact .inr ⟨h1.congr hm, by rw [declared_congr hm]; exact h2⟩
  · have e : envVarName Z.envPrefix o1 = envVarName Z.envPrefix o := envVarName_meta hm _
    rw [e]; exact h.says.congr hm

/-- Changes that leave the value. -/
theorem change (h : Retold Z o o') (g : Opt → Opt) (hm : (g o).meta = o.meta)
    (hg : ∀ (x : Opt) (v : Val), g { x with value := v } = { g x with value := v }) : Retold Z (g o) (g o') := by
  have e : g o' = { g o with value := o'.value } := by
    have := hg o o'.value
    rw [← h.eq] at this; exact this
  have e0 : (g o).value = o.value := by
    have := congrArg Opt.value (hg o o.value)
    exact this
  refine h.renew hm ?_ ?_
  · rw [e]
  · rw [e, e0]; exact h.value

/-- The same change of an option that reads its texts. -/
theorem rewrite (h : Retold Z o o') (hu : ¬ o.Unread) {o1 : Opt} (hm : o1.meta = o.meta) : Retold Z o1 o1 :=
  h.renew hm rfl (.inl ⟨hu, rfl⟩)

theorem field {α : Type} (h : Retold Z o o') (g : Opt → α) (hg : ∀ (x : Opt) (v : Val), g { x with value := v } = g x) :
    g o' = g o := by
  have := hg o o'.value
  rw [← h.eq] at this; exact this

theorem type (h : Retold Z o o') : o'.type = o.type := h.field (·.type) (fun _ _ => rfl)
theorem name (h : Retold Z o o') : o'.name = o.name := h.field (·.name) (fun _ _ => rfl)
theorem flags (h : Retold Z o o') : o'.flags = o.flags := h.field (·.flags) (fun _ _ => rfl)
theorem require (h : Retold Z o o') : o'.require = o.require := h.field (·.require) (fun _ _ => rfl)
theorem conflict (h : Retold Z o o') : o'.conflict = o.conflict := h.field (·.conflict) (fun _ _ => rfl)
theorem isSet (h : Retold Z o o') : o'.isSet = o.isSet := h.field (·.isSet) (fun _ _ => rfl)
theorem valueCount (h : Retold Z o o') : o'.valueCount = o.valueCount := h.field (·.valueCount) (fun _ _ => rfl)
theorem isAllocated (h : Retold Z o o') : o'.isAllocated = o.isAllocated := h.field (·.isAllocated) (fun _ _ => rfl)
theorem handler (h : Retold Z o o') : o'.handler = o.handler := h.field (·.handler) (fun _ _ => rfl)
theorem freeHandler (h : Retold Z o o') : o'.freeHandler = o.freeHandler := h.field (·.freeHandler) (fun _ _ => rfl)
theorem subOptions (h : Retold Z o o') : o'.subOptions = o.subOptions := h.field (·.subOptions) (fun _ _ => rfl)
theorem validators (h : Retold Z o o') : o'.validators = o.validators := h.field (·.validators) (fun _ _ => rfl)
theorem valueType (h : Retold Z o o') : o'.valueType = o.valueType := h.field (·.valueType) (fun _ _ => rfl)
theorem markSet (h : Retold Z o o') : Retold Z o.markSet o'.markSet := h.change Opt.markSet rfl (fun _ _ => rfl)

end Retold

/-- Entry by entry. -/
def RetoldRow (Z : Telling) : List Opt → List Opt → Prop
  | [], [] => True
  | o :: os, o' :: os' => Retold Z o o' ∧ RetoldRow Z os os'
  | _, _ => False

theorem retoldRow_of : ∀ {os os' : List Opt}, os'.length = os.length →
    (∀ (i : Nat) (o : Opt), os[i]? = some o → ∃ o', os'[i]? = some o' ∧ Retold Z o o') → RetoldRow Z os os'
  | [], [], _, _ => trivial
  | o :: os, o' :: os', hl, h => by
    refine ⟨?_, retoldRow_of (by simpa using hl) (fun i x hx => ?_)⟩
    · obtain ⟨x, hx, hr⟩ := h 0 o rfl
      simp only [List.getElem?_cons_zero, Option.some.injEq] at hx
      subst hx; exact hr
    · have := h (i + 1) x (by simpa using hx)
      simpa using this
  | [], _ :: _, hl, _ => by simp at hl
  | _ :: _, [], hl, _ => by simp at hl

theorem retoldRow_get : ∀ {os os' : List Opt}, RetoldRow Z os os' → ∀ (i : Nat) (o : Opt), os[i]? = some o →
    ∃ o', os'[i]? = some o' ∧ Retold Z o o'
  | [], [], _, i, o, h => by simp at h
  | o :: os, o' :: os', ⟨h1, h2⟩, i, x, h => by
    cases i with
    | zero =>
      simp only [List.getElem?_cons_zero, Option.some.injEq] at h
      subst h; exact ⟨o', rfl, h1⟩
    | succ i => exact retoldRow_get h2 i x (by simpa using h)
  | [], _ :: _, h, _, _, _ => h.elim
  | _ :: _, [], h, _, _, _ => h.elim

theorem retoldRow_length : ∀ {os os' : List Opt}, RetoldRow Z os os' → os'.length = os.length
  | [], [], _ => rfl
  | _ :: _, _ :: _, ⟨_, h2⟩ => by simp [retoldRow_length h2]
  | [], _ :: _, h => h.elim
  | _ :: _, [], h => h.elim

/-- Two outcomes agree apart from names and texts. -/
def OutTold (Z : Telling) {α : Type} : Out (α × Argus) → Out (α × Argus) → Prop
  | .ok r, .ok s => s.1 = r.1 ∧ ToldOtherwise Z r.2 s.2
  | .ub u, .ub v => u = v
  | _, _ => False

theorem OutTold.ok {α : Type} (s : α) {a b : Argus} (h : ToldOtherwise Z a b) :
    OutTold Z (.ok (s, a)) (.ok (s, b)) := ⟨rfl, h⟩

theorem OutTold.bind {α β : Type} {x y : Out (α × Argus)} {f g : α × Argus → Out (β × Argus)} (h : OutTold Z x y)
    (hf : ∀ s a b, ToldOtherwise Z a b → OutTold Z (f (s, a)) (g (s, b))) :
    OutTold Z (x >>= f) (y >>= g) := by
  cases x with
  | ub u => cases y with
    | ub v => exact h
    | ok r => exact h.elim
  | ok r => cases y with
    | ub v => exact h.elim
    | ok s =>
      obtain ⟨c, a⟩ := r
      obtain ⟨d, b⟩ := s
      obtain ⟨h1, h2⟩ := h
      simp only at h1; subst h1
      exact hf _ a b h2

theorem OutTold.bindWith {α β : Type} {x y : Out (α × Argus)} {f g : α × Argus → Out (β × Argus)} (h : OutTold Z x y)
    (hf : ∀ s a b, x = .ok (s, a) → y = .ok (s, b) → ToldOtherwise Z a b → OutTold Z (f (s, a)) (g (s, b))) :
    OutTold Z (x >>= f) (y >>= g) := by
  cases x with
  | ub u => cases y with
    | ub v => exact h
    | ok r => exact h.elim
  | ok r => cases y with
    | ub v => exact h.elim
    | ok s =>
      obtain ⟨c, a⟩ := r
      obtain ⟨d, b⟩ := s
      obtain ⟨h1, h2⟩ := h
      simp only at h1; subst h1
      exact hf _ a b rfl rfl h2

theorem OutTold.bindSame {α β : Type} (x : Out α) {f g : α → Out (β × Argus)}
    (hf : ∀ r, OutTold Z (f r) (g r)) : OutTold Z (x >>= f) (x >>= g) := by
  cases x with
  | ub u => exact rfl
  | ok r => exact hf r

namespace ToldOtherwise

variable {a b : Argus}

theorem root (h : ToldOtherwise Z a b) : b.root = a.root := by
  have := congrArg Argus.root h.rest; exact this
theorem stack (h : ToldOtherwise Z a b) : b.stack = a.stack := by
  have := congrArg Argus.stack h.rest; exact this
theorem out (h : ToldOtherwise Z a b) : b.out = a.out := by
  have := congrArg Argus.out h.rest; exact this
theorem errorCode (h : ToldOtherwise Z a b) : b.errorCode = a.errorCode := by
  have := congrArg Argus.errorCode h.rest; exact this
theorem row (h : ToldOtherwise Z a b) {k : Nat} {os : List Opt} (hk : a.tables[k]? = some os) :
    ∃ os', b.tables[k]? = some os' ∧ RetoldRow Z os os' := by
  obtain ⟨os', h1, h2⟩ := lengths_getElem h.sizes hk
  refine ⟨os', h1, retoldRow_of h2 (fun i o ho => ?_)⟩
  obtain ⟨o', h3, h4⟩ := h.entries ⟨k, i⟩ o (by simp [placeAt, hk, ho])
  simp only [placeAt, h1, Option.bind_some] at h3
  exact ⟨o', h3, h4⟩

theorem noRow (h : ToldOtherwise Z a b) {k : Nat} (hk : a.tables[k]? = none) : b.tables[k]? = none := by
  cases h1 : b.tables[k]? with
  | none => rfl
  | some os =>
    obtain ⟨os', h2, _⟩ := lengths_getElem h.sizes.symm h1
    rw [hk] at h2; cases h2

theorem ofRows {T T' : List (List Opt)} (hl : T'.length = T.length)
    (h : ∀ (k : Nat) os, T[k]? = some os → ∃ os', T'[k]? = some os' ∧ RetoldRow Z os os') :
    T'.map List.length = T.map List.length ∧
      ∀ p o, placeAt T p = some o → ∃ o', placeAt T' p = some o' ∧ Retold Z o o' := by
  refine ⟨?_, fun p o ho => ?_⟩
  · apply List.ext_getElem?
    intro k
    simp only [List.getElem?_map]
    cases hk : T[k]? with
    | none =>
      have : T'[k]? = none := by rw [List.getElem?_eq_none_iff] at hk ⊢; omega
      rw [this]
    | some os =>
      obtain ⟨os', h1, h2⟩ := h k os hk
      rw [h1]
      simp [retoldRow_length h2]
  · obtain ⟨os, h1, h2⟩ := Option.bind_eq_some_iff.1 ho
    obtain ⟨os', h3, h4⟩ := h p.tbl os h1
    obtain ⟨o', h5, h6⟩ := retoldRow_get h4 p.idx o h2
    exact ⟨o', by simp [placeAt, h3, h5], h6⟩

theorem withTable (h : ToldOtherwise Z a b) (k : Nat) {os os' : List Opt} (hr : RetoldRow Z os os') :
    ToldOtherwise Z { a with tables := a.tables.set k os } { b with tables := b.tables.set k os' } := by
  have hl : b.tables.length = a.tables.length := by
    have := congrArg List.length h.sizes; simpa using this
  obtain ⟨h1, h2⟩ := ofRows (T := a.tables.set k os) (T' := b.tables.set k os') (by simp [hl]) (by
    intro j row hj
    rw [List.getElem?_set] at hj ⊢
    by_cases e : k = j
    · subst e
      rw [if_pos rfl] at hj ⊢
      rw [hl]
      split at hj
      · rename_i hlt
        rw [if_pos hlt]
        cases hj; exact ⟨os', rfl, hr⟩
      · cases hj
    · rw [if_neg e] at hj ⊢
      exact h.row hj)
  exact ⟨h1, h2, congrArg (fun x : Argus => { x with tables := a.tables.set k os }) h.rest, h.envPrefix⟩

theorem setOpt (h : ToldOtherwise Z a b) (p : Ptr) {o o' : Opt} (hr : Retold Z o o') :
    ToldOtherwise Z (a.setOpt p o) (b.setOpt p o') := by
  refine ⟨?_, ?_, congrArg (fun x : Argus => x.setOpt p o) h.rest, h.envPrefix⟩
  · show (putAt b.tables p o').map List.length = (putAt a.tables p o).map List.length
    rw [putAt_sizes, putAt_sizes, h.sizes]
  · intro q x hx
    change placeAt (putAt a.tables p o) q = some x at hx
    show ∃ x', placeAt (putAt b.tables p o') q = some x' ∧ _
    by_cases e : q = p
    · subst e
      cases ha : placeAt a.tables q with
      | none =>
        -- writing to a place that does not exist does nothing
        have : placeAt (putAt a.tables q o) q = none := by
          unfold placeAt putAt at *
          rw [List.getElem?_modify]
          cases hk : a.tables[q.tbl]? with
          | none => rfl
          | some os =>
            rw [hk] at ha
            simp only [Option.bind_some] at ha
            simp only [if_true, Option.map_eq_map, Option.map_some, Option.bind_some]
            rw [List.getElem?_eq_none_iff] at ha ⊢
            simpa using ha
        rw [this] at hx; cases hx
      | some y =>
        obtain ⟨y', hy', _⟩ := h.entries q y ha
        rw [placeAt_put_self ha] at hx
        cases hx
        exact ⟨o', placeAt_put_self hy', hr⟩
    · rw [placeAt_put_ne e] at hx
      rw [placeAt_put_ne e]
      exact h.entries q x hx

theorem emit (h : ToldOtherwise Z a b) (e : Event) : ToldOtherwise Z (a.emit e) (b.emit e) :=
  ⟨h.sizes, h.entries, congrArg (fun x : Argus => x.emit e) h.rest, h.envPrefix⟩

theorem emits (h : ToldOtherwise Z a b) (es : List Event) : ToldOtherwise Z (a.emits es) (b.emits es) := by
  induction es generalizing a b with
  | nil => exact h
  | cons e es ih => exact ih (h.emit e)

theorem report (h : ToldOtherwise Z a b) (c : Int) : ToldOtherwise Z (a.report c) (b.report c) := h.emit _

theorem push (h : ToldOtherwise Z a b) (p : Ptr) :
    ToldOtherwise Z { a with stack := a.stack ++ [p] } { b with stack := b.stack ++ [p] } :=
  ⟨h.sizes, h.entries, congrArg (fun x : Argus => { x with stack := x.stack ++ [p] }) h.rest, h.envPrefix⟩

theorem code (h : ToldOtherwise Z a b) (c : Int) : ToldOtherwise Z { a with errorCode := c } { b with errorCode := c } :=
  ⟨h.sizes, h.entries, congrArg (fun x : Argus => { x with errorCode := c }) h.rest, h.envPrefix⟩

/-- The entry at a place, in both programs. -/
theorem getOpt (h : ToldOtherwise Z a b) (p : Ptr) :
    (∃ o o', a.getOpt p = .ok o ∧ b.getOpt p = .ok o' ∧ Retold Z o o') ∨
      ∃ u, a.getOpt p = .ub u ∧ b.getOpt p = .ub u := by
  unfold Argus.getOpt
  cases hk : a.tables[p.tbl]? with
  | none => rw [h.noRow hk]; exact .inr ⟨_, rfl, rfl⟩
  | some os =>
    obtain ⟨os', h1, h2⟩ := h.row hk
    rw [h1]
    simp only
    cases hi : os[p.idx]? with
    | none =>
      have : os'[p.idx]? = none := by
        rw [List.getElem?_eq_none_iff] at hi ⊢
        rw [retoldRow_length h2]; exact hi
      rw [this]; exact .inr ⟨_, rfl, rfl⟩
    | some o =>
      obtain ⟨o', h3, h4⟩ := retoldRow_get h2 p.idx o hi
      rw [h3]; exact .inl ⟨o, o', rfl, rfl, h4⟩

theorem bindOpt (h : ToldOtherwise Z a b) (p : Ptr) {β : Type} {f g : Opt → Out (β × Argus)}
    (hf : ∀ o o', Retold Z o o' → OutTold Z (f o) (g o')) : OutTold Z (a.getOpt p >>= f) (b.getOpt p >>= g) := by
  rcases h.getOpt p with ⟨o, o', h1, h2, h3⟩ | ⟨u, h1, h2⟩
  · rw [h1, h2]; exact hf o o' h3
  · rw [h1, h2]; exact rfl

theorem bindAt (h : ToldOtherwise Z a b) (p : Ptr) {β : Type} {f g : Opt → Out (β × Argus)}
    (hf : ∀ o o', placeAt a.tables p = some o → Retold Z o o' → OutTold Z (f o) (g o')) :
    OutTold Z (a.getOpt p >>= f) (b.getOpt p >>= g) := by
  rcases h.getOpt p with ⟨o, o', h1, h2, h3⟩ | ⟨u, h1, h2⟩
  · obtain ⟨os, e1, e2⟩ := getOpt_eq_ok.1 h1
    rw [h1, h2]; exact hf o o' (by simp [placeAt, e1, e2]) h3
  · rw [h1, h2]; exact rfl

theorem bindTable (h : ToldOtherwise Z a b) (t : Option Nat) {β : Type} {f g : List Opt → Out (β × Argus)}
    (hf : ∀ os os', RetoldRow Z os os' → OutTold Z (f os) (g os')) :
    OutTold Z (a.table t >>= f) (b.table t >>= g) := by
  unfold Argus.table
  cases t with
  | none => exact rfl
  | some k =>
    simp only
    cases hk : a.tables[k]? with
    | none => rw [h.noRow hk]; exact rfl
    | some os =>
      obtain ⟨os', h1, h2⟩ := h.row hk
      rw [h1]; exact hf os os' h2

theorem activeOptions (h : ToldOtherwise Z a b) : b.activeOptions = a.activeOptions := by
  unfold Argus.activeOptions
  rw [h.stack, h.root]
  cases a.stack.getLast? with
  | none => rfl
  | some p =>
    simp only
    rcases h.getOpt p with ⟨o, o', h1, h2, h3⟩ | ⟨u, h1, h2⟩
    · rw [h1, h2, Out.ok_bind, Out.ok_bind, h3.subOptions]
    · rw [h1, h2]

end ToldOtherwise

/-! ### Handlers -/

theorem Alongside.length {α : Type} {r : α → α → Prop} : ∀ {xs ys : List α}, Alongside r xs ys → ys.length = xs.length
  | [], [], _ => rfl
  | _ :: _, _ :: _, h => by simp [Alongside.length h.2]
  | [], _ :: _, h => h.elim
  | _ :: _, [], h => h.elim

theorem Alongside.append {α : Type} {r : α → α → Prop} : ∀ {xs ys xs' ys' : List α}, Alongside r xs ys → Alongside r xs' ys' →
    Alongside r (xs ++ xs') (ys ++ ys')
  | [], [], _, _, _, h => h
  | _ :: _, _ :: _, _, _, h, h' => ⟨h.1, Alongside.append h.2 h'⟩
  | [], _ :: _, _, _, h, _ => h.elim
  | _ :: _, [], _, _, h, _ => h.elim

theorem Alongside.set {α : Type} {r : α → α → Prop} : ∀ {xs ys : List α}, Alongside r xs ys → ∀ (i : Nat) {x y : α}, r x y →
    Alongside r (xs.set i x) (ys.set i y)
  | [], [], _, _, _, _, _ => trivial
  | _ :: _, _ :: _, h, 0, _, _, hx => ⟨hx, h.2⟩
  | _ :: _, _ :: _, h, i + 1, _, _, hx => ⟨h.1, Alongside.set h.2 i hx⟩
  | [], _ :: _, h, _, _, _, _ => h.elim
  | _ :: _, [], h, _, _, _, _ => h.elim

theorem Alongside.take {α : Type} {r : α → α → Prop} : ∀ {xs ys : List α}, Alongside r xs ys → ∀ n : Nat,
    Alongside r (xs.take n) (ys.take n)
  | [], [], _, _ => by simp [Alongside]
  | _ :: _, _ :: _, _, 0 => trivial
  | _ :: _, _ :: _, h, n + 1 => ⟨h.1, Alongside.take h.2 n⟩
  | [], _ :: _, h, _ => h.elim
  | _ :: _, [], h, _ => h.elim

theorem Alongside.all {α : Type} {r : α → α → Prop} {f : α → Bool} (hf : ∀ x y, r x y → f y = f x) : ∀ {xs ys : List α},
    Alongside r xs ys → ys.all f = xs.all f
  | [], [], _ => rfl
  | _ :: _, _ :: _, h => by simp only [List.all_cons, hf _ _ h.1, Alongside.all hf h.2]
  | [], _ :: _, h => h.elim
  | _ :: _, [], h => h.elim

theorem Alongside.same {α : Type} {r : α → α → Prop} {x : α} (hx : r x x) : ∀ n : Nat,
    Alongside r (List.replicate n x) (List.replicate n x)
  | 0 => trivial
  | n + 1 => ⟨hx, Alongside.same hx n⟩

section

variable {r : Str → Str → Prop}

theorem toldWord_null {w w' : Word} (h : ToldWord r w w') : w' = .null ↔ w = .null := by
  cases w <;> cases w' <;> simp_all [ToldWord, Word.null]

theorem toldWord_string {w w' : Word} (h : ToldWord r w w') : w'.asString.isOk = w.asString.isOk := by
  cases w <;> cases w' <;> simp_all [ToldWord] <;> rfl

theorem toldVal_word {w : Word} {v' : Val} (h : ToldVal r (.word w) v') : ∃ w', v' = .word w' ∧ ToldWord r w w' := by
  cases v' with
  | word w' => exact ⟨w', rfl, h⟩
  | arr cs => exact absurd (show Val.arr cs = Val.word w from h) (by simp)
  | map cs => exact absurd (show Val.map cs = Val.word w from h) (by simp)
  | dangling => exact absurd (show Val.dangling = Val.word w from h) (by simp)

theorem toldVal_arr {cs : List Word} {v' : Val} (h : ToldVal r (.arr cs) v') : ∃ cs', v' = .arr cs' ∧ Alongside (ToldWord r) cs cs' := by
  cases v' with
  | arr cs' => exact ⟨cs', rfl, h⟩
  | word w => exact absurd (show Val.word w = Val.arr cs from h) (by simp)
  | map cs' => exact absurd (show Val.map cs' = Val.arr cs from h) (by simp)
  | dangling => exact absurd (show Val.dangling = Val.arr cs from h) (by simp)

theorem toldVal_map {cs : List (Str × Word)} {v' : Val} (h : ToldVal r (.map cs) v') : v' = .map cs := by
  cases v' <;> exact h

theorem toldVal_dangling {v' : Val} (h : ToldVal r .dangling v') : v' = .dangling := by
  cases v' <;> exact h

/-- Two results, one beside the other. -/
def OutPair {α : Type} (P : α → α → Prop) : Out α → Out α → Prop
  | .ok x, .ok y => P x y
  | .ub u, .ub v => u = v
  | _, _ => False

theorem OutPair.bind {α β : Type} {P : α → α → Prop} {Q : β → β → Prop} {x y : Out α} {f g : α → Out β} (h : OutPair P x y)
    (hf : ∀ x y, P x y → OutPair Q (f x) (g y)) : OutPair Q (x >>= f) (y >>= g) := by
  cases x with
  | ub u => cases y with
    | ub v => exact h
    | ok s => exact h.elim
  | ok q => cases y with
    | ub v => exact h.elim
    | ok s => exact hf q s h

/-- Two states of an option that differ in texts. -/
def OtherTexts (r : Str → Str → Prop) (o o' : Opt) : Prop := o' = { o with value := o'.value } ∧ ToldVal r o.value o'.value

theorem OtherTexts.intro {o : Opt} {v' : Val} (h : ToldVal r o.value v') : OtherTexts r o { o with value := v' } := ⟨rfl, h⟩

theorem adjustArray_told {o o' : Opt} (h : OtherTexts r o o') : OutPair (OtherTexts r) (adjustArray o) (adjustArray o') := by
  obtain ⟨h1, h2⟩ := h
  rw [h1]
  unfold adjustArray
  cases hv : o.value with
  | word w =>
    rw [hv] at h2
    obtain ⟨w', e, hw⟩ := toldVal_word h2
    rw [e]
    simp only
    by_cases hn : w = .null
    · rw [if_pos hn, if_pos ((toldWord_null hw).2 hn)]
      exact ⟨rfl, trivial⟩
    · rw [if_neg hn, if_neg (fun h => hn ((toldWord_null hw).1 h))]
      exact rfl
  | arr cs =>
    rw [hv] at h2
    obtain ⟨cs', e, hc⟩ := toldVal_arr h2
    rw [e]
    simp only
    split
    · exact ⟨rfl, hc⟩
    · exact ⟨rfl, by rw [hv]; exact hc⟩
  | map cs =>
    rw [hv] at h2
    rw [toldVal_map h2]; exact rfl
  | dangling =>
    rw [hv] at h2
    rw [toldVal_dangling h2]; exact rfl

theorem storeCell_told {o o' : Opt} (h : OtherTexts r o o') {w w' : Word} (hw : ToldWord r w w') :
    OutPair (OtherTexts r) (storeCell o w) (storeCell o' w') := by
  obtain ⟨h1, h2⟩ := h
  rw [h1]
  unfold storeCell
  cases hv : o.value with
  | word x =>
    rw [hv] at h2
    obtain ⟨w', e, _⟩ := toldVal_word h2
    rw [e]; exact rfl
  | arr cs =>
    rw [hv] at h2
    obtain ⟨cs', e, hc⟩ := toldVal_arr h2
    rw [e]
    simp only
    have hl := hc.length
    unfold writeCell
    by_cases h3 : o.valueCapacity ≤ o.valueCount
    · rw [if_pos h3, if_pos h3]; exact rfl
    · rw [if_neg h3, if_neg h3, hl]
      by_cases h4 : o.valueCount < cs.length
      · rw [if_pos h4, if_pos h4]
        exact ⟨rfl, hc.set _ hw⟩
      · rw [if_neg h4, if_neg h4]
        exact ⟨rfl, (hc.append (Alongside.same (show ToldWord r .undef .undef from rfl) _)).append ⟨hw, trivial⟩⟩
  | map cs =>
    rw [hv] at h2
    rw [toldVal_map h2]; exact rfl
  | dangling =>
    rw [hv] at h2
    rw [toldVal_dangling h2]; exact rfl

theorem applyArrayFlags_plain {W : World} {o : Opt} (h1 : o.flags.has .sorted = false) (h2 : o.flags.has .unique = false) :
    applyArrayFlags W o = .ok o := by
  unfold applyArrayFlags
  split
  · rfl
  · cases o.valueType.arrayKind with
    | none => rfl
    | some k =>
      simp only [applySorted, h1, Bool.false_eq_true, if_false, Out.ok_bind, applyUnique, h2]

/-- The same status, the same messages, and an option that differs in texts. -/
def HTold (r : Str → Str → Prop) (x x' : HRes) : Prop := x'.1 = x.1 ∧ x'.2.2 = x.2.2 ∧ OtherTexts r x.2.1 x'.2.1

theorem setValueString_retold {o o' : Opt} (h : OtherTexts r o o') {s s' : Str} (hs : r s s') :
    OutPair (HTold r) (setValueString o s) (setValueString o' s') := by
  unfold setValueString pushCell
  refine OutPair.bind (P := OtherTexts r) ((adjustArray_told h).bind (fun x y hx => storeCell_told hx hs)) (fun x y hx => ⟨rfl, rfl, hx⟩)

theorem setAll_retold : ∀ {xs ys : List Str}, Alongside r xs ys → ∀ {o o' : Opt}, OtherTexts r o o' →
    OutPair (HTold r) (setAll setValueString o xs) (setAll setValueString o' ys)
  | [], [], _, o, o', h => ⟨rfl, rfl, h⟩
  | x :: xs, y :: ys, ⟨h1, h2⟩, o, o', h => by
    unfold setAll
    refine (setValueString_retold h h1).bind (fun p q hp => ?_)
    rw [hp.1]
    split
    · exact hp
    · refine (setAll_retold h2 hp.2.2).bind (fun p' q' hp' => ⟨hp'.1, ?_, hp'.2.2⟩)
      simp only [hp.2.1, hp'.2.1]
  | [], _ :: _, h, _, _, _ => h.elim
  | _ :: _, [], h, _, _, _ => h.elim

end

theorem OtherTexts.flags {r : Str → Str → Prop} {o o' : Opt} (h : OtherTexts r o o') : o'.flags = o.flags := by
  rw [h.1]

/-- What the handler of an option that does not read its texts makes of two texts. -/
theorem told_runHandler {W : World} {a : Argus} {o o' : Opt} {hd : Handler} {r : Str → Str → Prop} (hu : o.Unread) (hh : o.handler = some hd)
    (h : OtherTexts r o o') {x x' : Option Str} (hx : (x = none ∧ x' = none) ∨ ∃ s s', x = some s ∧ x' = some s' ∧
      (o.handler = some .arrayString → s'.contains 44 = s.contains 44) ∧ Alongside r (o.values s) (o.values s')) :
    OutPair (HTold r) (runHandler W a hd o x) (runHandler W a hd o' x') := by
  rcases hu.handler with hk | ⟨hk | hk, hf1, hf2⟩
  · rw [hh] at hk; cases hk
    have key : ToldWord r (.ofArg x) (.ofArg x') := by
      rcases hx with ⟨rfl, rfl⟩ | ⟨s, s', rfl, rfl, _, h2⟩
      · exact rfl
      · have e : ∀ t, o.values t = [t] := fun t => by
          unfold Opt.values; rw [hh, if_neg (by simp)]
        rw [e, e] at h2
        exact h2.1
    refine ⟨rfl, rfl, ?_, key⟩
    simp only
    rw [h.1]
  · rw [hh] at hk; cases hk
    rcases hx with ⟨rfl, rfl⟩ | ⟨s, s', rfl, rfl, h1, h2⟩
    · exact rfl
    · simp only [runHandler, collect]
      have hs : OutPair (HTold r) (storeParts setValueString o s) (storeParts setValueString o' s') := by
        have h1 := h1 hh
        unfold storeParts
        unfold Opt.values at h2
        simp only [hh, true_and, h1] at h2
        rw [h1]
        by_cases hc : s.contains 44 = true
        · rw [if_pos hc, if_pos hc] at h2
          rw [if_pos hc, if_pos hc]
          exact setAll_retold h2 h
        · rw [if_neg hc, if_neg hc] at h2
          rw [if_neg hc, if_neg hc]
          exact setValueString_retold h h2.1
      cases e1 : storeParts setValueString o s with
      | ub u =>
        cases e2 : storeParts setValueString o' s' with
        | ub v => rw [e1, e2] at hs; exact hs
        | ok q => rw [e1, e2] at hs; exact hs.elim
      | ok p =>
        cases e2 : storeParts setValueString o' s' with
        | ub v => rw [e1, e2] at hs; exact hs.elim
        | ok q =>
          rw [e1, e2] at hs
          have hm : p.2.1.meta = o.meta := by
            unfold storeParts at e1
            split at e1
            · exact setAll_meta setValueString_meta _ e1
            · exact setValueString_meta _ _ _ e1
          have hfl : p.2.1.flags = o.flags := by have := congrArg Opt.flags hm; exact this
          simp only [Out.ok_bind]
          rw [hs.1]
          split
          · exact hs
          · rw [applyArrayFlags_plain (by rw [hfl]; exact hf1) (by rw [hfl]; exact hf2),
              applyArrayFlags_plain (by rw [hs.2.2.flags, hfl]; exact hf1) (by rw [hs.2.2.flags, hfl]; exact hf2)]
            refine ⟨rfl, hs.2.1, ?_, hs.2.2.2⟩
            simp only
            have := hs.2.2.1
            exact congrArg (fun z : Opt => { z with isAllocated := true }) this
  · rw [hh] at hk; cases hk
    simp only [runHandler, variadicNum]
    cases e1 : adjustArray o with
    | ub u =>
      have := adjustArray_told h
      cases e2 : adjustArray o' with
      | ub v => rw [e1, e2] at this; exact this
      | ok q => rw [e1, e2] at this; exact this.elim
    | ok p =>
      have ha := adjustArray_told h
      cases e2 : adjustArray o' with
      | ub v => rw [e1, e2] at ha; exact ha.elim
      | ok q =>
        rw [e1, e2] at ha
        simp only [Out.ok_bind]
        rcases hx with ⟨rfl, rfl⟩ | ⟨s, s', rfl, rfl, _, h2⟩
        · exact rfl
        · have e : ∀ t, o.values t = [t] := fun t => by
            unfold Opt.values; rw [hh, if_neg (by simp)]
          rw [e, e] at h2
          simp only
          have hst := storeCell_told (w := .ptr s) (w' := .ptr s') ha h2.1
          cases e3 : storeCell p (.ptr s) with
          | ub u =>
            cases e4 : storeCell q (.ptr s') with
            | ub v => rw [e3, e4] at hst; exact hst
            | ok q => rw [e3, e4] at hst; exact hst.elim
          | ok p1 =>
            cases e4 : storeCell q (.ptr s') with
            | ub v => rw [e3, e4] at hst; exact hst.elim
            | ok q1 =>
              rw [e3, e4] at hst
              have hm : p1.meta = o.meta := (storeCell_meta e3).trans (adjustArray_meta e1)
              have hfl : p1.flags = o.flags := by have := congrArg Opt.flags hm; exact this
              simp only [Out.ok_bind]
              rw [applyArrayFlags_plain (by rw [hfl]; exact hf1) (by rw [hfl]; exact hf2),
                applyArrayFlags_plain (by rw [hst.flags, hfl]; exact hf1) (by rw [hst.flags, hfl]; exact hf2)]
              exact ⟨rfl, rfl, congrArg (fun z : Opt => { z with isAllocated := true }) hst.1, hst.2⟩

/-! ### Carrying it out -/

section

variable {W : World}

theorem told_runPreAll {arg : Option Str} : ∀ (vs : List Validator) {a b : Argus}, ToldOtherwise Z a b →
    OutTold Z (runPreAll W a arg vs) (runPreAll W b arg vs)
  | [], a, b, h => .ok _ h
  | v :: vs, a, b, h => by
    unfold runPreAll
    split
    · refine .bindSame _ (fun r => ?_)
      simp only
      split
      · exact .ok _ (h.emits _)
      · exact told_runPreAll vs (h.emits _)
    · exact told_runPreAll vs h

theorem runPreAll_post {a : Argus} {x : Option Str} : ∀ {vs : List Validator}, (∀ v ∈ vs, v.order = .post) →
    runPreAll W a x vs = .ok (Err.success, a)
  | [], _ => rfl
  | v :: vs, h => by
    unfold runPreAll
    rw [if_neg (by rw [h v (List.mem_cons_self ..)]; decide)]
    exact runPreAll_post (fun u hu => h u (List.mem_cons_of_mem _ hu))

theorem Retold.otherTexts {o o' : Opt} (h : Retold Z o o') (hu : o.Unread) : OtherTexts (Z.text o.declared) o o' := by
  rcases h.value with ⟨h1, _⟩ | ⟨_, h1⟩
  · exact absurd hu h1
  · exact ⟨h.eq, h1⟩

theorem OtherTexts.retold {o o' o1 o1' : Opt} (h : Retold Z o o') (hu : o.Unread) (hm : o1.meta = o.meta)
    (h1 : OtherTexts (Z.text o.declared) o1 o1') : Retold Z o1 o1' :=
  h.renew hm (by rw [h1.1]) (.inr ⟨hu, h1.2⟩)

theorem told_execCallbacks {a b : Argus} (h : ToldOtherwise Z a b) (p : Ptr) {x x' : Option Str}
    (hx : ∀ o, placeAt a.tables p = some o → Z.Given o x x') :
    OutTold Z (execCallbacks W a p x) (execCallbacks W b p x') := by
  unfold execCallbacks
  refine h.bindAt p (fun o o' ho hr => ?_)
  rw [hr.handler]
  cases hh : o.handler with
  | none => exact .ok _ (h.report _)
  | some k =>
    simp only [hr.validators]
    rcases hx o ho with ⟨hu, rfl⟩ | ⟨hu, hg⟩
    · cases hr.reader hu
      refine (told_runPreAll _ h).bind (fun s a1 b1 h1 => ?_)
      simp only
      split
      · exact .ok _ h1
      · rw [runHandler_active h1.activeOptions]
        cases hrun : runHandler W a1 k o x' with
        | ub u => exact rfl
        | ok r =>
          have hr1 := hr.rewrite hu (runHandler_meta hrun)
          simp only [Out.ok_bind]
          split
          · exact .ok _ ((h1.emits _).setOpt _ hr1)
          · exact .ok _ ((h1.emits _).setOpt _ hr1.markSet)
    · rw [runPreAll_post (fun v hv => (hu.checks v hv).1), runPreAll_post (fun v hv => (hu.checks v hv).1)]
      simp only [Out.ok_bind]
      rw [if_neg (by simp), if_neg (by simp), runHandler_active h.activeOptions]
      have key := told_runHandler (W := W) (a := a) hu hh (hr.otherTexts hu) (x := x) (x' := x') (by
        rcases hg with hg | ⟨s, s', e1, e2, e3⟩
        · exact .inl hg
        · exact .inr ⟨s, s', e1, e2, e3.list, e3.values⟩)
      cases e1 : runHandler W a k o x with
      | ub u =>
        cases e2 : runHandler W a k o' x' with
        | ub v => rw [e1, e2] at key; exact key
        | ok q => rw [e1, e2] at key; exact key.elim
      | ok r =>
        cases e2 : runHandler W a k o' x' with
        | ub v => rw [e1, e2] at key; exact key.elim
        | ok q =>
          rw [e1, e2] at key
          obtain ⟨k1, k2, k3⟩ := key
          have hr1 := k3.retold hr hu (runHandler_meta e1)
          simp only [Out.ok_bind]
          rw [k1, k2]
          split
          · exact .ok _ ((h.emits _).setOpt _ hr1)
          · rw [hr1.markSet.flags]
            exact .ok _ ((h.emits _).setOpt _ hr1.markSet)

theorem placeAt_meta {a a1 : Argus} (hs : a1.shape = a.shape) {p : Ptr} {o1 : Opt} (h : placeAt a1.tables p = some o1) :
    ∃ o, placeAt a.tables p = some o ∧ o1.meta = o.meta := by
  have e : ∀ c : Argus, (placeAt c.tables p).map Opt.meta = (c.shape[p.tbl]?).bind (fun os => os[p.idx]?) := by
    intro c
    unfold placeAt Argus.shape
    rw [List.getElem?_map]
    cases c.tables[p.tbl]? with
    | none => rfl
    | some os => simp
  have e1 := e a1
  rw [hs, ← e a, h] at e1
  cases ho : placeAt a.tables p with
  | none => rw [ho] at e1; cases e1
  | some o =>
    rw [ho] at e1
    simp only [Option.map_some, Option.some.injEq] at e1
    exact ⟨o, rfl, e1⟩

/-- What is asked stays told when the parse has gone on. -/
theorem Telling.Asks.congr {a a1 : Argus} (hs : a1.shape = a.shape) : ∀ {x y : Act}, Z.Asks a.tables x y → Z.Asks a1.tables x y
  | .give p x, .give q x', ⟨h1, h2⟩ => ⟨h1, fun o ho => by
      obtain ⟨o0, g1, g2⟩ := placeAt_meta hs ho
      exact (h2 o0 g1).congr g2⟩
  | .give _ _, .enter _, h => h
  | .give _ _, .fail _, h => h
  | .give _ _, .noTable, h => h
  | .enter _, _, h => h
  | .fail _, _, h => h
  | .noTable, _, h => h

theorem Alongside.imp {α : Type} {r q : α → α → Prop} (hi : ∀ x y, r x y → q x y) : ∀ {xs ys : List α}, Alongside r xs ys → Alongside q xs ys
  | [], [], _ => trivial
  | _ :: _, _ :: _, h => ⟨hi _ _ h.1, Alongside.imp hi h.2⟩
  | [], _ :: _, h => h.elim
  | _ :: _, [], h => h.elim

theorem told_run : ∀ (acts acts' : List Act) {a b : Argus}, ToldOtherwise Z a b → Alongside (Z.Asks a.tables) acts acts' →
    OutTold Z (run W a acts) (run W b acts')
  | [], [], a, b, h, _ => .ok _ h
  | .give p x :: rest, y :: rest', a, b, h, hx => by
    obtain ⟨hy, hrest⟩ := hx
    cases y with
    | give q x' =>
      obtain ⟨rfl, hy⟩ := hy
      unfold run
      have key := told_execCallbacks (W := W) h q hy
      cases e1 : execCallbacks W a q x with
      | ub u =>
        cases e2 : execCallbacks W b q x' with
        | ub v => rw [e1, e2] at key; exact key
        | ok r => rw [e1, e2] at key; exact key.elim
      | ok r =>
        cases e2 : execCallbacks W b q x' with
        | ub v => rw [e1, e2] at key; exact key.elim
        | ok r' =>
          rw [e1, e2] at key
          obtain ⟨k1, k2⟩ := key
          simp only [Out.ok_bind]
          rw [k1]
          split
          · exact ⟨k1, k2⟩
          · exact told_run rest rest' k2 (hrest.imp (fun _ _ h => h.congr ((execCallbacks_one e1).frame.shape)))
    | enter _ => exact absurd (show Act.enter _ = Act.give _ _ from hy) (by simp)
    | fail _ => exact absurd (show Act.fail _ = Act.give _ _ from hy) (by simp)
    | noTable => exact absurd (show Act.noTable = Act.give _ _ from hy) (by simp)
  | .enter p :: rest, y :: rest', a, b, h, hx => by
    obtain ⟨hy, hrest⟩ := hx
    have hy : y = .enter p := by cases y <;> exact hy
    subst hy
    unfold run
    have key : OutTold Z (enterSub a p) (enterSub b p) := by
      unfold enterSub
      refine h.bindOpt p (fun o o' hr => ?_)
      have h1 := (h.setOpt p (hr.change (fun x => { x with isSet := true }) rfl (fun _ _ => rfl))).push p
      rw [h.stack]
      split
      · exact rfl
      · exact ⟨hr.subOptions, h1⟩
    cases e1 : enterSub a p with
    | ub u =>
      cases e2 : enterSub b p with
      | ub v => rw [e1, e2] at key; exact key
      | ok r => rw [e1, e2] at key; exact key.elim
    | ok r =>
      cases e2 : enterSub b p with
      | ub v => rw [e1, e2] at key; exact key.elim
      | ok r' =>
        rw [e1, e2] at key
        simp only [Out.ok_bind]
        exact told_run rest rest' key.2 (hrest.imp (fun _ _ h => h.congr ((enterSub_frame e1).1.shape)))
  | .fail c :: rest, y :: rest', a, b, h, hx => by
    have hy : y = .fail c := by cases y <;> exact hx.1
    subst hy; exact .ok _ (h.report _)
  | .noTable :: rest, y :: rest', a, b, _, hx => by
    have hy : y = .noTable := by cases y <;> exact hx.1
    subst hy; exact rfl
  | [], _ :: _, _, _, _, h => h.elim
  | _ :: _, [], _, _, _, h => by cases h

theorem setValueString_status {o : Opt} {s : Str} {q : HRes} (h : setValueString o s = .ok q) : q.1 = Err.success := by
  unfold setValueString at h
  obtain ⟨x, _, h1⟩ := Out.bind_eq_ok h
  simp only [Out.ok.injEq] at h1; subst h1; rfl

theorem setAll_status : ∀ {xs : List Str} {o : Opt} {q : HRes}, setAll setValueString o xs = .ok q → q.1 = Err.success
  | [], o, q, h => by
    simp only [setAll, Out.ok.injEq] at h; subst h; rfl
  | x :: xs, o, q, h => by
    unfold setAll at h
    obtain ⟨y, hy, h1⟩ := Out.bind_eq_ok h
    rw [if_neg (by simp [setValueString_status hy])] at h1
    obtain ⟨z, hz, h2⟩ := Out.bind_eq_ok h1
    simp only [Out.ok.injEq] at h2; subst h2
    exact (setAll_status hz : z.1 = _)

/-- An option that does not read its texts refuses none. -/
theorem unread_status {a a1 : Argus} {p : Ptr} {o : Opt} {x : Option Str} {s : Int} (hu : o.Unread) (ho : a.getOpt p = .ok o)
    (h : execCallbacks W a p x = .ok (s, a1)) : s = Err.success := by
  unfold execCallbacks at h
  rw [ho, Out.ok_bind] at h
  cases hh : o.handler with
  | none => have := hu.handler; simp [hh] at this
  | some k =>
    rw [hh] at h
    simp only at h
    rw [runPreAll_post (fun v hv => (hu.checks v hv).1)] at h
    simp only [Out.ok_bind] at h
    rw [if_neg (by simp)] at h
    obtain ⟨q, hq, h1⟩ := Out.bind_eq_ok h
    have hs : q.1 = Err.success := by
      rcases hu.handler with hk | ⟨hk | hk, _⟩
      · rw [hh] at hk; cases hk
        simp only [runHandler, Out.ok.injEq] at hq; subst hq; rfl
      · rw [hh] at hk; cases hk
        simp only [runHandler, collect] at hq
        cases x with
        | none => cases hq
        | some v =>
          simp only at hq
          obtain ⟨y, hy, h2⟩ := Out.bind_eq_ok hq
          split at h2
          · simp only [Out.ok.injEq] at h2; subst h2
            unfold storeParts at hy
            split at hy
            · exact setAll_status hy
            · exact setValueString_status hy
          · obtain ⟨z, _, h3⟩ := Out.bind_eq_ok h2
            simp only [Out.ok.injEq] at h3; subst h3; rfl
      · rw [hh] at hk; cases hk
        simp only [runHandler, variadicNum] at hq
        obtain ⟨y, _, h2⟩ := Out.bind_eq_ok hq
        cases x with
        | none => cases h2
        | some v =>
          simp only at h2
          obtain ⟨z, _, h3⟩ := Out.bind_eq_ok h2
          obtain ⟨w, _, h4⟩ := Out.bind_eq_ok h3
          simp only [Out.ok.injEq] at h4; subst h4; rfl
    have hf : q.2.1.markSet.flags = o.flags := by
      have := congrArg Opt.flags (runHandler_meta hq); exact this
    rw [if_neg (by simp [hs]), Out.ok.injEq, Prod.mk.injEq] at h1
    rw [hf, hu.goesOn] at h1
    exact h1.1.symm

/-! ### The environment -/

theorem told_loadEnvStep {a b : Argus} (h : ToldOtherwise Z a b) (p : Ptr) :
    OutTold Z (loadEnvStep W Z.env a p) (loadEnvStep W Z.env' b p) := by
  have hbp : b.envPrefix = a.envPrefix := by have := congrArg Argus.envPrefix h.rest; exact this
  unfold loadEnvStep
  refine h.bindAt p (fun o o' ho hr => ?_)
  rw [hbp, h.envPrefix, hr.type, hr.isSet, hr.flags, envVarName_meta hr.meta_eq]
  split
  · exact .ok _ h
  split
  · exact .ok _ h
  have hs := hr.says
  cases hn : envVarName Z.envPrefix o with
  | none => exact .ok _ h
  | some n =>
    simp only
    rw [hn, Option.bind_some, Option.bind_some] at hs
    have hnone : Z.env' n = none ↔ Z.env n = none := by
      rcases hs with ⟨_, e⟩ | ⟨_, ⟨e1, e2⟩ | ⟨s, s', e1, e2, _⟩⟩
      · rw [e]
      · rw [e1, e2]
      · rw [e1, e2]; simp
    cases hv : Z.env n with
    | none => rw [hnone.2 hv]; exact .ok _ h
    | some v =>
      cases hv' : Z.env' n with
      | none => rw [hnone.1 hv'] at hv; cases hv
      | some v' =>
        rw [hv, hv'] at hs
        simp only
        have key := told_execCallbacks (W := W) h p (x := some v) (x' := some v') (fun x hx => by
          rw [ho] at hx; cases hx; exact hs)
        refine key.bindWith (fun s a1 b1 e1 e2 h1 => ?_)
        simp only
        split
        · split
          · by_cases hu : o.Unread
            · rename_i hne _
              exact absurd (unread_status hu (placeAt_getOpt.1 ho) e1) hne
            · cases hr.reader hu
              refine h1.bindAt p (fun o1 o1' ho1 hr1 => .ok _ (h1.setOpt p ?_))
              obtain ⟨o0, g1, g2⟩ := placeAt_meta ((execCallbacks_one e1).frame.shape) ho1
              rw [ho] at g1; cases g1
              have hu1 : ¬ o1.Unread := fun h => hu (h.congr g2.symm)
              cases hr1.reader hu1
              exact hr1.rewrite hu1 rfl
          · exact .ok _ h1
        · exact .ok _ h1

theorem told_loadEnvLoop (j : Nat) : ∀ (n i : Nat) {a b : Argus},
    ToldOtherwise Z a b → OutTold Z (loadEnvLoop W Z.env j n i a) (loadEnvLoop W Z.env' j n i b)
  | 0, i, a, b, h => .ok _ h
  | n + 1, i, a, b, h => by
    unfold loadEnvLoop
    refine (told_loadEnvStep h _).bind (fun s a1 b1 h1 => ?_)
    simp only
    split
    · exact .ok _ h1
    · exact told_loadEnvLoop j n (i + 1) h1

theorem told_loadEnvTable (j : Nat) {a b : Argus} (h : ToldOtherwise Z a b) :
    OutTold Z (loadEnvTable W Z.env a j) (loadEnvTable W Z.env' b j) := by
  unfold loadEnvTable
  refine h.bindTable (some j) (fun os os' hr => ?_)
  rw [retoldRow_length hr]
  exact told_loadEnvLoop j _ _ h

theorem told_loadEnvStack : ∀ (ps : List Ptr) {a b : Argus}, ToldOtherwise Z a b →
    OutTold Z (loadEnvStack W Z.env a ps) (loadEnvStack W Z.env' b ps)
  | [], a, b, h => .ok _ h
  | p :: ps, a, b, h => by
    unfold loadEnvStack
    refine h.bindOpt p (fun o o' hr => ?_)
    rw [hr.subOptions]
    cases o.subOptions with
    | none => exact told_loadEnvStack ps h
    | some k =>
      simp only
      refine (told_loadEnvTable k h).bind (fun s a1 b1 h1 => ?_)
      simp only
      split
      · exact .ok _ h1
      · exact told_loadEnvStack ps h1

theorem told_loadEnvVars {a b : Argus} (h : ToldOtherwise Z a b) :
    OutTold Z (loadEnvVars W Z.env a) (loadEnvVars W Z.env' b) := by
  unfold loadEnvVars
  rw [h.root]
  refine (told_loadEnvTable _ h).bind (fun s a1 b1 h1 => ?_)
  simp only
  split
  · exact .ok _ h1
  · rw [h1.stack]; exact told_loadEnvStack _ h1

/-! ### Validation -/

theorem findName_retold : ∀ {os os' : List Opt}, RetoldRow Z os os' → ∀ n : Str, findName os' n = findName os n
  | [], [], _, _ => rfl
  | o :: os, o' :: os', ⟨h1, h2⟩, n => by
    have ih := findName_retold h2 n
    unfold findName at ih ⊢
    rw [List.findIdx?_cons, List.findIdx?_cons, ih, h1.name]
  | [], _ :: _, h, _ => h.elim
  | _ :: _, [], h, _ => h.elim

theorem told_retold {os os' : List Opt} (h : RetoldRow Z os os') (n : Str) :
    ((findName os' n).bind (fun i => os'[i]?) = none ∧ (findName os n).bind (fun i => os[i]?) = none) ∨
    ∃ o o', (findName os n).bind (fun i => os[i]?) = some o ∧ (findName os' n).bind (fun i => os'[i]?) = some o' ∧
      Retold Z o o' := by
  rw [findName_retold h]
  cases findName os n with
  | none => exact .inl ⟨rfl, rfl⟩
  | some i =>
    simp only [Option.bind_some]
    cases hi : os[i]? with
    | none =>
      refine .inl ⟨?_, rfl⟩
      rw [List.getElem?_eq_none_iff] at hi ⊢
      rw [retoldRow_length h]; exact hi
    | some o =>
      obtain ⟨o', h1, h2⟩ := retoldRow_get h i o hi
      exact .inr ⟨o, o', rfl, h1, h2⟩

theorem told_validateRequired {os os' : List Opt} (h : RetoldRow Z os os') : ∀ ns : List Str,
    validateRequired os' ns = validateRequired os ns
  | [] => rfl
  | n :: ns => by
    unfold validateRequired
    rcases told_retold h n with ⟨h1, h2⟩ | ⟨o, o', h1, h2, h3⟩
    · rw [h1, h2]; exact told_validateRequired h ns
    · rw [h1, h2]
      simp only [h3.isSet, told_validateRequired h ns]

theorem told_validateConflicts {os os' : List Opt} (h : RetoldRow Z os os') : ∀ ns : List Str,
    validateConflicts os' ns = validateConflicts os ns
  | [] => rfl
  | n :: ns => by
    unfold validateConflicts
    rcases told_retold h n with ⟨h1, h2⟩ | ⟨o, o', h1, h2, h3⟩
    · rw [h1, h2]; exact told_validateConflicts h ns
    · rw [h1, h2]
      simp only [h3.isSet, told_validateConflicts h ns]

theorem told_callValidators {o o' : Opt} (h : Retold Z o o') {vs : List Validator} (hv : ∀ v ∈ vs, v ∈ o.validators.getD []) :
    callValidators W o' vs = callValidators W o vs := by
  by_cases hu : o.Unread
  · induction vs with
    | nil => rfl
    | cons v vs ih =>
      obtain ⟨_, mn, mx, e⟩ := hu.checks v (hv v (List.mem_cons_self ..))
      unfold callValidators
      rw [ih (fun u hu => hv u (List.mem_cons_of_mem _ hu))]
      simp only [e, runPost, countValidator, h.valueCount]
  · rw [h.reader hu]

theorem told_validateSet {os os' : List Opt} (h : RetoldRow Z os os') : ∀ (l l' : List Opt) (excl : Bool)
    (first first' : Option Str), RetoldRow Z l l' → first'.isSome = first.isSome →
    validateSet W os' excl first' l' = validateSet W os excl first l
  | [], [], _, _, _, _, _ => rfl
  | o :: l, o' :: l', excl, first, first', ⟨h1, h2⟩, hf => by
    have ih := fun e f f' => told_validateSet h l l' e f f' h2
    have hq : validateRequired os' (o'.require.getD []) = validateRequired os (o.require.getD []) := by
      rw [h1.require]; exact told_validateRequired h _
    have hc : validateConflicts os' (o'.conflict.getD []) = validateConflicts os (o.conflict.getD []) := by
      rw [h1.conflict]; exact told_validateConflicts h _
    unfold validateSet
    rw [h1.type, h1.flags, h1.isSet, h1.validators,
      told_callValidators h1 (fun v hv => hv), hq, hc, hf, ih _ none none rfl, ih _ first first' hf]
    have hn : (if excl = true then o'.name else first').isSome = (if excl = true then o.name else first).isSome := by
      split
      · rw [h1.name]
      · exact hf
    rw [ih _ _ _ hn]
  | [], _ :: _, _, _, _, h, _ => h.elim
  | _ :: _, [], _, _, _, h, _ => h.elim

theorem told_validateTable {a b : Argus} (h : ToldOtherwise Z a b) (t : Option Nat) :
    OutTold Z (validateTable W a t) (validateTable W b t) := by
  unfold validateTable
  refine h.bindTable t (fun os os' hr => ?_)
  rw [told_validateSet hr os os' _ none none hr rfl]
  exact .bindSame _ (fun r => .ok _ (h.emits _))

theorem told_validateStack : ∀ (ps : List Ptr) {a b : Argus}, ToldOtherwise Z a b →
    OutTold Z (validateStack W a ps) (validateStack W b ps)
  | [], a, b, h => .ok _ h
  | p :: ps, a, b, h => by
    unfold validateStack
    refine h.bindOpt p (fun o o' hr => ?_)
    rw [hr.subOptions]
    refine (told_validateTable h _).bind (fun s a1 b1 h1 => ?_)
    simp only
    split
    · exact .ok _ h1
    · exact told_validateStack ps h1

theorem told_postValidation {a b : Argus} (h : ToldOtherwise Z a b) :
    OutTold Z (postValidation W a) (postValidation W b) := by
  unfold postValidation
  rw [h.root]
  refine (told_validateTable h _).bind (fun s a1 b1 h1 => ?_)
  simp only
  split
  · exact .ok _ h1
  · rw [h1.stack]; exact told_validateStack _ h1

/-! ### Release -/

theorem runFree_told {r : Str → Str → Prop} {o o' : Opt} (h : OtherTexts r o o') (fh : Option FreeHandler) :
    runFree fh o' = runFree fh o := by
  obtain ⟨h1, h2⟩ := h
  have hc : o'.valueCount = o.valueCount := by rw [h1]
  unfold runFree
  cases hv : o.value with
  | word w =>
    rw [hv] at h2
    obtain ⟨w', e, hw⟩ := toldVal_word h2
    have e1 : (w' = Word.null) = (w = Word.null) := propext (toldWord_null hw)
    simp only [e, hc, toldWord_string hw, e1]
  | arr cs =>
    rw [hv] at h2
    obtain ⟨cs', e, hcs⟩ := toldVal_arr h2
    simp only [e, hc, hcs.length, freeStrings, (hcs.take o.valueCount).all (fun _ _ h => toldWord_string h)]
  | map cs =>
    rw [hv] at h2
    simp only [toldVal_map h2, hc]
  | dangling =>
    rw [hv] at h2
    simp only [toldVal_dangling h2]

theorem told_freeOptionValue {o o' : Opt} (h : Retold Z o o') :
    (∃ u, freeOptionValue o = .ub u ∧ freeOptionValue o' = .ub u) ∨
    ∃ x x', freeOptionValue o = .ok x ∧ freeOptionValue o' = .ok x' ∧ Retold Z x x' := by
  have hc : Retold Z { o with isAllocated := false, value := .null } { o' with isAllocated := false, value := .null } := by
    have e0 : ({ o' with isAllocated := false, value := .null } : Opt) = { o with isAllocated := false, value := .null } := by
      rw [h.eq]
    rw [e0]
    refine h.renew rfl rfl ?_
    by_cases hu : o.Unread
    · exact .inr ⟨hu, rfl⟩
    · exact .inl ⟨hu, rfl⟩
  have ha := h.isAllocated
  have e : runFree o'.freeHandler o' = runFree o.freeHandler o := by
    rw [h.freeHandler]
    by_cases hu : o.Unread
    · exact runFree_told (h.otherTexts hu) _
    · rw [h.reader hu]
  cases hal : o.isAllocated with
  | false =>
    exact .inr ⟨o, o', by simp only [freeOptionValue, hal, if_true], by simp only [freeOptionValue, ha, hal, if_true], h⟩
  | true =>
    rw [hal] at ha
    have hn : ¬ true = false := by decide
    cases hrf : runFree o.freeHandler o with
    | ub u =>
      refine .inl ⟨u, ?_, ?_⟩
      · simp only [freeOptionValue, hal, if_neg hn, hrf]; rfl
      · simp only [freeOptionValue, ha, if_neg hn, e, hrf]; rfl
    | ok w =>
      refine .inr ⟨_, _, ?_, ?_, hc⟩
      · simp only [freeOptionValue, hal, if_neg hn, hrf]; rfl
      · simp only [freeOptionValue, ha, if_neg hn, e, hrf]; rfl

theorem told_freeOpts : ∀ {os os' : List Opt}, RetoldRow Z os os' →
    (∃ u, freeOpts os = .ub u ∧ freeOpts os' = .ub u) ∨
    ∃ x x', freeOpts os = .ok x ∧ freeOpts os' = .ok x' ∧ RetoldRow Z x x'
  | [], [], _ => .inr ⟨[], [], rfl, rfl, trivial⟩
  | o :: os, o' :: os', ⟨h1, h2⟩ => by
    unfold freeOpts
    rcases told_freeOptionValue h1 with ⟨u, e1, e2⟩ | ⟨x, x', e1, e2, hx⟩
    · rw [e1, e2]; exact .inl ⟨u, rfl, rfl⟩
    · rw [e1, e2]
      simp only [Out.ok_bind]
      rcases told_freeOpts h2 with ⟨u, e3, e4⟩ | ⟨y, y', e3, e4, hy⟩
      · rw [e3, e4]; exact .inl ⟨u, rfl, rfl⟩
      · rw [e3, e4]; exact .inr ⟨_, _, rfl, rfl, hx, hy⟩
  | [], _ :: _, h => h.elim
  | _ :: _, [], h => h.elim

theorem told_freeTable {a b : Argus} (h : ToldOtherwise Z a b) (t : Option Nat) :
    OutTold Z (freeTableU a t) (freeTableU b t) := by
  unfold freeTableU freeTable
  cases t with
  | none => exact rfl
  | some j =>
    unfold Argus.table
    simp only
    cases hk : a.tables[j]? with
    | none => rw [h.noRow hk]; exact rfl
    | some os =>
      obtain ⟨os', h1, h2⟩ := h.row hk
      rw [h1]
      simp only [Out.ok_bind]
      rcases told_freeOpts h2 with ⟨u, e3, e4⟩ | ⟨y, y', e3, e4, hy⟩
      · rw [e3, e4]; exact rfl
      · rw [e3, e4]; exact .ok _ (h.withTable j hy)

theorem told_freeStack : ∀ (ps : List Ptr) {a b : Argus}, ToldOtherwise Z a b →
    OutTold Z (freeStackU a ps) (freeStackU b ps)
  | [], a, b, h => .ok _ h
  | p :: ps, a, b, h => by
    rw [freeStackU_cons, freeStackU_cons]
    refine h.bindOpt p (fun o o' hr => ?_)
    rw [hr.subOptions]
    exact (told_freeTable h _).bind (fun s a1 b1 h1 => told_freeStack ps h1)

theorem told_argusFree {a b : Argus} (h : ToldOtherwise Z a b) (e : ParseEnd) :
    OutTold Z (do let a2 ← argusFree a; Out.ok (e, a2)) (do let b2 ← argusFree b; Out.ok (e, b2)) := by
  have key : OutTold Z (freeU a) (freeU b) := by
    rw [freeU_eq, freeU_eq, h.root]
    refine (told_freeTable h _).bind (fun s a1 b1 h1 => ?_)
    simp only
    rw [h1.stack]
    exact told_freeStack _ h1
  unfold freeU at key
  cases h1 : argusFree a with
  | ub u => cases h2 : argusFree b with
    | ub v => rw [h1, h2] at key; exact key
    | ok c => rw [h1, h2] at key; exact key.elim
  | ok c => cases h2 : argusFree b with
    | ub v => rw [h1, h2] at key; exact key.elim
    | ok d => rw [h1, h2] at key; exact ⟨rfl, key.2⟩

/-! ### The whole parse -/

theorem told_argusParse {a b : Argus} (h : ToldOtherwise Z a b) {args args' : List Str}
    (he : Alongside (Z.Asks a.tables) (a.asks args) (b.asks args')) :
    OutTold Z (argusParse W Z.env a args) (argusParse W Z.env' b args') := by
  unfold argusParse
  rw [parseArgs_run, parseArgs_run]
  refine (told_run _ _ h he).bind (fun s a1 b1 h1 => ?_)
  have h2 := h1.code s
  simp only
  split
  · exact told_argusFree h2 _
  split
  · exact told_argusFree ((h2.emit _).emit _) _
  · refine (told_loadEnvVars h2).bind (fun s3 a3 b3 h3 => ?_)
    simp only
    split
    · exact told_argusFree h3 _
    · refine (told_postValidation h3).bind (fun s4 a4 b4 h4 => ?_)
      simp only
      split
      · exact told_argusFree h4 _
      · exact .ok _ h4

end

end Argus
