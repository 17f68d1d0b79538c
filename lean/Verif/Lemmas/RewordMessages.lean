import Verif.Lemmas.Reword
import Verif.Lemmas.MessagesRun

/-!
# The messages of programs that differ in what they show only
-/

set_option autoImplicit false

namespace Argus

/-- Both results are defined and related, or both undefined in the same way. -/
def OutBoth {α β : Type} (R : α → β → Prop) : Out α → Out β → Prop
  | .ok r, .ok s => R r s
  | .ub u, .ub v => u = v
  | _, _ => False

theorem OutBoth.bind {α β γ δ : Type} {R : α → β → Prop} {S : γ → δ → Prop} {x : Out α} {y : Out β} {f : α → Out γ}
    {g : β → Out δ} (h : OutBoth R x y) (hf : ∀ r s, R r s → OutBoth S (f r) (g s)) : OutBoth S (x >>= f) (y >>= g) := by
  cases x with
  | ub u => cases y with
    | ub v => exact h
    | ok s => exact h.elim
  | ok r => cases y with
    | ub v => exact h.elim
    | ok s => exact hf r s h

theorem OutShown.both {α : Type} {x y : Out (α × Argus)} (h : OutShown x y) :
    OutBoth (fun r s => s.1 = r.1 ∧ ShownOtherwise r.2 s.2) x y := by
  cases x <;> cases y <;> exact h

theorem OutShown.bindEq {α γ : Type} {x y : Out (α × Argus)} {f g : α × Argus → Out γ} (h : OutShown x y)
    (hf : ∀ s a b, x = .ok (s, a) → y = .ok (s, b) → ShownOtherwise a b → g (s, b) = f (s, a)) :
    (y >>= g) = (x >>= f) := by
  cases x with
  | ub u => cases y with
    | ub v => rw [show u = v from h]; rfl
    | ok s => exact h.elim
  | ok r => cases y with
    | ub v => exact h.elim
    | ok s =>
      obtain ⟨s1, s2⟩ := s
      obtain ⟨h1, h2⟩ := h
      simp only at h1 h2
      subst h1
      exact hf r.1 r.2 s2 rfl rfl h2

theorem ShownOtherwise.bindOptEq {a b : Argus} (h : ShownOtherwise a b) (p : Ptr) {β : Type} {f g : Opt → Out β}
    (hf : ∀ o o', Reworded o o' → g o' = f o) : (b.getOpt p >>= g) = (a.getOpt p >>= f) := by
  rcases h.getOpt p with ⟨o, o', h1, h2, h3⟩ | ⟨u, h1, h2⟩
  · rw [h1, h2]; exact hf o o' h3
  · rw [h1, h2]; rfl

theorem ShownOtherwise.table {a b : Argus} (h : ShownOtherwise a b) (t : Option Nat) :
    (∃ os os', a.table t = .ok os ∧ b.table t = .ok os' ∧ RewordedRow os os') ∨
      ∃ u, a.table t = .ub u ∧ b.table t = .ub u := by
  unfold Argus.table
  cases t with
  | none => exact .inr ⟨_, rfl, rfl⟩
  | some k =>
    simp only
    cases hk : a.tables[k]? with
    | none => rw [h.noRow hk]; exact .inr ⟨_, rfl, rfl⟩
    | some os =>
      obtain ⟨os', h1, h2⟩ := h.row hk
      rw [h1]; exact .inl ⟨os, os', rfl, rfl, h2⟩

theorem ShownOtherwise.bindTableEq {a b : Argus} (h : ShownOtherwise a b) (t : Option Nat) {β : Type}
    {f g : List Opt → Out β} (hf : ∀ os os', RewordedRow os os' → g os' = f os) :
    (b.table t >>= g) = (a.table t >>= f) := by
  rcases h.table t with ⟨os, os', h1, h2, h3⟩ | ⟨u, h1, h2⟩
  · rw [h1, h2]; exact hf os os' h3
  · rw [h1, h2]; rfl

/-! ### Lookups -/

theorem Reworded.sname {o o' : Opt} (h : Reworded o o') : o'.sname = o.sname := h.field (·.sname) (fun _ => rfl)

theorem rewordedRow_findIdx {f : Opt → Bool} (hf : ∀ o o', Reworded o o' → f o' = f o) : ∀ {os os' : List Opt},
    RewordedRow os os' → os'.findIdx? f = os.findIdx? f
  | [], [], _ => rfl
  | o :: os, o' :: os', ⟨h1, h2⟩ => by
    rw [List.findIdx?_cons, List.findIdx?_cons, hf o o' h1, rewordedRow_findIdx hf h2]
  | [], _ :: _, h => h.elim
  | _ :: _, [], h => h.elim

theorem findLname_reworded {os os' : List Opt} (h : RewordedRow os os') (n : Str) : findLname os' n = findLname os n :=
  rewordedRow_findIdx (fun o o' hr => by rw [hr.type, hr.lname]) h

theorem findSname_reworded {os os' : List Opt} (h : RewordedRow os os') (c : Byte) : findSname os' c = findSname os c :=
  rewordedRow_findIdx (fun o o' hr => by rw [hr.type, hr.sname]) h

theorem findPositionalFrom_reworded (k : Nat) : ∀ {os os' : List Opt} (i pos : Nat), RewordedRow os os' →
    findPositionalFrom k i pos os' = findPositionalFrom k i pos os
  | [], [], _, _, _ => rfl
  | o :: os, o' :: os', i, pos, ⟨h1, h2⟩ => by
    unfold findPositionalFrom
    rw [h1.type, h1.valueType, findPositionalFrom_reworded k _ _ h2, findPositionalFrom_reworded k _ _ h2]
  | [], _ :: _, _, _, h => h.elim
  | _ :: _, [], _, _, h => h.elim

theorem findPositional_reworded {os os' : List Opt} (h : RewordedRow os os') (k : Nat) :
    findPositional os' k = findPositional os k := findPositionalFrom_reworded k 0 0 h

theorem findSubFrom_reworded (name : Str) : ∀ {os os' : List Opt} (i : Nat) (sub : Option Nat), RewordedRow os os' →
    findSubFrom name i sub os' = findSubFrom name i sub os
  | [], [], _, _, _ => rfl
  | o :: os, o' :: os', i, sub, ⟨h1, h2⟩ => by
    unfold findSubFrom
    rw [h1.type, h1.name]
    simp only [findSubFrom_reworded name _ _ h2]
  | [], _ :: _, _, _, h => h.elim
  | _ :: _, [], _, _, h => h.elim

theorem findSub_reworded {os os' : List Opt} (h : RewordedRow os os') (n : Str) : findSub os' n = findSub os n :=
  findSubFrom_reworded n 0 none h

/-- Subcommands of two rows have the same help texts. -/
def CommandTextsRow : List Opt → List Opt → Prop
  | o :: os, o' :: os' => (o.type = .subcommand → o'.help = o.help) ∧ CommandTextsRow os os'
  | _, _ => True

theorem subMessagesFrom_reworded (name : Str) : ∀ {os os' : List Opt} (sub sub' : Option Opt), RewordedRow os os' →
    CommandTextsRow os os' → sub'.map (fun o => (o.name, o.help)) = sub.map (fun o => (o.name, o.help)) →
    subMessagesFrom name sub' os' = subMessagesFrom name sub os
  | [], [], _, _, _, _, _ => rfl
  | o :: os, o' :: os', sub, sub', ⟨h1, h2⟩, ⟨c1, c2⟩, hs => by
    have ih := fun s s' => subMessagesFrom_reworded name (os := os) (os' := os') s s' h2 c2
    unfold subMessagesFrom
    rw [h1.type, h1.name]
    cases ht : o.type with
    | subcommand =>
      cases hn : o.name with
      | none => exact ih _ _ hs
      | some n =>
        have hh := c1 ht
        simp only
        split
        · cases sub with
          | none =>
            cases sub' with
            | none =>
              simp only
              split
              · rfl
              · exact ih _ _ (by simp [h1.name, hh])
            | some y => simp at hs
          | some x =>
            cases sub' with
            | none => simp at hs
            | some y =>
              simp only [Option.map_some, Option.some.injEq, Prod.mk.injEq] at hs
              simp only [ambiguousMessage, hs.1, hs.2, h1.name, hh]
        · exact ih _ _ hs
    | option => exact ih _ _ hs
    | positional => exact ih _ _ hs
    | group => exact ih _ _ hs
  | [], _ :: _, _, _, h, _, _ => h.elim
  | _ :: _, [], _, _, h, _, _ => h.elim

theorem commandTextsRow_of : ∀ {os os' : List Opt},
    (∀ (i : Nat) (o o' : Opt), os[i]? = some o → os'[i]? = some o' → o.type = .subcommand → o'.help = o.help) →
    CommandTextsRow os os'
  | o :: os, o' :: os', h => ⟨h 0 o o' rfl rfl, commandTextsRow_of (fun i x y hx hy => h (i + 1) x y hx hy)⟩
  | [], _, _ => by unfold CommandTextsRow; trivial
  | _ :: _, [], _ => by unfold CommandTextsRow; trivial

theorem SameCommandTexts.row {a b : Argus} (h : SameCommandTexts a b) {t : Option Nat} {os os' : List Opt}
    (ha : a.table t = .ok os) (hb : b.table t = .ok os') : CommandTextsRow os os' := by
  obtain ⟨k, rfl, h1⟩ := table_eq_ok.1 ha
  obtain ⟨k', e, h2⟩ := table_eq_ok.1 hb
  cases e
  exact commandTextsRow_of (fun i o o' ho ho' => h ⟨k, i⟩ o o' (by simp [placeAt, h1, ho]) (by simp [placeAt, h2, ho']))

theorem shape_place {a b : Argus} (h : b.shape = a.shape) {p : Ptr} {o : Opt} (ho : placeAt b.tables p = some o) :
    ∃ x, placeAt a.tables p = some x ∧ x.meta = o.meta := by
  obtain ⟨os, h1, h2⟩ := Option.bind_eq_some_iff.1 ho
  have h3 : a.shape[p.tbl]? = some (os.map Opt.meta) := by rw [← h]; simp [Argus.shape, h1]
  simp only [Argus.shape, List.getElem?_map, Option.map_eq_some_iff] at h3
  obtain ⟨os1, h4, h5⟩ := h3
  have h6 : (os1.map Opt.meta)[p.idx]? = some o.meta := by rw [h5]; simp [h2]
  simp only [List.getElem?_map, Option.map_eq_some_iff] at h6
  obtain ⟨x, h7, h8⟩ := h6
  exact ⟨x, by simp [placeAt, h4, h7], h8⟩

theorem SameCommandTexts.congr {a b a1 b1 : Argus} (h : SameCommandTexts a b) (ha : a1.shape = a.shape)
    (hb : b1.shape = b.shape) : SameCommandTexts a1 b1 := by
  intro p o o' ho ho' ht
  obtain ⟨x, h1, h2⟩ := shape_place ha ho
  obtain ⟨x', h3, h4⟩ := shape_place hb ho'
  have e1 : x.help = o.help := by have := congrArg (fun y : Opt => y.help) h2; exact this
  have e2 : x'.help = o'.help := by have := congrArg (fun y : Opt => y.help) h4; exact this
  have e3 : x.type = o.type := by have := congrArg (fun y : Opt => y.type) h2; exact this
  rw [← e1, ← e2]
  exact h p x x' h1 h3 (by rw [e3]; exact ht)

/-! ### The command line, step by step -/

/-- Two outcomes of a round. -/
def StepShown : Step → Step → Prop
  | .done s a, .done s' b => s' = s ∧ ShownOtherwise a b
  | .next a p o u, .next b p' o' u' => p' = p ∧ o' = o ∧ u' = u ∧ ShownOtherwise a b
  | .enter t a, .enter t' b => t' = t ∧ ShownOtherwise a b
  | _, _ => False

/-- Two results of handling an option argument. -/
def OptResShown (r s : OptRes) : Prop := s.status = r.status ∧ s.used = r.used ∧ ShownOtherwise r.argus s.argus

theorem OptResShown.step {r s : OptRes} (h : OptResShown r s) (pos : Nat) : StepShown (r.step pos) (s.step pos) := by
  obtain ⟨h1, h2, h3⟩ := h
  unfold OptRes.step
  rw [h1]
  split
  · exact ⟨rfl, h3⟩
  · exact ⟨rfl, rfl, h2, h3⟩

section

variable {W : World} (hw : MindsNoTexts W)

include hw in
theorem shown_exec_opt {a b : Argus} (h : ShownOtherwise a b) (p : Ptr) (x : Option Str) (u : Bool) :
    OutBoth OptResShown (do let r ← execCallbacks W a p x; .ok ⟨r.1, r.2, u⟩)
      (do let r ← execCallbacks W b p x; .ok ⟨r.1, r.2, u⟩) :=
  (shown_execCallbacks hw h p x).both.bind (fun _ _ hr => ⟨hr.1, rfl, hr.2⟩)

include hw in
theorem shown_handlePositional {a b : Argus} (h : ShownOtherwise a b) (t : Option Nat) (v : Str) (pos : Nat) :
    OutShown (handlePositional W a t v pos) (handlePositional W b t v pos) := by
  unfold handlePositional
  refine h.bindTable t (fun os os' hr => ?_)
  rw [findPositional_reworded hr]
  split
  · exact shown_execCallbacks hw h _ _
  · exact .ok _ (h.report _)

include hw in
theorem shown_handleLong {a b : Argus} (h : ShownOtherwise a b) (t : Option Nat) (arg : Str) (rest : List Str) :
    OutBoth OptResShown (handleLong W a t arg rest) (handleLong W b t arg rest) := by
  unfold handleLong
  rcases h.table t with ⟨os, os', h1, h2, hr⟩ | ⟨u, h1, h2⟩
  · rw [h1, h2, Out.ok_bind, Out.ok_bind, findLname_reworded hr]
    split
    · rename_i k i _
      rcases h.getOpt ⟨k, i⟩ with ⟨o, o', h3, h4, h5⟩ | ⟨u, h3, h4⟩
      · rw [h3, h4, Out.ok_bind, Out.ok_bind, h5.valueType]
        split
        · exact shown_exec_opt hw h _ _ _
        · split
          · exact shown_exec_opt hw h _ _ _
          · exact shown_exec_opt hw h _ _ _
          · exact ⟨rfl, rfl, h.report _⟩
      · rw [h3, h4]; exact rfl
    · exact ⟨rfl, rfl, h.report _⟩
  · rw [h1, h2]; exact rfl

include hw in
theorem shown_handleShort (t : Option Nat) (rest : List Str) : ∀ (cs : Str) {a b : Argus}, ShownOtherwise a b →
    OutBoth OptResShown (handleShort W t rest a cs) (handleShort W t rest b cs)
  | [], a, b, h => ⟨rfl, rfl, h⟩
  | c :: cs, a, b, h => by
    unfold handleShort
    rcases h.table t with ⟨os, os', h1, h2, hr⟩ | ⟨u, h1, h2⟩
    · rw [h1, h2, Out.ok_bind, Out.ok_bind, findSname_reworded hr]
      split
      · rename_i k i _
        rcases h.getOpt ⟨k, i⟩ with ⟨o, o', h3, h4, h5⟩ | ⟨u, h3, h4⟩
        · rw [h3, h4, Out.ok_bind, Out.ok_bind, h5.valueType]
          split
          · refine (shown_execCallbacks hw h _ _).both.bind (fun r s hrs => ?_)
            rw [hrs.1]
            split
            · exact ⟨rfl, rfl, hrs.2⟩
            · exact shown_handleShort _ rest cs hrs.2
          · split
            · exact shown_exec_opt hw h _ _ _
            · exact shown_exec_opt hw h _ _ _
            · exact ⟨rfl, rfl, h.report _⟩
        · rw [h3, h4]; exact rfl
      · exact ⟨rfl, rfl, h.report _⟩
    · rw [h1, h2]; exact rfl

theorem shown_isNegNumber {a b : Argus} (h : ShownOtherwise a b) (t : Option Nat) (x : Str) (pos : Nat) :
    isNegNumber b t x pos = isNegNumber a t x pos := by
  unfold isNegNumber
  split
  · refine h.bindTableEq t (fun os os' hr => ?_)
    rw [findPositional_reworded hr]
    cases findPositional os pos with
    | none => rfl
    | some i =>
      simp only
      cases ho : os[i]? with
      | none =>
        have : os'[i]? = none := by
          rw [List.getElem?_eq_none_iff] at ho ⊢; rw [rewordedRow_length hr]; exact ho
        rw [this]
      | some o =>
        obtain ⟨o', h1, h2⟩ := rewordedRow_get hr i o ho
        rw [h1]; simp only [h2.valueType]
  · rfl

theorem shown_enterSub {a b : Argus} (h : ShownOtherwise a b) (p : Ptr) : OutShown (enterSub a p) (enterSub b p) := by
  unfold enterSub
  refine h.bindOpt p (fun o o' hr => ?_)
  rw [h.stack]
  split
  · exact rfl
  · exact ⟨hr.subOptions, (h.setOpt p (hr.change (fun x => { x with isSet := true }) rfl rfl)).push p⟩

include hw in
theorem shown_stepPositional {a b : Argus} (h : ShownOtherwise a b) (t : Option Nat) (pos : Nat) (only : Bool) (arg : Str) :
    OutBoth StepShown (stepPositional W t a pos only arg) (stepPositional W t b pos only arg) := by
  unfold stepPositional
  refine (shown_handlePositional hw h t arg pos).both.bind (fun r s hrs => ?_)
  rw [hrs.1]
  split
  · exact ⟨rfl, hrs.2⟩
  · exact ⟨rfl, rfl, rfl, hrs.2⟩

include hw in
theorem shown_parseStep {a b : Argus} (h : ShownOtherwise a b) (t : Option Nat) (pos : Nat) (only : Bool) (arg : Str)
    (rest : List Str) : OutBoth StepShown (parseStep W t a pos only arg rest) (parseStep W t b pos only arg rest) := by
  unfold parseStep
  split
  · exact ⟨rfl, rfl, rfl, h⟩
  split
  · exact shown_stepPositional hw h _ _ _ _
  split
  · exact (shown_handleLong hw h _ _ _).bind (fun r s hrs => hrs.step pos)
  split
  · rw [shown_isNegNumber h]
    cases isNegNumber a t _ pos with
    | ub u => exact rfl
    | ok n =>
      simp only [Out.ok_bind]
      split
      · exact shown_stepPositional hw h _ _ _ _
      · exact (shown_handleShort hw _ _ _ h).bind (fun r s hrs => hrs.step pos)
  · rcases h.table t with ⟨os, os', h1, h2, hr⟩ | ⟨u, h1, h2⟩
    · rw [h1, h2, Out.ok_bind, Out.ok_bind, findSub_reworded hr]
      split
      · exact ⟨rfl, h.report _⟩
      · split
        · exact (shown_enterSub h _).both.bind (fun r s hrs => ⟨hrs.1, hrs.2⟩)
        · exact shown_stepPositional hw h _ _ _ _
    · rw [h1, h2]; exact rfl

/-! ### Messages -/

variable {M : Wording} (hm : WordsNoTexts M)

include hw hm in
theorem shown_handlerMessages {o o' : Opt} (h : Reworded o o') (hd : Handler) (x : Option Str) :
    handlerMessages W M hd o' x = handlerMessages W M hd o x := by
  cases hd with
  | bool => simp only [handlerMessages, boolMessages, h.name]
  | variadicString => simp only [handlerMessages, variadicMessages, h.name]
  | variadicInt => simp only [handlerMessages, variadicMessages, h.name]
  | variadicFloat => simp only [handlerMessages, variadicMessages, h.name]
  | custom id => simp only [handlerMessages, hw.handler id o o' x h, hm.handler id o o' x h]
  | _ => rfl

include hw hm in
theorem shown_execMessages {a b : Argus} (h : ShownOtherwise a b) (p : Ptr) (x : Option Str) :
    execMessages W M b p x = execMessages W M a p x := by
  unfold execMessages
  refine h.bindOptEq p (fun o o' hr => ?_)
  rw [hr.handler, hr.name, hr.validators]
  cases o.handler with
  | none => rfl
  | some hd =>
    simp only
    refine (shown_runPreAll _ h).bindEq (fun s a1 b1 _ _ _ => ?_)
    rw [shown_handlerMessages hw hm hr]

include hw hm in
theorem shown_positionalMessages {a b : Argus} (h : ShownOtherwise a b) (t : Option Nat) (v : Str) (pos : Nat) :
    positionalMessages W M b t v pos = positionalMessages W M a t v pos := by
  unfold positionalMessages
  refine h.bindTableEq t (fun os os' hr => ?_)
  rw [findPositional_reworded hr]
  split
  · exact shown_execMessages hw hm h _ _
  · rfl

include hw hm in
theorem shown_longMessages {a b : Argus} (h : ShownOtherwise a b) (t : Option Nat) (arg : Str) (rest : List Str) :
    longMessages W M b t arg rest = longMessages W M a t arg rest := by
  unfold longMessages
  refine h.bindTableEq t (fun os os' hr => ?_)
  rw [findLname_reworded hr]
  split
  · refine h.bindOptEq _ (fun o o' h5 => ?_)
    rw [h5.valueType]
    simp only [shown_execMessages hw hm h]
  · rfl

include hw hm in
theorem shown_shortMessages (t : Option Nat) (rest : List Str) : ∀ (cs : Str) {a b : Argus}, ShownOtherwise a b →
    shortMessages W M t rest b cs = shortMessages W M t rest a cs
  | [], a, b, h => rfl
  | c :: cs, a, b, h => by
    unfold shortMessages
    refine h.bindTableEq t (fun os os' hr => ?_)
    rw [findSname_reworded hr]
    split
    · refine h.bindOptEq _ (fun o o' h5 => ?_)
      rw [h5.valueType]
      simp only [shown_execMessages hw hm h]
      split
      · refine (shown_execCallbacks hw h _ _).bindEq (fun s a1 b1 _ _ h1 => ?_)
        simp only [shown_shortMessages _ rest cs h1]
      · rfl
    · rfl

include hw hm in
theorem shown_stepMessages {a b : Argus} (h : ShownOtherwise a b) (hc : SameCommandTexts a b) (t : Option Nat) (pos : Nat)
    (only : Bool) (arg : Str) (rest : List Str) :
    stepMessages W M t b pos only arg rest = stepMessages W M t a pos only arg rest := by
  unfold stepMessages
  simp only [shown_positionalMessages hw hm h, shown_longMessages hw hm h, shown_shortMessages hw hm _ _ _ h,
    shown_isNegNumber h]
  split
  · rfl
  split
  · rfl
  split
  · rfl
  split
  · rfl
  · rcases h.table t with ⟨os, os', h1, h2, hr⟩ | ⟨u, h1, h2⟩
    · have hs : subMessages os' arg = subMessages os arg :=
        subMessagesFrom_reworded arg none none hr (hc.row h1 h2) rfl
      rw [h1, h2, Out.ok_bind, Out.ok_bind, findSub_reworded hr, hs]
    · rw [h1, h2]

include hw hm in
theorem shown_loopMessages : ∀ (args : List Str) {a b : Argus} (t : Option Nat) (pos : Nat) (only skip : Bool),
    ShownOtherwise a b → SameCommandTexts a b →
    loopMessages W M t b pos only skip args = loopMessages W M t a pos only skip args
  | [], a, b, t, pos, only, skip, h, hc => by cases skip <;> rfl
  | arg :: rest, a, b, t, pos, only, true, h, hc => by
    unfold loopMessages
    exact shown_loopMessages rest t pos only false h hc
  | arg :: rest, a, b, t, pos, only, false, h, hc => by
    unfold loopMessages
    rw [shown_stepMessages hw hm h hc]
    cases stepMessages W M t a pos only arg rest with
    | ub u => rfl
    | ok m =>
      simp only [Out.ok_bind]
      have key := shown_parseStep hw h t pos only arg rest
      cases ha : parseStep W t a pos only arg rest with
      | ub u =>
        cases hb : parseStep W t b pos only arg rest with
        | ub v => rw [ha, hb] at key; rw [show u = v from key]
        | ok s => rw [ha, hb] at key; exact key.elim
      | ok r =>
        cases hb : parseStep W t b pos only arg rest with
        | ub v => rw [ha, hb] at key; exact key.elim
        | ok s =>
          rw [ha, hb] at key
          have hc1 := hc.congr (parseStep_frame ha).shape (parseStep_frame hb).shape
          cases r with
          | done st a1 =>
            cases s with
            | done st' b1 => rfl
            | next b1 p o u => exact key.elim
            | enter t1 b1 => exact key.elim
          | next a1 p o u =>
            cases s with
            | done st' b1 => exact key.elim
            | next b1 p' o' u' =>
              obtain ⟨rfl, rfl, rfl, h1⟩ := key
              simp only [Out.ok_bind, shown_loopMessages rest _ _ _ _ h1 hc1]
            | enter t1 b1 => exact key.elim
          | enter t1 a1 =>
            cases s with
            | done st' b1 => exact key.elim
            | next b1 p o u => exact key.elim
            | enter t1' b1 =>
              obtain ⟨rfl, h1⟩ := key
              simp only [Out.ok_bind, shown_loopMessages rest _ _ _ _ h1 hc1]

include hw hm in
theorem shown_envStepMessages {env : Env} {a b : Argus} (h : ShownOtherwise a b) (p : Ptr) :
    envStepMessages W M env b p = envStepMessages W M env a p := by
  unfold envStepMessages
  refine h.bindOptEq p (fun o o' hr => ?_)
  rw [h.envPrefix, hr.type, hr.isSet, hr.flag .envOverride (by decide), hr.envVarName]
  simp only [shown_execMessages hw hm h]

include hw hm in
theorem shown_envLoopMessages {env : Env} (k : Nat) : ∀ (n i : Nat) {a b : Argus}, ShownOtherwise a b →
    envLoopMessages W M env k n i b = envLoopMessages W M env k n i a
  | 0, _, _, _, _ => rfl
  | n + 1, i, a, b, h => by
    unfold envLoopMessages
    rw [shown_envStepMessages hw hm h]
    refine (shown_loadEnvStep hw h _).bindEq (fun s a1 b1 _ _ h1 => ?_)
    simp only [shown_envLoopMessages k n (i + 1) h1]

include hw hm in
theorem shown_envTableMessages {env : Env} {a b : Argus} (h : ShownOtherwise a b) (k : Nat) :
    envTableMessages W M env b k = envTableMessages W M env a k := by
  unfold envTableMessages
  refine h.bindTableEq _ (fun os os' hr => ?_)
  rw [rewordedRow_length hr]
  exact shown_envLoopMessages hw hm k _ _ h

include hw hm in
theorem shown_envStackMessages {env : Env} : ∀ (ps : List Ptr) {a b : Argus}, ShownOtherwise a b →
    envStackMessages W M env b ps = envStackMessages W M env a ps
  | [], _, _, _ => rfl
  | p :: ps, a, b, h => by
    unfold envStackMessages
    refine h.bindOptEq p (fun o o' hr => ?_)
    rw [hr.subOptions]
    cases o.subOptions with
    | none => exact shown_envStackMessages ps h
    | some k =>
      simp only [shown_envTableMessages hw hm h]
      refine (shown_loadEnvTable hw k h).bindEq (fun s a1 b1 _ _ h1 => ?_)
      simp only [shown_envStackMessages ps h1]

include hw hm in
theorem shown_envMessages {env : Env} {a b : Argus} (h : ShownOtherwise a b) :
    envMessages W M env b = envMessages W M env a := by
  unfold envMessages
  rw [h.root, shown_envTableMessages hw hm h]
  refine (shown_loadEnvTable hw _ h).bindEq (fun s a1 b1 _ _ h1 => ?_)
  simp only [h1.stack, shown_envStackMessages hw hm _ h1]

theorem shown_requiredMessages {os os' : List Opt} (h : RewordedRow os os') {o o' : Opt} (hr : Reworded o o') :
    ∀ ns : List Str, requiredMessages os' o' ns = requiredMessages os o ns
  | [] => rfl
  | n :: ns => by
    unfold requiredMessages
    rcases named_reworded h n with ⟨h1, h2⟩ | ⟨x, x', h1, h2, h3⟩
    · rw [h1, h2]; exact shown_requiredMessages h hr ns
    · rw [h1, h2]
      simp only [h3.isSet, hr.name, shown_requiredMessages h hr ns]

theorem shown_conflictMessages {os os' : List Opt} (h : RewordedRow os os') {o o' : Opt} (hr : Reworded o o') :
    ∀ ns : List Str, conflictMessages os' o' ns = conflictMessages os o ns
  | [] => rfl
  | n :: ns => by
    unfold conflictMessages
    rcases named_reworded h n with ⟨h1, h2⟩ | ⟨x, x', h1, h2, h3⟩
    · rw [h1, h2]; exact shown_conflictMessages h hr ns
    · rw [h1, h2]
      simp only [h3.isSet, h3.name, hr.name, shown_conflictMessages h hr ns]

include hw hm in
theorem shown_postMessages {o o' : Opt} (h : Reworded o o') (k : VKind) : postMessages W M k o' = postMessages W M k o := by
  unfold postMessages
  cases k with
  | range mn mx => simp only [rangeMessages, Opt.asInt, h.value]
  | length mn mx => simp only [lengthMessages, Opt.asString, h.value]
  | count mn mx => simp only [countMessages, h.valueCount]
  | choiceStr cs => simp only [choiceMessages, Opt.asString, h.value]
  | choiceInt cs => simp only [choiceMessages, Opt.asInt, h.value]
  | choiceFloat cs => simp only [choiceMessages, Opt.asFloat, h.value]
  | regex p q => rfl
  | custom id => simp only [hw.validator id o o' h, hm.validator id o o' h]

include hw hm in
theorem shown_validatorMessages {o o' : Opt} (h : Reworded o o') : ∀ vs : List Validator,
    validatorMessages W M o' vs = validatorMessages W M o vs
  | [] => rfl
  | v :: vs => by
    unfold validatorMessages
    rw [shown_runPost hw h, shown_postMessages hw hm h, shown_validatorMessages h vs]

include hw hm in
theorem shown_setMessages {os os' : List Opt} (h : RewordedRow os os') : ∀ (l l' : List Opt) (group : Option Str)
    (excl : Bool) (first : Option Str), RewordedRow l l' →
    setMessages W M os' group excl first l' = setMessages W M os group excl first l
  | [], [], _, _, _, _ => rfl
  | o :: l, o' :: l', group, excl, first, ⟨h1, h2⟩ => by
    have ih := fun g e f => shown_setMessages h l l' g e f h2
    unfold setMessages
    rw [h1.type, h1.flag .exclusive (by decide), h1.flag .required (by decide), h1.isSet, h1.name, h1.validators,
      h1.require, h1.conflict, shown_callValidators hw h1, shown_validatorMessages hw hm h1]
    simp only [ih, shown_validateRequired h, shown_validateConflicts h, shown_requiredMessages h h1,
      shown_conflictMessages h h1]
  | [], _ :: _, _, _, _, h => h.elim
  | _ :: _, [], _, _, _, h => h.elim

include hw hm in
theorem shown_tableMessages {a b : Argus} (h : ShownOtherwise a b) (t : Option Nat) :
    tableMessages W M b t = tableMessages W M a t := by
  unfold tableMessages
  exact h.bindTableEq t (fun os os' hr => shown_setMessages hw hm hr os os' _ _ _ hr)

include hw hm in
theorem shown_stackMessages : ∀ (ps : List Ptr) {a b : Argus}, ShownOtherwise a b →
    stackMessages W M b ps = stackMessages W M a ps
  | [], _, _, _ => rfl
  | p :: ps, a, b, h => by
    unfold stackMessages
    refine h.bindOptEq p (fun o o' hr => ?_)
    rw [hr.subOptions, shown_tableMessages hw hm h]
    refine (shown_validateTable hw h _).bindEq (fun s a1 b1 _ _ h1 => ?_)
    simp only [shown_stackMessages ps h1]

include hw hm in
theorem shown_checkMessages {a b : Argus} (h : ShownOtherwise a b) : checkMessages W M b = checkMessages W M a := by
  unfold checkMessages
  rw [h.root, shown_tableMessages hw hm h]
  refine (shown_validateTable hw h _).bindEq (fun s a1 b1 _ _ h1 => ?_)
  simp only [h1.stack, shown_stackMessages hw hm _ h1]

theorem shown_stackNames {a b : Argus} (h : ShownOtherwise a b) : ∀ ps : List Ptr, stackNames b ps = stackNames a ps
  | [] => rfl
  | p :: ps => by
    unfold stackNames
    refine h.bindOptEq p (fun o o' hr => ?_)
    rw [hr.name, shown_stackNames h ps]

include hw in
theorem shown_parseArgs {a b : Argus} (h : ShownOtherwise a b) (args : List Str) :
    OutShown (parseArgs W a (some a.root) args) (parseArgs W b (some b.root) args) := by
  rw [parseArgs_run, parseArgs_run, h.asks]
  exact shown_run hw _ h

theorem OutBoth.refl {α : Type} {R : α → α → Prop} (h : ∀ r, R r r) (x : Out α) : OutBoth R x x := by
  cases x with
  | ub u => exact rfl
  | ok r => exact h r

include hw hm in
theorem shown_parseMessages {env : Env} {a b : Argus} (h : ShownOtherwise a b) (hc : SameCommandTexts a b)
    (args : List Str) : OutBoth (fun r s => s.1 = r.1 ∧ (b.programName = a.programName → s.2 = r.2))
      (parseMessages W M env a args) (parseMessages W M env b args) := by
  unfold parseMessages
  rw [show b.root = a.root from h.root, shown_loopMessages hw hm args _ _ _ _ h hc]
  cases loopMessages W M (some a.root) a 0 false false args with
  | ub u => exact rfl
  | ok m =>
    simp only [Out.ok_bind]
    have key := shown_parseArgs hw h args
    rw [h.root] at key
    cases ha : parseArgs W a (some a.root) args with
    | ub u =>
      cases hb : parseArgs W b (some a.root) args with
      | ub v => rw [ha, hb] at key; exact key
      | ok s => rw [ha, hb] at key; exact key.elim
    | ok r =>
      cases hb : parseArgs W b (some a.root) args with
      | ub v => rw [ha, hb] at key; exact key.elim
      | ok s =>
        rw [ha, hb] at key
        obtain ⟨h1, h2⟩ := key
        simp only [Out.ok_bind, h1]
        split
        · exact ⟨rfl, fun _ => rfl⟩
        split
        · unfold tryText
          rw [h2.stack, shown_stackNames h2]
          cases stackNames r.2 r.2.stack with
          | ub u => exact rfl
          | ok n =>
            refine ⟨rfl, fun hp => ?_⟩
            obtain ⟨_, -, -, f1⟩ := parseLoop_frame args ha
            obtain ⟨_, -, -, f2⟩ := parseLoop_frame args hb
            have e1 : r.2.programName = a.programName := by have := congrArg (·.2.2.1) f1.cfg; exact this
            have e2 : s.2.programName = b.programName := by have := congrArg (·.2.2.1) f2.cfg; exact this
            simp only [e1, e2, hp]
        · have h3 := h2.code r.1
          rw [shown_envMessages hw hm h3]
          cases envMessages W M env { r.2 with errorCode := r.1 } with
          | ub u => exact rfl
          | ok m2 =>
            simp only [Out.ok_bind]
            refine (shown_loadEnvVars hw h3).both.bind (fun e f hef => ?_)
            rw [hef.1]
            split
            · exact ⟨rfl, fun _ => rfl⟩
            · rw [shown_checkMessages hw hm hef.2]
              cases checkMessages W M e.2 with
              | ub u => exact rfl
              | ok m3 => exact ⟨rfl, fun _ => rfl⟩

end

end Argus
