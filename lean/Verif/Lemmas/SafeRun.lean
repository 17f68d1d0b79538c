import Verif.Lemmas.Safe
import Verif.Lemmas.Free
import Verif.Lemmas.Access

/-!
# Lemmas: a parse of well-made definitions is defined
-/

set_option autoImplicit false

namespace Argus

theorem ArrHolds.mark {k : CellKind} {o : Opt} (h : ArrHolds k true o) : ArrHolds k true o.markSet := by
  obtain ⟨h1, cells, h2, h3, h4⟩ := h
  have hne := h4 rfl
  refine ⟨h1, cells, ⟨?_, h2.val⟩, h3, h4⟩
  show (if o.valueCount = 0 then 1 else o.valueCount) = _
  rw [if_neg]
  · exact h2.count
  · rw [h2.count]; exact fun hl => hne (List.length_eq_zero_iff.1 hl)

theorem MapHolds.mark {vt : ValueType} {o : Opt} (h : MapHolds vt true o) : MapHolds vt true o.markSet := by
  obtain ⟨h1, es, h2, h4⟩ := h
  have hne := h4 rfl
  refine ⟨h1, es, ⟨?_, h2.val, h2.nodup, h2.typed⟩, h4⟩
  show (if o.valueCount = 0 then 1 else o.valueCount) = _
  rw [if_neg]
  · exact h2.count
  · rw [h2.count]; exact fun hl => hne (List.length_eq_zero_iff.1 hl)

theorem setBool_word (o : Opt) (b : Bool) : ∃ w, (o.setBool b).value = .word w := by
  unfold Opt.setBool; split <;> exact ⟨_, rfl⟩

theorem setBool_alloc (o : Opt) (b : Bool) : (o.setBool b).isAllocated = o.isAllocated := by
  unfold Opt.setBool; split <;> rfl

theorem variadicIntConv_readable (v : Str) (w : Word) (h : variadicIntConv v = some w) :
    CellKind.int.readable w = true := by
  unfold variadicIntConv at h
  simp only at h
  split at h
  · simp at h
  · simp only [Option.some.injEq] at h; subst h; rfl

theorem variadicFloatConv_readable (W : World) (v : Str) (w : Word) (h : variadicFloatConv W v = some w) :
    CellKind.float.readable w = true := by
  unfold variadicFloatConv at h
  simp only at h
  split at h
  · simp at h
  · simp only [Option.some.injEq] at h; subst h; rfl

/-- What a handler leaves, by what it was given. -/
theorem runHandler_carries (W : World) (a : Argus) {h : Handler} {o : Opt} {arg : Option Str} (hs : Sound o)
    (hh : o.handler = some h) (harg : arg = none → o.valueType = .flag)
    (hT : ∀ v, arg = some v → HarmlessTo o h v) (hact : ∃ t, a.activeOptions = .ok t) :
    ∃ r, runHandler W a h o arg = .ok r ∧ Carries h r.2.1 ∧ (r.1 = Err.success → Carries h r.2.1.markSet) := by
  have hc := hs.holds h hh
  obtain ⟨fh, _, hg⟩ := hs.decl.goes h hh
  have hset : ∀ r, runHandler W a h o arg = .ok r → r.2.1.isSet = o.isSet := fun r hr => runHandler_set hr
  -- only flags are called without a text
  have hsome : o.valueType ≠ .flag → ∃ v, arg = some v := by
    intro hne
    cases arg with
    | none => exact absurd (harg rfl) hne
    | some v => exact ⟨v, rfl⟩
  generalize hvt : o.valueType = vt at hg hsome
  -- collections
  have coll : ∀ k, Carries h = (fun o => ArrHolds k o.isSet o) →
      (∃ r, runHandler W a h o arg = .ok r ∧ ArrHolds k o.isSet r.2.1 ∧
        (r.1 = Err.success → ArrHolds k true r.2.1)) →
      ∃ r, runHandler W a h o arg = .ok r ∧ Carries h r.2.1 ∧ (r.1 = Err.success → Carries h r.2.1.markSet) := by
    rintro k hC ⟨r, e1, e2, e3⟩
    refine ⟨r, e1, ?_, fun hr => ?_⟩
    · rw [hC]; simp only; rw [hset r e1]; exact e2
    · rw [hC]; exact (e3 hr).mark
  have mp : ∀ vt, Carries h = (fun o => MapHolds vt o.isSet o) →
      (∃ r, runHandler W a h o arg = .ok r ∧ MapHolds vt o.isSet r.2.1 ∧
        (r.1 = Err.success → MapHolds vt true r.2.1)) →
      ∃ r, runHandler W a h o arg = .ok r ∧ Carries h r.2.1 ∧ (r.1 = Err.success → Carries h r.2.1.markSet) := by
    rintro k hC ⟨r, e1, e2, e3⟩
    refine ⟨r, e1, ?_, fun hr => ?_⟩
    · rw [hC]; simp only; rw [hset r e1]; exact e2
    · rw [hC]; exact (e3 hr).mark
  cases hg with
  | flag =>
    refine ⟨_, rfl, ⟨?_, setBool_word o true⟩, fun _ => ⟨?_, setBool_word o true⟩⟩
    · exact (setBool_alloc o true).trans hc.1
    · exact (setBool_alloc o true).trans hc.1
  | help =>
    obtain ⟨t, ht⟩ := hact
    refine ⟨(Err.success, o, [.usage t, .help t]), ?_, hc, fun _ => hc⟩
    simp only [runHandler, ht, Out.ok_bind]
  | version => exact ⟨_, rfl, hc, fun _ => hc⟩
  | bool =>
    show ∃ r, boolHandler o arg = .ok r ∧ _
    unfold boolHandler
    cases arg with
    | none =>
      exact ⟨_, rfl, hc, fun hr => absurd (show Err.invalidArgument = Err.success from hr) (by decide)⟩
    | some s =>
      simp only
      cases stringToBool s with
      | none =>
        exact ⟨_, rfl, hc, fun hr => absurd (show Err.invalidArgument = Err.success from hr) (by decide)⟩
      | some b =>
        refine ⟨_, rfl, ⟨?_, setBool_word o b⟩, fun _ => ⟨?_, setBool_word o b⟩⟩
        · exact (setBool_alloc o b).trans hc.1
        · exact (setBool_alloc o b).trans hc.1
  | string =>
    obtain ⟨v, rfl⟩ := hsome (by decide)
    exact ⟨_, rfl, ⟨hc.1, .inl ⟨v, rfl⟩⟩, fun _ => ⟨hc.1, .inl ⟨v, rfl⟩⟩⟩
  | int =>
    obtain ⟨v, rfl⟩ := hsome (by decide)
    exact ⟨_, rfl, ⟨hc.1, _, rfl⟩, fun _ => ⟨hc.1, _, rfl⟩⟩
  | float =>
    obtain ⟨v, rfl⟩ := hsome (by decide)
    exact ⟨_, rfl, ⟨hc.1, _, rfl⟩, fun _ => ⟨hc.1, _, rfl⟩⟩
  | arrayString =>
    obtain ⟨v, rfl⟩ := hsome (by decide)
    exact coll .string rfl (collect_keeps setValueString_keeps (applyArrayFlags_keeps W)
      (fun _ _ h => h.alloc true) hc (fun _ _ => trivial) ((hT v rfl).1 rfl))
  | arrayInt =>
    obtain ⟨v, rfl⟩ := hsome (by decide)
    exact coll .int rfl (collect_keeps setValueInt_keeps (applyArrayFlags_keeps W)
      (fun _ _ h => h.alloc true) hc ((hT v rfl).2 rfl) ((hT v rfl).1 rfl))
  | arrayFloat =>
    obtain ⟨v, rfl⟩ := hsome (by decide)
    exact coll .float rfl (collect_keeps (setValueFloat_keeps W) (applyArrayFlags_keeps W)
      (fun _ _ h => h.alloc true) hc (fun _ _ => trivial) ((hT v rfl).1 rfl))
  | mapString =>
    obtain ⟨v, rfl⟩ := hsome (by decide)
    exact mp .mapString rfl (collect_keeps (setKvPair_keeps W (by simp))
      (applyMapFlags_keeps W (k := .string) ⟨rfl, rfl⟩) (fun _ _ h => h.alloc true) hc (fun _ _ => trivial)
      ((hT v rfl).1 rfl))
  | mapInt =>
    obtain ⟨v, rfl⟩ := hsome (by decide)
    exact mp .mapInt rfl (collect_keeps (setKvPair_keeps W (by simp))
      (applyMapFlags_keeps W (k := .int) ⟨rfl, rfl⟩) (fun _ _ h => h.alloc true) hc (fun _ _ => trivial)
      ((hT v rfl).1 rfl))
  | mapFloat =>
    obtain ⟨v, rfl⟩ := hsome (by decide)
    exact mp .mapFloat rfl (collect_keeps (setKvPair_keeps W (by simp))
      (applyMapFlags_keeps W (k := .float) ⟨rfl, rfl⟩) (fun _ _ h => h.alloc true) hc (fun _ _ => trivial)
      ((hT v rfl).1 rfl))
  | mapBool =>
    obtain ⟨v, rfl⟩ := hsome (by decide)
    exact mp .mapBool rfl (collect_keeps (setKvPair_keeps W (by simp))
      (applyMapFlags_keeps W (k := .bool) ⟨rfl, rfl⟩) (fun _ _ h => h.alloc true) hc (fun _ _ => trivial)
      ((hT v rfl).1 rfl))
  | variadicString =>
    obtain ⟨v, rfl⟩ := hsome (by decide)
    exact coll .string rfl (variadicNum_keeps W (conv := fun s => some (.ptr s))
      (fun v w h => by simp only [Option.some.injEq] at h; subst h; rfl) v hc)
  | variadicInt =>
    obtain ⟨v, rfl⟩ := hsome (by decide)
    exact coll .int rfl (variadicNum_keeps W variadicIntConv_readable v hc)
  | variadicFloat =>
    obtain ⟨v, rfl⟩ := hsome (by decide)
    exact coll .float rfl (variadicNum_keeps W (variadicFloatConv_readable W) v hc)

theorem runHandler_sound (W : World) (a : Argus) {h : Handler} {o : Opt} {arg : Option Str} (hs : Sound o)
    (hh : o.handler = some h) (harg : arg = none → o.valueType = .flag)
    (hT : ∀ v, arg = some v → HarmlessTo o h v) (hact : ∃ t, a.activeOptions = .ok t) :
    ∃ r, runHandler W a h o arg = .ok r ∧ Sound r.2.1 ∧ (r.1 = Err.success → Sound r.2.1.markSet) := by
  obtain ⟨r, e1, e2, e3⟩ := runHandler_carries W a hs hh harg hT hact
  have hm := runHandler_meta e1
  have hh' : r.2.1.handler = some h :=
    (congrArg Opt.handler hm : r.2.1.meta.handler = o.meta.handler).trans hh
  refine ⟨r, e1, ⟨hs.decl.of_meta hm, ?_, ?_⟩, fun hr => ⟨hs.decl.of_meta hm, ?_, ?_⟩⟩
  · intro hn; rw [hh'] at hn; simp at hn
  · intro x hx; rw [hh'] at hx; simp only [Option.some.injEq] at hx; subst hx; exact e2
  · intro hn
    have hn : r.2.1.handler = Option.none := hn
    rw [hh'] at hn; simp at hn
  · intro x hx
    have hx : r.2.1.handler = some x := hx
    rw [hh'] at hx; simp only [Option.some.injEq] at hx; subst hx; exact e3 hr

theorem runPreAll_defined (W : World) (arg : Option Str) {h : Handler} : ∀ (vs : List Validator) (a : Argus),
    (∀ v ∈ vs, v.Suits h) → ∃ r, runPreAll W a arg vs = .ok r
  | [], a, _ => ⟨_, rfl⟩
  | v :: vs, a, hv => by
    unfold runPreAll
    split
    · rename_i ho
      have hsuit := hv v (by simp)
      unfold Validator.Suits at hsuit
      have : ∃ r, runPre W v.kind arg = .ok r := by
        rw [ho] at hsuit
        unfold runPre
        cases hk : v.kind <;> rw [hk] at hsuit <;> first | exact ⟨_, rfl⟩ | exact hsuit.elim
      obtain ⟨r, hr⟩ := this
      rw [hr, Out.ok_bind]
      simp only
      split
      · exact ⟨_, rfl⟩
      · exact runPreAll_defined W arg vs _ (fun w hw => hv w (by simp [hw]))
    · exact runPreAll_defined W arg vs a (fun w hw => hv w (by simp [hw]))

theorem callValidators_defined (W : World) {h : Handler} {o : Opt} (hs : Carries h o) (hset : o.isSet = true) :
    ∀ (vs : List Validator), (∀ v ∈ vs, v.Suits h) → ∃ r, callValidators W o vs = .ok r
  | [], _ => ⟨_, rfl⟩
  | v :: vs, hv => by
    unfold callValidators
    split
    · rename_i ho
      have hsuit := hv v (by simp)
      unfold Validator.Suits at hsuit
      have : ∃ r, runPost W v.kind o = .ok r := by
        rw [ho] at hsuit
        have hint : (h = .int ∨ h = .float) → ∃ i, o.asInt = .ok i := by
          intro hh
          have : ∃ b, o.value = .word (.bits b) := by
            rcases hh with rfl | rfl
            · exact hs.2
            · exact hs.2
          obtain ⟨b, hb⟩ := this
          unfold Opt.asInt; rw [hb]; exact ⟨_, rfl⟩
        have hstr : h = .string → ∃ s, o.asString = .ok (some s) := by
          rintro rfl
          rcases hs.2 with ⟨s, hb⟩ | ⟨_, hf⟩
          · unfold Opt.asString; rw [hb]; exact ⟨_, rfl⟩
          · rw [hset] at hf; simp at hf
        unfold runPost
        cases hk : v.kind <;> rw [hk] at hsuit <;> simp only
        case range mn mx =>
          obtain ⟨i, hi⟩ := hint hsuit
          unfold rangeValidator
          split
          · exact ⟨_, rfl⟩
          · rw [hi, Out.ok_bind]; split <;> exact ⟨_, rfl⟩
        case length mn mx =>
          obtain ⟨s, hs⟩ := hstr hsuit
          unfold lengthValidator
          rw [hs, Out.ok_bind]
          simp only
          repeat' split
          all_goals exact ⟨_, rfl⟩
        case count mn mx => exact ⟨_, rfl⟩
        case choiceStr cs =>
          obtain ⟨s, hs⟩ := hstr hsuit
          unfold choicesString
          rw [hs, Out.ok_bind]
          simp only
          split <;> exact ⟨_, rfl⟩
        case choiceInt cs =>
          obtain ⟨i, hi⟩ := hint (.inl hsuit)
          unfold choicesInt
          rw [hi, Out.ok_bind]; split <;> exact ⟨_, rfl⟩
        case choiceFloat cs =>
          have hsuit : h = .float := hsuit
          subst hsuit
          obtain ⟨b, hb⟩ := hs.2
          unfold choicesFloat Opt.asFloat
          rw [hb]
          simp only [Word.asFloat, Out.ok_bind]
          split <;> exact ⟨_, rfl⟩
        case regex => exact hsuit.elim
        case custom id => exact ⟨_, rfl⟩
      obtain ⟨r, hr⟩ := this
      obtain ⟨r2, hr2⟩ := callValidators_defined W hs hset vs (fun w hw => hv w (by simp [hw]))
      rw [hr, Out.ok_bind]
      split
      · exact ⟨_, rfl⟩
      · rw [hr2, Out.ok_bind]; exact ⟨_, rfl⟩
    · exact callValidators_defined W hs hset vs (fun w hw => hv w (by simp [hw]))

theorem freeOptionValue_defined {o : Opt} (hs : Sound o) : ∃ o', freeOptionValue o = .ok o' := by
  unfold freeOptionValue
  cases ha : o.isAllocated with
  | false => exact ⟨_, rfl⟩
  | true =>
    rw [if_neg (by simp)]
    suffices h : runFree o.freeHandler o = .ok () by rw [h]; exact ⟨_, rfl⟩
    cases hh : o.handler with
    | none => rw [hs.none hh] at ha; simp at ha
    | some h =>
      have hc := hs.holds h hh
      obtain ⟨fh, hf, hg⟩ := hs.decl.goes h hh
      rw [hf]
      have arrS : ArrHolds .string o.isSet o → runFree (some .arrayString) o = .ok () := by
        rintro ⟨_, cells, h2, h3, _⟩
        unfold runFree
        rcases h2.val with ⟨e1, e2⟩ | ⟨e1, _⟩
        · rw [e2]
          have : o.valueCount = 0 := by rw [h2.count, e1]; rfl
          simp [Val.null, this]
        · rw [e1]
          simp only [h2.count, Nat.lt_irrefl, if_false, List.take_length]
          unfold freeStrings
          rw [if_pos]
          exact List.all_eq_true.2 h3
      have arrD : ∀ k, ArrHolds k o.isSet o → runFree (some .default) o = .ok () := by
        rintro k ⟨_, cells, h2, h3, _⟩
        unfold runFree
        rcases h2.val with ⟨e1, e2⟩ | ⟨e1, _⟩
        · rw [e2]; rfl
        · rw [e1]
      have mp : ∀ vt, MapHolds vt o.isSet o → runFree (some .mapString) o = .ok () := by
        rintro vt ⟨_, es, h2, _⟩
        unfold runFree
        rcases h2.val with ⟨e1, e2⟩ | ⟨e1, _⟩
        · rw [e2]; simp [Val.null]
        · rw [e1]
          have : o.valueCount = (es.map encPair).length := by rw [List.length_map]; exact h2.count
          simp only [this, Nat.lt_irrefl, if_false]
      have plain : ∀ {P : Prop}, o.isAllocated = false ∧ P → False := by
        intro P h; rw [ha] at h; simp at h
      generalize hvt : o.valueType = vt at hg
      cases hg with
      | flag => exact (plain hc).elim
      | help => exact (plain hc).elim
      | version => exact (plain hc).elim
      | bool => exact (plain hc).elim
      | string => exact (plain hc).elim
      | int => exact (plain hc).elim
      | float => exact (plain hc).elim
      | arrayString => exact arrS hc
      | arrayInt => exact arrD _ hc
      | arrayFloat => exact arrD _ hc
      | mapString => exact mp _ hc
      | mapInt => exact mp _ hc
      | mapFloat => exact mp _ hc
      | mapBool => exact mp _ hc
      | variadicString => exact arrS hc
      | variadicInt => exact arrD _ hc
      | variadicFloat => exact arrD _ hc

/-! ### The whole context -/

/-- Defined, except for a write past the command stack. -/
def Defd {α : Type} (x : Out α) (P : α → Prop) : Prop :=
  match x with
  | .ok r => P r
  | .ub u => u = .stackOverflow

theorem Defd.ok {α : Type} {x : Out α} {P : α → Prop} (h : ∃ r, x = .ok r ∧ P r) : Defd x P := by
  obtain ⟨r, rfl, h⟩ := h; exact h

theorem Defd.bind {α β : Type} {x : Out α} {f : α → Out β} {P : α → Prop} {Q : β → Prop} (h : Defd x P)
    (hf : ∀ r, x = .ok r → P r → Defd (f r) Q) : Defd (x >>= f) Q := by
  cases x with
  | ok r => exact hf r rfl h
  | ub u => exact h

theorem Defd.mono {α : Type} {x : Out α} {P Q : α → Prop} (h : Defd x P) (hPQ : ∀ r, x = .ok r → P r → Q r) :
    Defd x Q := by
  cases x with
  | ok r => exact hPQ r rfl h
  | ub u => exact h

/-- The tables `S` of a declaration are closed under subcommands. -/
structure Closed (S : List (List Opt)) (root : Nat) : Prop where
  root : root < S.length
  subs : ∀ (k : Nat) (os : List Opt) (i : Nat) (o : Opt), S[k]? = some os → os[i]? = some o →
    o.type = .subcommand → ∃ j, o.subOptions = some j ∧ j < S.length

/-- The context declared by `S` is in good order. -/
structure Good (S : List (List Opt)) (root : Nat) (a : Argus) : Prop where
  shape : a.shape = S
  root : a.root = root
  all : ∀ p o, a.getOpt p = .ok o → Sound o
  stack : ∀ p ∈ a.stack, ∃ o j, a.getOpt p = .ok o ∧ o.subOptions = some j ∧ j < S.length ∧ o.type = .subcommand

theorem shape_get {a : Argus} {p : Ptr} {o : Opt} (h : a.getOpt p = .ok o) :
    ∃ os, a.shape[p.tbl]? = some os ∧ os[p.idx]? = some o.meta := by
  obtain ⟨os, h1, h2⟩ := getOpt_eq_ok.1 h
  refine ⟨os.map Opt.meta, ?_, ?_⟩
  · unfold Argus.shape; rw [List.getElem?_map, h1]; rfl
  · rw [List.getElem?_map, h2]; rfl

theorem Good.length {S : List (List Opt)} {root : Nat} {a : Argus} (h : Good S root a) :
    a.tables.length = S.length := by
  rw [← h.shape]; unfold Argus.shape; rw [List.length_map]

theorem Good.table {S : List (List Opt)} {root : Nat} {a : Argus} (h : Good S root a) {k : Nat}
    (hk : k < S.length) : ∃ os, a.table (some k) = .ok os := by
  have : k < a.tables.length := by rw [h.length]; exact hk
  exact ⟨a.tables[k], table_eq_ok.2 ⟨k, rfl, by simp [this]⟩⟩

theorem Good.sub {S : List (List Opt)} {root : Nat} {a : Argus} (h : Good S root a) (hS : Closed S root)
    {p : Ptr} {o : Opt} (ho : a.getOpt p = .ok o) (ht : o.type = .subcommand) :
    ∃ j, o.subOptions = some j ∧ j < S.length := by
  obtain ⟨os, h1, h2⟩ := shape_get ho
  rw [h.shape] at h1
  exact hS.subs p.tbl os p.idx o.meta h1 h2 ht

theorem Good.active {S : List (List Opt)} {root : Nat} {a : Argus} (h : Good S root a) :
    ∃ t, a.activeOptions = .ok t := by
  unfold Argus.activeOptions
  cases hl : a.stack.getLast? with
  | none => exact ⟨_, rfl⟩
  | some p =>
    obtain ⟨o, j, ho, _⟩ := h.stack p (List.mem_of_getLast? hl)
    simp only [ho, Out.ok_bind]
    exact ⟨_, rfl⟩

/-- Changes of tables that keep the shape, the stack and the entries' good order. -/
theorem Good.step {S : List (List Opt)} {root : Nat} {a b : Argus} (h : Good S root a) (hs : b.shape = a.shape)
    (hr : b.root = a.root) (hst : b.stack = a.stack) (hall : ∀ p o, b.getOpt p = .ok o → Sound o) :
    Good S root b := by
  refine ⟨hs.trans h.shape, hr.trans h.root, hall, ?_⟩
  intro p hp
  rw [hst] at hp
  obtain ⟨o, j, h1, h2, h3, h6⟩ := h.stack p hp
  obtain ⟨o', h4, h5⟩ := shape_getOpt hs h1
  exact ⟨o', j, h4, (congrArg Opt.subOptions h5 : o'.meta.subOptions = o.meta.subOptions).trans h2, h3,
    (congrArg Opt.type h5 : o'.meta.type = o.meta.type).trans h6⟩

theorem Good.same {S : List (List Opt)} {root : Nat} {a b : Argus} (h : Good S root a)
    (ht : b.tables = a.tables) (hr : b.root = a.root) (hst : b.stack = a.stack) : Good S root b :=
  h.step (shape_congr ht) hr hst (fun p o ho => h.all p o (by rw [← getOpt_congr ht]; exact ho))

theorem Good.emits {S : List (List Opt)} {root : Nat} {a : Argus} (h : Good S root a) (es : List Event) :
    Good S root (a.emits es) := h.same (by simp) (by simp) (by simp)

theorem Good.report {S : List (List Opt)} {root : Nat} {a : Argus} (h : Good S root a) (c : Int) :
    Good S root (a.report c) := h.same rfl rfl rfl

theorem Good.setOpt {S : List (List Opt)} {root : Nat} {a : Argus} (h : Good S root a) {p : Ptr} {o o' : Opt}
    (ho : a.getOpt p = .ok o) (hm : o'.meta = o.meta) (hs : Sound o') : Good S root (a.setOpt p o') := by
  refine h.step (shape_setOpt ho hm) rfl rfl (fun q x hx => ?_)
  by_cases hq : q = p
  · subst hq
    rw [getOpt_setOpt_self ho] at hx
    simp only [Out.ok.injEq] at hx; subst hx; exact hs
  · rw [getOpt_setOpt_ne hq] at hx
    exact h.all q x hx

/-- A handler of the declaration. -/
def Fed (S : List (List Opt)) (h : Handler) : Prop := ∃ os ∈ S, ∃ o ∈ os, o.handler = some h

theorem Good.fed {S : List (List Opt)} {root : Nat} {a : Argus} (h : Good S root a) {p : Ptr} {o : Opt}
    (ho : a.getOpt p = .ok o) {x : Handler} (hx : o.handler = some x) : Fed S x := by
  obtain ⟨os, h1, h2⟩ := shape_get ho
  rw [h.shape] at h1
  exact ⟨os, List.mem_of_getElem? h1, o.meta, List.mem_of_getElem? h2, hx⟩

/-- The entry of a declaration. -/
def entryAt (S : List (List Opt)) (p : Ptr) : Option Opt := S[p.tbl]?.bind (fun os => os[p.idx]?)

theorem entryAt_shape {a : Argus} {p : Ptr} {m : Opt} (h : entryAt a.shape p = some m) :
    ∃ o, a.getOpt p = .ok o ∧ o.meta = m := by
  unfold entryAt Argus.shape at h
  rw [List.getElem?_map] at h
  cases ht : a.tables[p.tbl]? with
  | none => rw [ht] at h; simp at h
  | some os =>
    rw [ht] at h
    simp only [Option.map_some, Option.bind_some, List.getElem?_map, Option.map_eq_some_iff] at h
    obtain ⟨o, h1, h2⟩ := h
    exact ⟨o, getOpt_eq_ok.2 ⟨os, ht, h1⟩, h2⟩

/-- The value of the variable of an option. -/
def envTexts (ep : Option Str) (env : Env) (o : Opt) : List (Option Str) := ((envVarName ep o).bind env).toList.map some

/-- What remains to be given to the options of a context may be given to them. -/
def Fits (env : Env) (a : Argus) (xs : List Act) : Prop :=
  ∀ q o x, a.getOpt q = .ok o → o.handler = some x →
    (x.splits = true → o.isSet = false → ∀ t, (textsOf q xs ++ envTexts a.envPrefix env o).head? = some (some t) →
      pieces t ≠ []) ∧
    (x = .arrayInt → ∀ t, some t ∈ textsOf q xs ++ envTexts a.envPrefix env o → ∀ p ∈ pieces t, ∀ r,
      parseIntRange p = some r → r.2 ≠ intMax)

/-- Giving an option what is meant for it, or nothing, leaves what remains. -/
theorem Fits.step {env : Env} {a b : Argus} {xs ys : List Act} (h : Fits env a xs) (hs : b.shape = a.shape)
    (he : b.envPrefix = a.envPrefix) (hsub : ∀ q t, t ∈ textsOf q ys → t ∈ textsOf q xs)
    (hset : ∀ q o o', a.getOpt q = .ok o → b.getOpt q = .ok o' → o'.isSet = false → o.isSet = false ∧
      textsOf q ys = textsOf q xs) : Fits env b ys := by
  intro q o' x ho' hx
  obtain ⟨o, ho, hm⟩ := shape_getOpt hs.symm ho'
  have hh : o.handler = some x := (congrArg Opt.handler hm : o.meta.handler = o'.meta.handler).trans hx
  have hev : envTexts b.envPrefix env o' = envTexts a.envPrefix env o := by
    unfold envTexts
    have e1 : envVarName a.envPrefix o.meta = envVarName a.envPrefix o'.meta := by rw [hm]
    have e2 : envVarName a.envPrefix o = envVarName a.envPrefix o' := e1
    rw [he, e2]
  obtain ⟨h1, h2⟩ := h q o x ho hh
  rw [hev]
  refine ⟨fun hsp hf t ht => ?_, fun hi t ht => ?_⟩
  · obtain ⟨g1, g2⟩ := hset q o o' ho ho' hf
    rw [g2] at ht
    exact h1 hsp g1 t ht
  · refine h2 hi t ?_
    rcases List.mem_append.1 ht with ht | ht
    · exact List.mem_append_left _ (hsub q _ ht)
    · exact List.mem_append_right _ ht

/-- Options stay set. -/
def SetStays (a b : Argus) : Prop :=
  ∀ q o o', a.getOpt q = .ok o → b.getOpt q = .ok o' → o'.isSet = false → o.isSet = false

theorem SetStays.trans {a b c : Argus} (h : SetStays a b) (hs : b.shape = a.shape) (h' : SetStays b c) : SetStays a c := by
  intro q o o' ho ho' hf
  obtain ⟨o1, h1, _⟩ := shape_getOpt hs ho
  exact h q o o1 ho h1 (h' q o1 o' h1 ho' hf)

theorem SetStays.setOpt {a : Argus} {p : Ptr} {o o' : Opt} (ho : a.getOpt p = .ok o)
    (h : o'.isSet = false → o.isSet = false) : SetStays a (a.setOpt p o') := by
  intro q x x' hx hx' hf
  by_cases hq : q = p
  · subst hq
    rw [getOpt_setOpt_self ho] at hx'
    rw [ho] at hx
    simp only [Out.ok.injEq] at hx hx'; subst hx; subst hx'; exact h hf
  · rw [getOpt_setOpt_ne hq, hx] at hx'
    simp only [Out.ok.injEq] at hx'; subst hx'; exact hf

theorem SetStays.one {a b : Argus} {p : Ptr} {o o' : Opt} (h1 : OneOpt p a b) (ho : a.getOpt p = .ok o)
    (ho' : b.getOpt p = .ok o') (h : o'.isSet = false → o.isSet = false) : SetStays a b := by
  intro q x x' hx hx' hf
  by_cases hq : q = p
  · subst hq
    rw [ho'] at hx'
    rw [ho] at hx
    simp only [Out.ok.injEq] at hx hx'; subst hx; subst hx'; exact h hf
  · rw [h1.others q hq, hx] at hx'
    simp only [Out.ok.injEq] at hx'; subst hx'; exact hf

theorem SetStays.refl (a : Argus) : SetStays a a := by
  intro q o o' ho ho' hf
  rw [ho] at ho'
  simp only [Out.ok.injEq] at ho'; subst ho'; exact hf

theorem Fits.stays {env : Env} {a b : Argus} {xs : List Act} (h : Fits env a xs) (hs : b.shape = a.shape)
    (he : b.envPrefix = a.envPrefix) (hset : SetStays a b) : Fits env b xs :=
  h.step hs he (fun _ _ h => h) (fun q o o' ho ho' hf => ⟨hset q o o' ho ho' hf, rfl⟩)

theorem execCallbacks_good (W : World) {S : List (List Opt)} {root : Nat} {a : Argus} (h : Good S root a)
    {p : Ptr} {o : Opt} (ho : a.getOpt p = .ok o) {arg : Option Str} (harg : arg = none → o.valueType = .flag)
    (hT : ∀ v x, arg = some v → o.handler = some x → HarmlessTo o x v) :
    ∃ r, execCallbacks W a p arg = .ok r ∧ Good S root r.2 ∧ ∃ o', r.2.getOpt p = .ok o' ∧
      (o'.isSet = false → o.isSet = false ∧ r.1 ≠ Err.success) := by
  unfold execCallbacks
  rw [ho, Out.ok_bind]
  have hs := h.all p o ho
  cases hh : o.handler with
  | none => exact ⟨_, rfl, h.report _, o, ho, fun hf => ⟨hf, show ¬ Err.invalidHandler = Err.success from by decide⟩⟩
  | some x =>
    simp only
    obtain ⟨pre, hpre⟩ := runPreAll_defined W arg (o.validators.getD []) a (hs.decl.checks x hh)
    obtain ⟨es, hes⟩ := runPreAll_eq _ hpre
    have h1 : Good S root pre.2 := by rw [hes]; exact h.emits es
    rw [hpre, Out.ok_bind]
    split
    · rename_i hne
      exact ⟨_, rfl, h1, o, by rw [hes, getOpt_emits]; exact ho, fun hf => ⟨hf, hne⟩⟩
    · obtain ⟨r, e1, e2, e3⟩ := runHandler_sound W pre.2 hs hh harg (fun v hv => hT v x hv hh) h1.active
      have hm := runHandler_meta e1
      have ho' : (pre.2.emits r.2.2).getOpt p = .ok o := by rw [getOpt_emits, hes, getOpt_emits]; exact ho
      rw [e1, Out.ok_bind]
      split
      · rename_i hne
        exact ⟨_, rfl, (h1.emits _).setOpt ho' hm e2, _, getOpt_setOpt_self ho', fun hf =>
          ⟨(runHandler_set e1).symm.trans hf, hne⟩⟩
      · rename_i hr
        exact ⟨_, rfl, (h1.emits _).setOpt ho' (show r.2.1.markSet.meta = o.meta from hm)
          (e3 (Decidable.not_not.1 hr)), _, getOpt_setOpt_self ho', fun hf => by cases hf⟩

theorem findIn_get {a : Argus} {k : Nat} {os : List Opt} (ht : a.table (some k) = .ok os) {i : Nat}
    (hi : i < os.length) : ∃ o, a.getOpt ⟨k, i⟩ = .ok o ∧ o ∈ os := by
  obtain ⟨k', hk, h⟩ := table_eq_ok.1 ht
  simp only [Option.some.injEq] at hk; subst hk
  exact ⟨os[i], getOpt_eq_ok.2 ⟨os, h, by simp [hi]⟩, by simp⟩

/-! ### Reading the command line -/

theorem enterSub_good {S : List (List Opt)} {root : Nat} (hS : Closed S root) {a : Argus} (h : Good S root a)
    {p : Ptr} {o : Opt} (ho : a.getOpt p = .ok o) (ht : o.type = .subcommand) :
    Defd (enterSub a p) (fun e => Good S root e.2 ∧ ∃ j, e.1 = some j ∧ j < S.length) := by
  unfold enterSub
  rw [ho, Out.ok_bind]
  split
  · exact rfl
  · obtain ⟨j, hj1, hj2⟩ := h.sub hS ho ht
    have hs := h.all p o ho
    have hn := hs.decl.subcommand ht
    have hs' : Sound { o with isSet := true } := by
      refine ⟨hs.decl.of_meta rfl, fun _ => hs.none hn, fun x hx => ?_⟩
      have hx : o.handler = some x := hx
      rw [hn] at hx; simp at hx
    have h1 := h.setOpt ho (o' := { o with isSet := true }) rfl hs'
    refine ⟨⟨h1.shape, h1.root, h1.all, ?_⟩, j, hj1, hj2⟩
    intro q hq
    simp only [List.mem_append, List.mem_singleton] at hq
    rcases hq with hq | rfl
    · exact h1.stack q hq
    · exact ⟨_, j, getOpt_setOpt_self ho, hj1, hj2, ht⟩

/-- What is asked for concerns entries of the declaration. -/
def ActWell (S : List (List Opt)) : Act → Prop
  | .give p t => ∃ o, entryAt S p = some o ∧ (t = none → o.valueType = .flag)
  | .enter p => ∃ o, entryAt S p = some o ∧ o.type = .subcommand
  | .fail c => c ≠ Err.success
  | .noTable => False

theorem posActs_well {S : List (List Opt)} {k : Nat} {os : List Opt} (hk : S[k]? = some os) (pos : Nat) (arg : Str) :
    ∀ x ∈ posActs k os pos arg, ActWell S x := by
  intro x hx
  unfold posActs at hx
  split at hx
  · rename_i o i hs
    simp only [List.mem_singleton] at hx; subst hx
    exact ⟨o, by simp [entryAt, hk, (slotAt_get hs).1], by simp⟩
  · simp only [List.mem_singleton] at hx; subst hx; exact (show ¬ Err.invalidArgument = Err.success from by decide)

theorem giveIdx_well {S : List (List Opt)} {k : Nat} {os : List Opt} (hk : S[k]? = some os) {i : Nat} (hi : i < os.length)
    {t : Option Str} (ht : t = none → isFlagAt os i = true) : ActWell S (.give ⟨k, i⟩ t) := by
  refine ⟨os[i], by simp [entryAt, hk, hi], fun h => ?_⟩
  have := ht h
  unfold isFlagAt at this
  simpa [hi] using this

theorem longActs_well {S : List (List Opt)} {k : Nat} {os : List Opt} (hk : S[k]? = some os) (name : Str)
    (value next : Option Str) : ∀ x ∈ (longActs k os name value next).1, ActWell S x := by
  intro x hx
  unfold longActs at hx
  split at hx
  · simp only [List.mem_singleton] at hx; subst hx; exact (show ¬ Err.invalidArgument = Err.success from by decide)
  · rename_i i hi
    have hlt : i < os.length := (List.findIdx?_eq_some_iff_findIdx_eq.1 hi).1
    split at hx
    · rename_i hf
      simp only [List.mem_singleton] at hx; subst hx; exact giveIdx_well hk hlt (fun _ => hf)
    · split at hx <;> simp only [List.mem_singleton] at hx <;> subst hx
      · exact giveIdx_well hk hlt (by simp)
      · exact giveIdx_well hk hlt (by simp)
      · exact (show ¬ Err.missingValue = Err.success from by decide)

theorem shortActs_well {S : List (List Opt)} {k : Nat} {os : List Opt} (hk : S[k]? = some os) (next : Option Str) :
    ∀ cs, ∀ x ∈ (shortActs k os next cs).1, ActWell S x
  | [], x, hx => by simp [shortActs] at hx
  | c :: cs, x, hx => by
    unfold shortActs at hx
    split at hx
    · simp only [List.mem_singleton] at hx; subst hx; exact (show ¬ Err.invalidArgument = Err.success from by decide)
    · rename_i i hi
      have hlt : i < os.length := (List.findIdx?_eq_some_iff_findIdx_eq.1 hi).1
      split at hx
      · rename_i hf
        rcases List.mem_cons.1 hx with rfl | hx
        · exact giveIdx_well hk hlt (fun _ => hf)
        · exact shortActs_well hk next cs x hx
      · split at hx <;> simp only [List.mem_singleton] at hx <;> subst hx
        · exact giveIdx_well hk hlt (by simp)
        · exact giveIdx_well hk hlt (by simp)
        · exact (show ¬ Err.missingValue = Err.success from by decide)

theorem meaning_well {S : List (List Opt)} {root : Nat} (hS : Closed S root) : ∀ (args : List Str) (k pos : Nat)
    (only skip : Bool), k < S.length → ∀ x ∈ meaning S (some k) pos only skip args, ActWell S x
  | [], k, pos, only, skip, hk, x, hx => by cases skip <;> simp [meaning] at hx
  | arg :: rest, k, pos, only, true, hk, x, hx => by
    unfold meaning at hx; exact meaning_well hS rest k pos only false hk x hx
  | arg :: rest, k, pos, only, false, hk, x, hx => by
    have ih := meaning_well hS rest
    have hos : S[k]? = some S[k] := by simp [hk]
    unfold meaning at hx
    split at hx
    · exact ih _ _ _ _ hk x hx
    · split at hx
      · exact ih _ _ _ _ hk x hx
      · simp only [Option.bind_some, hos] at hx
        split at hx
        · rcases List.mem_append.1 hx with hx | hx
          · exact posActs_well hos _ _ x hx
          · exact ih _ _ _ _ hk x hx
        · split at hx
          · simp at hx
          · rcases List.mem_append.1 hx with hx | hx
            · exact longActs_well hos _ _ _ x hx
            · exact ih _ _ _ _ hk x hx
          · split at hx
            · rcases List.mem_append.1 hx with hx | hx
              · exact posActs_well hos _ _ x hx
              · exact ih _ _ _ _ hk x hx
            · rcases List.mem_append.1 hx with hx | hx
              · exact shortActs_well hos _ _ x hx
              · exact ih _ _ _ _ hk x hx
          · split at hx
            · rename_i y hy
              obtain ⟨g1, g2⟩ := subChoice_get hy
              rcases List.mem_cons.1 hx with rfl | hx
              · exact ⟨y.1, by simp [entryAt, hos, g1], g2⟩
              · obtain ⟨j, hj1, hj2⟩ := hS.subs k _ _ _ hos g1 g2
                rw [hj1] at hx
                exact ih _ _ _ _ hj2 x hx
            · simp only [List.mem_singleton] at hx; subst hx; rename_i c hc; rw [subChoice_error hc]; exact (show ¬ Err.ambiguousSubcommand = Err.success from by decide)
            · rcases List.mem_append.1 hx with hx | hx
              · exact posActs_well hos _ _ x hx
              · exact ih _ _ _ _ hk x hx

theorem textsOf_give_self (p : Ptr) (t : Option Str) (xs : List Act) : textsOf p (.give p t :: xs) = t :: textsOf p xs := by
  unfold textsOf; rw [List.filterMap_cons]; simp

theorem textsOf_give_ne {p q : Ptr} (h : q ≠ p) (t : Option Str) (xs : List Act) :
    textsOf q (.give p t :: xs) = textsOf q xs := by
  unfold textsOf; rw [List.filterMap_cons]; simp [Ne.symm h]

/-- What is asked for can be carried out. -/
theorem run_good (W : World) (env : Env) {S : List (List Opt)} {root : Nat} (hS : Closed S root) :
    ∀ (xs : List Act) {a : Argus}, Good S root a → (∀ x ∈ xs, ActWell S x) → Fits env a xs →
    Defd (run W a xs) (fun r => Good S root r.2 ∧ (r.1 = Err.success → Fits env r.2 []))
  | [], a, h, _, hf => ⟨h, fun _ => hf⟩
  | .fail c :: xs, a, h, hw, _ => ⟨h.report c, fun hc => absurd hc (hw (.fail c) (by simp))⟩
  | .noTable :: xs, a, h, hw, _ => (hw .noTable (by simp)).elim
  | .enter p :: xs, a, h, hw, ht => by
    obtain ⟨m, h1, h2⟩ := hw (.enter p) (by simp)
    rw [← h.shape] at h1
    obtain ⟨o, ho, rfl⟩ := entryAt_shape h1
    unfold run
    refine (enterSub_good hS h ho h2).bind (fun e hen he => ?_)
    refine run_good W env hS xs he.1 (fun x hx => hw x (by simp [hx])) ?_
    have hfr := enterSub_frame hen
    refine ht.step (he.1.shape.trans h.shape.symm) hfr.1.envPrefix (fun q t hq => ?_) (fun q o1 o2 g1 g2 hf => ⟨?_, ?_⟩)
    · exact hq
    · unfold enterSub at hen
      rw [ho, Out.ok_bind] at hen
      split at hen
      · cases hen
      · simp only [Out.ok.injEq] at hen
        subst hen
        have g2 : (a.setOpt p { o with isSet := true }).getOpt q = .ok o2 := g2
        by_cases hq : q = p
        · subst hq
          rw [getOpt_setOpt_self ho] at g2
          simp only [Out.ok.injEq] at g2; subst g2; cases hf
        · rw [getOpt_setOpt_ne hq, g1] at g2
          simp only [Out.ok.injEq] at g2; subst g2; exact hf
    · rfl
  | .give p t :: xs, a, h, hw, ht => by
    obtain ⟨m, h1, h2⟩ := hw (.give p t) (by simp)
    have h1' := h1
    rw [← h.shape] at h1'
    obtain ⟨o, ho, rfl⟩ := entryAt_shape h1'
    obtain ⟨r, e1, e2, o', e3, e4⟩ := execCallbacks_good W h ho (arg := t) h2 (fun v x hv hx => by
      subst hv
      obtain ⟨g1, g2⟩ := ht p o x ho hx
      rw [textsOf_give_self] at g1 g2
      exact ⟨fun hs hf => g1 hs hf v rfl, fun hi => g2 hi v (by simp)⟩)
    unfold run
    rw [e1, Out.ok_bind]
    split
    · rename_i hne
      exact ⟨e2, fun hc => absurd hc hne⟩
    · rename_i hok
      have hone := execCallbacks_one e1
      refine run_good W env hS xs e2 (fun x hx => hw x (by simp [hx])) ?_
      refine ht.step (e2.shape.trans h.shape.symm) hone.frame.envPrefix (fun q t' hq => ?_)
        (fun q o1 o2 g1 g2 hf => ?_)
      · by_cases hqp : q = p
        · subst hqp; rw [textsOf_give_self]; exact List.mem_cons_of_mem _ hq
        · rw [textsOf_give_ne hqp]; exact hq
      · by_cases hqp : q = p
        · subst hqp
          rw [e3] at g2
          simp only [Out.ok.injEq] at g2; subst g2
          exact absurd (Decidable.not_not.1 hok) (e4 hf).2
        · rw [hone.others q hqp, g1] at g2
          simp only [Out.ok.injEq] at g2; subst g2
          exact ⟨hf, (textsOf_give_ne hqp t xs).symm⟩

theorem asks_shape (a : Argus) (args : List Str) : a.asks args = meaning a.shape (some a.root) 0 false false args :=
  (meaning_shape a.tables args _ _ _ _).symm

theorem parseArgs_good (W : World) (env : Env) {S : List (List Opt)} {root : Nat} (hS : Closed S root) {a : Argus}
    (h : Good S root a) (args : List Str) (ht : Fits env a (a.asks args)) :
    Defd (parseArgs W a (some a.root) args) (fun r => Good S root r.2 ∧ (r.1 = Err.success → Fits env r.2 [])) := by
  rw [parseArgs_run]
  refine run_good W env hS _ h ?_ ht
  rw [asks_shape, h.shape, h.root]
  exact meaning_well hS args _ _ _ _ hS.root

/-! ### Environment, validation, release -/

theorem loadEnvStep_good (W : World) (env : Env) {S : List (List Opt)} {root : Nat} {a : Argus}
    (h : Good S root a) (hT : Fits env a []) {p : Ptr} {o : Opt} (ho : a.getOpt p = .ok o) :
    ∃ r, loadEnvStep W env a p = .ok r ∧ Good S root r.2 ∧ Fits env r.2 [] := by
  unfold loadEnvStep
  rw [ho, Out.ok_bind]
  split
  · exact ⟨_, rfl, h, hT⟩
  · split
    · exact ⟨_, rfl, h, hT⟩
    · rename_i hset
      cases hn : envVarName a.envPrefix o with
      | none => exact ⟨_, rfl, h, hT⟩
      | some n =>
        simp only
        cases hv : env n with
        | none => exact ⟨_, rfl, h, hT⟩
        | some v =>
          simp only
          obtain ⟨r, e1, e2, o', e3, e4⟩ := execCallbacks_good W h ho (arg := some v) (by simp)
            (fun w x hw hx => by
              simp only [Option.some.injEq] at hw; subst hw
              obtain ⟨g1, g2⟩ := hT p o x ho hx
              have hev : textsOf p [] ++ envTexts a.envPrefix env o = [some v] := by
                unfold envTexts; rw [hn, Option.bind_some, hv]; rfl
              rw [hev] at g1 g2
              exact ⟨fun hs hf => g1 hs hf v rfl, fun hi => g2 hi v (by simp)⟩)
          have hone := execCallbacks_one e1
          have hF : Fits env r.2 [] := hT.stays hone.frame.shape hone.frame.envPrefix
            (.one hone ho e3 (fun hf => (e4 hf).1))
          rw [e1, Out.ok_bind]
          split
          · split
            · rename_i hst
              have ho1 := execCallbacks_one e1
              obtain ⟨o1, h1, h2⟩ := shape_getOpt ho1.frame.shape ho
              rw [h1, Out.ok_bind]
              refine ⟨_, rfl, e2.setOpt h1 rfl ?_,
                hF.stays (shape_setOpt h1 rfl) rfl (.setOpt h1 (fun hf => by cases hf))⟩
              have hs0 := h.all p o ho
              have hs1 := e2.all p o1 h1
              have hhd : o1.handler = o.handler := (congrArg Opt.handler h2 : o1.meta.handler = o.meta.handler)
              refine ⟨hs1.decl.of_meta rfl, hs1.none, fun x hx => ?_⟩
              have hx1 : o1.handler = some x := hx
              have hx0 : o.handler = some x := by rw [← hhd]; exact hx1
              -- the option was set, so it has FLAG_ENV_OVERRIDE and is not a collection
              have hov : o.flags.has .envOverride = true := by
                cases hf : o.flags.has .envOverride with
                | true => rfl
                | false => exact absurd ⟨hst, hf⟩ hset
              have hnc : x.isCollection = false := by
                cases hc : x.isCollection with
                | false => rfl
                | true => have := hs0.decl.env x hx0 hc; rw [hov] at this; simp at this
              have c0 := hs0.holds x hx0
              have c1 := hs1.holds x hx1
              have hrest : ∀ w, o.value = .word w → restoreValue o o1 = .word w := by
                intro w hw; unfold restoreValue; rw [hw]
              cases x <;> simp only [Handler.isCollection, Bool.true_eq_false] at hnc <;>
                simp only [Carries] at c0 c1 ⊢
              case flag => obtain ⟨w, hw⟩ := c0.2; exact ⟨c1.1, w, hrest w hw⟩
              case bool => obtain ⟨w, hw⟩ := c0.2; exact ⟨c1.1, w, hrest w hw⟩
              case help => obtain ⟨w, hw⟩ := c0.2; exact ⟨c1.1, w, hrest w hw⟩
              case version => obtain ⟨w, hw⟩ := c0.2; exact ⟨c1.1, w, hrest w hw⟩
              case int => obtain ⟨w, hw⟩ := c0.2; exact ⟨c1.1, w, hrest _ hw⟩
              case float => obtain ⟨w, hw⟩ := c0.2; exact ⟨c1.1, w, hrest _ hw⟩
              case string =>
                rcases c0.2 with ⟨s, hs⟩ | ⟨_, hf⟩
                · exact ⟨c1.1, .inl ⟨s, hrest _ hs⟩⟩
                · rw [hst] at hf; simp at hf
            · exact ⟨_, rfl, e2, hF⟩
          · exact ⟨_, rfl, e2, hF⟩

theorem loadEnvLoop_good (W : World) (env : Env) {S : List (List Opt)} {root : Nat}
    (k : Nat) : ∀ (n i : Nat) {a : Argus}, Fits env a [] → Good S root a →
    (∀ j, j < i + n → ∃ o, a.getOpt ⟨k, j⟩ = .ok o) →
    ∃ r, loadEnvLoop W env k n i a = .ok r ∧ Good S root r.2 ∧ r.2.stack = a.stack ∧ Fits env r.2 []
  | 0, i, a, hT, h, _ => ⟨_, rfl, h, rfl, hT⟩
  | n + 1, i, a, hT, h, hget => by
    obtain ⟨o, ho⟩ := hget i (by omega)
    obtain ⟨r, e1, e2, hF⟩ := loadEnvStep_good W env h hT ho
    have hst : r.2.stack = a.stack := (loadEnvStep_one e1).stack
    unfold loadEnvLoop
    rw [e1, Out.ok_bind]
    split
    · exact ⟨_, rfl, e2, hst, hF⟩
    · obtain ⟨r2, f1, f2, f3, f4⟩ := loadEnvLoop_good W env k n (i + 1) hF e2 (fun j hj => by
        obtain ⟨o, ho⟩ := hget j (by omega)
        obtain ⟨o', h1, _⟩ := shape_getOpt (e2.shape.trans h.shape.symm) ho
        exact ⟨o', h1⟩)
      exact ⟨r2, f1, f2, f3.trans hst, f4⟩

theorem loadEnvTable_good (W : World) (env : Env) {S : List (List Opt)} {root : Nat}
    {k : Nat} (hk : k < S.length) {a : Argus} (hT : Fits env a []) (h : Good S root a) :
    ∃ r, loadEnvTable W env a k = .ok r ∧ Good S root r.2 ∧ r.2.stack = a.stack ∧ Fits env r.2 [] := by
  obtain ⟨os, hos⟩ := h.table hk
  unfold loadEnvTable
  rw [hos, Out.ok_bind]
  exact loadEnvLoop_good W env k _ 0 hT h (fun j hj => by
    obtain ⟨o, ho, _⟩ := findIn_get hos (i := j) (by omega)
    exact ⟨o, ho⟩)

theorem loadEnvStack_good (W : World) (env : Env) {S : List (List Opt)} {root : Nat}
    : ∀ (ps : List Ptr) {a : Argus}, Fits env a [] → Good S root a →
    (∀ p ∈ ps, p ∈ a.stack) → ∃ r, loadEnvStack W env a ps = .ok r ∧ Good S root r.2 ∧ r.2.stack = a.stack
  | [], a, _, h, _ => ⟨_, rfl, h, rfl⟩
  | p :: ps, a, hT, h, hp => by
    obtain ⟨o, j, h1, h2, h3, _⟩ := h.stack p (hp p (by simp))
    unfold loadEnvStack
    rw [h1, Out.ok_bind, h2]
    simp only
    obtain ⟨r, e1, e2, e3, e4⟩ := loadEnvTable_good W env h3 hT h
    rw [e1, Out.ok_bind]
    split
    · exact ⟨_, rfl, e2, e3⟩
    · obtain ⟨r2, f1, f2, f3⟩ := loadEnvStack_good W env ps e4 e2 (by rw [e3]; exact fun q hq => hp q (by simp [hq]))
      exact ⟨r2, f1, f2, f3.trans e3⟩

theorem loadEnvVars_good (W : World) (env : Env) {S : List (List Opt)} {root : Nat} (hS : Closed S root)
    {a : Argus} (hT : Fits env a []) (h : Good S root a) :
    ∃ r, loadEnvVars W env a = .ok r ∧ Good S root r.2 := by
  unfold loadEnvVars
  obtain ⟨r, e1, e2, e3, e4⟩ := loadEnvTable_good W env (k := a.root) (by rw [h.root]; exact hS.root) hT h
  rw [e1, Out.ok_bind]
  split
  · exact ⟨_, rfl, e2⟩
  · obtain ⟨r2, f1, f2, _⟩ := loadEnvStack_good W env _ e4 e2 (fun _ h => h)
    exact ⟨r2, f1, f2⟩

theorem validateSet_defined (W : World) (all : List Opt) : ∀ (os : List Opt) (excl : Bool) (first : Option Str),
    (∀ o ∈ os, Sound o) → ∃ r, validateSet W all excl first os = .ok r
  | [], _, _, _ => ⟨_, rfl⟩
  | o :: os, excl, first, hs => by
    have ih := fun e f => validateSet_defined W all os e f (fun x hx => hs x (by simp [hx]))
    unfold validateSet
    split
    · exact ih _ _
    · split
      · exact ⟨_, rfl⟩
      · split
        · rename_i hset
          split
          · exact ⟨_, rfl⟩
          · have hso := hs o (by simp)
            have : ∃ r, callValidators W o (o.validators.getD []) = .ok r := by
              cases hh : o.handler with
              | none => rw [(hso.decl.bare hh).1]; exact ⟨_, rfl⟩
              | some x => exact callValidators_defined W (hso.holds x hh) hset _ (hso.decl.checks x hh)
            obtain ⟨r, hr⟩ := this
            rw [hr, Out.ok_bind]
            simp only
            split
            · exact ⟨_, rfl⟩
            · split
              · exact ⟨_, rfl⟩
              · split
                · exact ⟨_, rfl⟩
                · obtain ⟨r2, hr2⟩ := ih excl (if excl then o.name else first)
                  rw [hr2, Out.ok_bind]; exact ⟨_, rfl⟩
        · exact ih _ _

theorem validateTable_good (W : World) {S : List (List Opt)} {root : Nat} {a : Argus} (h : Good S root a)
    {k : Nat} (hk : k < S.length) :
    ∃ r, validateTable W a (some k) = .ok r ∧ Good S root r.2 ∧ r.2.stack = a.stack := by
  obtain ⟨os, hos⟩ := h.table hk
  have hs : ∀ o ∈ os, Sound o := by
    intro o ho
    obtain ⟨i, hi, rfl⟩ := List.getElem_of_mem ho
    obtain ⟨k', hk', htab⟩ := table_eq_ok.1 hos
    simp only [Option.some.injEq] at hk'; subst hk'
    exact h.all ⟨k, i⟩ _ (getOpt_eq_ok.2 ⟨os, htab, by simp [hi]⟩)
  obtain ⟨r, hr⟩ := validateSet_defined W os os false none hs
  unfold validateTable
  rw [hos, Out.ok_bind, hr, Out.ok_bind]
  exact ⟨_, rfl, h.emits _, by simp⟩

theorem validateStack_good (W : World) {S : List (List Opt)} {root : Nat} : ∀ (ps : List Ptr) {a : Argus},
    Good S root a → (∀ p ∈ ps, p ∈ a.stack) → ∃ r, validateStack W a ps = .ok r ∧ Good S root r.2
  | [], a, h, _ => ⟨_, rfl, h⟩
  | p :: ps, a, h, hp => by
    obtain ⟨o, j, h1, h2, h3, _⟩ := h.stack p (hp p (by simp))
    unfold validateStack
    rw [h1, Out.ok_bind, h2]
    obtain ⟨r, e1, e2, e3⟩ := validateTable_good W h h3
    rw [e1, Out.ok_bind]
    split
    · exact ⟨_, rfl, e2⟩
    · exact validateStack_good W ps e2 (by rw [e3]; exact fun q hq => hp q (by simp [hq]))

theorem postValidation_good (W : World) {S : List (List Opt)} {root : Nat} (hS : Closed S root) {a : Argus}
    (h : Good S root a) : ∃ r, postValidation W a = .ok r ∧ Good S root r.2 := by
  unfold postValidation
  obtain ⟨r, e1, e2, e3⟩ := validateTable_good W h (k := a.root) (by rw [h.root]; exact hS.root)
  rw [e1, Out.ok_bind]
  split
  · exact ⟨_, rfl, e2⟩
  · exact validateStack_good W _ e2 (fun _ h => h)

/-- Every option can be released, and every level exists. -/
structure Freeable (a : Argus) : Prop where
  all : ∀ p o, a.getOpt p = .ok o → ∃ o', freeOptionValue o = .ok o'
  root : a.root < a.tables.length
  stack : ∀ p ∈ a.stack, ∃ o j, a.getOpt p = .ok o ∧ o.subOptions = some j ∧ j < a.tables.length

theorem freeOpts_defined : ∀ (os : List Opt), (∀ o ∈ os, ∃ o', freeOptionValue o = .ok o') →
    ∃ os', freeOpts os = .ok os'
  | [], _ => ⟨_, rfl⟩
  | o :: os, h => by
    obtain ⟨o', ho⟩ := h o (by simp)
    obtain ⟨os', hos⟩ := freeOpts_defined os (fun x hx => h x (by simp [hx]))
    unfold freeOpts
    rw [ho, Out.ok_bind, hos, Out.ok_bind]
    exact ⟨_, rfl⟩

theorem freeOptionValue_unallocated {o : Opt} (h : o.isAllocated = false) : freeOptionValue o = .ok o := by
  unfold freeOptionValue; rw [if_pos h]

theorem freeTable_freeable {a : Argus} (h : Freeable a) {k : Nat} (hk : k < a.tables.length) :
    ∃ a', freeTable a (some k) = .ok a' ∧ Freeable a' ∧ a'.stack = a.stack ∧ a'.root = a.root := by
  have htab : a.tables[k]? = some a.tables[k] := by simp [hk]
  have hdef : ∃ os', freeOpts a.tables[k] = .ok os' := by
    refine freeOpts_defined _ (fun o ho => ?_)
    obtain ⟨i, hi, rfl⟩ := List.getElem_of_mem ho
    exact h.all ⟨k, i⟩ _ (getOpt_eq_ok.2 ⟨_, htab, by simp [hi]⟩)
  obtain ⟨os', hos'⟩ := hdef
  have he : freeTable a (some k) = .ok { a with tables := a.tables.set k os' } := by
    unfold freeTable
    rw [table_eq_ok.2 ⟨k, rfl, htab⟩, Out.ok_bind, hos', Out.ok_bind]
  have hfr := freeTable_frame he
  refine ⟨_, he, ⟨?_, ?_, ?_⟩, rfl, rfl⟩
  · intro p o' ho'
    -- the entry before
    have hback : ∃ o, a.getOpt p = .ok o := by
      obtain ⟨o, h1, _⟩ := shape_getOpt hfr.frame.shape.symm ho'
      exact ⟨o, h1⟩
    obtain ⟨o, ho⟩ := hback
    obtain ⟨o2, h1, h2⟩ := freeTable_get he ho
    rw [ho'] at h1
    simp only [Out.ok.injEq] at h1; subst h1
    rcases h2 with rfl | ⟨_, rfl⟩
    · exact h.all p _ ho
    · exact ⟨_, freeOptionValue_unallocated rfl⟩
  · show a.root < (a.tables.set k os').length
    rw [List.length_set]; exact h.root
  · intro p hp
    obtain ⟨o, j, h1, h2, h3⟩ := h.stack p hp
    obtain ⟨o', h4, h5⟩ := shape_getOpt hfr.frame.shape h1
    refine ⟨o', j, h4, (congrArg Opt.subOptions h5 : o'.meta.subOptions = o.meta.subOptions).trans h2, ?_⟩
    show j < (a.tables.set k os').length
    rw [List.length_set]; exact h3

theorem freeStack_freeable : ∀ (ps : List Ptr) {a : Argus}, Freeable a → (∀ p ∈ ps, p ∈ a.stack) →
    ∃ a', freeStack a ps = .ok a' ∧ Freeable a' ∧ a'.stack = a.stack ∧ a'.root = a.root
  | [], a, h, _ => ⟨_, rfl, h, rfl, rfl⟩
  | p :: ps, a, h, hp => by
    obtain ⟨o, j, h1, h2, h3⟩ := h.stack p (hp p (by simp))
    obtain ⟨a1, e1, e2, e3, e4⟩ := freeTable_freeable h h3
    obtain ⟨a2, f1, f2, f3, f4⟩ := freeStack_freeable ps e2 (by rw [e3]; exact fun q hq => hp q (by simp [hq]))
    unfold freeStack
    rw [h1, Out.ok_bind, h2, e1, Out.ok_bind, f1]
    exact ⟨_, rfl, f2, f3.trans e3, f4.trans e4⟩

theorem argusFree_freeable {a : Argus} (h : Freeable a) : ∃ a', argusFree a = .ok a' ∧ Freeable a' := by
  obtain ⟨a1, e1, e2, e3, e4⟩ := freeTable_freeable h h.root
  obtain ⟨a2, f1, f2, _⟩ := freeStack_freeable a1.stack e2 (fun _ h => h)
  unfold argusFree
  rw [e1, Out.ok_bind, f1]
  exact ⟨_, rfl, f2⟩

theorem Good.freeable {S : List (List Opt)} {root : Nat} (hS : Closed S root) {a : Argus} (h : Good S root a) :
    Freeable a := by
  refine ⟨fun p o ho => freeOptionValue_defined (h.all p o ho), ?_, ?_⟩
  · rw [h.root, h.length]; exact hS.root
  · rw [h.length]
    intro p hp
    obtain ⟨o, j, h1, h2, h3, _⟩ := h.stack p hp
    exact ⟨o, j, h1, h2, h3⟩

/-- The whole parse. -/
theorem argusParse_good (W : World) (env : Env) {S : List (List Opt)} {root : Nat} (hS : Closed S root)
    {a : Argus} (h : Good S root a) {args : List Str}
    (ht : Fits env a (a.asks args)) :
    Defd (argusParse W env a args) (fun r => Freeable r.2 ∧ (r.1 = .returned Err.success → Good S root r.2)) := by
  unfold argusParse
  refine (parseArgs_good W env hS h args ht).bind (fun r hpr hr => ?_)
  have h1 : Good S root { r.2 with errorCode := r.1 } := hr.1.same rfl rfl rfl
  simp only
  have free : ∀ (b : Argus) (e : ParseEnd), Good S root b → e ≠ .returned Err.success →
      Defd (argusFree b >>= fun a2 => .ok (e, a2))
        (fun r => Freeable r.2 ∧ (r.1 = .returned Err.success → Good S root r.2)) := by
    intro b e hb he
    obtain ⟨a2, e1, e2⟩ := argusFree_freeable (hb.freeable hS)
    rw [e1, Out.ok_bind]
    exact ⟨e2, fun h => absurd h he⟩
  have rne : ∀ c : Int, c ≠ Err.success → ParseEnd.returned c ≠ .returned Err.success := by
    intro c hc h; simp only [ParseEnd.returned.injEq] at h; exact hc h
  split
  · exact free _ _ h1 (by simp)
  · split
    · rename_i hne
      exact free _ _ (h1.same rfl rfl rfl) (rne _ hne)
    · rename_i hok
      have henv : Fits env { r.2 with errorCode := r.1 } [] := hr.2 (Decidable.not_not.1 hok)
      obtain ⟨e, e1, e2⟩ := loadEnvVars_good W env hS henv h1
      rw [e1, Out.ok_bind]
      split
      · rename_i hne
        exact free _ _ e2 (rne _ hne)
      · obtain ⟨v, f1, f2⟩ := postValidation_good W hS e2
        rw [f1, Out.ok_bind]
        split
        · rename_i hne
          exact free _ _ f2 (rne _ hne)
        · exact ⟨f2.freeable hS, fun _ => f2⟩

/-- A proper context is in good order. -/
theorem Argus.Proper.good {a : Argus} (h : a.Proper) (hst : a.stack = []) :
    Closed a.shape a.root ∧ Good a.shape a.root a := by
  refine ⟨⟨?_, ?_⟩, rfl, rfl, ?_, by simp [hst]⟩
  · unfold Argus.shape; rw [List.length_map]; exact h.root
  · intro k os i o h1 h2 ht
    unfold Argus.shape at h1
    rw [List.getElem?_map] at h1
    obtain ⟨os0, h3, rfl⟩ := Option.map_eq_some_iff.1 h1
    rw [List.getElem?_map] at h2
    obtain ⟨o0, h4, rfl⟩ := Option.map_eq_some_iff.1 h2
    obtain ⟨j, h5, h6⟩ := h.subs os0 (List.mem_of_getElem? h3) o0 (List.mem_of_getElem? h4) ht
    refine ⟨j, h5, ?_⟩
    unfold Argus.shape; rw [List.length_map]; exact h6
  · intro p o ho
    obtain ⟨os, h1, h2⟩ := getOpt_eq_ok.1 ho
    exact (h.entries os (List.mem_of_getElem? h1) o (List.mem_of_getElem? h2)).sound

theorem Good.texts {S : List (List Opt)} {root : Nat} {a b : Argus} (ha : a.shape = S) (hr : a.root = root)
    (he : b.envPrefix = a.envPrefix) (hb : Good S root b) {args : List Str} {env : Env} (h : a.TextsFit args env) :
    Fits env b (b.asks args) := by
  have hs : b.shape = a.shape := hb.shape.trans ha.symm
  have hask : b.asks args = a.asks args := by rw [asks_shape, hb.root, ← hr, hs, ← asks_shape]
  intro q o x ho hx
  obtain ⟨o', h1, h2⟩ := shape_getOpt hs.symm ho
  have hv : envVarName a.envPrefix o'.meta = envVarName a.envPrefix o.meta := by rw [h2]
  have hv : envVarName a.envPrefix o' = envVarName a.envPrefix o := hv
  have hev : textsOf q (b.asks args) ++ envTexts b.envPrefix env o = a.textsFor args env q o' := by
    unfold envTexts Argus.textsFor
    rw [hask, he, hv]
  obtain ⟨g1, g2⟩ := h q o' x h1 ((congrArg Opt.handler h2 : o'.meta.handler = o.meta.handler).trans hx)
  rw [hev]
  exact ⟨fun hsp _ t ht => pieces_ne_nil (g1 hsp t ht),
    fun hi t ht p hp r hr => g2 hi t ht p hp r.1 r.2 (parseIntRange_iff.1 hr)⟩

end Argus
