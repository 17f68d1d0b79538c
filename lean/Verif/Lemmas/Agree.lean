import Verif.Lemmas.FrameApi

/-! The status of a stage and the error code left by it. -/

set_option autoImplicit false

namespace Argus

/-- No event is an error message for status 0; otherwise the last one is the message for the status. -/
def Told (st : Int) (es : List Event) : Prop :=
  (st = Err.success ∧ ∀ c, Event.error c ∉ es) ∨
    (st ≠ Err.success ∧ ∃ pre, es = pre ++ [.error st])

theorem emits_code {es : List Event} (h : ∀ c, Event.error c ∉ es) : ∀ (a : Argus),
    (a.emits es).errorCode = a.errorCode := by
  induction es with
  | nil => intro a; rfl
  | cons e es ih =>
    intro a
    have h1 : (a.emit e).errorCode = a.errorCode := by
      cases e with
      | error c => exact absurd (List.mem_cons_self) (h c)
      | _ => rfl
    show ((a.emit e).emits es).errorCode = a.errorCode
    rw [ih (fun c hc => h c (List.mem_cons_of_mem _ hc)), h1]

theorem Told.code {st : Int} {es : List Event} (h : Told st es) {a : Argus} (ha : a.errorCode = Err.success) :
    (a.emits es).errorCode = st := by
  rcases h with ⟨rfl, h⟩ | ⟨_, pre, rfl⟩
  · rw [emits_code h, ha]
  · unfold Argus.emits; rw [List.foldl_append]; rfl

theorem Told.none : Told Err.success [] := .inl ⟨rfl, by simp⟩
theorem Told.one {c : Int} (h : c ≠ Err.success) : Told c [.error c] := .inr ⟨h, [], rfl⟩

/-- A storing step tells its status. -/
def StoreTold (f : Opt → Str → Out HRes) : Prop := ∀ o s r, f o s = .ok r → Told r.1 r.2.2

theorem setAll_told {f : Opt → Str → Out HRes} (hf : StoreTold f) : ∀ (vs : List Str) {o : Opt}
    {r : HRes}, setAll f o vs = .ok r → Told r.1 r.2.2
  | [], o, r, h => by simp only [setAll, Out.ok.injEq] at h; subst h; exact .none
  | v :: vs, o, r, h => by
    unfold setAll at h
    obtain ⟨r1, h1, h2⟩ := Out.bind_eq_ok h
    have hm := hf _ _ _ h1
    split at h2
    · simp only [Out.ok.injEq] at h2; subst h2; exact hm
    · rename_i hs
      simp only [ne_eq, Decidable.not_not] at hs
      obtain ⟨r2, h3, h4⟩ := Out.bind_eq_ok h2
      simp only [Out.ok.injEq] at h4; subst h4
      rcases hm with ⟨_, g3⟩ | ⟨g3, _⟩
      · rcases setAll_told hf vs h3 with ⟨g1, g2⟩ | ⟨g0, pre, g⟩
        · exact .inl ⟨g1, fun c hc => by
            rcases List.mem_append.1 hc with hc | hc
            · exact g3 c hc
            · exact g2 c hc⟩
        · exact .inr ⟨g0, r1.2.2 ++ pre, by show r1.2.2 ++ r2.2.2 = _; rw [g]; simp⟩
      · exact absurd hs g3

theorem collect_told {f : Opt → Str → Out HRes} {fl : Opt → Out Opt} (hf : StoreTold f) {o : Opt}
    {arg : Option Str} {r : HRes} (h : collect f fl o arg = .ok r) : Told r.1 r.2.2 := by
  unfold collect at h
  split at h
  · simp at h
  · obtain ⟨r1, h1, h2⟩ := Out.bind_eq_ok h
    have hm : Told r1.1 r1.2.2 := by
      unfold storeParts at h1
      split at h1
      · exact setAll_told hf _ h1
      · exact hf _ _ _ h1
    split at h2
    · simp only [Out.ok.injEq] at h2; subst h2; exact hm
    · rename_i hs
      simp only [ne_eq, Decidable.not_not] at hs
      obtain ⟨o2, h3, h4⟩ := Out.bind_eq_ok h2
      simp only [Out.ok.injEq] at h4; subst h4
      rw [hs] at hm; exact hm

theorem setValueInt_told : StoreTold setValueInt := by
  intro o s r h
  unfold setValueInt at h
  split at h
  · simp only [Out.ok.injEq] at h; subst h; exact .one (by simp only; decide)
  · obtain ⟨o1, h1, h2⟩ := Out.bind_eq_ok h
    simp only [Out.ok.injEq] at h2; subst h2; exact .none

theorem setValueString_told : StoreTold setValueString := by
  intro o s r h
  obtain ⟨o1, h1, h2⟩ := Out.bind_eq_ok h
  simp only [Out.ok.injEq] at h2; subst h2; exact .none

theorem setValueFloat_told (W : World) : StoreTold (setValueFloat W) := by
  intro o s r h
  obtain ⟨o1, h1, h2⟩ := Out.bind_eq_ok h
  simp only [Out.ok.injEq] at h2; subst h2; exact .none

theorem setKvPair_told (conv : Str → Option MapStore) : StoreTold (setKvPair conv) := by
  intro o s r h
  unfold setKvPair at h
  split at h
  · simp only [Out.ok.injEq] at h; subst h; exact .one (by simp only; decide)
  · split at h
    · simp only [Out.ok.injEq] at h; subst h; exact .one (by simp only; decide)
    · obtain ⟨o1, h1, h2⟩ := Out.bind_eq_ok h
      simp only [Out.ok.injEq] at h2; subst h2; exact .none

theorem variadicNum_told {W : World} {conv : Str → Option Word} {o : Opt} {arg : Option Str}
    {r : HRes} (h : variadicNum W conv o arg = .ok r) : Told r.1 r.2.2 := by
  unfold variadicNum at h
  obtain ⟨o1, h1, h2⟩ := Out.bind_eq_ok h
  split at h2
  · simp at h2
  · split at h2
    · simp only [Out.ok.injEq] at h2; subst h2; exact .one (by simp only; decide)
    · obtain ⟨o2, h3, h4⟩ := Out.bind_eq_ok h2
      obtain ⟨o3, h5, h6⟩ := Out.bind_eq_ok h4
      simp only [Out.ok.injEq] at h6; subst h6; exact .none

theorem runHandler_told {W : World} {a : Argus} {h : Handler} {o : Opt} {arg : Option Str}
    {r : HRes} (hb : ∀ id, h ≠ .custom id) (hr : runHandler W a h o arg = .ok r) : Told r.1 r.2.2 := by
  cases h with
  | flag => simp only [runHandler, Out.ok.injEq] at hr; subst hr; exact .none
  | bool =>
    simp only [runHandler, boolHandler] at hr
    repeat' split at hr
    all_goals (simp only [Out.ok.injEq] at hr; subst hr)
    · exact .one (by simp only; decide)
    · exact .one (by simp only; decide)
    · exact .none
  | string => simp only [runHandler, Out.ok.injEq] at hr; subst hr; exact .none
  | int =>
    simp only [runHandler] at hr; split at hr
    · simp at hr
    · simp only [Out.ok.injEq] at hr; subst hr; exact .none
  | float =>
    simp only [runHandler] at hr; split at hr
    · simp at hr
    · simp only [Out.ok.injEq] at hr; subst hr; exact .none
  | help =>
    simp only [runHandler] at hr
    obtain ⟨t, _, h2⟩ := Out.bind_eq_ok hr
    simp only [Out.ok.injEq] at h2; subst h2; exact .inl ⟨rfl, by simp⟩
  | version => simp only [runHandler, Out.ok.injEq] at hr; subst hr; exact .inl ⟨rfl, by simp⟩
  | arrayString => exact collect_told setValueString_told hr
  | arrayInt => exact collect_told setValueInt_told hr
  | arrayFloat => exact collect_told (setValueFloat_told W) hr
  | mapString => exact collect_told (setKvPair_told _) hr
  | mapInt => exact collect_told (setKvPair_told _) hr
  | mapFloat => exact collect_told (setKvPair_told _) hr
  | mapBool => exact collect_told (setKvPair_told _) hr
  | variadicString => simp only [runHandler] at hr; exact variadicNum_told hr
  | variadicInt => simp only [runHandler] at hr; exact variadicNum_told hr
  | variadicFloat => simp only [runHandler] at hr; exact variadicNum_told hr
  | custom id => exact absurd rfl (hb id)

/-- The status of a validator and its message agree. -/
def VRes.Told (r : VRes) : Prop := (r.1 = Err.success ∧ r.2 = none) ∨ (r.1 ≠ Err.success ∧ r.2 = some r.1)

theorem VRes.fail_told {c : Int} (h : c ≠ Err.success) : (VRes.fail c).Told := .inr ⟨h, rfl⟩
theorem VRes.pass_told : VRes.pass.Told := .inl ⟨rfl, rfl⟩

theorem runPre_told {W : World} {k : VKind} {arg : Option Str} {r : VRes} (hb : ∀ id, k ≠ .custom id)
    (h : runPre W k arg = .ok r) : r.Told := by
  cases k with
  | regex p hint =>
    simp only [runPre, Out.ok.injEq] at h; subst h
    unfold regexValidator
    repeat' split
    all_goals first
      | exact VRes.pass_told
      | exact VRes.fail_told (by decide)
  | custom id => exact absurd rfl (hb id)
  | _ => simp [runPre] at h

theorem runPost_told {W : World} {k : VKind} {o : Opt} {r : VRes} (hb : ∀ id, k ≠ .custom id)
    (h : runPost W k o = .ok r) : r.Told := by
  have fin : ∀ {p : Prop} [Decidable p] {c : Int} {x : VRes}, c ≠ Err.success →
      (if p then Out.ok VRes.pass else Out.ok (VRes.fail c)) = Out.ok x → x.Told := by
    intro p _ c x hc hx
    split at hx <;> (simp only [Out.ok.injEq] at hx; subst hx)
    · exact VRes.pass_told
    · exact VRes.fail_told hc
  cases k with
  | custom id => exact absurd rfl (hb id)
  | regex p hint => simp [runPost] at h
  | range mn mx =>
    simp only [runPost, rangeValidator] at h
    split at h
    · simp only [Out.ok.injEq] at h; subst h; exact VRes.fail_told (by decide)
    · obtain ⟨v, _, h1⟩ := Out.bind_eq_ok h
      split at h1 <;> (simp only [Out.ok.injEq] at h1; subst h1)
      · exact VRes.fail_told (by decide)
      · exact VRes.pass_told
  | length mn mx =>
    simp only [runPost, lengthValidator] at h
    obtain ⟨v, _, h1⟩ := Out.bind_eq_ok h
    repeat' split at h1
    all_goals (simp only [Out.ok.injEq] at h1; subst h1)
    all_goals first
      | exact VRes.pass_told
      | exact VRes.fail_told (by decide)
  | count mn mx =>
    simp only [runPost, countValidator, Out.ok.injEq] at h; subst h
    repeat' split
    all_goals first
      | exact VRes.pass_told
      | exact VRes.fail_told (by decide)
  | choiceStr cs =>
    simp only [runPost, choicesString] at h
    obtain ⟨v, _, h1⟩ := Out.bind_eq_ok h
    split at h1
    · simp at h1
    · exact fin (by decide) h1
  | choiceInt cs =>
    simp only [runPost, choicesInt] at h
    obtain ⟨v, _, h1⟩ := Out.bind_eq_ok h
    exact fin (by decide) h1
  | choiceFloat cs =>
    simp only [runPost, choicesFloat] at h
    obtain ⟨v, _, h1⟩ := Out.bind_eq_ok h
    exact fin (by decide) h1

theorem VRes.Told.events {r : VRes} (h : r.Told) : Argus.Told r.1 (r.2.toList.map .error) := by
  rcases h with ⟨h1, h2⟩ | ⟨h1, h2⟩
  · rw [h1, h2]; exact .none
  · rw [h2]; exact .one h1

/-- Only the handlers and validators of the library. -/
structure Opt.BuiltIn (o : Opt) : Prop where
  handler : ∀ id, o.handler ≠ some (.custom id)
  validators : ∀ v ∈ o.validators.getD [], ∀ id, v.kind ≠ .custom id

theorem runPreAll_code {W : World} {arg : Option Str} : ∀ (vs : List Validator) {a : Argus} {r : Int × Argus},
    (∀ v ∈ vs, ∀ id, v.kind ≠ .custom id) → a.errorCode = Err.success → runPreAll W a arg vs = .ok r →
    r.2.errorCode = r.1
  | [], a, r, _, ha, h => by simp only [runPreAll, Out.ok.injEq] at h; subst h; exact ha
  | v :: vs, a, r, hb, ha, h => by
    have ih := fun {b : Argus} (hb1 : b.errorCode = Err.success) {q : Int × Argus} (h : runPreAll W b arg vs = .ok q) =>
      runPreAll_code vs (fun x hx => hb x (by simp [hx])) hb1 h
    unfold runPreAll at h
    split at h
    · obtain ⟨q, hq, h1⟩ := Out.bind_eq_ok h
      have ht := (runPre_told (hb v (by simp)) hq).events.code ha
      simp only at h1
      split at h1
      · simp only [Out.ok.injEq] at h1; subst h1; exact ht
      · rename_i hs
        simp only [ne_eq, Decidable.not_not] at hs
        exact ih (by rw [ht, hs]) h1
    · exact ih ha h

theorem setOpt_errorCode (a : Argus) (p : Ptr) (o : Opt) : (a.setOpt p o).errorCode = a.errorCode := rfl

theorem execCallbacks_code {W : World} {a : Argus} {p : Ptr} {o : Opt} {arg : Option Str} {r : Int × Argus}
    (ho : a.getOpt p = .ok o) (hb : o.BuiltIn) (hx : o.flags.has .exit = false) (ha : a.errorCode = Err.success)
    (h : execCallbacks W a p arg = .ok r) : r.2.errorCode = r.1 := by
  unfold execCallbacks at h
  rw [ho, Out.ok_bind] at h
  split at h
  · simp only [Out.ok.injEq] at h; subst h; rfl
  · rename_i hd hh
    obtain ⟨pre, hp, h1⟩ := Out.bind_eq_ok h
    have e1 := runPreAll_code _ hb.validators ha hp
    split at h1
    · simp only [Out.ok.injEq] at h1; subst h1; exact e1
    · rename_i hs
      simp only [ne_eq, Decidable.not_not] at hs
      simp only at h1
      obtain ⟨q, hq, h2⟩ := Out.bind_eq_ok h1
      have ht := (runHandler_told (fun id hid => hb.handler id (hid ▸ hh)) hq).code (by rw [e1, hs])
      split at h2
      · simp only [Out.ok.injEq] at h2; subst h2
        show (Argus.setOpt _ _ _).errorCode = _
        rw [setOpt_errorCode]; exact ht
      · rename_i hs2
        simp only [ne_eq, Decidable.not_not] at hs2
        simp only [Out.ok.injEq] at h2; subst h2
        have hf : q.2.1.markSet.flags = o.flags :=
          (congrArg Opt.flags (runHandler_meta hq) : q.2.1.meta.flags = o.meta.flags)
        simp only [hf, hx]
        rw [setOpt_errorCode, ht, hs2]; rfl

/-- A property of declarations, for all entries. -/
def Everywhere (P : Opt → Prop) (a : Argus) : Prop := ∀ p o, a.getOpt p = .ok o → P o.meta

theorem Everywhere.of_shape {P : Opt → Prop} {a b : Argus} (h : Everywhere P a) (hs : b.shape = a.shape) :
    Everywhere P b := by
  intro p o ho
  obtain ⟨o', h1, h2⟩ := shape_getOpt hs.symm ho
  rw [← h2]; exact h p o' h1

/-- Built-in, and FLAG_EXIT only without environment variable. -/
def Opt.Agreeable (o : Opt) : Prop :=
  o.BuiltIn ∧ (o.flags.has .exit = true → o.envName = none ∧ o.flags.has .autoEnv = false)

theorem loadEnvStep_code {W : World} {env : Env} {a : Argus} (h : Everywhere Opt.Agreeable a) {p : Ptr}
    {r : Int × Argus} (ha : a.errorCode = Err.success) (hr : loadEnvStep W env a p = .ok r) :
    r.2.errorCode = r.1 := by
  unfold loadEnvStep at hr
  obtain ⟨o, ho, h1⟩ := Out.bind_eq_ok hr
  have hA := h p o ho
  split at h1
  · simp only [Out.ok.injEq] at h1; subst h1; exact ha
  · split at h1
    · simp only [Out.ok.injEq] at h1; subst h1; exact ha
    · split at h1
      · simp only [Out.ok.injEq] at h1; subst h1; exact ha
      · rename_i n hn
        split at h1
        · simp only [Out.ok.injEq] at h1; subst h1; exact ha
        · obtain ⟨q, hq, h2⟩ := Out.bind_eq_ok h1
          have hx : o.flags.has .exit = false := by
            cases he : o.flags.has .exit with
            | false => rfl
            | true =>
              obtain ⟨g1, g2⟩ := hA.2 he
              have g1 : o.envName = none := g1
              have g2 : o.flags.has .autoEnv = false := g2
              unfold envVarName at hn
              simp only [g1, g2] at hn
              simp at hn
          have e := execCallbacks_code ho ⟨hA.1.handler, hA.1.validators⟩ hx ha hq
          split at h2
          · split at h2
            · obtain ⟨o1, _, h3⟩ := Out.bind_eq_ok h2
              simp only [Out.ok.injEq] at h3; subst h3
              show (Argus.setOpt _ _ _).errorCode = _
              rw [setOpt_errorCode]; exact e
            · simp only [Out.ok.injEq] at h2; subst h2; exact e
          · simp only [Out.ok.injEq] at h2; subst h2; exact e

theorem loadEnvLoop_code {W : World} {env : Env} (k : Nat) : ∀ (n i : Nat) {a : Argus} {r : Int × Argus},
    Everywhere Opt.Agreeable a → a.errorCode = Err.success → loadEnvLoop W env k n i a = .ok r →
    r.2.errorCode = r.1
  | 0, i, a, r, _, ha, hr => by simp only [loadEnvLoop, Out.ok.injEq] at hr; subst hr; exact ha
  | n + 1, i, a, r, h, ha, hr => by
    unfold loadEnvLoop at hr
    obtain ⟨q, hq, h1⟩ := Out.bind_eq_ok hr
    have e := loadEnvStep_code h ha hq
    split at h1
    · simp only [Out.ok.injEq] at h1; subst h1; exact e
    · rename_i hs
      simp only [ne_eq, Decidable.not_not] at hs
      exact loadEnvLoop_code k n (i + 1) (h.of_shape (loadEnvStep_one hq).frame.shape) (by rw [e, hs]) h1

theorem loadEnvTable_code {W : World} {env : Env} {k : Nat} {a : Argus} {r : Int × Argus}
    (h : Everywhere Opt.Agreeable a) (ha : a.errorCode = Err.success) (hr : loadEnvTable W env a k = .ok r) :
    r.2.errorCode = r.1 := by
  unfold loadEnvTable at hr
  obtain ⟨os, _, h1⟩ := Out.bind_eq_ok hr
  exact loadEnvLoop_code k _ _ h ha h1

theorem loadEnvStack_code {W : World} {env : Env} : ∀ (ps : List Ptr) {a : Argus} {r : Int × Argus},
    Everywhere Opt.Agreeable a → a.errorCode = Err.success → loadEnvStack W env a ps = .ok r →
    r.2.errorCode = r.1
  | [], a, r, _, ha, hr => by simp only [loadEnvStack, Out.ok.injEq] at hr; subst hr; exact ha
  | p :: ps, a, r, h, ha, hr => by
    unfold loadEnvStack at hr
    obtain ⟨cmd, _, h1⟩ := Out.bind_eq_ok hr
    split at h1
    · exact loadEnvStack_code ps h ha h1
    · obtain ⟨q, hq, h2⟩ := Out.bind_eq_ok h1
      have e := loadEnvTable_code h ha hq
      split at h2
      · simp only [Out.ok.injEq] at h2; subst h2; exact e
      · rename_i hs
        simp only [ne_eq, Decidable.not_not] at hs
        exact loadEnvStack_code ps (h.of_shape (loadEnvTable_frame hq).frame.shape) (by rw [e, hs]) h2

theorem loadEnvVars_code {W : World} {env : Env} {a : Argus} {r : Int × Argus}
    (h : Everywhere Opt.Agreeable a) (ha : a.errorCode = Err.success) (hr : loadEnvVars W env a = .ok r) :
    r.2.errorCode = r.1 := by
  unfold loadEnvVars at hr
  obtain ⟨q, hq, h2⟩ := Out.bind_eq_ok hr
  have e := loadEnvTable_code h ha hq
  split at h2
  · simp only [Out.ok.injEq] at h2; subst h2; exact e
  · rename_i hs
    simp only [ne_eq, Decidable.not_not] at hs
    exact loadEnvStack_code _ (h.of_shape (loadEnvTable_frame hq).frame.shape) (by rw [e, hs]) h2

/-- The messages of the final checks agree with the status. -/
def ToldCodes (st : Int) (cs : List Int) : Prop :=
  (st = Err.success ∧ cs = []) ∨ (st ≠ Err.success ∧ ∃ pre, cs = pre ++ [st])

theorem ToldCodes.events {st : Int} {cs : List Int} (h : ToldCodes st cs) : Told st (cs.map .error) := by
  rcases h with ⟨h1, rfl⟩ | ⟨h1, pre, rfl⟩
  · exact .inl ⟨h1, by simp⟩
  · exact .inr ⟨h1, pre.map .error, by simp⟩

theorem VRes.Told.codes {r : VRes} (h : r.Told) : ToldCodes r.1 r.2.toList := by
  rcases h with ⟨h1, h2⟩ | ⟨h1, h2⟩
  · rw [h2]; exact .inl ⟨h1, rfl⟩
  · rw [h2]; exact .inr ⟨h1, [], rfl⟩

theorem ToldCodes.after {st : Int} {xs cs : List Int} (h : ToldCodes st cs) (hx : ToldCodes Err.success xs) :
    ToldCodes st (xs ++ cs) := by
  rcases hx with ⟨_, rfl⟩ | ⟨h1, _⟩
  · exact h
  · exact absurd rfl h1

theorem callValidators_told {W : World} {o : Opt} : ∀ (vs : List Validator) {r : Int × List Int},
    (∀ v ∈ vs, ∀ id, v.kind ≠ .custom id) → callValidators W o vs = .ok r → ToldCodes r.1 r.2
  | [], r, _, h => by simp only [callValidators, Out.ok.injEq] at h; subst h; exact .inl ⟨rfl, rfl⟩
  | v :: vs, r, hb, h => by
    have ih := fun {q : Int × List Int} (h : callValidators W o vs = .ok q) =>
      callValidators_told vs (fun x hx => hb x (by simp [hx])) h
    unfold callValidators at h
    split at h
    · obtain ⟨q, hq, h1⟩ := Out.bind_eq_ok h
      have ht := (runPost_told (hb v (by simp)) hq).codes
      split at h1
      · simp only [Out.ok.injEq] at h1; subst h1; exact ht
      · rename_i hs
        simp only [ne_eq, Decidable.not_not] at hs
        obtain ⟨q2, hq2, h2⟩ := Out.bind_eq_ok h1
        simp only [Out.ok.injEq] at h2; subst h2
        exact (ih hq2).after (hs ▸ ht)
    · exact ih h

theorem validateRequired_told (os : List Opt) : ∀ (ns : List Str), (validateRequired os ns).Told
  | [] => VRes.pass_told
  | n :: ns => by
    unfold validateRequired
    repeat' split
    · exact validateRequired_told os ns
    · exact VRes.fail_told (by decide)
    · exact validateRequired_told os ns

theorem validateConflicts_told (os : List Opt) : ∀ (ns : List Str), (validateConflicts os ns).Told
  | [] => VRes.pass_told
  | n :: ns => by
    unfold validateConflicts
    repeat' split
    · exact VRes.fail_told (by decide)
    · exact validateConflicts_told os ns
    · exact validateConflicts_told os ns

theorem validateSet_told {W : World} {all : List Opt} : ∀ (os : List Opt) {excl : Bool} {first : Option Str}
    {r : Int × List Int}, (∀ o ∈ os, o.BuiltIn) → validateSet W all excl first os = .ok r → ToldCodes r.1 r.2
  | [], _, _, r, _, h => by simp only [validateSet, Out.ok.injEq] at h; subst h; exact .inl ⟨rfl, rfl⟩
  | o :: os, excl, first, r, hb, h => by
    have ih := fun {e : Bool} {f : Option Str} {q : Int × List Int} (h : validateSet W all e f os = .ok q) =>
      validateSet_told os (fun x hx => hb x (by simp [hx])) h
    unfold validateSet at h
    split at h
    · exact ih h
    · split at h
      · simp only [Out.ok.injEq] at h; subst h; exact .inr ⟨(by decide), [], rfl⟩
      · split at h
        · split at h
          · simp only [Out.ok.injEq] at h; subst h; exact .inr ⟨(by decide), [], rfl⟩
          · obtain ⟨q, hq, h1⟩ := Out.bind_eq_ok h
            have ht := callValidators_told _ (hb o (by simp)).validators hq
            simp only at h1
            split at h1
            · simp only [Out.ok.injEq] at h1; subst h1; exact ht
            · rename_i hs
              simp only [ne_eq, Decidable.not_not] at hs
              rw [hs] at ht
              split at h1
              · simp only [Out.ok.injEq] at h1; subst h1
                exact (validateRequired_told all _).codes.after ht
              · split at h1
                · simp only [Out.ok.injEq] at h1; subst h1
                  exact (validateConflicts_told all _).codes.after ht
                · obtain ⟨q2, hq2, h2⟩ := Out.bind_eq_ok h1
                  simp only [Out.ok.injEq] at h2; subst h2
                  exact (ih hq2).after ht
        · exact ih h

theorem validateTable_code {W : World} {a : Argus} {t : Option Nat} {r : Int × Argus}
    (h : Everywhere Opt.Agreeable a) (ha : a.errorCode = Err.success) (hr : validateTable W a t = .ok r) :
    r.2.errorCode = r.1 := by
  unfold validateTable at hr
  obtain ⟨os, hos, h1⟩ := Out.bind_eq_ok hr
  obtain ⟨q, hq, h2⟩ := Out.bind_eq_ok h1
  simp only [Out.ok.injEq] at h2; subst h2
  obtain ⟨k, rfl, hk⟩ := table_eq_ok.1 hos
  refine (validateSet_told os (fun o ho => ?_) hq).events.code ha
  obtain ⟨i, hi, rfl⟩ := List.getElem_of_mem ho
  have := (h ⟨k, i⟩ os[i] (getOpt_eq_ok.2 ⟨os, hk, by simp [hi]⟩)).1
  exact ⟨this.handler, this.validators⟩

theorem Everywhere.emits {P : Opt → Prop} {a : Argus} (h : Everywhere P a) (es : List Event) :
    Everywhere P (a.emits es) := by
  intro p o ho; rw [getOpt_emits] at ho; exact h p o ho

theorem validateStack_code {W : World} : ∀ (ps : List Ptr) {a : Argus} {r : Int × Argus},
    Everywhere Opt.Agreeable a → a.errorCode = Err.success → validateStack W a ps = .ok r →
    r.2.errorCode = r.1
  | [], a, r, _, ha, hr => by simp only [validateStack, Out.ok.injEq] at hr; subst hr; exact ha
  | p :: ps, a, r, h, ha, hr => by
    unfold validateStack at hr
    obtain ⟨cmd, _, h1⟩ := Out.bind_eq_ok hr
    obtain ⟨q, hq, h2⟩ := Out.bind_eq_ok h1
    have e := validateTable_code h ha hq
    split at h2
    · simp only [Out.ok.injEq] at h2; subst h2; exact e
    · rename_i hs
      simp only [ne_eq, Decidable.not_not] at hs
      obtain ⟨es, hes⟩ := validateTable_eq hq
      exact validateStack_code ps (by rw [hes]; exact h.emits es) (by rw [e, hs]) h2

theorem postValidation_code {W : World} {a : Argus} {r : Int × Argus}
    (h : Everywhere Opt.Agreeable a) (ha : a.errorCode = Err.success) (hr : postValidation W a = .ok r) :
    r.2.errorCode = r.1 := by
  unfold postValidation at hr
  obtain ⟨q, hq, h2⟩ := Out.bind_eq_ok hr
  have e := validateTable_code h ha hq
  split at h2
  · simp only [Out.ok.injEq] at h2; subst h2; exact e
  · rename_i hs
    simp only [ne_eq, Decidable.not_not] at hs
    obtain ⟨es, hes⟩ := validateTable_eq hq
    exact validateStack_code _ (by rw [hes]; exact h.emits es) (by rw [e, hs]) h2

end Argus
