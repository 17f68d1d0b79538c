import Verif.Spec.Calls
import Verif.Lemmas.FirstFaultRun
import Verif.Lemmas.Access
import Verif.Lemmas.Env

/-! Lemmas: which callbacks a parse calls. -/

set_option autoImplicit false

namespace Argus

variable {W : World} {f : Nat → Opt → Option Str → CustomResult} {g : Nat → Option Str → Int × Option Int}
  {h : Nat → Opt → Int × Option Int} {c : Nat → Argus → Int}

theorem declaredAs_of_meta {o o' : Opt} (h : o.meta = o'.meta) : DeclaredAs o o' := by
  unfold Opt.meta at h
  unfold DeclaredAs
  rw [Opt.mk.injEq] at h ⊢
  simp_all

theorem calls_runPreAll {x : Option Str} : ∀ (vs : List Validator) (a : Argus),
    (∀ v ∈ vs, v.order = .pre → ∀ id, v.kind = .custom id → g id x = W.preValidator id x) →
    runPreAll (W.withCallbacks f g h c) a x vs = runPreAll W a x vs
  | [], a, _ => rfl
  | v :: vs, a, hv => by
    have ih := fun b => calls_runPreAll vs b (fun w hw => hv w (by simp [hw]))
    unfold runPreAll
    by_cases ho : v.order = .pre
    · rw [if_pos ho, if_pos ho]
      have : runPre (W.withCallbacks f g h c) v.kind x = runPre W v.kind x := by
        have h1 := hv v (by simp) ho
        cases hk : v.kind with
        | custom id => simp only [runPre, World.withCallbacks, h1 id hk]
        | regex p hint => rfl
        | _ => rfl
      simp only [this, ih]
    · rw [if_neg ho, if_neg ho]; exact ih a

theorem calls_exec {a0 a : Argus} {p : Ptr} {x : Option Str} (hs : a.shape = a0.shape)
    (hf : ∀ o, placeAt a0.tables p = some o → SameFor W f g o x) :
    execCallbacks (W.withCallbacks f g h c) a p x = execCallbacks W a p x := by
  unfold execCallbacks
  cases ho : a.getOpt p with
  | ub u => rfl
  | ok o =>
    simp only [Out.ok_bind]
    obtain ⟨o0, h0, hm⟩ := shape_getOpt hs.symm ho
    have hsame := hf o0 (placeAt_getOpt.2 h0)
    have e1 : o0.handler = o.handler := (congrArg Opt.handler hm : o0.meta.handler = o.meta.handler)
    have e2 : o0.validators = o.validators := (congrArg Opt.validators hm : o0.meta.validators = o.meta.validators)
    have hpre := fun b => calls_runPreAll (W := W) (f := f) (g := g) (h := h) (c := c) (x := x) (o.validators.getD []) b
      (fun v hv => hsame.validators v (by rw [e2]; exact hv))
    cases hh : o.handler with
    | none => rfl
    | some k =>
      simp only [hpre]
      have : ∀ b, runHandler (W.withCallbacks f g h c) b k o x = runHandler W b k o x := by
        intro b
        cases k with
        | custom id =>
          have := hsame.handler id (by rw [e1]; exact hh) o (declaredAs_of_meta hm)
          simp only [runHandler, World.withCallbacks, this]
        | _ => rfl
      simp only [this]

/-- A state on the way of a parse that began in `a0`: entries in `L` are set, and only entries in `U` are. -/
structure Along (a0 : Argus) (L U : Ptr → Prop) (b : Argus) : Prop where
  shape : b.shape = a0.shape
  cfg : b.cfg = a0.cfg
  low : ∀ p o, b.getOpt p = .ok o → L p → o.isSet = true
  up : ∀ p o, b.getOpt p = .ok o → o.isSet = true → U p

theorem Along.exec {a0 b b' : Argus} {L U : Ptr → Prop} {p : Ptr} {x : Option Str} (ha : Along a0 L U b) (hu : U p)
    (he : execCallbacks W b p x = .ok (Err.success, b')) : Along a0 (fun q => L q ∨ q = p) U b' := by
  have h1 := execCallbacks_one he
  obtain ⟨o, o', es, h2, h3, h4⟩ := execCallbacks_success he
  refine ⟨h1.frame.shape.trans ha.shape, h1.frame.cfg.trans ha.cfg, fun q oq hq hl => ?_, fun q oq hq hl => ?_⟩
  · by_cases hqp : q = p
    · subst hqp
      rw [h4, getOpt_setOpt_self (o := o) (by simpa using h2)] at hq
      cases hq; exact give_isSet h3
    · rw [h1.others q hqp] at hq
      exact ha.low q oq hq (hl.resolve_right hqp)
  · by_cases hqp : q = p
    · rw [hqp]; exact hu
    · rw [h1.others q hqp] at hq
      exact ha.up q oq hq hl

theorem Along.enter {a0 b : Argus} {L U : Ptr → Prop} {p : Ptr} {e : Option Nat × Argus} (ha : Along a0 L U b) (hu : U p)
    (he : enterSub b p = .ok e) : Along a0 L U e.2 ∧ e.2.stack = b.stack ++ [p] := by
  obtain ⟨o, ho, _⟩ := Out.bind_eq_ok (show (b.getOpt p >>= _) = _ from he)
  have hf := (enterSub_frame he).1
  rw [enterSub_eq ho] at he
  split at he
  · cases he
  · simp only [Out.ok.injEq] at he
    subst he
    refine ⟨⟨hf.shape.trans ha.shape, hf.cfg.trans ha.cfg, fun q oq hq hl => ?_, fun q oq hq hl => ?_⟩, rfl⟩
    · have hq1 : (b.setOpt p { o with isSet := true }).getOpt q = .ok oq := hq
      by_cases hqp : q = p
      · subst hqp
        rw [getOpt_setOpt_self ho] at hq1
        cases hq1; rfl
      · rw [getOpt_setOpt_ne hqp] at hq1
        exact ha.low q oq hq1 hl
    · have hq1 : (b.setOpt p { o with isSet := true }).getOpt q = .ok oq := hq
      by_cases hqp : q = p
      · rw [hqp]; exact hu
      · rw [getOpt_setOpt_ne hqp] at hq1
        exact ha.up q oq hq1 hl

theorem calls_run {a0 : Argus} : ∀ (acts : List Act) {b : Argus} {L U : Ptr → Prop}, Along a0 L U b →
    (∀ p x, Act.give p x ∈ acts → U p ∧ ∀ o, placeAt a0.tables p = some o → SameFor W f g o x) →
    (∀ p, Act.enter p ∈ acts → U p) → Act.fail Err.success ∉ acts →
    run (W.withCallbacks f g h c) b acts = run W b acts ∧
      ∀ b', run W b acts = .ok (Err.success, b') → Along a0 (fun q => L q ∨ ∃ x, Act.give q x ∈ acts) U b' ∧
        b'.stack = b.stack ++ entered acts
  | [], b, L, U, ha, _, _, _ => by
    refine ⟨rfl, fun b' hb => ?_⟩
    simp only [run, Out.ok.injEq, Prod.mk.injEq, true_and] at hb; subst hb
    refine ⟨⟨ha.shape, ha.cfg, fun p o hp hl => ha.low p o hp ?_, ha.up⟩, by simp [entered]⟩
    rcases hl with hl | ⟨x, hx⟩
    · exact hl
    · simp at hx
  | .give p x :: acts, b, L, U, ha, hg, he, hn => by
    have h1 := hg p x (by simp)
    have hex := calls_exec (h := h) (c := c) (a := b) ha.shape h1.2
    have e : ∀ V : World, run V b (.give p x :: acts) = (execCallbacks V b p x >>= fun r =>
        if r.1 ≠ Err.success then .ok r else run V r.2 acts) := fun _ => rfl
    rw [e, e, hex]
    cases hr : execCallbacks W b p x with
    | ub u => exact ⟨rfl, fun b' hb => by simp at hb⟩
    | ok r =>
      simp only [Out.ok_bind]
      by_cases hs : r.1 = Err.success
      · rw [if_neg (by simpa using hs), if_neg (by simpa using hs)]
        have ha1 := ha.exec h1.1 (show execCallbacks W b p x = .ok (Err.success, r.2) by rw [hr, ← hs])
        obtain ⟨i1, i2⟩ := calls_run acts ha1 (fun q y hq => hg q y (by simp [hq])) (fun q hq => he q (by simp [hq]))
          (fun hm => hn (by simp [hm]))
        refine ⟨i1, fun b' hb => ?_⟩
        obtain ⟨j1, j2⟩ := i2 b' hb
        have hst : r.2.stack = b.stack := (execCallbacks_one hr).stack
        refine ⟨⟨j1.shape, j1.cfg, fun q o hq hl => j1.low q o hq ?_, j1.up⟩, by rw [j2, hst]; simp [entered]⟩
        rcases hl with hl | ⟨y, hy⟩
        · exact .inl (.inl hl)
        · rcases List.mem_cons.1 hy with hy | hy
          · cases hy; exact .inl (.inr rfl)
          · exact .inr ⟨y, hy⟩
      · rw [if_pos hs, if_pos hs]
        refine ⟨rfl, fun b' hb => ?_⟩
        simp only [Out.ok.injEq] at hb
        rw [hb] at hs; exact absurd rfl hs
  | .enter p :: acts, b, L, U, ha, hg, he, hn => by
    have e : ∀ V : World, run V b (.enter p :: acts) = (enterSub b p >>= fun e => run V e.2 acts) := fun _ => rfl
    rw [e, e]
    cases hr : enterSub b p with
    | ub u => exact ⟨rfl, fun b' hb => by simp at hb⟩
    | ok e =>
      simp only [Out.ok_bind]
      obtain ⟨ha1, hst⟩ := ha.enter (he p (by simp)) hr
      obtain ⟨i1, i2⟩ := calls_run acts ha1 (fun q y hq => hg q y (by simp [hq])) (fun q hq => he q (by simp [hq]))
          (fun hm => hn (by simp [hm]))
      refine ⟨i1, fun b' hb => ?_⟩
      obtain ⟨j1, j2⟩ := i2 b' hb
      refine ⟨⟨j1.shape, j1.cfg, fun q o hq hl => j1.low q o hq ?_, j1.up⟩, by rw [j2, hst]; simp [entered]⟩
      rcases hl with hl | ⟨y, hy⟩
      · exact .inl hl
      · exact .inr ⟨y, by simpa using hy⟩
  | .fail st :: acts, b, L, U, ha, hg, he, hn => by
    refine ⟨rfl, fun b' hb => ?_⟩
    simp only [run, Out.ok.injEq, Prod.mk.injEq] at hb
    obtain ⟨hst, rfl⟩ := hb
    subst hst
    exact absurd (by simp) hn
  | .noTable :: acts, b, L, U, ha, hg, he, hn => ⟨rfl, fun b' hb => by simp [run] at hb⟩

/-! ## The environment -/

section
variable {a0 : Argus} {env : Env} {K : Nat → Prop} {L U : Ptr → Prop}

/-- What a variable gives, to an entry that is not set in a way that comes before it. -/
def EnvFits (W : World) (f : Nat → Opt → Option Str → CustomResult) (g : Nat → Option Str → Int × Option Int)
    (a0 : Argus) (env : Env) (K : Nat → Prop) (L U : Ptr → Prop) : Prop :=
  ∀ p o n v, K p.tbl → placeAt a0.tables p = some o → (o.type = .option ∨ o.type = .positional) →
    (o.flags.has .envOverride = true ∨ ¬ L p) → envVarName a0.envPrefix o = some n → env n = some v →
    U p ∧ SameFor W f g o (some v)

theorem Along.weaken {L1 L2 U : Ptr → Prop} {b : Argus} (ha : Along a0 L1 U b) (hl : ∀ p, L2 p → L1 p) : Along a0 L2 U b :=
  ⟨ha.shape, ha.cfg, fun p o hp h1 => ha.low p o hp (hl p h1), ha.up⟩

theorem calls_step (hf : EnvFits W f g a0 env K L U) {b : Argus} (ha : Along a0 L U b) {p : Ptr} (hk : K p.tbl) :
    loadEnvStep (W.withCallbacks f g h c) env b p = loadEnvStep W env b p ∧
      ∀ b', loadEnvStep W env b p = .ok (Err.success, b') → Along a0 L U b' ∧ b'.stack = b.stack := by
  have triv : ∀ b', Out.ok (Err.success, b) = .ok (Err.success, b') → Along a0 L U b' ∧ b'.stack = b.stack := by
    intro b' hb; simp only [Out.ok.injEq, Prod.mk.injEq, true_and] at hb; subst hb; exact ⟨ha, rfl⟩
  unfold loadEnvStep
  cases ho : b.getOpt p with
  | ub u => exact ⟨rfl, fun b' hb => by simp at hb⟩
  | ok o =>
    simp only [Out.ok_bind]
    by_cases h1 : o.type = .group ∨ o.type = .subcommand
    · rw [if_pos h1, if_pos h1]; exact ⟨rfl, triv⟩
    · rw [if_neg h1, if_neg h1]
      by_cases h2 : o.isSet = true ∧ o.flags.has .envOverride = false
      · rw [if_pos h2, if_pos h2]; exact ⟨rfl, triv⟩
      · rw [if_neg h2, if_neg h2]
        cases hn : envVarName b.envPrefix o with
        | none => exact ⟨rfl, triv⟩
        | some n =>
          cases hv : env n with
          | none => simp only [hv]; exact ⟨trivial, triv⟩
          | some v =>
            simp only [hv]
            obtain ⟨o0, h0, hm⟩ := shape_getOpt ha.shape.symm ho
            have e1 : o0.type = o.type := (congrArg Opt.type hm : o0.meta.type = o.meta.type)
            have e2 : o0.flags = o.flags := (congrArg Opt.flags hm : o0.meta.flags = o.meta.flags)
            have e3 : a0.envPrefix = b.envPrefix := (congrArg (fun x => x.2.1) ha.cfg).symm
            have h3 : o0.type = .option ∨ o0.type = .positional := by
              rw [e1]; cases ht : o.type <;> simp_all
            have h4 : o0.flags.has .envOverride = true ∨ ¬ L p := by
              rw [e2]
              cases hx : o.flags.has .envOverride with
              | true => exact .inl rfl
              | false => exact .inr fun hl => h2 ⟨ha.low p o ho hl, hx⟩
            obtain ⟨hu, hs⟩ := hf p o0 n v hk (placeAt_getOpt.2 h0) h3 h4
              (by rw [e3, envVarName_meta hm]; exact hn) hv
            have hex := calls_exec (W := W) (f := f) (g := g) (h := h) (c := c) (x := some v) (p := p) ha.shape
              (fun o1 h5 => by rw [placeAt_getOpt.2 h0] at h5; cases h5; exact hs)
            rw [hex]
            refine ⟨rfl, fun b' hb => ?_⟩
            obtain ⟨r, hr, h6⟩ := Out.bind_eq_ok hb
            have h7 : r = (Err.success, b') := by
              by_cases hs : r.1 = Err.success
              · rw [if_neg (by simpa using hs)] at h6; simpa using h6
              · rw [if_pos hs] at h6
                split at h6
                · obtain ⟨o1, _, h8⟩ := Out.bind_eq_ok h6
                  simp only [Out.ok.injEq, Prod.mk.injEq] at h8
                  exact absurd h8.1 hs
                · simp only [Out.ok.injEq] at h6
                  rw [h6] at hs; exact absurd rfl hs
            rw [h7] at hr
            exact ⟨(ha.exec hu hr).weaken fun q hq => .inl hq, (execCallbacks_one hr).stack⟩

theorem calls_loop (hf : EnvFits W f g a0 env K L U) {k : Nat} (hk : K k) : ∀ (n i : Nat) {b : Argus}, Along a0 L U b →
    loadEnvLoop (W.withCallbacks f g h c) env k n i b = loadEnvLoop W env k n i b ∧
      ∀ b', loadEnvLoop W env k n i b = .ok (Err.success, b') → Along a0 L U b' ∧ b'.stack = b.stack
  | 0, i, b, ha => ⟨rfl, fun b' hb => by
      simp only [loadEnvLoop, Out.ok.injEq, Prod.mk.injEq, true_and] at hb; subst hb; exact ⟨ha, rfl⟩⟩
  | n + 1, i, b, ha => by
    obtain ⟨h1, h2⟩ := calls_step (h := h) (c := c) hf ha (p := ⟨k, i⟩) hk
    have e : ∀ V : World, loadEnvLoop V env k (n + 1) i b = (loadEnvStep V env b ⟨k, i⟩ >>= fun r =>
        if r.1 ≠ Err.success then .ok r else loadEnvLoop V env k n (i + 1) r.2) := fun _ => rfl
    rw [e, e, h1]
    cases hr : loadEnvStep W env b ⟨k, i⟩ with
    | ub u => exact ⟨rfl, fun b' hb => by simp at hb⟩
    | ok r =>
      simp only [Out.ok_bind]
      by_cases hs : r.1 = Err.success
      · rw [if_neg (by simpa using hs), if_neg (by simpa using hs)]
        obtain ⟨h3, h4⟩ := h2 r.2 (by rw [hr, ← hs])
        obtain ⟨h5, h6⟩ := calls_loop hf hk n (i + 1) h3
        exact ⟨h5, fun b' hb => ⟨(h6 b' hb).1, (h6 b' hb).2.trans h4⟩⟩
      · rw [if_pos hs, if_pos hs]
        refine ⟨rfl, fun b' hb => ?_⟩
        simp only [Out.ok.injEq] at hb
        rw [hb] at hs; exact absurd rfl hs

theorem calls_table (hf : EnvFits W f g a0 env K L U) {k : Nat} (hk : K k) {b : Argus} (ha : Along a0 L U b) :
    loadEnvTable (W.withCallbacks f g h c) env b k = loadEnvTable W env b k ∧
      ∀ b', loadEnvTable W env b k = .ok (Err.success, b') → Along a0 L U b' ∧ b'.stack = b.stack := by
  unfold loadEnvTable
  cases b.table (some k) with
  | ub u => exact ⟨rfl, fun b' hb => by simp at hb⟩
  | ok os => exact calls_loop hf hk _ _ ha

theorem calls_stack (hf : EnvFits W f g a0 env K L U) : ∀ (ps : List Ptr) {b : Argus}, Along a0 L U b →
    (∀ p ∈ ps, ∀ k, tableBelow a0.tables p = some k → K k) →
    loadEnvStack (W.withCallbacks f g h c) env b ps = loadEnvStack W env b ps ∧
      ∀ b', loadEnvStack W env b ps = .ok (Err.success, b') → Along a0 L U b' ∧ b'.stack = b.stack
  | [], b, ha, _ => ⟨rfl, fun b' hb => by
      simp only [loadEnvStack, Out.ok.injEq, Prod.mk.injEq, true_and] at hb; subst hb; exact ⟨ha, rfl⟩⟩
  | p :: ps, b, ha, hp => by
    have ih := fun {b1 : Argus} (h1 : Along a0 L U b1) => calls_stack hf ps h1 (fun q hq => hp q (by simp [hq]))
    unfold loadEnvStack
    cases ho : b.getOpt p with
    | ub u => exact ⟨rfl, fun b' hb => by simp at hb⟩
    | ok o =>
      simp only [Out.ok_bind]
      cases hsub : o.subOptions with
      | none => exact ih ha
      | some k =>
        have hk : K k := by
          refine hp p (by simp) k ?_
          rw [← tableBelow_shape ha.shape p]
          unfold tableBelow
          rw [placeAt_getOpt.2 ho]; exact hsub
        obtain ⟨h1, h2⟩ := calls_table (h := h) (c := c) hf hk ha
        simp only [h1]
        cases hr : loadEnvTable W env b k with
        | ub u => exact ⟨rfl, fun b' hb => by simp at hb⟩
        | ok r =>
          simp only [Out.ok_bind]
          by_cases hs : r.1 = Err.success
          · rw [if_neg (by simpa using hs), if_neg (by simpa using hs)]
            obtain ⟨h3, h4⟩ := h2 r.2 (by rw [hr, ← hs])
            obtain ⟨h5, h6⟩ := ih h3
            exact ⟨h5, fun b' hb => ⟨(h6 b' hb).1, (h6 b' hb).2.trans h4⟩⟩
          · rw [if_pos hs, if_pos hs]
            refine ⟨rfl, fun b' hb => ?_⟩
            simp only [Out.ok.injEq] at hb
            rw [hb] at hs; exact absurd rfl hs

theorem calls_env (hf : EnvFits W f g a0 env K L U) {b : Argus} (ha : Along a0 L U b)
    (hp : ∀ k ∈ pathTables a0 b.stack, K k) :
    loadEnvVars (W.withCallbacks f g h c) env b = loadEnvVars W env b ∧
      ∀ b', loadEnvVars W env b = .ok (Err.success, b') → Along a0 L U b' ∧ b'.stack = b.stack := by
  have hroot : b.root = a0.root := congrArg (fun x => x.1) ha.cfg
  obtain ⟨h1, h2⟩ := calls_table (h := h) (c := c) hf (hp b.root (by rw [hroot]; simp [pathTables])) ha
  unfold loadEnvVars
  rw [h1]
  cases hr : loadEnvTable W env b b.root with
  | ub u => exact ⟨rfl, fun b' hb => by simp at hb⟩
  | ok r =>
    simp only [Out.ok_bind]
    by_cases hs : r.1 = Err.success
    · rw [if_neg (by simpa using hs), if_neg (by simpa using hs)]
      obtain ⟨h3, h4⟩ := h2 r.2 (by rw [hr, ← hs])
      obtain ⟨h5, h6⟩ := calls_stack (h := h) (c := c) hf r.2.stack h3 (fun p hq k hk => hp k (by
        rw [h4] at hq
        exact List.mem_cons_of_mem _ (List.mem_filterMap.2 ⟨p, hq, hk⟩)))
      exact ⟨h5, fun b' hb => ⟨(h6 b' hb).1, (h6 b' hb).2.trans h4⟩⟩
    · rw [if_pos hs, if_pos hs]
      refine ⟨rfl, fun b' hb => ?_⟩
      simp only [Out.ok.injEq] at hb
      rw [hb] at hs; exact absurd rfl hs

end

/-! ## The validation -/

/-- The validators of values do the same for this entry. -/
def SameValue (W : World) (h : Nat → Opt → Int × Option Int) (o : Opt) : Prop :=
  o.isSet = true → o.type ≠ .group → ∀ v ∈ o.validators.getD [], v.order = .post → ∀ id, v.kind = .custom id →
    h id o = W.postValidator id o

theorem calls_callValidators {o : Opt} : ∀ (vs : List Validator),
    (∀ v ∈ vs, v.order = .post → ∀ id, v.kind = .custom id → h id o = W.postValidator id o) →
    callValidators (W.withCallbacks f g h c) o vs = callValidators W o vs
  | [], _ => rfl
  | v :: vs, hv => by
    have ih := calls_callValidators vs (fun w hw => hv w (by simp [hw]))
    unfold callValidators
    rw [ih]
    by_cases ho : v.order = .post
    · rw [if_pos ho, if_pos ho]
      have h1 := hv v (by simp) ho
      have : runPost (W.withCallbacks f g h c) v.kind o = runPost W v.kind o := by
        cases hk : v.kind with
        | custom id => simp only [runPost, World.withCallbacks, h1 id hk]
        | _ => rfl
      rw [this]
    · rw [if_neg ho, if_neg ho]

theorem calls_validateSet (os : List Opt) : ∀ (l : List Opt) (excl : Bool) (first : Option Str), (∀ o ∈ l, SameValue W h o) →
    validateSet (W.withCallbacks f g h c) os excl first l = validateSet W os excl first l
  | [], _, _, _ => rfl
  | o :: l, excl, first, hl => by
    have ih := fun e fi => calls_validateSet os l e fi (fun w hw => hl w (by simp [hw]))
    unfold validateSet
    by_cases hg : o.type = .group
    · rw [if_pos hg, if_pos hg]; exact ih _ _
    · rw [if_neg hg, if_neg hg]
      by_cases hs : o.isSet = true
      · have := calls_callValidators (f := f) (g := g) (c := c) (o.validators.getD []) (hl o (by simp) hs hg)
        simp only [ih, this]
      · simp only [ih]
        simp only [Bool.not_eq_true] at hs
        simp only [hs, Bool.false_eq_true, if_false]

/-- Everything set in this table is looked at in the same way. -/
def SameTable (W : World) (h : Nat → Opt → Int × Option Int) (T : List (List Opt)) (k : Nat) : Prop :=
  ∀ os, T[k]? = some os → ∀ o ∈ os, SameValue W h o

theorem calls_validateTable {b : Argus} {t : Option Nat} (ht : ∀ k, t = some k → SameTable W h b.tables k) :
    validateTable (W.withCallbacks f g h c) b t = validateTable W b t := by
  unfold validateTable
  cases hb : b.table t with
  | ub u => rfl
  | ok os =>
    obtain ⟨k, hk, h2⟩ := table_eq_ok.1 hb
    simp only [Out.ok_bind, calls_validateSet os os false none (ht k hk os h2)]

theorem calls_validated {b : Argus} {t : Option Nat} {r : Int × Argus} (hr : validateTable W b t = .ok r) :
    r.2.tables = b.tables ∧ r.2.stack = b.stack := by
  obtain ⟨es, he⟩ := validateTable_eq hr
  rw [he]; simp

theorem calls_validateStack {T : List (List Opt)} : ∀ (ps : List Ptr) {b : Argus}, b.tables = T →
    (∀ p ∈ ps, ∀ k, tableBelow T p = some k → SameTable W h T k) →
    validateStack (W.withCallbacks f g h c) b ps = validateStack W b ps
  | [], _, _, _ => rfl
  | p :: ps, b, hT, hp => by
    unfold validateStack
    cases ho : b.getOpt p with
    | ub u => rfl
    | ok o =>
      simp only [Out.ok_bind]
      rw [calls_validateTable (t := o.subOptions) (fun k hk => by
        rw [hT]
        refine hp p (by simp) k ?_
        unfold tableBelow
        rw [← hT, placeAt_getOpt.2 ho]; exact hk)]
      cases hr : validateTable W b o.subOptions with
      | ub u => rfl
      | ok r =>
        simp only [Out.ok_bind]
        rw [calls_validateStack ps (((calls_validated hr).1).trans hT) (fun q hq => hp q (by simp [hq]))]

theorem calls_postValidation {b : Argus} (hp : ∀ k ∈ pathTables b b.stack, SameTable W h b.tables k) :
    postValidation (W.withCallbacks f g h c) b = postValidation W b := by
  unfold postValidation
  rw [calls_validateTable (fun k hk => hp k (by cases hk; simp [pathTables]))]
  cases hr : validateTable W b (some b.root) with
  | ub u => rfl
  | ok r =>
    simp only [Out.ok_bind]
    rw [calls_validateStack r.2.stack ((calls_validated hr).1) (fun q hq k hk => hp k (by
      rw [(calls_validated hr).2] at hq
      exact List.mem_cons_of_mem _ (List.mem_filterMap.2 ⟨q, hq, hk⟩)))]

/-! ## The whole parse -/

/-- What follows the line is the same when the line is read in the same way. -/
theorem calls_parse {env : Env} {a : Argus} {args : List Str}
    (h1 : run (W.withCallbacks f g h c) a (a.asks args) = run W a (a.asks args))
    (h2 : ∀ b, run W a (a.asks args) = .ok (Err.success, b) →
      loadEnvVars (W.withCallbacks f g h c) env { b with errorCode := Err.success } = loadEnvVars W env { b with errorCode := Err.success } ∧
      ∀ b', loadEnvVars W env { b with errorCode := Err.success } = .ok (Err.success, b') →
        postValidation (W.withCallbacks f g h c) b' = postValidation W b') :
    argusParse (W.withCallbacks f g h c) env a args = argusParse W env a args := by
  unfold argusParse
  rw [parseArgs_run, parseArgs_run, h1]
  cases hr : run W a (a.asks args) with
  | ub u => rfl
  | ok r =>
    simp only [Out.ok_bind]
    by_cases hs : r.1 = Err.success
    · obtain ⟨g1, g2⟩ := h2 r.2 (by rw [hr, ← hs])
      rw [hs]
      simp only [g1]
      cases he : loadEnvVars W env { r.2 with errorCode := Err.success } with
      | ub u => rfl
      | ok e =>
        simp only [Out.ok_bind]
        by_cases hs2 : e.1 = Err.success
        · rw [g2 e.2 (by rw [he, ← hs2])]
        · simp only [ne_eq, hs2, not_false_eq_true, if_true]
    · simp only [ne_eq, hs, not_false_eq_true, if_true]

theorem calls_all {env : Env} {a : Argus} {args : List Str} (hc : SameWhereCalled W f g h env a args) :
    argusParse (W.withCallbacks f g h c) env a args = argusParse W env a args := by
  have start : Along a (fun p => ∃ o, placeAt a.tables p = some o ∧ o.isSet = true) (BecomesSet env a args) a :=
    ⟨rfl, rfl, fun p o hp ⟨o1, h1, h2⟩ => by rw [placeAt_getOpt.2 hp] at h1; cases h1; exact h2,
      fun p o hp hs => .inl ⟨o, placeAt_getOpt.2 hp, hs⟩⟩
  obtain ⟨h1, h2⟩ := calls_run (W := W) (f := f) (g := g) (h := h) (c := c) (a.asks args) start
    (fun p x hp => ⟨.inr (.inl ⟨x, .inl hp⟩), fun o ho => hc.texts p x o (.inl hp) ho⟩)
    (fun p hp => .inr (.inr hp)) (asks_no_fail0 a args)
  refine calls_parse h1 fun b hb => ?_
  obtain ⟨h3, h4⟩ := h2 b hb
  have h3' : Along a (fun q => (∃ o, placeAt a.tables q = some o ∧ o.isSet = true) ∨ ∃ x, Act.give q x ∈ a.asks args)
      (BecomesSet env a args) { b with errorCode := Err.success } := ⟨h3.shape, h3.cfg, h3.low, h3.up⟩
  have hfit : EnvFits W f g a env (fun k => k ∈ a.selects args)
      (fun q => (∃ o, placeAt a.tables q = some o ∧ o.isSet = true) ∨ ∃ x, Act.give q x ∈ a.asks args)
      (BecomesSet env a args) := by
    intro p o n v hk ho ht hl hn hv
    have hg : VariableGives env a args p (some v) := by
      refine ⟨hk, o, n, v, ho, ht, ?_, hn, hv, rfl⟩
      rcases hl with hl | hl
      · exact .inl hl
      · refine .inr ⟨?_, fun y hy => hl (.inr ⟨y, hy⟩)⟩
        cases hs : o.isSet with
        | false => rfl
        | true => exact absurd (.inl ⟨o, ho, hs⟩) hl
    exact ⟨.inr (.inl ⟨_, .inr hg⟩), hc.texts p _ o (.inr hg) ho⟩
  have hpath : pathTables a ({ b with errorCode := Err.success } : Argus).stack = a.selects args := by
    show pathTables a b.stack = _
    rw [h4]; rfl
  obtain ⟨h5, h6⟩ := calls_env (h := h) (c := c) hfit h3' (fun k hk => by rw [hpath] at hk; exact hk)
  refine ⟨h5, fun b' hb' => ?_⟩
  obtain ⟨h7, h8⟩ := h6 b' hb'
  refine calls_postValidation fun k hk os hos o ho hset hgr v hv hvo id hid => ?_
  have hk' : k ∈ a.selects args := by
    rw [pathTables_shape h7.shape (congrArg (fun x => x.1) h7.cfg), h8, hpath] at hk; exact hk
  obtain ⟨i, hi⟩ := List.getElem?_of_mem ho
  have hget : b'.getOpt ⟨k, i⟩ = .ok o := getOpt_eq_ok.2 ⟨os, hos, hi⟩
  obtain ⟨o0, g0, hm⟩ := shape_getOpt h7.shape.symm hget
  have e1 : o0.type = o.type := (congrArg Opt.type hm : o0.meta.type = o.meta.type)
  have e2 : o0.validators = o.validators := (congrArg Opt.validators hm : o0.meta.validators = o.meta.validators)
  exact hc.values ⟨k, i⟩ o0 (h7.up _ _ hget hset) hk' (placeAt_getOpt.2 g0) (by rw [e1]; exact hgr) v (by rw [e2]; exact hv) hvo id
    hid o (declaredAs_of_meta hm) hset

/-- A line that stops has stopped once the bad thing is reached. -/
theorem calls_reached {a : Argus} {args : List Str} {st : Int} {done rest : List Act} {act : Act} {r : Int × Argus}
    (hx : HelpExits a.tables) (hl : LineStops W a args st done act rest) (hr : run W a (done ++ [act]) = .ok r) :
    r.1 ≠ Err.success := by
  intro h0
  have hr' : run W a (done ++ [act]) = .ok (Err.success, r.2) := by rw [hr, ← h0]
  have hsub : ∀ x ∈ done ++ [act], x ∈ a.asks args := by
    intro x hx; rw [hl.split]; simp only [List.mem_append, List.mem_cons, List.not_mem_nil, or_false] at hx ⊢
    rcases hx with hx | hx
    · exact .inl hx
    · exact .inr (.inl hx)
  have hw := run_success_wishes W _ a r.2 hr' (fun hm => asks_no_fail0 a args (hsub _ hm))
  obtain ⟨_, _, _, g⟩ := run_entries hx (args := args) hsub hw hr'
  exact lineStops_ends (more := []) hl (fun x hx => wish_iff.1 (hw x hx)) (fun p o hp => by
    obtain ⟨o', _, h5⟩ := g p o hp
    exact ⟨o', h5⟩)

/-- A parse that stops on the line does not look at the rest of it. -/
theorem calls_stops {env : Env} {a : Argus} {args : List Str} {st : Int} {done rest : List Act} {act : Act}
    (hx : HelpExits a.tables) (hl : LineStops W a args st done act rest)
    (hs : ∀ p x o, Act.give p x ∈ done ++ [act] → placeAt a.tables p = some o → SameFor W f g o x) :
    argusParse (W.withCallbacks f g h c) env a args = argusParse W env a args := by
  have hsplit : a.asks args = (done ++ [act]) ++ rest := by rw [hl.split]; simp
  have hf : ∀ d, Act.fail d ∈ done ++ [act] → d ≠ Err.success := by
    intro d hd h0
    subst h0
    exact asks_no_fail0 a args (by rw [hsplit]; exact List.mem_append_left _ hd)
  have start : Along a (fun _ => False) (fun _ => True) a := ⟨rfl, rfl, fun p o hp h => h.elim, fun p o hp hs => trivial⟩
  obtain ⟨h1, _⟩ := calls_run (W := W) (f := f) (g := g) (h := h) (c := c) (done ++ [act]) start
    (fun p x hp => ⟨trivial, fun o ho => hs p x o hp ho⟩) (fun p hp => trivial) (fun hm => hf _ hm rfl)
  have h2 : ∀ V : World, run V a (done ++ [act]) = run W a (done ++ [act]) →
      run V a (a.asks args) = run W a (done ++ [act]) := by
    intro V hV
    rw [hsplit, run_append _ _ _ hf, hV]
    cases hr : run W a (done ++ [act]) with
    | ub u => rfl
    | ok r => simp only [Out.ok_bind]; rw [if_pos (calls_reached hx hl hr)]
  refine calls_parse ((h2 _ h1).trans (h2 W rfl).symm) fun b hb => ?_
  rw [h2 W rfl] at hb
  exact absurd rfl (calls_reached hx hl hb)

/-! ## What is called -/

/-- What is given on a line that is carried out is given to the entry in some state of the way. -/
theorem calls_given {a0 : Argus} {p : Ptr} {x : Option Str} : ∀ (acts : List Act) {b b' : Argus}, b.shape = a0.shape →
    run W b acts = .ok (Err.success, b') → Act.give p x ∈ acts → Act.fail Err.success ∉ acts →
    ∃ d d', d.shape = a0.shape ∧ execCallbacks W d p x = .ok (Err.success, d')
  | [], _, _, _, _, hm, _ => by simp at hm
  | .give q y :: acts, b, b', hb, hr, hm, hn => by
    obtain ⟨r, h1, h2⟩ := Out.bind_eq_ok (show (execCallbacks W b q y >>= _) = _ from hr)
    by_cases hs : r.1 = Err.success
    · rw [if_neg (by simpa using hs)] at h2
      have h3 : execCallbacks W b q y = .ok (Err.success, r.2) := by rw [h1, ← hs]
      rcases List.mem_cons.1 hm with hm | hm
      · cases hm; exact ⟨b, r.2, hb, h3⟩
      · exact calls_given acts ((execCallbacks_one h3).frame.shape.trans hb) h2 hm (fun h => hn (by simp [h]))
    · rw [if_pos hs] at h2
      simp only [Out.ok.injEq] at h2
      rw [h2] at hs; exact absurd rfl hs
  | .enter q :: acts, b, b', hb, hr, hm, hn => by
    obtain ⟨e, h1, h2⟩ := Out.bind_eq_ok (show (enterSub b q >>= _) = _ from hr)
    exact calls_given acts ((enterSub_frame h1).1.shape.trans hb) h2 (by simpa using hm) (fun h => hn (by simp [h]))
  | .fail st :: acts, b, b', hb, hr, hm, hn => by
    simp only [run, Out.ok.injEq, Prod.mk.injEq] at hr
    rw [hr.1] at hn
    exact absurd (by simp) hn
  | .noTable :: acts, b, b', hb, hr, hm, hn => by simp [run] at hr

/-- A custom handler that an option is given a text with has been called, and has accepted the text. -/
theorem calls_accepts {b b' : Argus} {p : Ptr} {x : Option Str} {o : Opt} (ho : b.getOpt p = .ok o)
    (he : execCallbacks W b p x = .ok (Err.success, b')) :
    (∀ id, o.handler = some (.custom id) → (W.handler id o x).status = Err.success) ∧
    ∀ v ∈ o.validators.getD [], v.order = .pre → ∀ id, v.kind = .custom id → (W.preValidator id x).1 = Err.success := by
  constructor
  · intro id hid
    obtain ⟨o1, o', es, h2, h3, _⟩ := execCallbacks_success he
    rw [ho] at h2; cases h2
    unfold Opt.give at h3
    rw [hid] at h3
    simp only [runHandler] at h3
    split at h3
    · rename_i hr0; exact hr0
    · cases h3
  · intro v hv hvo id hid
    unfold execCallbacks at he
    rw [ho, Out.ok_bind] at he
    cases hh : o.handler with
    | none => rw [hh] at he; simp at he; exact absurd he.1 (by decide)
    | some k =>
      rw [hh] at he
      obtain ⟨q, h1, h2⟩ := Out.bind_eq_ok he
      by_cases hs : q.1 = Err.success
      · have := runPreAll_success (W := W) (x := x) (o.validators.getD []) (a' := q.2) (by rw [h1, ← hs]) v hv hvo
        rw [hid] at this
        exact this
      · rw [if_pos hs] at h2
        simp only [Out.ok.injEq] at h2
        rw [h2] at hs; exact absurd rfl hs

end Argus
