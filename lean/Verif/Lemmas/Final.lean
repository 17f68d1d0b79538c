import Verif.Spec.Final
import Verif.Lemmas.Env
import Verif.Lemmas.Validate

/-! # Lemmas: what every visit of `load_env` adds to an option -/

set_option autoImplicit false

namespace Argus

/-- What one visit hands to the option as it stands. -/
def envOnce (env : Env) (ep : Option Str) (o : Opt) : List (Option Str) :=
  match (envVarName ep o).bind env with
  | none => []
  | some v =>
    if (o.type = .group ∨ o.type = .subcommand) ∨ (o.isSet = true ∧ o.flags.has .envOverride = false) then [] else [some v]

/-- The option after a number of visits. -/
def afterVisits (W : World) (env : Env) (ep : Option Str) : Nat → Opt → Option Opt
  | 0, o => some o
  | m + 1, o => (o.giveAll W (envOnce env ep o)).bind (afterVisits W env ep m)

theorem afterVisits_add (W : World) (env : Env) (ep : Option Str) : ∀ (m n : Nat) (o : Opt),
    afterVisits W env ep (m + n) o = (afterVisits W env ep m o).bind (afterVisits W env ep n)
  | 0, n, o => by simp [afterVisits]
  | m + 1, n, o => by
    rw [Nat.succ_add, afterVisits, afterVisits, Option.bind_assoc]
    congr 1
    funext o1
    exact afterVisits_add W env ep m n o1

theorem afterVisits_meta {W : World} {env : Env} {ep : Option Str} : ∀ (m : Nat) {o o' : Opt},
    afterVisits W env ep m o = some o' → o'.meta = o.meta
  | 0, o, o', h => by simp only [afterVisits, Option.some.injEq] at h; rw [h]
  | m + 1, o, o', h => by
    obtain ⟨o1, h1, h2⟩ := Option.bind_eq_some_iff.1 (show (o.giveAll W (envOnce env ep o)).bind _ = _ from h)
    exact (afterVisits_meta m h2).trans (giveAll_meta _ h1)

theorem envGives_override {env : Env} {ep : Option Str} {o : Opt} {v : Str} (hv : (envVarName ep o).bind env = some v)
    (hg : ¬ (o.type = .group ∨ o.type = .subcommand)) (hov : o.flags.has .envOverride = true) (given : Bool) (m : Nat) :
    envGives env ep o given m = List.replicate m (some v) := by
  unfold envGives
  simp only [hv, hg, hov, if_true, if_false]

/-- All visits together. -/
theorem afterVisits_texts {W : World} {env : Env} {ep : Option Str} : ∀ (m : Nat) {o o1 : Opt},
    o1.meta = o.meta → ∀ given : Bool, (o1.isSet = true ↔ o.isSet = true ∨ given = true) →
    afterVisits W env ep m o1 = o1.giveAll W (envGives env ep o given m)
  | m, o, o1, hm, given, hs => by
    have ht : o1.type = o.type := (congrArg Opt.type hm : o1.meta.type = o.meta.type)
    have hf : o1.flags = o.flags := (congrArg Opt.flags hm : o1.meta.flags = o.meta.flags)
    have hn : ∀ {x : Opt}, x.meta = o.meta → envVarName ep x = envVarName ep o := fun h => envVarName_meta h ep
    have idle : ∀ (m : Nat) (x : Opt), envOnce env ep x = [] → afterVisits W env ep m x = some x := by
      intro m x hx
      induction m with
      | zero => rfl
      | succ m ih => rw [afterVisits, hx]; exact ih
    cases hv : (envVarName ep o).bind env with
    | none =>
      have e1 : envOnce env ep o1 = [] := by unfold envOnce; rw [hn hm, hv]
      have e2 : envGives env ep o given m = [] := by unfold envGives; rw [hv]
      rw [idle m o1 e1, e2]
      rfl
    | some v =>
      by_cases hg : o.type = .group ∨ o.type = .subcommand
      · have e1 : envOnce env ep o1 = [] := by
          unfold envOnce; rw [hn hm, hv]; simp only [ht, hg, true_or, if_true]
        have e2 : envGives env ep o given m = [] := by unfold envGives; simp only [hv, hg, if_true]
        rw [idle m o1 e1, e2]
        rfl
      · by_cases hov : o.flags.has .envOverride = true
        · rw [envGives_override hv hg hov]
          clear hs idle
          have : ∀ (m : Nat) (x : Opt), x.meta = o.meta →
              afterVisits W env ep m x = x.giveAll W (List.replicate m (some v)) := by
            intro m
            induction m with
            | zero => intro x _; rfl
            | succ m ih =>
              intro x hx
              have htx : x.type = o.type := (congrArg Opt.type hx : x.meta.type = o.meta.type)
              have hfx : x.flags = o.flags := (congrArg Opt.flags hx : x.meta.flags = o.meta.flags)
              have e1 : envOnce env ep x = [some v] := by
                unfold envOnce
                rw [hn hx, hv]
                simp [htx, hfx, hg, hov]
              rw [afterVisits, e1, List.replicate_succ]
              simp only [Opt.giveAll, Option.bind_some]
              cases hgv : x.give W (some v) with
              | none => rfl
              | some x1 => exact ih x1 ((runHandler_keeps_meta hgv).trans hx)
          exact this m o1 hm
        · have hov' : o.flags.has .envOverride = false := by simpa using hov
          by_cases hset : o1.isSet = true
          · have e1 : envOnce env ep o1 = [] := by
              unfold envOnce; rw [hn hm, hv]; simp only [hset, hf, hov', and_self, or_true, if_true]
            have e2 : envGives env ep o given m = [] := by
              unfold envGives
              simp only [hv, hg, hov', if_false, Bool.false_eq_true]
              rw [if_pos]
              · rcases hs.1 hset with h | h
                · exact Or.inl h
                · exact Or.inr (Or.inl h)
            rw [idle m o1 e1, e2]
            rfl
          · have hns : ¬ (o.isSet = true ∨ given = true) := fun h => hset (hs.2 h)
            cases m with
            | zero =>
              have e2 : envGives env ep o given 0 = [] := by
                unfold envGives
                simp [hv, hg, hov]
              rw [e2]; rfl
            | succ m =>
              have e1 : envOnce env ep o1 = [some v] := by
                unfold envOnce; rw [hn hm, hv]; simp [ht, hg, hset]
              have e2 : envGives env ep o given (m + 1) = [some v] := by
                unfold envGives
                simp only [hv, hg, hov', if_false, Bool.false_eq_true]
                rw [if_neg]
                rintro (h | h | h)
                · exact hns (Or.inl h)
                · exact hns (Or.inr h)
                · omega
              rw [afterVisits, e1, e2]
              cases hgv : o1.giveAll W [some v] with
              | none => rfl
              | some x1 =>
                have hx1 : x1.isSet = true := giveAll_isSet _ hgv (.inl (by simp))
                have hmx : x1.meta = o.meta := (giveAll_meta _ hgv).trans hm
                have hfx : x1.flags = o.flags := (congrArg Opt.flags hmx : x1.meta.flags = o.meta.flags)
                apply idle
                unfold envOnce
                rw [hn hmx, hv]
                simp only [hx1, hfx, hov', and_self, or_true, if_true]

/-! ### The visits -/

theorem loadEnvStep_visit {W : World} {env : Env} {a a' : Argus} {p : Ptr} {o : Opt}
    (h : loadEnvStep W env a p = .ok (Err.success, a')) (ho : a.getOpt p = .ok o) (ht : o.type ≠ .subcommand) :
    ∃ o', a'.getOpt p = .ok o' ∧ afterVisits W env a.envPrefix 1 o = some o' := by
  by_cases hi : EnvIdle env a.envPrefix o
  · refine ⟨o, loadEnvStep_keeps h ho hi, ?_⟩
    have : envOnce env a.envPrefix o = [] := by
      unfold envOnce
      rcases hi with hi | hi | hi | hi
      · split
        · rfl
        · simp [hi]
      · exact absurd hi ht
      · split
        · rfl
        · rw [if_pos (Or.inr hi)]
      · cases hn : envVarName a.envPrefix o with
        | none => rfl
        | some n => simp [hi n hn]
    rw [afterVisits, this]; rfl
  · unfold EnvIdle at hi
    simp only [not_or, Classical.not_forall] at hi
    obtain ⟨h1, h2, h3, n, hn, hv⟩ := hi
    cases hv' : env n with
    | none => exact absurd hv' hv
    | some v =>
      have hne : o.isSet = false ∨ o.flags.has .envOverride = true := by
        cases e1 : o.isSet with
        | false => exact .inl rfl
        | true =>
          cases e2 : o.flags.has .envOverride with
          | true => exact .inr rfl
          | false => exact absurd ⟨e1, e2⟩ h3
      obtain ⟨o', e1, e2⟩ := loadEnvStep_reads h ho h1 h2 hne hn hv'
      refine ⟨o', e2, ?_⟩
      have : envOnce env a.envPrefix o = [some v] := by
        unfold envOnce
        simp only [hn, Option.bind_some, hv']
        rw [if_neg (fun h => h.elim (fun h => h.elim h1 h2) h3)]
      rw [afterVisits, this]
      simp only [Opt.giveAll, e1, Option.bind_some, afterVisits]

theorem loadEnvLoop_visits {W : World} {env : Env} {p : Ptr} {k : Nat} : ∀ (n i : Nat) {a a' : Argus} {o : Opt},
    loadEnvLoop W env k n i a = .ok (Err.success, a') → a.getOpt p = .ok o → o.type ≠ .subcommand →
    ∃ o', a'.getOpt p = .ok o' ∧ afterVisits W env a.envPrefix
      (if k = p.tbl ∧ i ≤ p.idx ∧ p.idx < i + n then 1 else 0) o = some o'
  | 0, i, a, a', o, h, ho, ht => by
    simp only [loadEnvLoop, Out.ok.injEq, Prod.mk.injEq, true_and] at h; subst h
    refine ⟨o, ho, ?_⟩
    rw [if_neg (by omega)]; rfl
  | n + 1, i, a, a', o, h, ho, ht => by
    unfold loadEnvLoop at h
    obtain ⟨r, hr, h1⟩ := Out.bind_eq_ok h
    split at h1
    · rename_i hne
      simp only [Out.ok.injEq] at h1
      rw [h1] at hne
      exact absurd rfl hne
    · rename_i he
      have he : r.1 = Err.success := Classical.not_not.1 he
      have hr' : loadEnvStep W env a ⟨k, i⟩ = .ok (Err.success, r.2) := by rw [hr, ← he]
      have hone := loadEnvStep_one hr
      have hep : r.2.envPrefix = a.envPrefix := hone.frame.envPrefix
      by_cases hp : p = ⟨k, i⟩
      · subst hp
        obtain ⟨o1, ho1, hq⟩ := loadEnvStep_visit hr' ho ht
        have hm := afterVisits_meta _ hq
        have ht1 : o1.type = o.type := (congrArg Opt.type hm : o1.meta.type = o.meta.type)
        obtain ⟨o', h2, h3⟩ := loadEnvLoop_visits n (i + 1) h1 ho1 (ht1 ▸ ht)
        rw [if_neg (show ¬ (k = k ∧ i + 1 ≤ i ∧ i < i + 1 + n) by omega)] at h3
        simp only [afterVisits, Option.some.injEq] at h3
        subst h3
        refine ⟨o1, h2, ?_⟩
        rw [if_pos (show k = k ∧ i ≤ i ∧ i < i + (n + 1) by omega)]
        exact hq
      · have ho1 : r.2.getOpt p = .ok o := (hone.others p hp).trans ho
        obtain ⟨o', h2, h3⟩ := loadEnvLoop_visits n (i + 1) h1 ho1 ht
        refine ⟨o', h2, ?_⟩
        rw [hep] at h3
        have : (k = p.tbl ∧ i + 1 ≤ p.idx ∧ p.idx < i + 1 + n) ↔
            (k = p.tbl ∧ i ≤ p.idx ∧ p.idx < i + (n + 1)) := by
          constructor
          · rintro ⟨e1, e2, e3⟩; exact ⟨e1, by omega, by omega⟩
          · rintro ⟨e1, e2, e3⟩
            refine ⟨e1, ?_, by omega⟩
            by_cases hi : i = p.idx
            · exact absurd (by rw [e1, hi]) hp
            · omega
        simp only [this] at h3
        exact h3

theorem loadEnvTable_visits {W : World} {env : Env} {p : Ptr} {k : Nat} {a a' : Argus} {o : Opt}
    (h : loadEnvTable W env a k = .ok (Err.success, a')) (ho : a.getOpt p = .ok o) (ht : o.type ≠ .subcommand) :
    ∃ o', a'.getOpt p = .ok o' ∧ afterVisits W env a.envPrefix (if k = p.tbl then 1 else 0) o = some o' := by
  unfold loadEnvTable at h
  obtain ⟨os, hos, h1⟩ := Out.bind_eq_ok h
  obtain ⟨o', h2, h3⟩ := loadEnvLoop_visits _ _ h1 ho ht
  refine ⟨o', h2, ?_⟩
  have : (k = p.tbl ∧ 0 ≤ p.idx ∧ p.idx < 0 + os.length) ↔ k = p.tbl := by
    refine ⟨fun h => h.1, fun hk => ⟨hk, Nat.zero_le _, ?_⟩⟩
    subst hk
    obtain ⟨os', h5, h6⟩ := getOpt_eq_ok.1 ho
    obtain ⟨k, hk1, hk2⟩ := table_eq_ok.1 hos
    cases hk1
    rw [h5] at hk2
    cases hk2
    have := (List.getElem?_eq_some_iff.1 h6).1
    omega
  simp only [this] at h3
  exact h3

theorem loadEnvStack_visits {W : World} {env : Env} {p : Ptr} : ∀ (ps : List Ptr) {a a' : Argus} {o : Opt},
    loadEnvStack W env a ps = .ok (Err.success, a') → a.getOpt p = .ok o → o.type ≠ .subcommand →
    ∃ o', a'.getOpt p = .ok o' ∧
      afterVisits W env a.envPrefix ((ps.filterMap a.subOf).count p.tbl) o = some o'
  | [], a, a', o, h, ho, ht => by
    simp only [loadEnvStack, Out.ok.injEq, Prod.mk.injEq, true_and] at h; subst h
    exact ⟨o, ho, rfl⟩
  | q :: ps, a, a', o, h, ho, ht => by
    unfold loadEnvStack at h
    obtain ⟨cmd, hcmd, h1⟩ := Out.bind_eq_ok h
    have hsq := subOf_eq hcmd
    split at h1
    · rename_i hsub
      obtain ⟨o', h2, h3⟩ := loadEnvStack_visits ps h1 ho ht
      refine ⟨o', h2, ?_⟩
      rw [List.filterMap_cons_none (hsq.trans hsub)]
      exact h3
    · rename_i k hsub
      obtain ⟨r, hr, h2⟩ := Out.bind_eq_ok h1
      split at h2
      · rename_i hne
        simp only [Out.ok.injEq] at h2
        rw [h2] at hne
        exact absurd rfl hne
      · rename_i he
        have he : r.1 = Err.success := Classical.not_not.1 he
        have hr' : loadEnvTable W env a k = .ok (Err.success, r.2) := by rw [hr, ← he]
        have hfr := (loadEnvTable_frame hr).frame
        obtain ⟨o1, g1, g2⟩ := loadEnvTable_visits hr' ho ht
        have hm := afterVisits_meta _ g2
        have ht1 : o1.type = o.type := (congrArg Opt.type hm : o1.meta.type = o.meta.type)
        obtain ⟨o', h3, h4⟩ := loadEnvStack_visits ps h2 g1 (ht1 ▸ ht)
        refine ⟨o', h3, ?_⟩
        have hs : r.2.subOf = a.subOf := funext (subOf_shape hfr.shape)
        rw [hs, hfr.envPrefix] at h4
        rw [List.filterMap_cons_some (hsq.trans hsub), List.count_cons, Nat.add_comm, afterVisits_add]
        simp only [beq_iff_eq]
        rw [g2]
        exact h4

theorem loadEnvVars_visits {W : World} {env : Env} {p : Ptr} {a a' : Argus} {o : Opt}
    (h : loadEnvVars W env a = .ok (Err.success, a')) (ho : a.getOpt p = .ok o) (ht : o.type ≠ .subcommand) :
    ∃ o', a'.getOpt p = .ok o' ∧
      afterVisits W env a.envPrefix ((a.root :: a.stack.filterMap a.subOf).count p.tbl) o = some o' := by
  unfold loadEnvVars at h
  obtain ⟨r, hr, h1⟩ := Out.bind_eq_ok h
  split at h1
  · rename_i hne
    simp only [Out.ok.injEq] at h1
    rw [h1] at hne
    exact absurd rfl hne
  · rename_i he
    have he : r.1 = Err.success := Classical.not_not.1 he
    have hr' : loadEnvTable W env a a.root = .ok (Err.success, r.2) := by rw [hr, ← he]
    have hin := loadEnvTable_frame hr
    obtain ⟨o1, g1, g2⟩ := loadEnvTable_visits hr' ho ht
    have hm := afterVisits_meta _ g2
    have ht1 : o1.type = o.type := (congrArg Opt.type hm : o1.meta.type = o.meta.type)
    obtain ⟨o', h3, h4⟩ := loadEnvStack_visits _ h1 g1 (ht1 ▸ ht)
    refine ⟨o', h3, ?_⟩
    have hs : r.2.subOf = a.subOf := funext (subOf_shape hin.frame.shape)
    rw [hs, hin.frame.envPrefix, hin.stack] at h4
    rw [List.count_cons, Nat.add_comm, afterVisits_add]
    simp only [beq_iff_eq]
    rw [g2]
    exact h4

/-- The whole parse. -/
theorem argusParse_texts {W : World} {env : Env} {a a' : Argus} {args : List Str} {p : Ptr} {o : Opt}
    (hok : argusParse W env a args = .ok (.returned Err.success, a'))
    (ho : a.getOpt p = .ok o) (ht : o.type ≠ .subcommand) :
    ∃ o', a'.getOpt p = .ok o' ∧ o.giveAll W (allTexts env a args p o) = some o' := by
  obtain ⟨a1, a2, h1, h2, h3⟩ := argusParse_success hok
  obtain ⟨o1, g1, g2⟩ := parseArgs_history h1 ho ht
  obtain ⟨ext, hst, _, hf⟩ := parseLoop_frame _ h1
  obtain ⟨es, hes⟩ := postValidation_eq h3
  simp only at hes
  have hm := giveAll_meta _ g1
  have ht1 : o1.type = o.type := (congrArg Opt.type hm : o1.meta.type = o.meta.type)
  obtain ⟨o', e1, e2⟩ := loadEnvVars_visits h2
    (show Argus.getOpt { a1 with errorCode := Err.success } p = .ok o1 from g2) (ht1 ▸ ht)
  refine ⟨o', by rw [hes, getOpt_emits]; exact e1, ?_⟩
  have hstk : a1.stack = a.stack ++ entered (a.asks args) := by
    rw [parseArgs_run] at h1
    exact run_stack _ h1 (asks_no_fail0 a args)
  have hsub : Argus.subOf { a1 with errorCode := Err.success } =
      fun q => (a.getOpt q).toOption.bind (·.subOptions) := by
    funext q
    rw [subOf_shape (a := a) (show Argus.shape { a1 with errorCode := Err.success } = a.shape from hf.shape) q]
    unfold Argus.subOf
    cases a.getOpt q <;> rfl
  have hvis : (({ a1 with errorCode := Err.success } : Argus).root ::
      ({ a1 with errorCode := Err.success } : Argus).stack.filterMap
        (Argus.subOf { a1 with errorCode := Err.success })) = a.tablesUsed args := by
    rw [hsub]
    unfold Argus.tablesUsed
    rw [← hstk]
    congr 1
    exact hf.root
  rw [hvis] at e2
  have hep : ({ a1 with errorCode := Err.success } : Argus).envPrefix = a.envPrefix := hf.envPrefix
  rw [hep] at e2
  unfold allTexts
  rw [giveAll_append, g1, Option.bind_some, ← afterVisits_texts _ hm]
  · exact e2
  · constructor
    · intro hs
      cases htx : textsOf p (a.asks args) with
      | nil =>
        rw [htx] at g1
        simp only [Opt.giveAll, Option.some.injEq] at g1
        rw [g1]; exact .inl hs
      | cons x xs => exact .inr rfl
    · rintro (hs | hs)
      · exact giveAll_isSet _ g1 (.inr hs)
      · refine giveAll_isSet _ g1 (.inl ?_)
        intro h0
        rw [h0] at hs
        simp at hs

/-- The texts the environment hands over are checked like those of the command line. -/
theorem argusParse_texts_pre {W : World} {env : Env} {a a' : Argus} {args : List Str} {p : Ptr} {o : Opt}
    (hok : argusParse W env a args = .ok (.returned Err.success, a')) (ho : a.getOpt p = .ok o)
    {x : Option Str} (hx : x ∈ allTexts env a args p o) :
    ∀ v ∈ o.validators.getD [], v.order = .pre → MeetsText W x v.kind := by
  rcases List.mem_append.1 hx with hx | hx
  · obtain ⟨a1, a2, h1, _, _⟩ := argusParse_success hok
    rw [parseArgs_run] at h1
    refine run_pre _ h1 ho ?_ (asks_no_fail0 a args)
    unfold textsOf at hx
    obtain ⟨act, hact, he⟩ := List.mem_filterMap.1 hx
    cases act with
    | give q y =>
      simp only at he
      split at he
      · rename_i hq; simp only [Option.some.injEq] at he; subst he; subst hq; exact hact
      · cases he
    | _ => simp at he
  · unfold envGives at hx
    split at hx
    · cases hx
    · rename_i w hw
      split at hx
      · cases hx
      · rename_i hty
        have hg : o.type ≠ .group := fun h => hty (.inl h)
        have ht : o.type ≠ .subcommand := fun h => hty (.inr h)
        obtain ⟨n, hn, hv⟩ := Option.bind_eq_some_iff.1 hw
        have hfacts : x = some w ∧ 0 < (a.tablesUsed args).count p.tbl ∧
            (o.flags.has .envOverride = true ∨ (o.isSet = false ∧ textsOf p (a.asks args) = [])) := by
          split at hx
          · rename_i hov
            obtain ⟨h1, h2⟩ := List.mem_replicate.1 hx
            exact ⟨h2, Nat.pos_of_ne_zero h1, .inl hov⟩
          · split at hx
            · cases hx
            · rename_i hno
              simp only [not_or] at hno
              refine ⟨by simpa using hx, Nat.pos_of_ne_zero hno.2.2, .inr ⟨by simpa using hno.1, ?_⟩⟩
              cases htx : textsOf p (a.asks args) with
              | nil => rfl
              | cons y ys => rw [htx] at hno; simp at hno
        obtain ⟨rfl, hcount, hwhen⟩ := hfacts
        have hV : Visits W env a.envPrefix p
            (fun o1 => o1.meta = o.meta ∧ (o.flags.has .envOverride = true ∨ o1.isSet = false))
            (fun _ => ∀ v ∈ o.validators.getD [], v.order = .pre → MeetsText W (some w) v.kind) := by
          intro b r ob h1 hep hob hi
          obtain ⟨o2, ho2, _⟩ := shape_getOpt (loadEnvStep_one h1).frame.shape hob
          refine ⟨o2, ho2, ?_⟩
          rcases hi with ⟨hm, hset⟩ | hq
          · have m1 : ob.type = o.type := (congrArg Opt.type hm : ob.meta.type = o.meta.type)
            have m2 : ob.flags = o.flags := (congrArg Opt.flags hm : ob.meta.flags = o.meta.flags)
            have m3 : ob.validators = o.validators := (congrArg Opt.validators hm : ob.meta.validators = o.meta.validators)
            have hn' : envVarName b.envPrefix ob = some n := by rw [hep, envVarName_meta hm]; exact hn
            unfold loadEnvStep at h1
            rw [hob] at h1
            simp only [Out.ok_bind] at h1
            rw [if_neg (by rw [m1]; exact hty), if_neg (by
              rintro ⟨h4, h5⟩
              rcases hset with h3 | h3
              · rw [m2, h3] at h5; simp at h5
              · rw [h3] at h4; simp at h4), hn'] at h1
            simp only [hv] at h1
            obtain ⟨e, he, h4⟩ := Out.bind_eq_ok h1
            split at h4
            · rename_i hne
              split at h4
              · obtain ⟨o1, _, h5⟩ := Out.bind_eq_ok h4
                simp only [Out.ok.injEq, Prod.mk.injEq] at h5
                exact absurd h5.1 hne
              · simp only [Out.ok.injEq] at h4
                rw [h4] at hne
                exact absurd rfl hne
            · simp only [Out.ok.injEq] at h4
              subst h4
              rw [← m3]
              exact execCallbacks_pre he hob
          · exact hq
        have hsel : p.tbl = a.root ∨ ∃ q ∈ a'.stack, a.subOf q = some p.tbl := by
          obtain ⟨a1, a2, h1, h2, h3⟩ := argusParse_success hok
          obtain ⟨es, hes⟩ := postValidation_eq h3
          simp only at hes
          have hstk : a'.stack = a.stack ++ entered (a.asks args) := by
            rw [hes, emits_stack, (loadEnvVars_frame h2).stack]
            rw [parseArgs_run] at h1
            exact (run_stack _ h1 (asks_no_fail0 a args) : a1.stack = _)
          have hmem := List.count_pos_iff.1 hcount
          unfold Argus.tablesUsed at hmem
          rcases List.mem_cons.1 hmem with h | h
          · exact .inl h
          · obtain ⟨q, hq, e⟩ := List.mem_filterMap.1 h
            refine .inr ⟨q, by rw [hstk]; exact hq, ?_⟩
            unfold Argus.subOf
            cases hgq : a.getOpt q with
            | ok cmd => rw [hgq] at e; exact e
            | ub u => rw [hgq] at e; simp [Out.toOption] at e
        obtain ⟨_, _, hQ⟩ := argusParse_visit hok hV ho ht (fun o1 h1 => ⟨giveAll_meta _ h1, by
          rcases hwhen with h | ⟨h, htx⟩
          · exact .inl h
          · rw [htx] at h1
            simp only [Opt.giveAll, Option.some.injEq] at h1
            exact .inr (h1 ▸ h)⟩) hsel
        exact hQ

/-- An option given on the command line, without FLAG_ENV_OVERRIDE, is handed nothing else. -/
theorem allTexts_given {env : Env} {a : Argus} {args : List Str} {p : Ptr} {o : Opt}
    (hov : o.flags.has .envOverride = false) (h : textsOf p (a.asks args) ≠ []) :
    allTexts env a args p o = textsOf p (a.asks args) := by
  unfold allTexts envGives
  have hne : (textsOf p (a.asks args)).isEmpty = false := by
    cases htx : textsOf p (a.asks args) with
    | nil => exact absurd htx h
    | cons _ _ => rfl
  rw [hne]
  split
  · simp
  · split
    · simp
    · simp [hov]

end Argus
