import Verif.Spec.History
import Verif.Lemmas.Meaning
import Verif.Lemmas.Free

/-! What a successful parse does to a single option. -/

set_option autoImplicit false

namespace Argus

/-- The written option does not depend on the context. -/
theorem runHandler_context {W : World} {a b : Argus} {h : Handler} {o : Opt} {x : Option Str} {r : HRes}
    (hr : runHandler W a h o x = .ok r) :
    ∃ r', runHandler W { b with tables := [], stack := [] } h o x = .ok r' ∧ r'.1 = r.1 ∧
      r'.2.1 = r.2.1 := by
  cases h with
  | help =>
    unfold runHandler at hr ⊢
    obtain ⟨t, _, h1⟩ := Out.bind_eq_ok hr
    simp only [Out.ok.injEq] at h1; subst h1
    exact ⟨_, rfl, rfl, rfl⟩
  | _ => exact ⟨r, hr, rfl, rfl⟩

/-- A successful call of the callbacks: what happens to the option. -/
theorem execCallbacks_success {W : World} {a a' : Argus} {p : Ptr} {x : Option Str}
    (h : execCallbacks W a p x = .ok (Err.success, a')) :
    ∃ o o' es, a.getOpt p = .ok o ∧ o.give W x = some o' ∧ a' = (a.emits es).setOpt p o' := by
  unfold execCallbacks at h
  obtain ⟨o, ho, h1⟩ := Out.bind_eq_ok h
  split at h1
  · simp only [Out.ok.injEq, Prod.mk.injEq] at h1; exact absurd h1.1 (by decide)
  · rename_i hd hh
    obtain ⟨pre, hpre, h2⟩ := Out.bind_eq_ok h1
    split at h2
    · rename_i hne; simp only [Out.ok.injEq] at h2; rw [h2] at hne; exact absurd rfl hne
    · obtain ⟨es1, he1⟩ := runPreAll_eq _ hpre
      obtain ⟨r, hr, h3⟩ := Out.bind_eq_ok h2
      split at h3
      · rename_i hne; simp only [Out.ok.injEq, Prod.mk.injEq] at h3; exact absurd h3.1 hne
      · rename_i hne
        simp only [Out.ok.injEq, Prod.mk.injEq] at h3
        obtain ⟨r', h4, h5, h6⟩ := runHandler_context (b := { tables := [] }) hr
        have hst : r.1 = Err.success := by simpa using hne
        refine ⟨o, r.2.1.markSet, es1 ++ r.2.2, ho, ?_, ?_⟩
        · unfold Opt.give
          have h4' : runHandler W { tables := [] } hd o x = .ok r' := h4
          rw [hh]; simp only [h4', h5, hst, if_true, h6]
        · rw [← h3.2, he1]
          unfold Argus.emits
          rw [List.foldl_append]

theorem giveAll_append (W : World) : ∀ (xs ys : List (Option Str)) (o : Opt),
    o.giveAll W (xs ++ ys) = (o.giveAll W xs).bind (fun o1 => o1.giveAll W ys)
  | [], ys, o => rfl
  | x :: xs, ys, o => by
    simp only [List.cons_append, Opt.giveAll]
    cases o.give W x with
    | none => rfl
    | some o1 => simp only [Option.bind_some]; exact giveAll_append W xs ys o1

/-- After a successful run, an option that was not selected as a subcommand is what its own texts make
    of it. -/
theorem run_history {W : World} {p : Ptr} : ∀ (acts : List Act) {a a' : Argus} {o : Opt},
    run W a acts = .ok (Err.success, a') → a.getOpt p = .ok o → Act.enter p ∉ acts →
    Act.fail Err.success ∉ acts →
    ∃ o', o.giveAll W (textsOf p acts) = some o' ∧ a'.getOpt p = .ok o'
  | [], a, a', o, h, ho, _, _ => by
    simp only [run, Out.ok.injEq, Prod.mk.injEq] at h
    exact ⟨o, rfl, h.2 ▸ ho⟩
  | .give q x :: acts, a, a', o, h, ho, hn, hf => by
    have hf' : Act.fail Err.success ∉ acts := fun hm => hf (by simp [hm])
    unfold run at h
    obtain ⟨r, hr, h1⟩ := Out.bind_eq_ok h
    split at h1
    · rename_i hne; simp only [Out.ok.injEq] at h1; rw [h1] at hne; exact absurd rfl hne
    · rename_i hne
      have hst : r.1 = Err.success := by simpa using hne
      have hn' : Act.enter p ∉ acts := fun hm => hn (by simp [hm])
      by_cases hq : q = p
      · subst hq
        obtain ⟨o1, o2, es, h2, h3, h4⟩ := execCallbacks_success
          (show execCallbacks W a q x = .ok (Err.success, r.2) by rw [hr, ← hst])
        have : o = o1 := by rw [ho] at h2; exact Out.ok.inj h2
        subst this
        have hg : r.2.getOpt q = .ok o2 := by
          rw [h4]; exact getOpt_setOpt_self (o := o) (by simp [ho])
        obtain ⟨o', h5, h6⟩ := run_history acts h1 hg hn' hf'
        refine ⟨o', ?_, h6⟩
        have : textsOf q (.give q x :: acts) = x :: textsOf q acts := by simp [textsOf]
        rw [this]
        simp only [Opt.giveAll, h3, Option.bind_some, h5]
      · have hg : r.2.getOpt p = .ok o := by
          rw [(execCallbacks_one hr).others p (fun h => hq h.symm)]; exact ho
        obtain ⟨o', h5, h6⟩ := run_history acts h1 hg hn' hf'
        refine ⟨o', ?_, h6⟩
        have : textsOf p (.give q x :: acts) = textsOf p acts := by simp [textsOf, hq]
        rw [this]; exact h5
  | .enter q :: acts, a, a', o, h, ho, hn, hf => by
    have hf' : Act.fail Err.success ∉ acts := fun hm => hf (by simp [hm])
    unfold run at h
    obtain ⟨e, he, h1⟩ := Out.bind_eq_ok h
    have hq : q ≠ p := by rintro rfl; exact hn (by simp)
    have hg : e.2.getOpt p = .ok o := by
      unfold enterSub at he
      obtain ⟨o1, ho1, h2⟩ := Out.bind_eq_ok he
      split at h2
      · simp at h2
      · simp only [Out.ok.injEq] at h2; rw [← h2]
        show (a.setOpt q _).getOpt p = _
        rw [getOpt_setOpt_ne (fun h => hq h.symm)]; exact ho
    obtain ⟨o', h5, h6⟩ := run_history acts h1 hg (fun hm => hn (by simp [hm])) hf'
    refine ⟨o', ?_, h6⟩
    have : textsOf p (.enter q :: acts) = textsOf p acts := by simp [textsOf]
    rw [this]; exact h5
  | .fail c :: acts, a, a', o, h, ho, _, hf => by
    simp only [run, Out.ok.injEq, Prod.mk.injEq] at h
    exact absurd (by rw [h.1]; simp) hf
  | .noTable :: acts, a, a', o, h, ho, _, _ => by simp [run] at h

/-! ### What occurs in the meaning of a command line -/

/-- What an act may be in a context with the given tables. -/
def Act.Fits (tables : List (List Opt)) : Act → Prop
  | .give p _ => ∃ os o, tables[p.tbl]? = some os ∧ os[p.idx]? = some o ∧
      (o.type = .option ∨ o.type = .positional)
  | .enter p => ∃ os o, tables[p.tbl]? = some os ∧ os[p.idx]? = some o ∧ o.type = .subcommand
  | .fail c => c ≠ Err.success ∧ c ≠ Err.shouldExit
  | .noTable => True

theorem longIdx_get {os : List Opt} {n : Str} {i : Nat} (h : longIdx os n = some i) :
    ∃ o, os[i]? = some o ∧ o.type = .option ∧ o.lname = some n := by
  unfold longIdx at h
  rw [List.findIdx?_eq_some_iff_getElem] at h
  obtain ⟨hi, hp, _⟩ := h
  exact ⟨os[i], List.getElem?_eq_getElem hi, (of_decide_eq_true hp).1, (of_decide_eq_true hp).2⟩

theorem shortIdx_get {os : List Opt} {c : Byte} {i : Nat} (h : shortIdx os c = some i) :
    ∃ o, os[i]? = some o ∧ o.type = .option ∧ o.sname = c := by
  unfold shortIdx at h
  rw [List.findIdx?_eq_some_iff_getElem] at h
  obtain ⟨hi, hp, _⟩ := h
  exact ⟨os[i], List.getElem?_eq_getElem hi, (of_decide_eq_true hp).1, (of_decide_eq_true hp).2⟩

theorem posActs_fits {tables : List (List Opt)} {k : Nat} {os : List Opt} (hk : tables[k]? = some os)
    (pos : Nat) (arg : Str) : ∀ x ∈ posActs k os pos arg, x.Fits tables := by
  intro x hx
  unfold posActs at hx
  split at hx
  · rename_i o i h
    simp only [List.mem_singleton] at hx; subst hx
    obtain ⟨h1, h2⟩ := slotAt_get h
    exact ⟨os, o, hk, h1, .inr h2⟩
  · simp only [List.mem_singleton] at hx; subst hx; show _ ≠ _ ∧ _ ≠ _; decide

theorem longActs_fits {tables : List (List Opt)} {k : Nat} {os : List Opt} (hk : tables[k]? = some os)
    (name : Str) (v n : Option Str) : ∀ x ∈ (longActs k os name v n).1, x.Fits tables := by
  intro x hx
  unfold longActs at hx
  split at hx
  · simp only [List.mem_singleton] at hx; subst hx; show _ ≠ _ ∧ _ ≠ _; decide
  · rename_i i h
    obtain ⟨o, h1, h2, _⟩ := longIdx_get h
    repeat' split at hx
    all_goals simp only [List.mem_singleton] at hx; subst hx
    · exact ⟨os, o, hk, h1, .inl h2⟩
    · exact ⟨os, o, hk, h1, .inl h2⟩
    · exact ⟨os, o, hk, h1, .inl h2⟩
    · show _ ≠ _ ∧ _ ≠ _; decide

theorem shortActs_fits {tables : List (List Opt)} {k : Nat} {os : List Opt} (hk : tables[k]? = some os)
    (n : Option Str) : ∀ (cs : Str), ∀ x ∈ (shortActs k os n cs).1, x.Fits tables
  | [], x, hx => by simp [shortActs] at hx
  | c :: cs, x, hx => by
    unfold shortActs at hx
    split at hx
    · simp only [List.mem_singleton] at hx; subst hx; show _ ≠ _ ∧ _ ≠ _; decide
    · rename_i i h
      obtain ⟨o, h1, h2, _⟩ := shortIdx_get h
      split at hx
      · simp only [List.mem_cons] at hx
        rcases hx with rfl | hx
        · exact ⟨os, o, hk, h1, .inl h2⟩
        · exact shortActs_fits hk n cs x hx
      · split at hx
        all_goals simp only [List.mem_singleton] at hx; subst hx
        · exact ⟨os, o, hk, h1, .inl h2⟩
        · exact ⟨os, o, hk, h1, .inl h2⟩
        · show _ ≠ _ ∧ _ ≠ _; decide

theorem subChoice_type {os : List Opt} {arg : Str} {x : Opt × Nat}
    (h : subChoice os arg = some (.ok x)) : os[x.2]? = some x.1 ∧ x.1.type = .subcommand := by
  have hm : x ∈ subMatches os arg := by
    unfold subChoice at h
    split at h
    · simp at h
    · rename_i y hy
      simp only [Option.some.injEq, Except.ok.injEq] at h; rw [hy, h]; simp
    · rename_i y ys _ hy
      split at h
      · simp only [Option.some.injEq, Except.ok.injEq] at h; rw [hy, h]; simp
      · simp at h
  unfold subMatches at hm
  rw [List.mem_filter] at hm
  obtain ⟨h1, h2⟩ := hm
  refine ⟨?_, (of_decide_eq_true h2).1⟩
  have := List.mem_zipIdx_iff_getElem?.1 h1
  exact this

theorem meaning_fits (tables : List (List Opt)) : ∀ (args : List Str) (t : Option Nat) (pos : Nat)
    (only skip : Bool), ∀ x ∈ meaning tables t pos only skip args, x.Fits tables
  | [], t, pos, only, skip, x, hx => by simp [meaning] at hx
  | arg :: rest, t, pos, only, true, x, hx => by
    simp only [meaning] at hx; exact meaning_fits tables rest _ _ _ _ x hx
  | arg :: rest, t, pos, only, false, x, hx => by
    unfold meaning at hx
    split at hx
    · exact meaning_fits tables rest _ _ _ _ x hx
    · split at hx
      · exact meaning_fits tables rest _ _ _ _ x hx
      · split at hx
        · rename_i k os hk
          simp only [Option.bind_some] at hk
          split at hx
          · rcases List.mem_append.1 hx with hx | hx
            · exact posActs_fits hk _ _ x hx
            · exact meaning_fits tables rest _ _ _ _ x hx
          · split at hx
            · simp at hx
            · rcases List.mem_append.1 hx with hx | hx
              · exact longActs_fits hk _ _ _ x hx
              · exact meaning_fits tables rest _ _ _ _ x hx
            · split at hx
              · rcases List.mem_append.1 hx with hx | hx
                · exact posActs_fits hk _ _ x hx
                · exact meaning_fits tables rest _ _ _ _ x hx
              · rcases List.mem_append.1 hx with hx | hx
                · exact shortActs_fits hk _ _ x hx
                · exact meaning_fits tables rest _ _ _ _ x hx
            · split at hx
              · rename_i y hy
                rcases List.mem_cons.1 hx with rfl | hx
                · exact ⟨os, y.1, hk, (subChoice_type hy).1, (subChoice_type hy).2⟩
                · exact meaning_fits tables rest _ _ _ _ x hx
              · rename_i c hc
                simp only [List.mem_singleton] at hx; subst hx
                show _ ≠ _ ∧ _ ≠ _
                rw [subChoice_error hc]; decide
              · rcases List.mem_append.1 hx with hx | hx
                · exact posActs_fits hk _ _ x hx
                · exact meaning_fits tables rest _ _ _ _ x hx
        · simp only [List.mem_singleton] at hx; subst hx; trivial

theorem asks_no_fail0 (a : Argus) (args : List Str) : Act.fail Err.success ∉ a.asks args :=
  fun h => (meaning_fits _ _ _ _ _ _ _ h).1 rfl

theorem asks_no_exit (a : Argus) (args : List Str) : Act.fail Err.shouldExit ∉ a.asks args :=
  fun h => (meaning_fits _ _ _ _ _ _ _ h).2 rfl

theorem asks_no_enter {a : Argus} {p : Ptr} {o : Opt} (h : a.getOpt p = .ok o)
    (ht : o.type ≠ .subcommand) (args : List Str) : Act.enter p ∉ a.asks args := by
  intro hm
  obtain ⟨os, o', h1, h2, h3⟩ := meaning_fits _ _ _ _ _ _ _ hm
  obtain ⟨os1, h4, h5⟩ := getOpt_eq_ok.1 h
  rw [h4] at h1; cases h1
  rw [h5] at h2; cases h2
  exact ht h3

/-- After a successful parse of the command line alone, a value option is what its own texts make of
    it. -/
theorem parseArgs_history {W : World} {a a' : Argus} {args : List Str} {p : Ptr} {o : Opt}
    (h : parseArgs W a (some a.root) args = .ok (Err.success, a')) (ho : a.getOpt p = .ok o)
    (ht : o.type ≠ .subcommand) :
    ∃ o', o.giveAll W (textsOf p (a.asks args)) = some o' ∧ a'.getOpt p = .ok o' := by
  rw [parseArgs_run] at h
  exact run_history _ h ho (asks_no_enter ho ht args) (asks_no_fail0 a args)

/-! ### The environment leaves idle options alone -/

theorem loadEnvStep_keeps {W : World} {env : Env} {a : Argus} {p q : Ptr} {o : Opt}
    {r : Int × Argus} (h : loadEnvStep W env a q = .ok r) (ho : a.getOpt p = .ok o)
    (hi : EnvIdle env a.envPrefix o) : r.2.getOpt p = .ok o := by
  by_cases hq : p = q
  · subst hq
    unfold loadEnvStep at h
    rw [ho] at h
    simp only [Out.ok_bind] at h
    split at h
    · simp only [Out.ok.injEq] at h; subst h; exact ho
    · rename_i h1
      split at h
      · simp only [Out.ok.injEq] at h; subst h; exact ho
      · rename_i h2
        rcases hi with hi | hi | hi | hi
        · exact absurd (.inl hi) h1
        · exact absurd (.inr hi) h1
        · exact absurd hi h2
        · split at h
          · simp only [Out.ok.injEq] at h; subst h; exact ho
          · rename_i n hn
            rw [hi n hn] at h
            simp only [Out.ok.injEq] at h; subst h; exact ho
  · rw [(loadEnvStep_one h).others p hq]; exact ho

theorem loadEnvLoop_keeps {W : World} {env : Env} {k : Nat} {p : Ptr} {o : Opt} : ∀ (n i : Nat)
    {a : Argus} {r : Int × Argus}, loadEnvLoop W env k n i a = .ok r → a.getOpt p = .ok o →
    EnvIdle env a.envPrefix o → r.2.getOpt p = .ok o
  | 0, _, a, r, h, ho, _ => by simp only [loadEnvLoop, Out.ok.injEq] at h; subst h; exact ho
  | n + 1, i, a, r, h, ho, hi => by
    unfold loadEnvLoop at h
    obtain ⟨q, hq, h1⟩ := Out.bind_eq_ok h
    have h2 := loadEnvStep_keeps hq ho hi
    split at h1
    · simp only [Out.ok.injEq] at h1; subst h1; exact h2
    · refine loadEnvLoop_keeps n (i + 1) h1 h2 ?_
      rw [(loadEnvStep_one hq).frame.envPrefix]; exact hi

theorem loadEnvTable_keeps {W : World} {env : Env} {k : Nat} {p : Ptr} {o : Opt}
    {a : Argus} {r : Int × Argus} (h : loadEnvTable W env a k = .ok r) (ho : a.getOpt p = .ok o)
    (hi : EnvIdle env a.envPrefix o) : r.2.getOpt p = .ok o := by
  unfold loadEnvTable at h
  obtain ⟨os, _, h1⟩ := Out.bind_eq_ok h
  exact loadEnvLoop_keeps _ _ h1 ho hi

theorem loadEnvStack_keeps {W : World} {env : Env} {p : Ptr} {o : Opt} : ∀ (ps : List Ptr)
    {a : Argus} {r : Int × Argus}, loadEnvStack W env a ps = .ok r → a.getOpt p = .ok o →
    EnvIdle env a.envPrefix o → r.2.getOpt p = .ok o
  | [], a, r, h, ho, _ => by simp only [loadEnvStack, Out.ok.injEq] at h; subst h; exact ho
  | q :: ps, a, r, h, ho, hi => by
    unfold loadEnvStack at h
    obtain ⟨cmd, _, h1⟩ := Out.bind_eq_ok h
    split at h1
    · exact loadEnvStack_keeps ps h1 ho hi
    · obtain ⟨e, he, h2⟩ := Out.bind_eq_ok h1
      have h3 := loadEnvTable_keeps he ho hi
      split at h2
      · simp only [Out.ok.injEq] at h2; subst h2; exact h3
      · refine loadEnvStack_keeps ps h2 h3 ?_
        rw [(loadEnvTable_frame he).frame.envPrefix]; exact hi

theorem loadEnvVars_keeps {W : World} {env : Env} {p : Ptr} {o : Opt}
    {a : Argus} {r : Int × Argus} (h : loadEnvVars W env a = .ok r) (ho : a.getOpt p = .ok o)
    (hi : EnvIdle env a.envPrefix o) : r.2.getOpt p = .ok o := by
  unfold loadEnvVars at h
  obtain ⟨e, he, h1⟩ := Out.bind_eq_ok h
  have h2 := loadEnvTable_keeps he ho hi
  split at h1
  · simp only [Out.ok.injEq] at h1; subst h1; exact h2
  · refine loadEnvStack_keeps _ h1 h2 ?_
    rw [(loadEnvTable_frame he).frame.envPrefix]; exact hi

/-! ### A successful `argus_parse` -/

/-- The stages of a successful `argus_parse`. -/
theorem argusParse_success {W : World} {env : Env} {a a' : Argus} {args : List Str}
    (h : argusParse W env a args = .ok (.returned Err.success, a')) :
    ∃ a1 a2, parseArgs W a (some a.root) args = .ok (Err.success, a1) ∧
      loadEnvVars W env { a1 with errorCode := Err.success } = .ok (Err.success, a2) ∧
      postValidation W a2 = .ok (Err.success, a') := by
  unfold argusParse at h
  obtain ⟨r, hr, h1⟩ := Out.bind_eq_ok h
  simp only at h1
  split at h1
  · obtain ⟨a2, _, h2⟩ := Out.bind_eq_ok h1
    simp at h2
  · split at h1
    · rename_i hne
      obtain ⟨a2, _, h2⟩ := Out.bind_eq_ok h1
      simp only [Out.ok.injEq, Prod.mk.injEq, ParseEnd.returned.injEq] at h2
      exact absurd h2.1 hne
    · rename_i h0
      have h0' : r.1 = Err.success := by simpa using h0
      obtain ⟨e, he, h2⟩ := Out.bind_eq_ok h1
      split at h2
      · rename_i hne
        obtain ⟨a2, _, h3⟩ := Out.bind_eq_ok h2
        simp only [Out.ok.injEq, Prod.mk.injEq, ParseEnd.returned.injEq] at h3
        exact absurd h3.1 hne
      · rename_i h4
        have h4' : e.1 = Err.success := by simpa using h4
        obtain ⟨v, hv, h5⟩ := Out.bind_eq_ok h2
        split at h5
        · rename_i hne
          obtain ⟨a2, _, h6⟩ := Out.bind_eq_ok h5
          simp only [Out.ok.injEq, Prod.mk.injEq, ParseEnd.returned.injEq] at h6
          exact absurd h6.1 hne
        · simp only [Out.ok.injEq, Prod.mk.injEq, ParseEnd.returned.injEq] at h5
          refine ⟨r.2, e.2, ?_, ?_, ?_⟩
          · rw [hr, ← h0']
          · rw [h0'] at he; rw [he, ← h4']
          · rw [hv, ← h5.1, ← h5.2]

theorem runHandler_keeps_meta {W : World} {o o' : Opt} {x : Option Str} (h : o.give W x = some o') :
    o'.meta = o.meta := by
  unfold Opt.give at h
  split at h
  · simp at h
  · split at h
    · rename_i r hr
      split at h
      · simp only [Option.some.injEq] at h; subst h
        have := runHandler_meta hr
        rw [← this]; rfl
      · simp at h
    · simp at h

theorem giveAll_meta {W : World} : ∀ (xs : List (Option Str)) {o o' : Opt},
    o.giveAll W xs = some o' → o'.meta = o.meta
  | [], o, o', h => by simp only [Opt.giveAll, Option.some.injEq] at h; rw [h]
  | x :: xs, o, o', h => by
    simp only [Opt.giveAll] at h
    cases hg : o.give W x with
    | none => rw [hg] at h; simp at h
    | some o1 =>
      rw [hg] at h
      exact (giveAll_meta xs h).trans (runHandler_keeps_meta hg)

/-- After a successful `argus_parse`, a value option that the environment leaves alone is what its own
    texts on the command line make of it. -/
theorem argusParse_history {W : World} {env : Env} {a a' : Argus} {args : List Str} {p : Ptr} {o : Opt}
    (h : argusParse W env a args = .ok (.returned Err.success, a')) (ho : a.getOpt p = .ok o)
    (ht : o.type ≠ .subcommand) :
    ∃ o1, o.giveAll W (textsOf p (a.asks args)) = some o1 ∧
      (EnvIdle env a.envPrefix o1 → a'.getOpt p = .ok o1) := by
  obtain ⟨a1, a2, h1, h2, h3⟩ := argusParse_success h
  obtain ⟨o1, h4, h5⟩ := parseArgs_history h1 ho ht
  refine ⟨o1, h4, fun hi => ?_⟩
  have hp : a1.envPrefix = a.envPrefix := by
    obtain ⟨_, _, _, hf⟩ := parseLoop_frame _ h1
    exact hf.envPrefix
  have h6 : a2.getOpt p = .ok o1 :=
    loadEnvVars_keeps h2 (o := o1) (show ({ a1 with errorCode := Err.success } : Argus).getOpt p = _ from h5)
      (by show EnvIdle env a1.envPrefix o1; rw [hp]; exact hi)
  obtain ⟨es, hes⟩ := postValidation_eq h3
  simp only at hes
  rw [hes, getOpt_emits]; exact h6

end Argus
