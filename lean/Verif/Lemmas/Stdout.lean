import Verif.Model.Stdout
import Verif.Lemmas.Meaning
import Verif.Lemmas.Codes
import Verif.Lemmas.Advice
import Verif.Lemmas.BlameRun
import Verif.Lemmas.History
import Verif.Props.Shown

/-! # Lemmas: what a parse prints to standard output -/

set_option autoImplicit false

namespace Argus

theorem Text.lit_cat (x : Text) : (Text.lit []).cat x = x := by
  unfold Text.cat Text.lit
  cases x with
  | ub u => rfl
  | ok y => cases y <;> rfl

theorem Text.cat_lit (x : Text) : x.cat (Text.lit []) = x := by
  unfold Text.cat Text.lit
  cases x with
  | ub u => rfl
  | ok y =>
    cases y with
    | none => rfl
    | some s => simp

/-- What carrying out acts prints. -/
def runStdout (W : World) (F : Fmt) : Argus → List Act → Text
  | _, [] => Text.lit []
  | a, .give p x :: rest => do
    let r ← execCallbacks W a p x
    if r.1 ≠ Err.success then execStdout W F a p x else (execStdout W F a p x).cat (runStdout W F r.2 rest)
  | a, .enter p :: rest => do
    let e ← enterSub a p
    runStdout W F e.2 rest
  | _, .fail _ :: _ => Text.lit []
  | _, .noTable :: _ => Out.ub .nullDeref

theorem runStdout_append {W : World} {F : Fmt} : ∀ (xs ys : List Act) {a : Argus} {r : Int × Argus},
    (∀ c, Act.fail c ∈ xs → c ≠ Err.success) → run W a xs = .ok r →
    runStdout W F a (xs ++ ys) =
      if r.1 ≠ Err.success then runStdout W F a xs else (runStdout W F a xs).cat (runStdout W F r.2 ys)
  | [], ys, a, r, _, h => by
    simp only [run, Out.ok.injEq] at h; subst h
    simp [runStdout, Text.lit_cat]
  | .give p x :: xs, ys, a, r, hc, h => by
    unfold run at h
    obtain ⟨q, hq, h1⟩ := Out.bind_eq_ok h
    simp only [List.cons_append, runStdout, hq, Out.ok_bind]
    by_cases h0 : q.1 = Err.success
    · simp only [h0, ne_eq, not_true_eq_false, if_false] at h1 ⊢
      rw [runStdout_append xs ys (fun c hc1 => hc c (by simp [hc1])) h1]
      by_cases h2 : r.1 = Err.success
      · simp only [h2, ne_eq, not_true_eq_false, if_false, Text.cat_assoc]
      · simp only [h2, ne_eq, not_false_eq_true, if_true]
    · simp only [h0, ne_eq, not_false_eq_true, if_true, Out.ok.injEq] at h1 ⊢
      subst h1
      simp only [h0, not_false_eq_true, if_true]
  | .enter p :: xs, ys, a, r, hc, h => by
    unfold run at h
    obtain ⟨q, hq, h1⟩ := Out.bind_eq_ok h
    simp only [List.cons_append, runStdout, hq, Out.ok_bind]
    exact runStdout_append xs ys (fun c hc1 => hc c (by simp [hc1])) h1
  | .fail c :: xs, ys, a, r, hc, h => by
    simp only [run, Out.ok.injEq] at h; subst h
    have := hc c (by simp)
    simp only [List.cons_append, runStdout, ne_eq, this, not_false_eq_true, if_true]
  | .noTable :: xs, ys, a, r, _, h => by simp [run] at h

theorem runStdout_give {W : World} {F : Fmt} {a : Argus} {p : Ptr} {x : Option Str} {r : Int × Argus}
    (h : execCallbacks W a p x = .ok r) : runStdout W F a [.give p x] = execStdout W F a p x := by
  simp only [runStdout, h, Out.ok_bind, Text.cat_lit]
  split <;> rfl

theorem positionalStdout_run {W : World} {F : Fmt} {a : Argus} {k : Nat} {os : List Opt} {pos : Nat} {arg : Str}
    {r : Int × Argus} (ht : a.table (some k) = .ok os) (h : run W a (posActs k os pos arg) = .ok r) :
    positionalStdout W F a (some k) arg pos = runStdout W F a (posActs k os pos arg) := by
  unfold positionalStdout
  rw [ht, Out.ok_bind, findPositional_at]
  unfold posActs at h ⊢
  cases hs : slotAt os pos with
  | none => rfl
  | some x =>
    rw [hs] at h
    simp only [run_give] at h
    simp only [Option.map_some, runStdout_give h]

theorem longStdout_run {W : World} {F : Fmt} {a : Argus} {k : Nat} {os : List Opt} {s : Str} {rest : List Str}
    {r : Int × Argus} (ht : a.table (some k) = .ok os)
    (h : run W a (longActs k os (longParts s).1 (longParts s).2 rest.head?).1 = .ok r) :
    longStdout W F a (some k) s rest = runStdout W F a (longActs k os (longParts s).1 (longParts s).2 rest.head?).1 := by
  unfold longStdout
  unfold longActs at h ⊢
  rw [ht, Out.ok_bind, longIdx_eq]
  cases hl : longIdx os (longParts s).1 with
  | none => rfl
  | some i =>
    rw [hl] at h
    rw [← longIdx_eq] at hl
    obtain ⟨o, ho, -⟩ := findLname_some hl
    have hfl : isFlagAt os i = decide (o.valueType = .flag) := by simp [isFlagAt, ho]
    simp only [table_getOpt ht ho, Out.ok_bind, hfl] at h ⊢
    by_cases hf : o.valueType = .flag
    · simp only [hf, if_true, decide_true, run_give] at h ⊢
      exact (runStdout_give h).symm
    · simp only [hf, if_false, decide_false, Bool.false_eq_true] at h ⊢
      cases hv : (longParts s).2 with
      | some v =>
        rw [hv] at h
        simp only [run_give] at h
        exact (runStdout_give h).symm
      | none =>
        rw [hv] at h
        cases rest with
        | nil => rfl
        | cons v rest =>
          simp only [run_give, List.head?_cons] at h
          exact (runStdout_give h).symm

theorem shortStdout_run {W : World} {F : Fmt} {k : Nat} (rest : List Str) : ∀ (cs : Str) {a : Argus} {os : List Opt}
    {r : Int × Argus}, a.table (some k) = .ok os → run W a (shortActs k os rest.head? cs).1 = .ok r →
    shortStdout W F (some k) rest a cs = runStdout W F a (shortActs k os rest.head? cs).1
  | [], a, os, r, _, _ => rfl
  | c :: cs, a, os, r, ht, h => by
    unfold shortStdout
    unfold shortActs at h ⊢
    rw [ht, Out.ok_bind, shortIdx_eq]
    cases hl : shortIdx os c with
    | none => rfl
    | some i =>
      rw [hl] at h
      rw [← shortIdx_eq] at hl
      obtain ⟨o, ho, -⟩ := findSname_some hl
      have hfl : isFlagAt os i = decide (o.valueType = .flag) := by simp [isFlagAt, ho]
      simp only [table_getOpt ht ho, Out.ok_bind, hfl] at h ⊢
      by_cases hf : o.valueType = .flag
      · simp only [hf, if_true, decide_true] at h ⊢
        unfold run at h
        obtain ⟨q, hx, h1⟩ := Out.bind_eq_ok h
        simp only [runStdout, hx, Out.ok_bind]
        by_cases h0 : q.1 = Err.success
        · simp only [h0, ne_eq, not_true_eq_false, if_false] at h1 ⊢
          obtain ⟨os', ht', hm⟩ := shape_table (execCallbacks_one hx).frame.shape ht
          have e : (shortActs k os' rest.head? cs) = (shortActs k os rest.head? cs) := by
            rw [← shortActs_meta, hm, shortActs_meta]
          rw [shortStdout_run rest cs ht' (e ▸ h1), e]
        · simp only [h0, ne_eq, not_false_eq_true, if_true]
      · simp only [hf, if_false, decide_false, Bool.false_eq_true] at h ⊢
        cases cs with
        | cons d ds =>
          simp only [run_give] at h
          exact (runStdout_give h).symm
        | nil =>
          cases rest with
          | nil => rfl
          | cons v rest =>
            simp only [run_give, List.head?_cons] at h
            exact (runStdout_give h).symm

theorem loopStdout_run {W : World} {F : Fmt} : ∀ (args : List Str) {t : Option Nat} {a : Argus} {pos : Nat}
    {only skip : Bool} {r : Int × Argus}, parseLoop W t a pos only skip args = .ok r →
    loopStdout W F t a pos only skip args = runStdout W F a (meaning a.tables t pos only skip args)
  | [], t, a, pos, only, skip, r, _ => by cases skip <;> rfl
  | arg :: rest, t, a, pos, only, true, r, h => by
    unfold parseLoop at h
    unfold loopStdout meaning
    exact loopStdout_run rest h
  | arg :: rest, t, a, pos, only, false, r, h => by
    have ih := fun {t : Option Nat} {a : Argus} {pos : Nat} {only skip : Bool}
      (h : parseLoop W t a pos only skip rest = .ok r) => loopStdout_run (F := F) rest h
    -- what remains once some acts are carried out
    have tail : ∀ (acts : List Act) (pos1 : Nat) (only1 used : Bool),
        (∀ c, Act.fail c ∈ acts → c ≠ Err.success) →
        parseStep W t a pos only arg rest = (do let r ← run W a acts; .ok (stepOf pos1 only1 used r)) →
        (∀ r, run W a acts = .ok r → stepStdout W F t a pos only arg rest = runStdout W F a acts) →
        loopStdout W F t a pos only false (arg :: rest) =
          runStdout W F a (acts ++ meaning a.tables t pos1 only1 used rest) := by
      intro acts pos1 only1 used hf hp hs
      unfold parseLoop at h
      rw [hp] at h
      obtain ⟨q, hq, h⟩ := Out.bind_eq_ok h
      obtain ⟨q1, hq1, hq2⟩ := Out.bind_eq_ok hq
      simp only [Out.ok.injEq] at hq2
      rw [runStdout_append acts _ hf hq1]
      unfold loopStdout
      rw [hp, hq1, Out.ok_bind, Out.ok_bind, hs _ hq1]
      rw [← hq2] at h
      unfold stepOf at h ⊢
      by_cases h0 : q1.1 = Err.success
      · simp only [h0, ne_eq, not_true_eq_false, if_false] at h ⊢
        rw [ih h, meaning_congr (run_shape acts hq1)]
      · simp only [h0, ne_eq, not_false_eq_true, if_true]
    rcases argKind_cases arg with ⟨rfl, hk⟩ | ⟨hne, s, h1, hk⟩ | ⟨hne, h1, s, h2, hk⟩ | ⟨hne, h1, h2, hk⟩
    · have hp : parseStep W t a pos only [45, 45] rest = .ok (.next a pos true false) := by
        unfold parseStep; rw [if_pos rfl]
      unfold parseLoop at h
      rw [hp] at h
      unfold loopStdout meaning
      rw [hp, if_pos hk, Out.ok_bind]
      have : stepStdout W F t a pos only [45, 45] rest = Text.lit [] := by unfold stepStdout; rw [if_pos rfl]
      simp only [this, Text.lit_cat]
      exact ih h
    all_goals have hnd : ¬ argKind arg = .dashes := by rw [hk]; simp
    all_goals
      by_cases hlone : argKind arg = .short [] ∧ only = false
    · rw [hk] at hlone; simp at hlone
    · have hm : meaning a.tables t pos only false (arg :: rest) = meaning a.tables t pos only false (arg :: rest) := rfl
      conv at hm => rhs; unfold meaning
      rw [if_neg hnd, if_neg hlone] at hm
      cases htab : a.table t with
      | ub u =>
        obtain ⟨hu, hn⟩ := table_ub htab
        have hstep : parseStep W t a pos only arg rest = .ub .nullDeref := by
          unfold parseStep stepPositional handlePositional handleLong
          rw [if_neg hne, h1, htab, hu]
          cases only <;> rfl
        unfold parseLoop at h; rw [hstep] at h; cases h
      | ok os =>
        obtain ⟨k, rfl, hkt⟩ := table_eq_ok.1 htab
        simp only [Option.bind_some, hkt] at hm
        rw [hm]
        cases only with
        | true =>
          simp only [if_true]
          refine tail _ _ _ _ (fun c => posActs_fail) ?_ (fun q hq => ?_)
          · unfold parseStep; rw [if_neg hne]; simp only [if_true]; rw [stepPositional_run htab]
          · unfold stepStdout; rw [if_neg hne]; simp only [if_true]; exact positionalStdout_run htab hq
        | false =>
          simp only [Bool.false_eq_true, if_false, hk]
          refine tail _ _ _ _ (fun c => longActs_fail) ?_ (fun q hq => ?_)
          · unfold parseStep; rw [if_neg hne, h1]; simp only [Bool.false_eq_true, if_false]; rw [handleLong_run htab]
          · unfold stepStdout; rw [if_neg hne, h1]; simp only [Bool.false_eq_true, if_false]; exact longStdout_run htab hq
    · obtain ⟨hl, rfl⟩ := hlone
      have hl' := hl
      rw [hk] at hl
      simp only [ArgKind.short.injEq] at hl
      subst hl
      have hstep : parseStep W t a pos false arg rest = .ok (.next a pos false false) := by
        unfold parseStep isNegNumber
        rw [if_neg hne, h1, h2]; rfl
      have hout : stepStdout W F t a pos false arg rest = Text.lit [] := by
        unfold stepStdout isNegNumber
        rw [if_neg hne, h1, h2]; rfl
      unfold parseLoop at h
      rw [hstep] at h
      unfold loopStdout meaning
      rw [hstep, if_neg hnd, if_pos ⟨hl', rfl⟩, Out.ok_bind]
      simp only [hout, Text.lit_cat]
      exact ih h
    · have hm : meaning a.tables t pos only false (arg :: rest) = meaning a.tables t pos only false (arg :: rest) := rfl
      conv at hm => rhs; unfold meaning
      rw [if_neg hnd, if_neg hlone] at hm
      cases htab : a.table t with
      | ub u =>
        obtain ⟨hu, hn⟩ := table_ub htab
        have hstep : parseStep W t a pos only arg rest = .ub .nullDeref := by
          unfold parseStep stepPositional handlePositional isNegNumber
          rw [if_neg hne, h1, h2, htab, hu]
          cases only with
          | true => rfl
          | false =>
            simp only [Bool.false_eq_true, if_false]
            split
            · rfl
            · simp only [Out.ok_bind, Bool.false_eq_true, if_false]
              cases s with
              | nil => exact absurd ⟨hk, rfl⟩ hlone
              | cons c cs => unfold handleShort; rw [htab, hu]; rfl
        unfold parseLoop at h; rw [hstep] at h; cases h
      | ok os =>
        obtain ⟨k, rfl, hkt⟩ := table_eq_ok.1 htab
        simp only [Option.bind_some, hkt] at hm
        rw [hm]
        cases only with
        | true =>
          simp only [if_true]
          refine tail _ _ _ _ (fun c => posActs_fail) ?_ (fun q hq => ?_)
          · unfold parseStep; rw [if_neg hne]; simp only [if_true]; rw [stepPositional_run htab]
          · unfold stepStdout; rw [if_neg hne]; simp only [if_true]; exact positionalStdout_run htab hq
        | false =>
          simp only [Bool.false_eq_true, if_false, hk]
          by_cases hneg : negNumber os pos s = true
          · simp only [hneg, if_true]
            refine tail _ _ _ _ (fun c => posActs_fail) ?_ (fun q hq => ?_)
            · unfold parseStep; rw [if_neg hne, h1, h2]
              simp only [Bool.false_eq_true, if_false, negNumber_eq htab, Out.ok_bind, hneg, if_true]
              rw [stepPositional_run htab]
            · unfold stepStdout; rw [if_neg hne, h1, h2]
              simp only [Bool.false_eq_true, if_false, negNumber_eq htab, Out.ok_bind, hneg, if_true]
              exact positionalStdout_run htab hq
          · simp only [hneg, if_false, Bool.false_eq_true]
            refine tail _ _ _ _ (fun c => shortActs_fail) ?_ (fun q hq => ?_)
            · unfold parseStep; rw [if_neg hne, h1, h2]
              simp only [Bool.false_eq_true, if_false, negNumber_eq htab, Out.ok_bind, hneg]
              rw [handleShort_run rest pos s htab]
            · unfold stepStdout; rw [if_neg hne, h1, h2]
              simp only [Bool.false_eq_true, if_false, negNumber_eq htab, Out.ok_bind, hneg]
              exact shortStdout_run rest s htab hq
    · rw [hk] at hlone; simp at hlone
    · have hm : meaning a.tables t pos only false (arg :: rest) = meaning a.tables t pos only false (arg :: rest) := rfl
      conv at hm => rhs; unfold meaning
      rw [if_neg hnd, if_neg hlone] at hm
      cases htab : a.table t with
      | ub u =>
        obtain ⟨hu, hn⟩ := table_ub htab
        have hstep : parseStep W t a pos only arg rest = .ub .nullDeref := by
          unfold parseStep stepPositional handlePositional
          rw [if_neg hne, h1, h2, htab, hu]
          cases only <;> rfl
        unfold parseLoop at h; rw [hstep] at h; cases h
      | ok os =>
        obtain ⟨k, rfl, hkt⟩ := table_eq_ok.1 htab
        simp only [Option.bind_some, hkt] at hm
        rw [hm]
        cases only with
        | true =>
          simp only [if_true]
          refine tail _ _ _ _ (fun c => posActs_fail) ?_ (fun q hq => ?_)
          · unfold parseStep; rw [if_neg hne]; simp only [if_true]; rw [stepPositional_run htab]
          · unfold stepStdout; rw [if_neg hne]; simp only [if_true]; exact positionalStdout_run htab hq
        | false =>
          have hpar : parseStep W (some k) a pos false arg rest = parseStep W (some k) a pos false arg rest := rfl
          conv at hpar => rhs; unfold parseStep
          rw [if_neg hne, h1, h2] at hpar
          simp only [Bool.false_eq_true, if_false, htab, Out.ok_bind, findSub_choice] at hpar
          have hout : stepStdout W F (some k) a pos false arg rest = stepStdout W F (some k) a pos false arg rest := rfl
          conv at hout => rhs; unfold stepStdout
          rw [if_neg hne, h1, h2] at hout
          simp only [Bool.false_eq_true, if_false, htab, Out.ok_bind, findSub_choice] at hout
          simp only [Bool.false_eq_true, if_false, hk]
          cases hc : subChoice os arg with
          | none =>
            rw [hc] at hpar hout
            simp only [ne_eq, not_true_eq_false, if_false] at hpar hout
            refine tail _ _ _ _ (fun c => posActs_fail) ?_ (fun q hq => ?_)
            · rw [hpar, stepPositional_run htab]
            · rw [hout]; exact positionalStdout_run htab hq
          | some e =>
            rw [hc] at hpar hout
            cases e with
            | error c =>
              have hc' := subChoice_error hc
              subst hc'
              unfold loopStdout
              rw [hpar]
              simp only [show ((Err.ambiguousSubcommand : Int) ≠ Err.success) from by decide, ne_eq, not_false_eq_true, if_true,
                Out.ok_bind] at hout ⊢
              rw [hout]; rfl
            | ok x =>
              obtain ⟨hx, -⟩ := subChoice_get hc
              simp only [ne_eq, not_true_eq_false, if_false] at hpar hout
              unfold parseLoop at h
              unfold loopStdout
              rw [hpar] at h ⊢
              simp only [runStdout]
              obtain ⟨e', he', h⟩ := Out.bind_eq_ok h
              obtain ⟨e, he, he2⟩ := Out.bind_eq_ok he'
              simp only [Out.ok.injEq] at he2
              rw [he]
              subst he2
              simp only [Out.ok_bind, hout, Text.lit_cat] at h ⊢
              have hs := (enterSub_frame he).1.shape
              have he1 : e.1 = x.1.subOptions := by
                unfold enterSub at he
                rw [table_getOpt htab hx, Out.ok_bind] at he
                split at he
                · simp at he
                · simp only [Out.ok.injEq] at he; rw [← he]
              rw [ih h, he1, meaning_congr hs]

/-! ### One option -/

theorem handlerStdout_bare {F : Fmt} {a b : Argus} (h : b.bare = a.bare) (hd : Handler) :
    handlerStdout F b hd = handlerStdout F a hd := by
  obtain ⟨h1, h2, _, h4⟩ := displays_of_bare h F
  cases hd <;> simp only [handlerStdout, h1, h2, h4]

/-- Help and version are shown by options that end the program. -/
def Opt.DisplaysExit (o : Opt) : Prop :=
  (o.handler = some .help ∨ o.handler = some .version) → o.flags.has .exit = true

theorem execStdout_quiet {W : World} {F : Fmt} {a : Argus} {p : Ptr} {o : Opt} {x : Option Str} {r : Int × Argus}
    (ho : a.getOpt p = .ok o) (hd : o.DisplaysExit) (h : execCallbacks W a p x = .ok r) (h1 : r.1 ≠ Err.shouldExit) :
    execStdout W F a p x = Text.lit [] := by
  unfold execCallbacks at h
  unfold execStdout
  rw [ho, Out.ok_bind] at h ⊢
  cases hh : o.handler with
  | none => rfl
  | some hd' =>
    simp only [hh] at h ⊢
    obtain ⟨pre, hp, h⟩ := Out.bind_eq_ok h
    rw [hp, Out.ok_bind]
    by_cases h0 : pre.1 = Err.success
    · simp only [h0, ne_eq, not_true_eq_false, if_false] at h ⊢
      obtain ⟨q, hq, h⟩ := Out.bind_eq_ok h
      by_cases hk : hd' = .help ∨ hd' = .version
      · exfalso
        have hx := hd (by rcases hk with rfl | rfl <;> simp [hh])
        have hq1 : q.1 = Err.success := by
          rcases hk with rfl | rfl
          · simp only [runHandler] at hq
            obtain ⟨t, _, hq⟩ := Out.bind_eq_ok hq
            simp only [Out.ok.injEq] at hq; rw [← hq]
          · simp only [runHandler, Out.ok.injEq] at hq; rw [← hq]
        have hf : q.2.1.markSet.flags = o.flags :=
          (congrArg Opt.flags (runHandler_meta hq) : q.2.1.meta.flags = o.meta.flags)
        simp only [hq1, ne_eq, not_true_eq_false, if_false, hf, hx, if_true, Out.ok.injEq] at h
        exact h1 (by rw [← h])
      · cases hd' <;> first
          | rfl
          | exact absurd (.inl rfl) hk
          | exact absurd (.inr rfl) hk
    · simp only [h0, ne_eq, not_false_eq_true, if_true]

theorem execStdout_exit {W : World} {F : Fmt} {a : Argus} {p : Ptr} {o : Opt} {x : Option Str} {r : Int × Argus}
    (ho : a.getOpt p = .ok o) (hb : o.BuiltIn) (h : execCallbacks W a p x = .ok r) (h1 : r.1 = Err.shouldExit) :
    o.flags.has .exit = true ∧ ∃ hd, o.handler = some hd ∧ execStdout W F a p x = handlerStdout F a hd := by
  unfold execCallbacks at h
  unfold execStdout
  rw [ho, Out.ok_bind] at h ⊢
  cases hh : o.handler with
  | none =>
    simp only [hh, Out.ok.injEq] at h; subst h; exact absurd h1 (by simp only; decide)
  | some hd =>
    simp only [hh] at h ⊢
    obtain ⟨pre, hp, h⟩ := Out.bind_eq_ok h
    rw [hp, Out.ok_bind]
    have hpc := callCodes_exit (runPreAll_codes _ hb.validators hp)
    by_cases h0 : pre.1 = Err.success
    · simp only [h0, ne_eq, not_true_eq_false, if_false] at h ⊢
      obtain ⟨q, hq, h⟩ := Out.bind_eq_ok h
      have hqc := callCodes_exit (runHandler_codes (fun id hid => hb.handler id (hid ▸ hh)) hq)
      by_cases h2 : q.1 = Err.success
      · simp only [h2, not_true_eq_false, if_false, Out.ok.injEq] at h
        have hf : q.2.1.markSet.flags = o.flags :=
          (congrArg Opt.flags (runHandler_meta hq) : q.2.1.meta.flags = o.meta.flags)
        refine ⟨?_, hd, rfl, ?_⟩
        · rw [← hf]
          subst h
          simp only at h1
          split at h1
          · assumption
          · exact absurd h1 (by decide)
        · obtain ⟨es, he, _⟩ := runPreAll_prints (M := { F with
            f6 := fun _ => [], regexError := fun _ => [], regexCode := fun _ _ => 0, handler := fun _ _ _ => [],
            preValidator := fun _ _ => [], postValidator := fun _ _ => [] }) _ hp
          rw [he]
          have hfr := Frame.emits (fun _ => False) a es
          have := bare_eq hfr.shape hfr.cfg
          rw [show (a.emits es).stack = a.stack by simp] at this
          exact handlerStdout_bare this hd
      · simp only [h2, not_false_eq_true, if_true, Out.ok.injEq] at h
        subst h; exact absurd h1 hqc
    · simp only [h0, ne_eq, not_false_eq_true, if_true, Out.ok.injEq] at h
      subst h; exact absurd h1 hpc

/-! ### Acts -/

theorem runStdout_quiet {W : World} {F : Fmt} : ∀ (acts : List Act) {a : Argus} {r : Int × Argus},
    Everywhere Opt.DisplaysExit a → run W a acts = .ok r → r.1 ≠ Err.shouldExit → runStdout W F a acts = Text.lit []
  | [], a, r, _, _, _ => rfl
  | .give p x :: acts, a, r, hd, h, h1 => by
    unfold run at h
    obtain ⟨q, hq, h2⟩ := Out.bind_eq_ok h
    have hq0 := hq
    unfold execCallbacks at hq0
    obtain ⟨o, ho, _⟩ := Out.bind_eq_ok hq0
    simp only [runStdout, hq, Out.ok_bind]
    have hdo : o.DisplaysExit := hd p o ho
    by_cases h0 : q.1 = Err.success
    · simp only [h0, ne_eq, not_true_eq_false, if_false] at h2 ⊢
      rw [execStdout_quiet ho hdo hq (by rw [h0]; decide), Text.lit_cat]
      exact runStdout_quiet acts (hd.of_shape (execCallbacks_one hq).frame.shape) h2 h1
    · simp only [h0, ne_eq, not_false_eq_true, if_true, Out.ok.injEq] at h2 ⊢
      subst h2
      exact execStdout_quiet ho hdo hq h1
  | .enter p :: acts, a, r, hd, h, h1 => by
    unfold run at h
    obtain ⟨q, hq, h2⟩ := Out.bind_eq_ok h
    simp only [runStdout, hq, Out.ok_bind]
    exact runStdout_quiet acts (hd.of_shape (enterSub_frame hq).1.shape) h2 h1
  | .fail c :: acts, a, r, _, _, _ => rfl
  | .noTable :: acts, a, r, _, h, _ => by simp [run] at h

theorem runStdout_exit {W : World} {F : Fmt} : ∀ (acts : List Act) {a : Argus} {r : Int × Argus},
    Everywhere Opt.DisplaysExit a → Everywhere Opt.BuiltIn a → Act.fail Err.shouldExit ∉ acts →
    run W a acts = .ok r → r.1 = Err.shouldExit →
    ∃ xs p x ys o hd, acts = xs ++ .give p x :: ys ∧ a.getOpt p = .ok o ∧ o.flags.has .exit = true ∧ o.handler = some hd ∧
      r.2.stack = a.stack ++ entered xs ∧ runStdout W F a acts = handlerStdout F { a with stack := r.2.stack } hd
  | [], a, r, _, _, _, h, h1 => by
    simp only [run, Out.ok.injEq] at h; subst h; exact absurd h1 (by simp only; decide)
  | .give p x :: acts, a, r, hd, hb, hf, h, h1 => by
    unfold run at h
    obtain ⟨q, hq, h2⟩ := Out.bind_eq_ok h
    have hq0 := hq
    unfold execCallbacks at hq0
    obtain ⟨o, ho, _⟩ := Out.bind_eq_ok hq0
    have hone := execCallbacks_one hq
    simp only [runStdout, hq, Out.ok_bind]
    have hdo : o.DisplaysExit := hd p o ho
    by_cases h0 : q.1 = Err.success
    · simp only [h0, ne_eq, not_true_eq_false, if_false] at h2 ⊢
      rw [execStdout_quiet ho hdo hq (by rw [h0]; decide), Text.lit_cat]
      obtain ⟨xs, p', x', ys, o', hd', e1, e2, e3, e4, e5, e6⟩ := runStdout_exit (F := F) acts (hd.of_shape hone.frame.shape)
        (hb.of_shape hone.frame.shape) (fun hm => hf (by simp [hm])) h2 h1
      obtain ⟨o'', g1, g2⟩ := shape_getOpt hone.frame.shape.symm e2
      refine ⟨.give p x :: xs, p', x', ys, o'', hd', by rw [e1]; rfl, g1, ?_, ?_, ?_, ?_⟩
      · rw [← e3]; exact (congrArg (fun o : Opt => o.flags.has .exit) g2 : o''.meta.flags.has .exit = o'.meta.flags.has .exit)
      · rw [← e4]; exact (congrArg Opt.handler g2 : o''.meta.handler = o'.meta.handler)
      · rw [e5, hone.stack]; rfl
      · rw [e6]
        refine handlerStdout_bare ?_ hd'
        exact bare_eq (a := a) (b := { q.2 with stack := r.2.stack }) hone.frame.shape hone.frame.cfg
    · simp only [h0, ne_eq, not_false_eq_true, if_true, Out.ok.injEq] at h2 ⊢
      subst h2
      obtain ⟨g1, hd', g2, g3⟩ := execStdout_exit (F := F) ho (hb.builtIn ho) hq h1
      refine ⟨[], p, x, acts, o, hd', rfl, ho, g1, g2, by rw [hone.stack]; simp [entered], ?_⟩
      rw [g3, hone.stack]
  | .enter p :: acts, a, r, hd, hb, hf, h, h1 => by
    unfold run at h
    obtain ⟨q, hq, h2⟩ := Out.bind_eq_ok h
    simp only [runStdout, hq, Out.ok_bind]
    have hfr := (enterSub_frame hq).1
    obtain ⟨xs, p', x', ys, o', hd', e1, e2, e3, e4, e5, e6⟩ := runStdout_exit (F := F) acts (hd.of_shape hfr.shape)
      (hb.of_shape hfr.shape) (fun hm => hf (by simp [hm])) h2 h1
    obtain ⟨o'', g1, g2⟩ := shape_getOpt hfr.shape.symm e2
    refine ⟨.enter p :: xs, p', x', ys, o'', hd', by rw [e1]; rfl, g1, ?_, ?_, ?_, ?_⟩
    · rw [← e3]; exact (congrArg (fun o : Opt => o.flags.has .exit) g2 : o''.meta.flags.has .exit = o'.meta.flags.has .exit)
    · rw [← e4]; exact (congrArg Opt.handler g2 : o''.meta.handler = o'.meta.handler)
    · rw [e5]
      unfold enterSub at hq
      obtain ⟨o1, _, hq⟩ := Out.bind_eq_ok hq
      split at hq
      · simp at hq
      · simp only [Out.ok.injEq] at hq; subst hq; simp [entered]
    · rw [e6]
      refine handlerStdout_bare ?_ hd'
      exact bare_eq (a := a) (b := { q.2 with stack := r.2.stack }) hfr.shape hfr.cfg
  | .fail c :: acts, a, r, _, _, hf, h, h1 => by
    simp only [run, Out.ok.injEq] at h; subst h
    simp only at h1; subst h1
    exact absurd (by simp) hf
  | .noTable :: acts, a, r, _, _, _, h, _ => by simp [run] at h

/-! ### Environment -/

theorem envStepStdout_quiet {W : World} {F : Fmt} {env : Env} {a : Argus} {p : Ptr} {r : Int × Argus}
    (hd : Everywhere Opt.DisplaysExit a) (h : loadEnvStep W env a p = .ok r) (h1 : r.1 ≠ Err.shouldExit) :
    envStepStdout W F env a p = Text.lit [] := by
  unfold loadEnvStep at h
  unfold envStepStdout
  obtain ⟨o, ho, h⟩ := Out.bind_eq_ok h
  have hdo : o.DisplaysExit := hd p o ho
  rw [ho, Out.ok_bind]
  split
  · rfl
  · split
    · rfl
    · rename_i g1 g2
      rw [if_neg g1, if_neg g2] at h
      cases hn : envVarName a.envPrefix o with
      | none => rfl
      | some n =>
        rw [hn] at h
        simp only at h ⊢
        cases hv : env n with
        | none => rfl
        | some v =>
          rw [hv] at h
          simp only at h ⊢
          obtain ⟨q, hq, h⟩ := Out.bind_eq_ok h
          have hs : r.1 = q.1 := by
            split at h
            · split at h
              · obtain ⟨o1, _, h⟩ := Out.bind_eq_ok h
                simp only [Out.ok.injEq] at h; rw [← h]
              · simp only [Out.ok.injEq] at h; rw [← h]
            · simp only [Out.ok.injEq] at h; rw [← h]
          exact execStdout_quiet ho hdo hq (hs ▸ h1)

theorem envLoopStdout_quiet {W : World} {F : Fmt} {env : Env} {k : Nat} : ∀ (n i : Nat) {a : Argus} {r : Int × Argus},
    Everywhere Opt.DisplaysExit a → loadEnvLoop W env k n i a = .ok r → r.1 ≠ Err.shouldExit →
    envLoopStdout W F env k n i a = Text.lit []
  | 0, i, a, r, _, _, _ => rfl
  | n + 1, i, a, r, hd, h, h1 => by
    unfold loadEnvLoop at h
    obtain ⟨q, hq, h⟩ := Out.bind_eq_ok h
    simp only [envLoopStdout, hq, Out.ok_bind]
    by_cases h0 : q.1 = Err.success
    · simp only [h0, ne_eq, not_true_eq_false, if_false] at h ⊢
      rw [envStepStdout_quiet hd hq (by rw [h0]; decide), Text.lit_cat]
      exact envLoopStdout_quiet n (i + 1) (hd.of_shape (loadEnvStep_one hq).frame.shape) h h1
    · simp only [h0, ne_eq, not_false_eq_true, if_true, Out.ok.injEq] at h ⊢
      subst h
      exact envStepStdout_quiet hd hq h1

theorem envTableStdout_quiet {W : World} {F : Fmt} {env : Env} {a : Argus} {k : Nat} {r : Int × Argus}
    (hd : Everywhere Opt.DisplaysExit a) (h : loadEnvTable W env a k = .ok r) (h1 : r.1 ≠ Err.shouldExit) :
    envTableStdout W F env a k = Text.lit [] := by
  unfold loadEnvTable at h
  unfold envTableStdout
  obtain ⟨os, ho, h⟩ := Out.bind_eq_ok h
  rw [ho, Out.ok_bind]
  exact envLoopStdout_quiet _ _ hd h h1

theorem envStackStdout_quiet {W : World} {F : Fmt} {env : Env} : ∀ (ps : List Ptr) {a : Argus} {r : Int × Argus},
    Everywhere Opt.DisplaysExit a → loadEnvStack W env a ps = .ok r → r.1 ≠ Err.shouldExit →
    envStackStdout W F env a ps = Text.lit []
  | [], a, r, _, _, _ => rfl
  | p :: ps, a, r, hd, h, h1 => by
    unfold loadEnvStack at h
    unfold envStackStdout
    obtain ⟨cmd, hc, h⟩ := Out.bind_eq_ok h
    rw [hc, Out.ok_bind]
    cases hs : cmd.subOptions with
    | none => rw [hs] at h; exact envStackStdout_quiet ps hd h h1
    | some k =>
      rw [hs] at h
      simp only at h ⊢
      obtain ⟨q, hq, h⟩ := Out.bind_eq_ok h
      rw [hq, Out.ok_bind]
      by_cases h0 : q.1 = Err.success
      · simp only [h0, ne_eq, not_true_eq_false, if_false] at h ⊢
        rw [envTableStdout_quiet hd hq (by rw [h0]; decide), Text.lit_cat]
        exact envStackStdout_quiet ps (hd.of_shape (loadEnvTable_frame hq).frame.shape) h h1
      · simp only [h0, ne_eq, not_false_eq_true, if_true, Out.ok.injEq] at h ⊢
        subst h
        exact envTableStdout_quiet hd hq h1

theorem envStdout_quiet {W : World} {F : Fmt} {env : Env} {a : Argus} {r : Int × Argus}
    (hd : Everywhere Opt.DisplaysExit a) (h : loadEnvVars W env a = .ok r) (h1 : r.1 ≠ Err.shouldExit) :
    envStdout W F env a = Text.lit [] := by
  unfold loadEnvVars at h
  unfold envStdout
  obtain ⟨q, hq, h⟩ := Out.bind_eq_ok h
  rw [hq, Out.ok_bind]
  by_cases h0 : q.1 = Err.success
  · simp only [h0, ne_eq, not_true_eq_false, if_false] at h ⊢
    rw [envTableStdout_quiet hd hq (by rw [h0]; decide), Text.lit_cat]
    exact envStackStdout_quiet _ (hd.of_shape (loadEnvTable_frame hq).frame.shape) h h1
  · simp only [h0, ne_eq, not_false_eq_true, if_true, Out.ok.injEq] at h ⊢
    subst h
    exact envTableStdout_quiet hd hq h1

end Argus
