import Verif.Lemmas.Depth
import Verif.Spec.Sample

/-!
# C09, C34, C41: subcommands

`Reach W a pre s` (Spec/Prefix): reading `pre` leaves the parser in state `s`.
`Argus.asks` (Spec/Meaning) reads a command line without running anything, `entered` (Spec/Depth) are
the subcommands it selects, and `SubChain` describes nested subcommands.
-/

set_option autoImplicit false

namespace Argus

/-! ## C09: which subcommand a word selects -/

/-- **C09** A word that begins the name of exactly one subcommand of the level selects it: the
    subcommand is marked and pushed on the command stack, and the rest of the line is read with its
    options, from its first positional on. -/
theorem C09_unique_prefix_selects (W : World) (a : Argus) (pre : List Str) (arg n : Str) (s : PState)
    (k i : Nat) (os : List Opt) (o : Opt)
    (hs : Reach W a pre s) (honly : s.only = false) (hk : s.t = some k) (ht : s.a.table s.t = .ok os)
    (hdash : arg.head? ≠ some 45)
    (hi : os[i]? = some o) (hsub : o.type = .subcommand) (hn : o.name = some n) (hp : arg <+: n)
    (huniq : ∀ (j : Nat) (o' : Opt) (n' : Str), os[j]? = some o' → o'.type = .subcommand →
      o'.name = some n' → arg <+: n' → j = i)
    (hdepth : s.a.stack.length < 8) :
    Reach W a (pre ++ [arg]) ⟨o.subOptions,
      { s.a.setOpt ⟨k, i⟩ { o with isSet := true } with stack := s.a.stack ++ [⟨k, i⟩] },
      0, false, false⟩ := by
  refine hs.append ?_
  have ht' : s.a.table (some k) = .ok os := hk ▸ ht
  have hc := subChoice_unique hi hsub hn hp huniq
  unfold runPrefix
  rw [if_neg (by simp [hs.skip]), hk, honly, parseStep_enter ht' hdash hc hdepth]
  rfl

/-- `prog -v ad` does not fit (see below), but `prog -v adm` selects `admin` (entry 9). -/
example : ∃ s os o, Reach Sample.world Sample.prog [c!"-v"] s ∧ s.only = false ∧ s.t = some 0 ∧
    s.a.table s.t = .ok os ∧ os[9]? = some o ∧ o.type = .subcommand ∧ o.name = some c!"admin" ∧
    c!"adm" <+: c!"admin" ∧ subMatches os c!"adm" = [(o, 9)] ∧ s.a.stack.length < 8 := by
  refine ⟨_, _, _, rfl, rfl, rfl, rfl, rfl, rfl, rfl, by decide, by decide +kernel, by decide⟩

/-- **C09** An abbreviation that selects a subcommand stands for the full name: with the one or the other on the line the
    parse is the same, whatever follows and whatever the environment holds. -/
theorem C09_abbreviation_is_name (W : World) (env : Env) (a : Argus) (pre post : List Str) (arg n : Str) (s : PState)
    (k i : Nat) (os : List Opt) (o : Opt)
    (hs : Reach W a pre s) (honly : s.only = false) (hk : s.t = some k) (ht : s.a.table s.t = .ok os)
    (hdash : arg.head? ≠ some 45) (hdash' : n.head? ≠ some 45)
    (hi : os[i]? = some o) (hsub : o.type = .subcommand) (hn : o.name = some n) (hp : arg <+: n)
    (huniq : ∀ (j : Nat) (o' : Opt) (n' : Str), os[j]? = some o' → o'.type = .subcommand →
      o'.name = some n' → arg <+: n' → j = i)
    (hdepth : s.a.stack.length < 8) :
    argusParse W env a (pre ++ arg :: post) = argusParse W env a (pre ++ n :: post) := by
  have h1 := C09_unique_prefix_selects W a pre arg n s k i os o hs honly hk ht hdash hi hsub hn hp huniq hdepth
  have h2 := C09_unique_prefix_selects W a pre n n s k i os o hs honly hk ht hdash' hi hsub hn List.prefix_rfl
    (fun j o' n' g1 g2 g3 g4 => huniq j o' n' g1 g2 g3 (hp.trans g4)) hdepth
  have e1 := h1.parseArgs post
  have e2 := h2.parseArgs post
  rw [List.append_assoc] at e1 e2
  show (do let r ← parseArgs W a (some a.root) (pre ++ ([arg] ++ post)); _) =
    (do let r ← parseArgs W a (some a.root) (pre ++ ([n] ++ post)); _)
  rw [e1, e2]

/-- **C09** (full statement: a full subcommand name always selects that subcommand.) Proved: it does
    when it begins the name of no earlier subcommand of the level. The general statement is false,
    see `C09_full_name_can_be_ambiguous`. -/
theorem C09_full_name_selects_partial (W : World) (a : Argus) (pre : List Str) (arg : Str) (s : PState)
    (k i : Nat) (os : List Opt) (o : Opt)
    (hs : Reach W a pre s) (honly : s.only = false) (hk : s.t = some k) (ht : s.a.table s.t = .ok os)
    (hdash : arg.head? ≠ some 45)
    (hi : os[i]? = some o) (hsub : o.type = .subcommand) (hn : o.name = some arg)
    (hfirst : ∀ (j : Nat) (o' : Opt) (n' : Str), os[j]? = some o' → o'.type = .subcommand →
      o'.name = some n' → arg <+: n' → i ≤ j)
    (hdepth : s.a.stack.length < 8) :
    Reach W a (pre ++ [arg]) ⟨o.subOptions,
      { s.a.setOpt ⟨k, i⟩ { o with isSet := true } with stack := s.a.stack ++ [⟨k, i⟩] },
      0, false, false⟩ := by
  refine hs.append ?_
  have ht' : s.a.table (some k) = .ok os := hk ▸ ht
  have hc := subChoice_exact hi hsub hn hfirst
  unfold runPrefix
  rw [if_neg (by simp [hs.skip]), hk, honly, parseStep_enter ht' hdash hc hdepth]
  rfl

/-- A table in which a subcommand name begins the name of an earlier one. -/
def Sample.git : List Opt := [helpOption, subcommand c!"commit-all" 1, subcommand c!"commit" 1]

/-- **C09** is violated: `commit` is the full name of a subcommand, yet it is reported as ambiguous,
    because `commit-all` is declared before it. -/
theorem C09_full_name_can_be_ambiguous :
    (∃ o ∈ Sample.git, o.type = .subcommand ∧ o.name = some c!"commit") ∧
    (argusParse Sample.world Sample.noEnv (argusInit [Sample.git, [helpOption]] c!"git" none)
      [c!"commit"]).toOption.map (·.1) = some (.returned Err.ambiguousSubcommand) := by
  refine ⟨⟨subcommand c!"commit" 1, by decide +kernel, rfl, rfl⟩, by decide +kernel⟩

/-- With the declarations in the other order the hypotheses of `C09_full_name_selects_partial` hold. -/
example : ∃ s os o, Reach Sample.world
      (argusInit [[helpOption, subcommand c!"commit" 1, subcommand c!"commit-all" 1], [helpOption]]
        c!"git" none) [] s ∧
    s.a.table s.t = .ok os ∧ os[1]? = some o ∧ o.name = some c!"commit" ∧
    (subMatches os c!"commit").map (·.2) = [1, 2] := by
  refine ⟨_, _, _, rfl, rfl, rfl, rfl, by decide +kernel⟩

/-- **C09** A word that begins the names of several subcommands is rejected as ambiguous, unless it is
    the full name of the first of them: `hfull` asks that a subcommand called exactly so comes after another one whose
    name the word begins. Together with the two theorems above and `C09_no_match_no_subcommand` this decides every
    word. -/
theorem C09_ambiguous_rejected (W : World) (env : Env) (a : Argus) (pre post : List Str)
    (arg n n' : Str) (s : PState) (k i j : Nat) (os : List Opt) (o o' : Opt)
    (hs : Reach W a pre s) (honly : s.only = false) (hk : s.t = some k) (ht : s.a.table s.t = .ok os)
    (hdash : arg.head? ≠ some 45) (hij : i ≠ j)
    (hi : os[i]? = some o) (hsub : o.type = .subcommand) (hn : o.name = some n) (hp : arg <+: n)
    (hj : os[j]? = some o') (hsub' : o'.type = .subcommand) (hn' : o'.name = some n') (hp' : arg <+: n')
    (hfull : ∀ (m : Nat) (q : Opt), os[m]? = some q → q.type = .subcommand → q.name = some arg →
      ∃ (l : Nat) (q' : Opt) (n'' : Str), l < m ∧ os[l]? = some q' ∧ q'.type = .subcommand ∧ q'.name = some n'' ∧
        arg <+: n'')
    (r : ParseEnd × Argus) (hr : argusParse W env a (pre ++ arg :: post) = .ok r) :
    r.1 = .returned Err.ambiguousSubcommand ∧ r.2.stack = s.a.stack := by
  have ht' : s.a.table (some k) = .ok os := hk ▸ ht
  have hc := subChoice_ambiguous hij hi hsub hn hp hj hsub' hn' hp' hfull
  have key : parseArgs W a (some a.root) (pre ++ arg :: post) =
      .ok (Err.ambiguousSubcommand, s.a.report Err.ambiguousSubcommand) := by
    rw [hs.parseArgs, finish_cons hs.skip, hk, honly, parseStep_ambiguous ht' hdash hc]
    rfl
  obtain ⟨h1, h2⟩ := argusParse_of_error key (by decide) (by decide) hr
  exact ⟨h1, by rw [(argusFree_frame h2).stack]; rfl⟩

/-- `prog -v ad ...`: `ad` begins both `add` (entry 8) and `admin` (entry 9). -/
example : ∃ s os o o', Reach Sample.world Sample.prog [c!"-v"] s ∧ s.only = false ∧ s.t = some 0 ∧
    s.a.table s.t = .ok os ∧ os[8]? = some o ∧ o.name = some c!"add" ∧ os[9]? = some o' ∧
    o'.name = some c!"admin" ∧ (argusParse Sample.world Sample.noEnv Sample.prog
      [c!"-v", c!"ad", c!"x"]).toOption.map (·.1) = some (.returned Err.ambiguousSubcommand) := by
  refine ⟨_, _, _, _, rfl, rfl, rfl, rfl, rfl, rfl, rfl, rfl, by decide +kernel⟩

/-- **C09** A word that begins no subcommand name selects none: the level and the command stack stay,
    and the word counts as a positional argument. -/
theorem C09_no_match_no_subcommand (W : World) (a : Argus) (pre : List Str) (arg : Str) (s s' : PState)
    (os : List Opt) (hs : Reach W a pre s) (honly : s.only = false) (ht : s.a.table s.t = .ok os)
    (hdash : arg.head? ≠ some 45)
    (hno : ∀ o ∈ os, o.type = .subcommand → ∀ n, o.name = some n → ¬ arg <+: n)
    (hs' : Reach W a (pre ++ [arg]) s') :
    s'.t = s.t ∧ s'.a.stack = s.a.stack ∧ s'.pos = s.pos + 1 := by
  obtain ⟨k, hk, _⟩ := table_eq_ok.1 ht
  have ht' : s.a.table (some k) = .ok os := hk ▸ ht
  -- the state after `pre ++ [arg]` is one step from `s`
  have h1 : parseStep W s.t s.a s.pos s.only arg [] = stepPositional W (some k) s.a s.pos false arg := by
    rw [hk, honly]; exact parseStep_plain ht' hdash hno []
  cases hst : stepPositional W (some k) s.a s.pos false arg with
  | ub u =>
    have : parseArgs W a (some a.root) (pre ++ [arg]) = .ub u := by
      rw [hs.parseArgs, finish_cons hs.skip, h1, hst]; rfl
    have h2 := hs'.parseArgs []
    rw [List.append_nil, this] at h2
    simp [PState.finish, parseLoop] at h2
  | ok st =>
    have hf := stepPositional_frame hst
    cases st with
    | enter t' a' =>
      unfold stepPositional at hst
      obtain ⟨q, _, h3⟩ := Out.bind_eq_ok hst
      split at h3 <;> simp at h3
    | done c a' =>
      exfalso
      have hne : c ≠ Err.success := by
        unfold stepPositional at hst
        obtain ⟨q, _, h3⟩ := Out.bind_eq_ok hst
        split at h3
        · rename_i hq; simp only [Out.ok.injEq, Step.done.injEq] at h3; rw [← h3.1]; exact hq
        · simp at h3
      have : parseArgs W a (some a.root) (pre ++ [arg]) = .ok (c, a') := by
        rw [hs.parseArgs, finish_cons hs.skip, h1, hst]; rfl
      have h2 := hs'.parseArgs []
      rw [List.append_nil, this] at h2
      simp only [PState.finish, parseLoop, Out.ok.injEq, Prod.mk.injEq] at h2
      exact hne h2.1
    | next a' pos' only' used =>
      have hstep : runPrefix W s [arg] = some ⟨s.t, a', pos', only', used⟩ := by
        unfold runPrefix
        rw [if_neg (by simp [hs.skip]), h1, hst]; rfl
      have := hs.append hstep
      have he : s' = ⟨s.t, a', pos', only', used⟩ := Option.some.inj (hs'.symm.trans this)
      subst he
      refine ⟨rfl, hf.stack, ?_⟩
      unfold stepPositional at hst
      obtain ⟨q, _, h3⟩ := Out.bind_eq_ok hst
      split at h3
      · simp at h3
      · simp only [Out.ok.injEq, Step.next.injEq] at h3; exact h3.2.1.symm

/-- `prog -v x`: `x` begins no subcommand name. -/
example : ∃ s s' os, Reach Sample.world Sample.prog [c!"-v"] s ∧ s.only = false ∧
    s.a.table s.t = .ok os ∧ (∀ o ∈ os, o.type = .subcommand → ∀ n, o.name = some n → ¬ c!"x" <+: n) ∧
    Reach Sample.world Sample.prog ([c!"-v"] ++ [c!"x"]) s' := by
  refine ⟨_, _, _, rfl, rfl, rfl, ?_, rfl⟩
  intro o ho ht n hn hp
  have : (subMatches Sample.root c!"x") = [] := by decide +kernel
  have hroot : ∀ o ∈ (Sample.root.set 1 ((optFlag 118 (some c!"verbose")).setBool true).markSet),
      o.type = .subcommand → (o.name.any fun n => c!"x".isPrefixOf n) = false := by decide +kernel
  have h2 := hroot o ho ht
  rw [hn] at h2
  simp only [Option.any_some] at h2
  rw [List.isPrefixOf_iff_prefix.2 hp] at h2
  exact absurd h2 (by decide)

/-! ## C34: argus_exec -/

/-- **C34** After a successful parse from a fresh context, the command stack holds exactly the
    subcommands the command line selected, in order, and they are nested. -/
theorem C34_stack_is_selected_path (W : World) (env : Env) (a a' : Argus) (args : List Str)
    (h : argusParse W env a args = .ok (.returned Err.success, a')) (hfresh : a.stack = []) :
    a'.stack = entered (a.asks args) ∧ SubChain a.tables (some a.root) a'.stack := by
  obtain ⟨a1, a2, h1, h2, h3⟩ := argusParse_success h
  have e1 : a1.stack = entered (a.asks args) := by
    rw [parseArgs_run] at h1
    rw [run_stack _ h1 (asks_no_fail0 a args), hfresh, List.nil_append]
  have e2 : a2.stack = a1.stack := (loadEnvVars_frame h2).stack
  obtain ⟨es, hes⟩ := postValidation_eq h3
  simp only at hes
  have e3 : a'.stack = entered (a.asks args) := by rw [hes, emits_stack, e2, e1]
  exact ⟨e3, by rw [e3]; exact meaning_chain _ _ _ _ _ _⟩

/-- **C34** `argus_exec` runs the action of the innermost selected subcommand and returns its result. -/
theorem C34_exec_runs_innermost (W : World) (env : Env) (a a' : Argus) (args : List Str) (p : Ptr) (o : Opt)
    (f : Nat) (h : argusParse W env a args = .ok (.returned Err.success, a')) (hfresh : a.stack = [])
    (hlast : (entered (a.asks args)).getLast? = some p) (ho : a.getOpt p = .ok o)
    (hact : o.action = some f) :
    argusExec W a' = .ok (W.action f a', some f, []) ∧ hasCommand a' = true := by
  obtain ⟨h1, _⟩ := C34_stack_is_selected_path W env a a' args h hfresh
  obtain ⟨_, _, _, hf⟩ := argusParse_frame h
  obtain ⟨o', ho', hm⟩ := shape_getOpt hf.shape ho
  have ha : o'.action = some f := (congrArg Opt.action hm : o'.meta.action = o.meta.action).trans hact
  constructor
  · unfold argusExec
    rw [h1, hlast]
    simp only [ho', Out.ok_bind, ha]
  · unfold hasCommand
    rw [h1]
    cases he : entered (a.asks args) with
    | nil => rw [he] at hlast; simp at hlast
    | cons x xs => simp

/-- **C34** A selected subcommand without an action: nothing is run. -/
theorem C34_exec_without_action (W : World) (env : Env) (a a' : Argus) (args : List Str) (p : Ptr) (o : Opt)
    (h : argusParse W env a args = .ok (.returned Err.success, a')) (hfresh : a.stack = [])
    (hlast : (entered (a.asks args)).getLast? = some p) (ho : a.getOpt p = .ok o)
    (hact : o.action = none) :
    ∃ es, argusExec W a' = .ok (Err.invalidHandler, none, es) := by
  obtain ⟨h1, _⟩ := C34_stack_is_selected_path W env a a' args h hfresh
  obtain ⟨_, _, _, hf⟩ := argusParse_frame h
  obtain ⟨o', ho', hm⟩ := shape_getOpt hf.shape ho
  have ha : o'.action = none := (congrArg Opt.action hm : o'.meta.action = o.meta.action).trans hact
  refine ⟨[.commands], ?_⟩
  unfold argusExec
  rw [h1, hlast]
  simp only [ho', Out.ok_bind, ha]

/-- **C34** Without a subcommand nothing is run. -/
theorem C34_exec_without_command (W : World) (env : Env) (a a' : Argus) (args : List Str)
    (h : argusParse W env a args = .ok (.returned Err.success, a')) (hfresh : a.stack = [])
    (hnone : entered (a.asks args) = []) :
    (∃ es, argusExec W a' = .ok (Err.noCommand, none, es)) ∧ hasCommand a' = false := by
  obtain ⟨h1, _⟩ := C34_stack_is_selected_path W env a a' args h hfresh
  rw [hnone] at h1
  refine ⟨⟨[.commands], ?_⟩, ?_⟩
  · unfold argusExec
    rw [h1]; rfl
  · unfold hasCommand
    rw [h1]; rfl

/-- `prog admin list 3 x` selects `admin` and then `list`, whose action is number 13. -/
example : ∃ a' o, argusParse Sample.world Sample.noEnv Sample.prog
      [c!"admin", c!"list", c!"3", c!"x"] = .ok (.returned Err.success, a') ∧
    entered (Sample.prog.asks [c!"admin", c!"list", c!"3", c!"x"]) = [⟨0, 9⟩, ⟨2, 2⟩] ∧
    Sample.prog.getOpt ⟨2, 2⟩ = .ok o ∧ o.action = some 13 ∧
    argusExec Sample.world a' = .ok (13, some 13, []) := by
  refine ⟨_, _, rfl, by decide +kernel, rfl, rfl, rfl⟩

/-- `prog -v` selects no subcommand. -/
example : ∃ a', argusParse Sample.world Sample.noEnv Sample.prog [c!"-v"] =
      .ok (.returned Err.success, a') ∧ entered (Sample.prog.asks [c!"-v"]) = [] :=
  ⟨_, rfl, by decide +kernel⟩

/-! ## C41: the command stack -/

/-- **C41** If subcommands are nested at most eight deep, no command line and no environment make the
    parser write past the command stack. -/
theorem C41_no_stack_overflow (W : World) (env : Env) (a : Argus) (args : List Str)
    (hfresh : a.stack = []) (hdepth : DepthAtMost a.tables (some a.root) 8) :
    argusParse W env a args ≠ .ub .stackOverflow := by
  have hrun : NoSO (parseArgs W a (some a.root) args) := by
    rw [parseArgs_run]
    refine run_noSO _ _ ?_
    rw [hfresh]
    have := hdepth _ (meaning_chain a.tables args (some a.root) 0 false false)
    simpa [Argus.asks] using this
  change NoSO _
  unfold argusParse
  refine hrun.bind (fun r _ => ?_)
  simp only
  split
  · exact (NoSO.argusFree _).bind (fun _ _ => .ok _)
  · split
    · exact (NoSO.argusFree _).bind (fun _ _ => .ok _)
    · refine (NoSO.loadEnvVars _ _ _).bind (fun e _ => ?_)
      split
      · exact (NoSO.argusFree _).bind (fun _ _ => .ok _)
      · refine (NoSO.postValidation _ _).bind (fun v _ => ?_)
        split
        · exact (NoSO.argusFree _).bind (fun _ _ => .ok _)
        · exact .ok _

/-- The sample program is nested two deep: every chain of subcommands ends in table 1. -/
theorem Sample.prog_depth : DepthAtMost Sample.prog.tables (some Sample.prog.root) 8 := by
  have leaf : ∀ (ps : List Ptr), SubChain Sample.prog.tables (some 1) ps → ps.length ≤ 0 := by
    intro ps h
    cases ps with
    | nil => simp
    | cons p ps =>
      obtain ⟨h1, os, o, h2, h3, h4, _⟩ := h
      simp only [Option.some.injEq] at h1
      rw [← h1] at h2
      have : os = Sample.add := by
        have : Sample.prog.tables[1]? = some Sample.add := rfl
        rw [this] at h2; exact (Option.some.inj h2).symm
      subst this
      have hall : ∀ o ∈ Sample.add, o.type ≠ .subcommand := by decide +kernel
      exact absurd h4 (hall o (List.mem_of_getElem? h3))
  have mid : ∀ (ps : List Ptr), SubChain Sample.prog.tables (some 2) ps → ps.length ≤ 1 := by
    intro ps h
    cases ps with
    | nil => simp
    | cons p ps =>
      obtain ⟨h1, os, o, h2, h3, h4, h5⟩ := h
      simp only [Option.some.injEq] at h1
      rw [← h1] at h2
      have : os = Sample.admin := by
        have : Sample.prog.tables[2]? = some Sample.admin := rfl
        rw [this] at h2; exact (Option.some.inj h2).symm
      subst this
      have hall : ∀ o ∈ Sample.admin, o.type = .subcommand → o.subOptions = some 1 := by decide +kernel
      rw [hall o (List.mem_of_getElem? h3) h4] at h5
      have := leaf ps h5
      simp only [List.length_cons]; omega
  intro ps h
  cases ps with
  | nil => simp
  | cons p ps =>
    obtain ⟨h1, os, o, h2, h3, h4, h5⟩ := h
    simp only [Option.some.injEq] at h1
    rw [← h1] at h2
    have : os = Sample.root := by
      have : Sample.prog.tables[Sample.prog.root]? = some Sample.root := rfl
      rw [this] at h2; exact (Option.some.inj h2).symm
    subst this
    have hall : ∀ o ∈ Sample.root, o.type = .subcommand →
        o.subOptions = some 1 ∨ o.subOptions = some 2 := by decide +kernel
    simp only [List.length_cons]
    rcases hall o (List.mem_of_getElem? h3) h4 with h6 | h6 <;> rw [h6] at h5
    · have := leaf ps h5; omega
    · have := mid ps h5; omega

/-- **C41** Nine nested subcommands do overflow the stack: the command line made of their names is
    undefined behaviour. -/
theorem C41_deeper_overflows (W : World) (env : Env) (a : Argus) (ps : List Ptr) (names : List Str)
    (hfresh : a.stack = []) (hchain : NamesChain a.tables (some a.root) ps names) (hlen : 8 < ps.length) :
    argusParse W env a names = .ub .stackOverflow := by
  have : parseArgs W a (some a.root) names = .ub .stackOverflow := by
    rw [parseArgs_run]
    unfold Argus.asks
    rw [meaning_names hchain]
    exact run_enters_overflow ps a hchain.getOpt (by rw [hfresh]; simpa using hlen) (by simp [hfresh])
  unfold argusParse
  rw [this]; rfl

/-- A subcommand whose options are the very table it is in. -/
def Sample.loop : Argus := argusInit [[helpOption, subcommand c!"again" 0]] c!"loop" none

/-- `loop again again ...` (nine times). -/
example : NamesChain Sample.loop.tables (some 0) (List.replicate 9 ⟨0, 1⟩) (List.replicate 9 c!"again") := by
  have step : ∀ ps ns, NamesChain Sample.loop.tables (some 0) ps ns →
      NamesChain Sample.loop.tables (some 0) (⟨0, 1⟩ :: ps) (c!"again" :: ns) := by
    intro ps ns h
    refine ⟨rfl, _, _, rfl, rfl, rfl, rfl, by decide, ?_, h⟩
    intro j o' n' hj ht _ _
    match j with
    | 0 =>
      simp only [List.getElem?_cons_zero, Option.some.injEq] at hj
      subst hj; exact absurd ht (by decide)
    | j + 1 => show 1 ≤ _; omega
  exact step _ _ (step _ _ (step _ _ (step _ _ (step _ _ (step _ _ (step _ _ (step _ _ (step _ _ trivial))))))))

end Argus
