import Verif.Lemmas.Stdout
import Verif.Spec.Sample
import Verif.Props.Messages

/-!
# C92: standard output carries what was asked for

A program's standard output can be used by other programs only if the library prints nothing there that was not asked for.
`handlers` and validators of the user may print what they want; what they print is not considered.
-/

set_option autoImplicit false

namespace Argus

/-- **C92** A parse that succeeds prints nothing to standard output, provided that the options that show the help or the version
    end the program (as `OPTION_HELP` and `OPTION_VERSION` do). -/
theorem C92_success (W : World) (F : Fmt) (env : Env) (a a' : Argus) (args : List Str)
    (hd : ∀ os ∈ a.tables, ∀ o ∈ os, (o.handler = some .help ∨ o.handler = some .version) → o.flags.has .exit = true)
    (h : argusParse W env a args = .ok (.returned Err.success, a')) :
    parseStdout W F env a args = .ok (some []) := by
  have hE : Everywhere Opt.DisplaysExit a := by
    intro p o ho
    obtain ⟨os, h1, h2⟩ := getOpt_eq_ok.1 ho
    exact hd os (List.mem_of_getElem? h1) o (List.mem_of_getElem? h2)
  unfold argusParse at h
  unfold parseStdout
  obtain ⟨r, hr, h⟩ := Out.bind_eq_ok h
  rw [hr, Out.ok_bind, loopStdout_run args hr]
  have hrun := hr
  rw [parseArgs_run] at hrun
  by_cases hx : r.1 = Err.shouldExit
  · rw [if_pos hx] at h
    obtain ⟨a2, _, h⟩ := Out.bind_eq_ok h
    cases h
  · rw [if_neg hx] at h ⊢
    show (if r.1 ≠ Err.success then _ else _) = _
    rw [show runStdout W F a (meaning a.tables (some a.root) 0 false false args) = Text.lit [] from
      runStdout_quiet _ hE hrun hx, Text.lit_cat, Text.lit_cat]
    by_cases h0 : r.1 = Err.success
    · simp only [h0, ne_eq, not_true_eq_false, if_false] at h ⊢
      obtain ⟨e, he, h⟩ := Out.bind_eq_ok h
      refine envStdout_quiet (r := e) (hE.of_shape ?_) he ?_
      · exact (parseLoop_frame _ hr).choose_spec.2.2.shape
      · intro hc
        rw [hc] at h
        simp only [show (Err.shouldExit : Int) ≠ Err.success by decide, not_false_eq_true, if_true] at h
        obtain ⟨a2, _, h⟩ := Out.bind_eq_ok h
        simp only [Out.ok.injEq, Prod.mk.injEq, ParseEnd.returned.injEq] at h
        exact absurd h.1 (by decide)
    · simp only [h0, ne_eq, not_false_eq_true, if_true] at h
      obtain ⟨a2, _, h⟩ := Out.bind_eq_ok h
      simp only [Out.ok.injEq, Prod.mk.injEq, ParseEnd.returned.injEq] at h
      exact absurd h.1 h0

/-- `prog -n 7 admin` prints nothing. -/
example : (∃ a', argusParse Sample.world Sample.noEnv Sample.prog [c!"-n", c!"7", c!"admin"] =
      .ok (.returned Err.success, a')) ∧
    parseStdout Sample.world Sample.fmt Sample.noEnv Sample.prog [c!"-n", c!"7", c!"admin"] = .ok (some []) := by
  obtain ⟨a', h⟩ : ∃ a', argusParse Sample.world Sample.noEnv Sample.prog [c!"-n", c!"7", c!"admin"] =
      .ok (.returned Err.success, a') := ⟨_, rfl⟩
  exact ⟨⟨a', h⟩, C92_success _ _ _ _ a' _ (by decide +kernel) h⟩

/-- **C92** If the parse ends the program, it is because of an option that was given and is declared to do so. Standard output
    has the usage line and the help, or the version, or nothing, as this option says, for the command that was selected on the
    line before it. Nothing is printed to standard error. -/
theorem C92_asked (W : World) (F : Fmt) (env : Env) (a a' : Argus) (args : List Str)
    (hb : ∀ os ∈ a.tables, ∀ o ∈ os, o.BuiltIn)
    (hd : ∀ os ∈ a.tables, ∀ o ∈ os, (o.handler = some .help ∨ o.handler = some .version) → o.flags.has .exit = true)
    (h : argusParse W env a args = .ok (.exited, a')) :
    ∃ xs p x ys o, a.asks args = xs ++ .give p x :: ys ∧ a.getOpt p = .ok o ∧ o.flags.has .exit = true ∧
      a'.stack = a.stack ++ entered xs ∧
      (o.handler = some .help → ∀ u t, displayUsage { a with stack := a'.stack } = .ok u →
        displayHelp F { a with stack := a'.stack } = .ok (some t) →
        parseStdout W F env a args = .ok (some (u ++ t))) ∧
      (o.handler = some .version → parseStdout W F env a args = .ok (some (displayVersion a))) ∧
      (o.handler ≠ some .help → o.handler ≠ some .version → parseStdout W F env a args = .ok (some [])) ∧
      (∀ (M : Wording) (text : Str), parseStderr W M env a args = .ok text → text = []) := by
  have hE : Everywhere Opt.DisplaysExit a := by
    intro p o ho
    obtain ⟨os, h1, h2⟩ := getOpt_eq_ok.1 ho
    exact hd os (List.mem_of_getElem? h1) o (List.mem_of_getElem? h2)
  have hB : Everywhere Opt.BuiltIn a := by
    intro p o ho
    obtain ⟨os, h1, h2⟩ := getOpt_eq_ok.1 ho
    have hb1 := hb os (List.mem_of_getElem? h1) o (List.mem_of_getElem? h2)
    exact ⟨hb1.handler, hb1.validators⟩
  have herr : ∀ (M : Wording) (text : Str), parseStderr W M env a args = .ok text → text = [] := by
    intro M text ht
    rcases C71_truthful W M env a a' args .exited text hb h ht with h1 | ⟨st, _, _, h1, _⟩
    · exact h1.2
    · cases h1
  unfold argusParse at h
  obtain ⟨r, hr, h⟩ := Out.bind_eq_ok h
  have hrun := hr
  rw [parseArgs_run] at hrun
  by_cases hx : r.1 = Err.shouldExit
  · rw [if_pos hx] at h
    obtain ⟨a2, hf, h⟩ := Out.bind_eq_ok h
    simp only [Out.ok.injEq, Prod.mk.injEq, true_and] at h
    subst h
    have hst : a2.stack = r.2.stack := (argusFree_frame hf).stack
    have hout : parseStdout W F env a args = runStdout W F a (a.asks args) := by
      unfold parseStdout
      rw [hr, Out.ok_bind, if_pos hx]
      exact loopStdout_run args hr
    obtain ⟨xs, p, x, ys, o, hd', e1, e2, e3, e4, e5, e6⟩ := runStdout_exit (F := F) _ hE hB (asks_no_exit a args) hrun hx
    refine ⟨xs, p, x, ys, o, e1, e2, e3, by rw [hst, e5], ?_, ?_, ?_, herr⟩
    · intro hh u t hu ht
      rw [e4] at hh; cases hh
      rw [hout, e6]
      rw [hst] at hu ht
      simp only [handlerStdout, hu, ht, Out.ok_bind, Text.lit, Text.cat, Option.map_some]
    · intro hh
      rw [e4] at hh; cases hh
      rw [hout, e6]; rfl
    · intro g1 g2
      rw [hout, e6]
      cases hd' <;> first
        | rfl
        | exact absurd e4 g1
        | exact absurd e4 g2
  · rw [if_neg hx] at h
    split at h
    · obtain ⟨a2, _, h⟩ := Out.bind_eq_ok h; cases h
    · obtain ⟨e, _, h⟩ := Out.bind_eq_ok h
      split at h
      · obtain ⟨a2, _, h⟩ := Out.bind_eq_ok h; cases h
      · obtain ⟨v, _, h⟩ := Out.bind_eq_ok h
        split at h
        · obtain ⟨a2, _, h⟩ := Out.bind_eq_ok h; cases h
        · cases h

/-- `prog -n 7 admin --help --nope` prints the usage line and the help of `admin`. -/
example : (∃ a', argusParse Sample.world Sample.noEnv Sample.prog [c!"-n", c!"7", c!"admin", c!"--help", c!"--nope"] =
      .ok (.exited, a')) ∧
    (∀ os ∈ Sample.prog.tables, ∀ o ∈ os,
      (o.handler = some .help ∨ o.handler = some .version) → o.flags.has .exit = true) ∧
    parseStdout Sample.world Sample.fmt Sample.noEnv Sample.prog [c!"-n", c!"7", c!"admin", c!"--help", c!"--nope"] =
      .ok (some (c!"Usage: prog admin [OPTIONS] COMMAND\n\nOptions:\n  -h, --help" ++ spaces 20 ++
        c!"- Show help message (exit)\n  -u, --user <STR>" ++ spaces 14 ++ c!"- \n\nCommands:\n  list" ++ spaces 26 ++
        c!"- \n\nRun 'prog admin COMMAND --help' for more information on a command.\n\n")) :=
  ⟨⟨_, rfl⟩, by decide +kernel, by decide +kernel⟩

/-- **C92** If the line is refused where it stands, standard output has the usage line of the command selected so far, and
    nothing else. If the fault is found later, in the environment or by a constraint, it has nothing.

    In full, a refused line would print nothing to standard output: the usage line is part of the report of the error, whose
    other lines go to standard error. It does not (`C92_usage_on_stdout`). -/
theorem C92_refused_partial (W : World) (F : Fmt) (env : Env) (a a' : Argus) (args : List Str) (st : Int)
    (hd : ∀ os ∈ a.tables, ∀ o ∈ os, (o.handler = some .help ∨ o.handler = some .version) → o.flags.has .exit = true)
    (h : argusParse W env a args = .ok (.returned st, a')) (h0 : st ≠ Err.success) (h1 : st ≠ Err.shouldExit) :
    ∃ st1 a1, parseArgs W a (some a.root) args = .ok (st1, a1) ∧
      (st1 = Err.success → parseStdout W F env a args = .ok (some [])) ∧
      (st1 ≠ Err.success → st1 = st ∧ ∀ u, displayUsage { a with stack := a'.stack } = .ok u →
        parseStdout W F env a args = .ok (some u)) := by
  have hE : Everywhere Opt.DisplaysExit a := by
    intro p o ho
    obtain ⟨os, h1, h2⟩ := getOpt_eq_ok.1 ho
    exact hd os (List.mem_of_getElem? h1) o (List.mem_of_getElem? h2)
  unfold argusParse at h
  obtain ⟨r, hr, h⟩ := Out.bind_eq_ok h
  obtain ⟨ext, f1, f2, hfr⟩ := parseLoop_frame _ hr
  refine ⟨r.1, r.2, hr, ?_⟩
  have hrun := hr
  rw [parseArgs_run] at hrun
  unfold parseStdout
  rw [hr, Out.ok_bind, loopStdout_run args hr]
  by_cases hx : r.1 = Err.shouldExit
  · rw [if_pos hx] at h
    obtain ⟨a2, _, h⟩ := Out.bind_eq_ok h
    cases h
  · rw [if_neg hx] at h ⊢
    show (_ → (if r.1 ≠ Err.success then _ else _) = _) ∧ (_ → _ ∧ ∀ u, _ → (if r.1 ≠ Err.success then _ else _) = _)
    rw [show runStdout W F a (meaning a.tables (some a.root) 0 false false args) = Text.lit [] from
      runStdout_quiet _ hE hrun hx, Text.lit_cat, Text.lit_cat]
    by_cases hs : r.1 = Err.success
    · simp only [hs, ne_eq, not_true_eq_false, if_false] at h ⊢
      obtain ⟨e, he, h⟩ := Out.bind_eq_ok h
      refine ⟨fun _ => ?_, fun hc => hc.elim⟩
      refine envStdout_quiet (r := e) (hE.of_shape hfr.shape) he ?_
      intro hc
      rw [hc] at h
      simp only [show (Err.shouldExit : Int) ≠ Err.success by decide, not_false_eq_true, if_true] at h
      obtain ⟨a2, _, h⟩ := Out.bind_eq_ok h
      simp only [Out.ok.injEq, Prod.mk.injEq, ParseEnd.returned.injEq] at h
      exact h1 h.1.symm
    · simp only [hs, ne_eq, not_false_eq_true, if_true] at h ⊢
      obtain ⟨a2, hf, h⟩ := Out.bind_eq_ok h
      simp only [Out.ok.injEq, Prod.mk.injEq, ParseEnd.returned.injEq] at h
      refine ⟨fun hc => hc.elim, fun _ => ⟨h.1, fun u hu => ?_⟩⟩
      have hst : a'.stack = r.2.stack := by rw [← h.2]; exact (argusFree_frame hf).stack
      rw [hst] at hu
      rw [(displays_of_bare (bare_eq hfr.shape hfr.cfg) F).1, hu]
      rfl

/-- `prog -n 7 admin --nope`: the usage line of `admin` is on standard output, the message and the advice are on standard
    error. -/
theorem C92_usage_on_stdout :
    (∃ a', argusParse Sample.world Sample.noEnv Sample.prog [c!"-n", c!"7", c!"admin", c!"--nope"] =
      .ok (.returned Err.invalidArgument, a')) ∧
    parseStdout Sample.world Sample.fmt Sample.noEnv Sample.prog [c!"-n", c!"7", c!"admin", c!"--nope"] =
      .ok (some c!"Usage: prog admin [OPTIONS] COMMAND\n") ∧
    parseStderr Sample.world Sample.words Sample.noEnv Sample.prog [c!"-n", c!"7", c!"admin", c!"--nope"] =
      .ok c!"prog: Unknown option: '--nope'\n\n\nTry 'prog admin --help' for more information.\n" :=
  ⟨⟨_, rfl⟩, by decide +kernel, by decide +kernel⟩

/-- `prog --port 0`: the fault is found by a constraint, nothing is on standard output. -/
example : (∃ a', argusParse Sample.world Sample.noEnv Sample.prog [c!"--port", c!"0"] =
      .ok (.returned Err.invalidRange, a')) ∧
    parseStdout Sample.world Sample.fmt Sample.noEnv Sample.prog [c!"--port", c!"0"] = .ok (some []) :=
  ⟨⟨_, rfl⟩, by decide +kernel⟩

end Argus
