import Verif.Lemmas.Advice
import Verif.Spec.Sample
import Verif.Props.Messages

/-!
# C89: the advice to ask for help can be followed

When `argus_parse` refuses a command line it ends its message with `Try 'prog command … --help' for more information.`
-/

set_option autoImplicit false

namespace Argus

/-- **C89** If the command line is refused, what is printed ends with the advice, and the words of the advice, typed as
    they are printed, show the help of the command in which the fault was found, in any environment, and end the program
    there. The commands are the first ones that the refused line selects.
    (An abbreviated command is named in full.)
    Missing: the advice is not given for faults found later, in the environment or by the validators
    (`C89_no_advice_later`). -/
theorem C89_advice_partial (W : World) (M : Wording) (env : Env) (a a1 : Argus) (args : List Str) (st : Int) (text : Str)
    (hfresh : a.stack = []) (hh : a.Helpful) (h : parseArgs W a (some a.root) args = .ok (st, a1))
    (h0 : st ≠ Err.success) (h1 : st ≠ Err.shouldExit) (ht : parseStderr W M env a args = .ok text) :
    ∃ (ms : List Message) (ns : List Str) (t : Nat),
      text = (ms.map (Message.line a.programName)).flatten ++ advice a.programName ns ∧
      a1.stack <+: entered (a.asks args) ∧ chainEnd a.tables (some a.root) a1.stack = some t ∧
      ∀ (W' : World) (env' : Env), ∃ a2, argusParse W' env' a (ns ++ [c!"--help"]) = .ok (.exited, a2) ∧
        a2.out = a.out ++ [.usage (some t), .help (some t)] ∧ a2.stack = a1.stack := by
  obtain ⟨ext, f1, f2, f3⟩ := parseLoop_frame _ h
  have hr := h
  rw [parseArgs_run] at hr
  obtain ⟨xs, g1, g2⟩ := run_stack_prefix _ hr
  rw [hfresh, List.nil_append] at g2
  have hc : SubChain a.tables (some a.root) a1.stack := by
    rw [g2]; exact (meaning_chain a.tables args (some a.root) 0 false false).mono g1
  obtain ⟨ns', hns'⟩ := meaning_chain_named hh.dashes args (some a.root) 0 false false
  obtain ⟨ns, _, hns⟩ := hns'.mono (g2 ▸ g1 : a1.stack <+: _)
  have hl : a1.stack.length ≤ 8 := by
    by_cases he : ext = []
    · rw [show a1.stack = ([] : List Ptr) by
        have : a1.stack = a.stack ++ ext := f1
        rw [this, hfresh, he]; rfl]
      simp
    · exact f2 he
  obtain ⟨t, k1, _⟩ := SubChain.end hh.subs hh.root hc
  unfold parseStderr at ht
  obtain ⟨mt, hm, ht⟩ := Out.bind_eq_ok ht
  simp only [Out.ok.injEq] at ht
  unfold parseMessages at hm
  obtain ⟨m, _, hm⟩ := Out.bind_eq_ok hm
  rw [h, Out.ok_bind] at hm
  simp only [if_neg h1, if_pos h0, tryText] at hm
  rw [hns.printed f3.shape] at hm
  simp only [Out.ok_bind, Out.ok.injEq] at hm
  have hp : a1.programName = a.programName := congrArg (fun c => c.2.2.1) f3.cfg
  refine ⟨m, ns, t, ?_, g2 ▸ g1, k1, fun W' env' => ?_⟩
  · rw [← ht, ← hm, hp]
    unfold advice
    simp
  · obtain ⟨a2, t', k2, k3, k4, k5⟩ := parse_help (W := W') (env := env') hfresh hh hns hc hl
    rw [k1] at k2
    cases k2
    exact ⟨a2, k3, k4, k5⟩

theorem Sample.prog_helpful : Sample.prog.Helpful := by
  refine ⟨?_, ?_, by decide, ?_, ?_⟩
  · have h : ∀ os ∈ Sample.prog.tables, ∀ o ∈ os, o.type = .subcommand → o.name.all (fun n => n.head? != some 45) = true := by
      decide +kernel
    intro os h1 o h2 h3 n h4
    have := h os h1 o h2 h3
    rw [h4] at this
    simpa using this
  · intro os hos
    refine ⟨[], helpOption, os.tail, ?_, by simp, rfl, rfl, rfl, rfl, by decide, by simp [helpOption, optionBase]⟩
    have h : ∀ os ∈ Sample.prog.tables, os.head? = some helpOption := by
      intro os h
      rcases (by simpa [Sample.prog, argusInit] using h : os = Sample.root ∨ os = Sample.add ∨ os = Sample.admin) with
        rfl | rfl | rfl <;> rfl
    cases os with
    | nil => simpa using h _ hos
    | cons o os => simpa using h _ hos
  · have h : ∀ os ∈ Sample.prog.tables, ∀ o ∈ os, o.type = .subcommand → (o.subOptions.any (· < 3)) = true := by
      decide +kernel
    intro os h1 o h2 h3
    have := h os h1 o h2 h3
    obtain ⟨k, h4, h5⟩ := (Option.any_eq_true _ _).1 this
    exact ⟨k, h4, of_decide_eq_true h5⟩
  · decide +kernel

/-- `prog -v adm li --nope` is refused in `list`, and the advice is `Try 'prog admin list --help'`. -/
example : ∃ a1, parseArgs Sample.world Sample.prog (some Sample.prog.root) [c!"-v", c!"adm", c!"li", c!"--nope"] =
      .ok (Err.invalidArgument, a1) ∧ a1.stack = [⟨0, 9⟩, ⟨2, 2⟩] ∧
    parseStderr Sample.world Sample.words Sample.noEnv Sample.prog [c!"-v", c!"adm", c!"li", c!"--nope"] =
      .ok (c!"prog: Unknown option: '--nope'\n" ++ advice c!"prog" [c!"admin", c!"list"]) :=
  ⟨_, rfl, rfl, by decide +kernel⟩

/-- **C89** The advice is not given for faults that are found after the command line was read: then only messages are
    printed. -/
theorem C89_no_advice_later (W : World) (M : Wording) (env : Env) (a a1 : Argus) (args : List Str) (r : List Message × Str)
    (h : parseArgs W a (some a.root) args = .ok (Err.success, a1)) (hm : parseMessages W M env a args = .ok r) :
    r.2 = [] := by
  unfold parseMessages at hm
  obtain ⟨m, _, hm⟩ := Out.bind_eq_ok hm
  rw [h, Out.ok_bind] at hm
  simp only [if_neg (show Err.success ≠ Err.shouldExit by decide), ne_eq, not_true_eq_false, if_false] at hm
  obtain ⟨m2, _, hm⟩ := Out.bind_eq_ok hm
  obtain ⟨e, _, hm⟩ := Out.bind_eq_ok hm
  split at hm
  · simp only [Out.ok.injEq] at hm; rw [← hm]
  · obtain ⟨m3, _, hm⟩ := Out.bind_eq_ok hm
    simp only [Out.ok.injEq] at hm; rw [← hm]

/-- `prog --port 0` fails without advice, although the documentation promises it for every parsing error. -/
theorem C89_silent_case :
    (argusParse Sample.world Sample.noEnv Sample.prog [c!"--port", c!"0"]).toOption.map (·.1) =
      some (.returned Err.invalidRange) ∧
    parseStderr Sample.world Sample.words Sample.noEnv Sample.prog [c!"--port", c!"0"] =
      .ok c!"prog: Value 0 is out of range 1-65535\n" := by
  constructor <;> decide +kernel

end Argus
