import Verif.Lemmas.BlameCheck
import Verif.Props.Errors
import Verif.Props.Help
import Verif.Props.Safe

/-! # C71: what a failing parse prints -/

set_option autoImplicit false

namespace Argus

theorem errorCodes_tail (es : List Event) : errorCodes (es ++ [.usage none, .tryHelp]) = errorCodes es := by
  rw [errorCodes_append]; simp [errorCodes]

/-- **C71** The messages on the error stream are those whose codes are recorded, in order. -/
theorem C71_codes (W : World) (M : Wording) (env : Env) (a a' : Argus) (args : List Str) (e : ParseEnd)
    (m : List Message) (t : Str) (h : argusParse W env a args = .ok (e, a'))
    (hm : parseMessages W M env a args = .ok (m, t)) :
    ∃ es, a'.out = a.out ++ es ∧ m.map (·.1) = errorCodes es := by
  unfold argusParse at h
  unfold parseMessages at hm
  obtain ⟨r, hr, h1⟩ := Out.bind_eq_ok h
  obtain ⟨es, g1, g2⟩ := parseLoop_prints (M := M) args hr
  obtain ⟨m1, k1, hm⟩ := Out.bind_eq_ok hm
  rw [hr, Out.ok_bind] at hm
  have c1 := g2.codes m1 k1
  by_cases hx : r.1 = Err.shouldExit
  · rw [if_pos hx] at hm
    simp only [if_pos hx] at h1
    obtain ⟨a2, f1, h2⟩ := Out.bind_eq_ok h1
    simp only [Out.ok.injEq, Prod.mk.injEq] at hm h2
    rw [← h2.2, ← hm.1]
    exact ⟨es, by rw [freeOpts_out f1]; exact g1, c1⟩
  · rw [if_neg hx] at hm
    simp only [if_neg hx] at h1
    by_cases hs : r.1 ≠ Err.success
    · rw [if_pos hs] at hm h1
      obtain ⟨a2, f1, h2⟩ := Out.bind_eq_ok h1
      obtain ⟨t', _, hm⟩ := Out.bind_eq_ok hm
      simp only [Out.ok.injEq, Prod.mk.injEq] at hm h2
      rw [← h2.2, ← hm.1]
      refine ⟨es ++ [.usage none, .tryHelp], ?_, by rw [errorCodes_tail]; exact c1⟩
      rw [freeOpts_out f1]
      show (r.2.out ++ _) ++ _ = _
      rw [g1]; simp
    · rw [if_neg hs] at hm h1
      obtain ⟨q, hq, h2⟩ := Out.bind_eq_ok h1
      obtain ⟨m2, k2, hm⟩ := Out.bind_eq_ok hm
      obtain ⟨q', hq', hm⟩ := Out.bind_eq_ok hm
      rw [hq] at hq'; cases hq'
      obtain ⟨es2, g3, g4⟩ := loadEnvVars_prints (M := M) hq
      have c2 := g4.codes m2 k2
      have g3 : q.2.out = r.2.out ++ es2 := g3
      by_cases hq1 : q.1 ≠ Err.success
      · rw [if_pos hq1] at hm h2
        obtain ⟨a2, f1, h3⟩ := Out.bind_eq_ok h2
        simp only [Out.ok.injEq, Prod.mk.injEq] at hm h3
        rw [← h3.2, ← hm.1]
        refine ⟨es ++ es2, by rw [freeOpts_out f1, g3, g1]; simp, ?_⟩
        rw [List.map_append, errorCodes_append, c1, c2]
      · rw [if_neg hq1] at hm h2
        obtain ⟨v, hv, h3⟩ := Out.bind_eq_ok h2
        obtain ⟨m3, k3, hm⟩ := Out.bind_eq_ok hm
        obtain ⟨es3, g5, g6⟩ := postValidation_prints (M := M) hv
        have c3 := g6.codes m3 k3
        simp only [Out.ok.injEq, Prod.mk.injEq] at hm
        have ho : a'.out = v.2.out := by
          split at h3
          · obtain ⟨a2, f1, h4⟩ := Out.bind_eq_ok h3
            simp only [Out.ok.injEq, Prod.mk.injEq] at h4
            rw [← h4.2, freeOpts_out f1]
          · simp only [Out.ok.injEq, Prod.mk.injEq] at h3; rw [← h3.2]
        refine ⟨es ++ es2 ++ es3, by rw [ho, g5, g3, g1]; simp, ?_⟩
        rw [← hm.1]
        simp only [List.map_append, errorCodes_append, c1, c2, c3]

/-- What follows the message of a bad command line. -/
def TryWords (prog : Str) (t : Str) : Prop :=
  ∃ names, t = c!"\n\nTry '" ++ prog ++ names ++ c!" --help' for more information.\n"

/-- **C71** With built-in handlers and validators, `argus_parse` prints nothing to the error stream if it succeeds or exits;
    if it fails, it prints one line: the program name and one message, and the message is deserved. It states the code that
    is returned, and every name and text in it is that of the offending argument, variable, option or constraint. -/
theorem C71_truthful (W : World) (M : Wording) (env : Env) (a a' : Argus) (args : List Str) (e : ParseEnd) (text : Str)
    (hb : ∀ os ∈ a.tables, ∀ o ∈ os, o.BuiltIn) (h : argusParse W env a args = .ok (e, a'))
    (ht : parseStderr W M env a args = .ok text) :
    ((e = .exited ∨ e = .returned Err.success ∨ e = .returned Err.shouldExit) ∧ text = []) ∨
    ∃ st msg tail, e = .returned st ∧ st ≠ Err.success ∧ st ≠ Err.shouldExit ∧
      text = a.programName ++ c!": " ++ msg ++ c!"\n" ++ tail ∧ (tail = [] ∨ TryWords a.programName tail) ∧
      Deserved W M env a args (st, msg) := by
  have hE : Everywhere Opt.BuiltIn a := by
    intro p o ho
    obtain ⟨os, h1, h2⟩ := getOpt_eq_ok.1 ho
    have hb1 := hb os (List.mem_of_getElem? h1) o (List.mem_of_getElem? h2)
    exact ⟨hb1.handler, hb1.validators⟩
  unfold parseStderr at ht
  obtain ⟨mt, hm, ht⟩ := Out.bind_eq_ok ht
  simp only [Out.ok.injEq] at ht
  unfold argusParse at h
  unfold parseMessages at hm
  obtain ⟨r, hr, h1⟩ := Out.bind_eq_ok h
  obtain ⟨_, _, _, hfr⟩ := parseLoop_frame _ hr
  obtain ⟨hsh, hreach, hx⟩ := parseLoop_explained (M := M) hE args.length args [] (.start a) r (Nat.le_refl _) rfl rfl hr
  simp only [List.nil_append] at hreach hx
  obtain ⟨m1, k1, hm⟩ := Out.bind_eq_ok hm
  rw [hr, Out.ok_bind] at hm
  have x1 := hx m1 k1
  by_cases hx1 : r.1 = Err.shouldExit
  · rw [if_pos hx1] at hm
    simp only [if_pos hx1] at h1
    obtain ⟨a2, f1, h2⟩ := Out.bind_eq_ok h1
    simp only [Out.ok.injEq] at hm h2
    subst hm
    refine .inl ⟨.inl (by rw [Prod.mk.injEq] at h2; exact h2.1.symm), ?_⟩
    rcases x1 with ⟨_, e1⟩ | ⟨_, e1, _⟩
    · rw [← ht, e1]; rfl
    · exact absurd hx1 e1
  · rw [if_neg hx1] at hm
    simp only [if_neg hx1] at h1
    by_cases hs : r.1 ≠ Err.success
    · rw [if_pos hs] at hm h1
      obtain ⟨a2, f1, h2⟩ := Out.bind_eq_ok h1
      obtain ⟨t', k2, hm⟩ := Out.bind_eq_ok hm
      simp only [Out.ok.injEq] at hm h2
      subst hm
      rcases x1 with ⟨e1 | e1, _⟩ | ⟨_, _, msg, e1, pre, arg, rest, s, os, d1, d2, d3, d4⟩
      · exact absurd e1 hs
      · exact absurd e1 hx1
      · refine .inr ⟨r.1, msg, t', by rw [Prod.mk.injEq] at h2; exact h2.1.symm, hs, hx1, ?_, .inr ?_,
          .argument pre arg rest s os d1 d2 d3 d4⟩
        · rw [← ht, e1]; simp [Message.line]
        · unfold tryText at k2
          obtain ⟨names, _, k3⟩ := Out.bind_eq_ok k2
          simp only [Out.ok.injEq] at k3
          refine ⟨names, ?_⟩
          have hp : r.2.programName = a.programName := congrArg (·.2.2.1) hfr.cfg
          rw [← k3, hp]; simp
    · rw [if_neg hs] at hm h1
      have hs : r.1 = Err.success := by simpa using hs
      obtain ⟨s, hreach, hsa⟩ := hreach hs
      have e1 : m1 = [] := by
        rcases x1 with ⟨_, e1⟩ | ⟨e1, _⟩
        · exact e1
        · exact absurd hs e1
      obtain ⟨q, hq, h2⟩ := Out.bind_eq_ok h1
      obtain ⟨m2, k2, hm⟩ := Out.bind_eq_ok hm
      obtain ⟨q', hq', hm⟩ := Out.bind_eq_ok hm
      rw [hq] at hq'; cases hq'
      have hE1 : Everywhere Opt.BuiltIn { r.2 with errorCode := r.1 } := hE.of_shape hfr.shape
      have x2 := loadEnvVars_explained (M := M) hE1 hq m2 k2
      by_cases hq1 : q.1 ≠ Err.success
      · rw [if_pos hq1] at hm h2
        obtain ⟨a2, f1, h3⟩ := Out.bind_eq_ok h2
        simp only [Out.ok.injEq, Prod.mk.injEq] at hm h3
        rcases x2 with ⟨e2 | e2, e3⟩ | ⟨e2, e3, msg, e4, k, d1, p, o, n, v, rfl, d3, d4, d5, d6, d7, d8⟩
        · exact absurd e2 hq1
        · refine .inl ⟨.inr (.inr (by rw [← h3.1, e2])), ?_⟩
          rw [← ht, ← hm, e1, e3]; rfl
        · refine .inr ⟨q.1, msg, [], h3.1.symm, e2, e3, ?_, .inl rfl, ?_⟩
          · rw [← ht, ← hm, e1, e4]; simp [Message.line]
          · rw [← hsa] at d1 d3 d6 hfr
            refine .variable s p o n v hreach d1 d3 d4 d5 ?_ d7 d8
            rw [← hfr.envPrefix]; exact d6
      · rw [if_neg hq1] at hm h2
        have hq1 : q.1 = Err.success := by simpa using hq1
        have e2 : m2 = [] := by
          rcases x2 with ⟨_, e2⟩ | ⟨e2, _⟩
          · exact e2
          · exact absurd hq1 e2
        obtain ⟨v, hv, h3⟩ := Out.bind_eq_ok h2
        obtain ⟨m3, k3, hm⟩ := Out.bind_eq_ok hm
        simp only [Out.ok.injEq] at hm
        have hE2 := hE1.of_shape (loadEnvVars_frame hq).frame.shape
        have x3 := postValidation_explained (M := M) hE2 hv m3 k3
        have he : e = .returned v.1 := by
          split at h3
          · obtain ⟨a2, f1, h4⟩ := Out.bind_eq_ok h3
            simp only [Out.ok.injEq, Prod.mk.injEq] at h4; exact h4.1.symm
          · simp only [Out.ok.injEq, Prod.mk.injEq] at h3; exact h3.1.symm
        rcases x3 with ⟨e3, e4⟩ | ⟨e3, e4, msg, e5, k, os, d1, d2, d3⟩
        · refine .inl ⟨.inr ?_, by rw [← ht, ← hm, e1, e2, e4]; rfl⟩
          rcases e3 with e3 | e3
          · exact .inl (by rw [he, e3])
          · exact .inr (by rw [he, e3])
        · refine .inr ⟨v.1, msg, [], he, e3, e4, ?_, .inl rfl, ?_⟩
          · rw [← ht, ← hm, e1, e2, e5]; simp [Message.line]
          · refine .values s q.2 k os hreach ?_ d1 d2 d3
            have hq0 := hq
            rw [hs] at hq0
            rw [hsa, hq0, ← hq1]

/-- **C71** (full statement: for every parse). If every entry and exclusive group has a name and every subcommand a help
    text, what a parse prints to the error stream is defined whenever the parse is.
    Missing: subcommands without a help text, for which it is false, see below. -/
theorem C71_defined_partial (W : World) (M : Wording) (env : Env) (a a' : Argus) (args : List Str) (e : ParseEnd)
    (hn : a.Named) (hst : a.StackNamed) (hw : W.NullRefused) (h : argusParse W env a args = .ok (e, a')) :
    ∃ text, parseStderr W M env a args = .ok text := by
  have hS : Sayable W a := ⟨hn, hw⟩
  suffices hm : ∃ m, parseMessages W M env a args = .ok m by
    obtain ⟨m, hm⟩ := hm
    exact ⟨_, by unfold parseStderr; rw [hm]; rfl⟩
  unfold argusParse at h
  unfold parseMessages
  obtain ⟨r, hr, h1⟩ := Out.bind_eq_ok h
  obtain ⟨_, _, _, hfr⟩ := parseLoop_frame _ hr
  obtain ⟨es, g1, g2⟩ := parseLoop_prints (M := M) args hr
  obtain ⟨m1, k1⟩ := g2.defined hS
  rw [k1, hr]
  simp only [Out.ok_bind]
  by_cases hx : r.1 = Err.shouldExit
  · rw [if_pos hx]; exact ⟨_, rfl⟩
  · rw [if_neg hx]
    simp only [if_neg hx] at h1
    by_cases hs : r.1 ≠ Err.success
    · rw [if_pos hs]
      obtain ⟨names, hnm⟩ := stackNames_ok r.2.stack (parseLoop_stackNamed args hst hr)
      unfold tryText
      rw [hnm]; exact ⟨_, rfl⟩
    · rw [if_neg hs] at h1 ⊢
      obtain ⟨q, hq, h2⟩ := Out.bind_eq_ok h1
      have hS1 : Sayable W { r.2 with errorCode := r.1 } := hS.congr hfr.shape
      obtain ⟨es2, g3, g4⟩ := loadEnvVars_prints (M := M) hq
      obtain ⟨m2, k2⟩ := g4.defined hS1
      rw [k2, hq]
      simp only [Out.ok_bind]
      by_cases hq1 : q.1 ≠ Err.success
      · rw [if_pos hq1]; exact ⟨_, rfl⟩
      · rw [if_neg hq1] at h2 ⊢
        obtain ⟨v, hv, h3⟩ := Out.bind_eq_ok h2
        obtain ⟨es3, g5, g6⟩ := postValidation_prints (M := M) hv
        obtain ⟨m3, k3⟩ := g6.defined (hS1.congr (loadEnvVars_frame hq).frame.shape)
        rw [k3]; exact ⟨_, rfl⟩

/-- **C71** A proper context with names and help texts: the parse, its messages and the release are all defined. -/
theorem C71_all_defined_partial (W : World) (M : Wording) (env : Env) (a : Argus) (args : List Str) (hp : a.Proper)
    (hfresh : a.stack = []) (hdepth : DepthAtMost a.tables (some a.root) 8) (ht : a.TextsFit args env)
    (hn : a.Named) (hw : W.NullRefused) :
    ∃ e a1 a2 text, argusParse W env a args = .ok (e, a1) ∧ argusFree a1 = .ok a2 ∧
      parseStderr W M env a args = .ok text := by
  obtain ⟨e, a1, a2, h1, h2⟩ := C42_defined_partial W env a args hp hfresh hdepth ht
  obtain ⟨text, h3⟩ := C71_defined_partial W M env a a1 args e hn (by intro p hp; rw [hfresh] at hp; cases hp) hw h1
  exact ⟨e, a1, a2, text, h1, h2, h3⟩

namespace Sample

/-- The texts the library does not make itself; none is needed below. -/
def words : Wording := { fmt with
  f6 := fun _ => [], regexError := fun _ => [], regexCode := fun _ _ => -51, handler := fun _ _ _ => [],
  preValidator := fun _ _ => [], postValidator := fun _ _ => [] }

/-- A program whose subcommands have help texts. -/
def spoken : Argus := argusInit
  [[ helpOption,
     { optInt 112 (some c!"port") with validators := some [vRange 1 65535], envName := some c!"PORT" },
     { optString 109 (some c!"mode") with validators := some [vChoiceStr [c!"fast", c!"slow"]] },
     optMapInt 107 (some c!"keys"),
     { optFlag 114 (some c!"needs") with require := some [c!"port"] },
     { optFlag 99 (some c!"against") with conflict := some [c!"needs"] },
     groupBase (some c!"Group") (Flags.ofList [.exclusive]),
     optFlag 49 (some c!"one"),
     optFlag 50 (some c!"two"),
     groupBase none,
     { subcommand c!"add" 1 (some 11) with help := some c!"Add a file" },
     { subcommand c!"admin" 1 (some 12) with help := some c!"Administer" } ],
   [ helpOption ]] c!"prog" none

/-- PORT is not a number in range. -/
def portEnv : Env := fun n => if n = c!"PORT" then some c!"0" else none

end Sample

/-- The messages of the sample program; it meets the hypotheses of `C71_truthful` and of `C71_defined_partial`. -/
example : (∀ os ∈ Sample.spoken.tables, ∀ o ∈ os, o.BuiltIn) ∧ Sample.spoken.Named ∧ Sample.spoken.StackNamed ∧
    Sample.world.NullRefused := by
  refine ⟨?_, ⟨by decide +kernel, by decide +kernel⟩, (by intro p hp; cases hp), (by intro h; cases h)⟩
  intro os hos o ho
  have h1 : ∀ os ∈ Sample.spoken.tables, ∀ o ∈ os, (match o.handler with | some (.custom _) => false | _ => true) = true := by
    decide +kernel
  have h2 : ∀ os ∈ Sample.spoken.tables, ∀ o ∈ os, ∀ v ∈ o.validators.getD [],
      (match v.kind with | .custom _ => false | _ => true) = true := by
    decide +kernel
  refine ⟨fun id hid => ?_, fun v hv id hid => ?_⟩
  · have := h1 os hos o ho; rw [hid] at this; simp at this
  · have := h2 os hos o ho v hv; rw [hid] at this; simp at this

set_option maxRecDepth 20000 in
example : parseStderr Sample.world Sample.words Sample.noEnv Sample.spoken [c!"ad"] = .ok
    (c!"prog: 'ad' is ambigous and could match:\n  'add' - Add a file\n  'admin' - Administer\n" ++
     c!"\n\nTry 'prog --help' for more information.\n") := by decide +kernel

set_option maxRecDepth 20000 in
example : parseStderr Sample.world Sample.words Sample.noEnv Sample.spoken [c!"add", c!"--porto"] = .ok
    (c!"prog: Unknown option: '--porto'\n\n\nTry 'prog add --help' for more information.\n") := by decide +kernel

set_option maxRecDepth 20000 in
example : parseStderr Sample.world Sample.words Sample.noEnv Sample.spoken [c!"-k", c!"a=1,b=x"] = .ok
    (c!"prog: Invalid integer value for key 'b': 'x'\n\n\nTry 'prog --help' for more information.\n") := by
  decide +kernel

set_option maxRecDepth 20000 in
example : parseStderr Sample.world Sample.words Sample.noEnv Sample.spoken [c!"-12"] = .ok
    (c!"prog: Exclusive options group 'Group' conflict: 'one' and 'two'\n") := by decide +kernel

set_option maxRecDepth 20000 in
example : parseStderr Sample.world Sample.words Sample.noEnv Sample.spoken [c!"-m", c!"idle"] = .ok
    (c!"prog: Value 'idle' is not one of [fast|slow]\n") := by decide +kernel

set_option maxRecDepth 20000 in
example : parseStderr Sample.world Sample.words Sample.portEnv Sample.spoken [] = .ok
    (c!"prog: Value 0 is out of range 1-65535\n") := by decide +kernel

/-- **C71** Without help texts it is false: a prefix of two subcommands without help makes the parser print NULL with `%s`,
    although the parse is defined otherwise. -/
theorem C71_undefined :
    (∃ a', argusParse Sample.world Sample.noEnv Sample.prog [c!"ad"] = .ok (.returned Err.ambiguousSubcommand, a')) ∧
    ∀ M, parseStderr Sample.world M Sample.noEnv Sample.prog [c!"ad"] = .ub .nullDeref :=
  ⟨⟨_, rfl⟩, fun _ => rfl⟩

/-- **C71** A message about a value out of range does not tell which option it was given for: `-a 0` and `-b 0` print the
    same. -/
theorem C71_unnamed :
    let prog := argusInit [[{ optInt 97 (some c!"alpha") with validators := some [vRange 1 9] },
      { optInt 98 (some c!"beta") with validators := some [vRange 1 9] }]] c!"prog" none
    parseStderr Sample.world Sample.words Sample.noEnv prog [c!"-a", c!"0"] =
      .ok c!"prog: Value 0 is out of range 1-9\n" ∧
    parseStderr Sample.world Sample.words Sample.noEnv prog [c!"-b", c!"0"] =
      .ok c!"prog: Value 0 is out of range 1-9\n" := by decide +kernel

end Argus
