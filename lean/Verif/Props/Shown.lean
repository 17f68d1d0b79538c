import Verif.Lemmas.Shown
import Verif.Lemmas.FrameApi
import Verif.Lemmas.Prefix
import Verif.Props.Exit
import Verif.Props.Help

/-!
# C68: what is displayed depends on the declarations and the selected command only
-/

set_option autoImplicit false

namespace Argus

theorem displays_of_bare {a b : Argus} (h : b.bare = a.bare) (F : Fmt) :
    displayUsage b = displayUsage a ∧ displayHelp F b = displayHelp F a ∧
    displayAllCommands b = displayAllCommands a ∧ displayVersion b = displayVersion a := by
  refine ⟨?_, ?_, ?_, ?_⟩
  · rw [← bare_displayUsage, h, bare_displayUsage]
  · rw [← bare_displayHelp, h, bare_displayHelp]
  · rw [← bare_displayAllCommands, h, bare_displayAllCommands]
  · have hb : ∀ c : Argus, displayVersion c.bare = displayVersion c := fun _ => rfl
    rw [← hb b, h, hb]

/-- **C68** After a parse, whatever its arguments, its environment and its end, the usage line, the help, the overview
    of commands and the version are those of the program as declared, at the commands selected. -/
theorem C68_after_parse (W : World) (env : Env) (F : Fmt) (a : Argus) (args : List Str) (r : ParseEnd × Argus)
    (h : argusParse W env a args = .ok r) :
    displayUsage r.2 = displayUsage { a with stack := r.2.stack } ∧
    displayHelp F r.2 = displayHelp F { a with stack := r.2.stack } ∧
    displayAllCommands r.2 = displayAllCommands { a with stack := r.2.stack } ∧
    displayVersion r.2 = displayVersion { a with stack := r.2.stack } := by
  obtain ⟨ext, _, _, hf⟩ := argusParse_frame h
  exact displays_of_bare (bare_eq hf.shape hf.cfg) F

/-- The values that were given are not in the help of the level that was selected. -/
example : ∃ r, argusParse Sample.world Sample.noEnv Sample.prog [c!"-n", c!"7", c!"admin"] = .ok r ∧
    r.2.tables ≠ Sample.prog.tables ∧ r.2.stack.length = 1 ∧
    displayUsage r.2 = .ok c!"Usage: prog admin [OPTIONS] COMMAND\n" :=
  ⟨_, rfl, by decide +kernel, by decide +kernel, by decide +kernel⟩

theorem Reach.sameDecl {W : World} {a : Argus} {pre : List Str} {s : PState} (h : Reach W a pre s) :
    s.a.shape = a.shape ∧ s.a.cfg = a.cfg := by
  have h1 := h.parseArgs []
  rw [List.append_nil] at h1
  have h2 : s.finish W [] = .ok (Err.success, s.a) := rfl
  rw [h2] at h1
  obtain ⟨_, _, _, hf⟩ := parseLoop_frame _ h1
  exact ⟨hf.shape, hf.cfg⟩

/-- **C68** When `--help`, or another exiting option, is met after the arguments `pre`, the texts that its handler
    shows are those of the program as declared, at the commands selected by `pre`: values given before do not show. -/
theorem C68_at_exit (W : World) (F : Fmt) (a : Argus) (pre : List Str) (s : PState) (hs : Reach W a pre s) :
    displayUsage s.a = displayUsage { a with stack := s.a.stack } ∧
    displayHelp F s.a = displayHelp F { a with stack := s.a.stack } ∧
    displayVersion s.a = displayVersion { a with stack := s.a.stack } := by
  obtain ⟨h1, h2⟩ := hs.sameDecl
  obtain ⟨g1, g2, _, g4⟩ := displays_of_bare (bare_eq h1 h2) F
  exact ⟨g1, g2, g4⟩

/-- `prog -n 7 admin --help`. -/
example : ∃ s, Reach Sample.world Sample.prog [c!"-n", c!"7", c!"admin"] s ∧ s.t = some 2 ∧
    s.a.tables ≠ Sample.prog.tables ∧
    displayHelp Sample.fmt s.a = .ok (some (c!"\nOptions:\n  -h, --help" ++ spaces 20 ++
      c!"- Show help message (exit)\n  -u, --user <STR>" ++ spaces 14 ++ c!"- \n\nCommands:\n  list" ++ spaces 26 ++
      c!"- \n\nRun 'prog admin COMMAND --help' for more information on a command.\n\n")) :=
  ⟨_, rfl, by decide +kernel, by decide +kernel, by decide +kernel⟩

/-- **C68** Two command lines that select the same command show the same help there. -/
theorem C68_same_command (W : World) (F : Fmt) (a : Argus) (pre pre' : List Str) (s s' : PState)
    (hs : Reach W a pre s) (hs' : Reach W a pre' s') (hst : s.a.stack = s'.a.stack) :
    displayUsage s.a = displayUsage s'.a ∧ displayHelp F s.a = displayHelp F s'.a := by
  have h1 := C68_at_exit W F a pre s hs
  have h2 := C68_at_exit W F a pre' s' hs'
  rw [hst] at h1
  exact ⟨h1.1.trans h2.1.symm, h1.2.1.trans h2.2.1.symm⟩

/-- **C68** The version text: the name of the program, ` v` and the version if there is one, and the description after
    an empty line if there is one. -/
theorem C68_version (a : Argus) (name : Str) (hn : a.programName = name) :
    (∀ v d, a.version = some v → a.description = some d →
      displayVersion a = name ++ c!" v" ++ v ++ c!"\n\n" ++ d ++ c!"\n") ∧
    (∀ v, a.version = some v → a.description = none → displayVersion a = name ++ c!" v" ++ v ++ c!"\n") ∧
    (∀ d, a.version = none → a.description = some d → displayVersion a = name ++ c!"\n\n" ++ d ++ c!"\n") ∧
    (a.version = none → a.description = none → displayVersion a = name ++ c!"\n") := by
  unfold displayVersion
  subst hn
  refine ⟨?_, ?_, ?_, ?_⟩
  · intro v d h1 h2; rw [h1, h2]; simp
  · intro v h1 h2; rw [h1, h2]; simp
  · intro d h1 h2; rw [h1, h2]; simp
  · intro h1 h2; rw [h1, h2]; simp

example : displayVersion { Sample.prog with version := some c!"1.2", description := some c!"A tool" } =
    c!"prog v1.2\n\nA tool\n" := by decide +kernel

end Argus
