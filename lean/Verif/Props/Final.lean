import Verif.Lemmas.Final
import Verif.Props.Env

/-!
# C28, exactly: what the command line and the environment make of an option

`allTexts` (Spec/Final) lists everything that is handed to an option: the texts of the command line in order, then what
the environment adds.
-/

set_option autoImplicit false

namespace Argus

/-- **C28**, exactly: a successful parse leaves every option as it was declared and then given, one by one, the texts of
    the command line and after them those of the environment. The environment adds the variable of the option for each
    time its table is used if it has FLAG_ENV_OVERRIDE; otherwise it adds it once, and only if the option has no default
    and nothing from the command line. -/
theorem C28_final_state (W : World) (env : Env) (a a' : Argus) (args : List Str) (p : Ptr) (o : Opt)
    (hok : argusParse W env a args = .ok (.returned Err.success, a'))
    (ho : a.getOpt p = .ok o) (ht : o.type ≠ .subcommand) :
    ∃ o', a'.getOpt p = .ok o' ∧ o.giveAll W (allTexts env a args p o) = some o' :=
  argusParse_texts hok ho ht

/-- **C28** is violated by every option with a default: without FLAG_ENV_OVERRIDE no environment has any effect on it. -/
theorem C28_default_wins (W : World) (env : Env) (a a' : Argus) (args : List Str) (p : Ptr) (o : Opt)
    (hok : argusParse W env a args = .ok (.returned Err.success, a'))
    (ho : a.getOpt p = .ok o) (ht : o.type ≠ .subcommand) (hset : o.isSet = true)
    (hov : o.flags.has .envOverride = false) (hcl : textsOf p (a.asks args) = []) : a'.getOpt p = .ok o := by
  obtain ⟨o', h1, h2⟩ := C28_final_state W env a a' args p o hok ho ht
  have : allTexts env a args p o = [] := by
    unfold allTexts envGives
    rw [hcl]
    simp only [List.nil_append]
    split
    · rfl
    · split
      · rfl
      · rw [if_neg (by rw [hov]; simp), if_pos (Or.inl hset)]
  rw [this] at h2
  simp only [Opt.giveAll, Option.some.injEq] at h2
  rw [h2]; exact h1

/-- NUM=7 with a default of 5: without the flag nothing is handed to the option, with it NUM is, after a value given. -/
example : ∃ o o', (Sample.envDefault 0).getOpt ⟨0, 1⟩ = .ok o ∧ o.isSet = true ∧
    allTexts (Sample.env1 c!"NUM" c!"7") (Sample.envDefault 0) [] ⟨0, 1⟩ o = [] ∧
    (Sample.envDefault (Flags.ofList [.envOverride])).getOpt ⟨0, 1⟩ = .ok o' ∧
    allTexts (Sample.env1 c!"NUM" c!"7") (Sample.envDefault (Flags.ofList [.envOverride])) [c!"--num", c!"6"] ⟨0, 1⟩ o' =
      [some c!"6", some c!"7"] := by
  refine ⟨_, _, rfl, by decide, by decide +kernel, rfl, by decide +kernel⟩

/-- PORT=80 and no default: the variable is handed to the option only if the command line does not give it. -/
example : ∃ o, Sample.prog.getOpt ⟨0, 6⟩ = .ok o ∧
    allTexts (Sample.env1 c!"PORT" c!"80") Sample.prog [c!"--port", c!"90"] ⟨0, 6⟩ o = [some c!"90"] ∧
    allTexts (Sample.env1 c!"PORT" c!"80") Sample.prog [] ⟨0, 6⟩ o = [some c!"80"] := by
  refine ⟨_, rfl, by decide +kernel, by decide +kernel⟩

/-- A program with an array of strings `--tags`, variable TAGS, with FLAG_ENV_OVERRIDE. -/
def Sample.envTags : Argus :=
  argusInit [[helpOption, { optArrayString 116 (some c!"tags") with
    envName := some c!"TAGS", flags := (optArrayString 116 none).flags ||| Flags.ofList [.envOverride] }]] c!"prog" none

/-- **C28** FLAG_ENV_OVERRIDE does not replace the elements of a collection: with TAGS=x, `prog --tags a,b` ends with
    the three elements a, b and x. -/
theorem C28_override_adds :
    (argusParse Sample.world (Sample.env1 c!"TAGS" c!"x") Sample.envTags [c!"--tags", c!"a,b"]).toOption.map (·.1) =
      some (.returned Err.success) ∧
    ((argusParse Sample.world (Sample.env1 c!"TAGS" c!"x") Sample.envTags [c!"--tags", c!"a,b"]).toOption.bind
      (fun r => (r.2.getOpt ⟨0, 1⟩).toOption)).map (·.value) =
      some (.arr [.ptr c!"a", .ptr c!"b", .ptr c!"x"]) := by
  constructor <;> decide +kernel

end Argus
