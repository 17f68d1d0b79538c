import Verif.Lemmas.Context
import Verif.Props.Outcome
import Verif.Props.Validation

/-!
# C88: validators that look at other options see the outcome of the parse

docs/docs/advanced/custom-validators.md:154-188, "Context-Aware Validation".
-/

set_option autoImplicit false

namespace Argus

/-- **C88** A parse whose validators may look at everything succeeds with `a'` exactly if it does so with validators that are shown
    `a'` itself, whenever they are called: all of them see the outcome. -/
theorem C88_see_the_outcome (W : World) (V : Overview) (env : Env) (a a' : Argus) (args : List Str) :
    argusParseIn W V env a args = .ok (.returned Err.success, a') ↔
      argusParse (W.seeing V a'.silent) env a args = .ok (.returned Err.success, a') :=
  argusParseIn_success

/-- **C88** After success, every validator of every set option on the command path is met by the outcome. -/
theorem C88_all_met (W : World) (V : Overview) (env : Env) (a a' : Argus) (args : List Str)
    (hok : argusParseIn W V env a args = .ok (.returned Err.success, a')) (hn : ∀ os ∈ a.tables, AllNamed os)
    (k : Nat) (hk : a'.OnPath k) (os : List Opt) (hos : a'.tables[k]? = some os) (o : Opt) (ho : o ∈ os)
    (ht : o.type ≠ .group) (hs : o.isSet = true) (id : Nat) (v : Validator) (hv : v ∈ o.validators.getD [])
    (hp : v.order = .post) (hc : v.kind = .custom id) : (V id a'.silent o).1 = Err.success := by
  have h := (C26_success_satisfies _ env a a' args ((C88_see_the_outcome W V env a a' args).1 hok) hn k hk os hos).validators
    o ho ht hs v hv hp
  rw [hc] at h
  exact h

/-- **C88** The outcomes of a parse whose validators may look at everything, told without the order in which things happen: each
    entry goes through its texts, and what the tables declare holds, the validators being shown the result. -/
theorem C88_success_iff (W : World) (V : Overview) (env : Env) (a : Argus) (args : List Str) (T : List (List Opt))
    (path : List Ptr) (hx : HelpExits a.tables) (hn : ∀ os ∈ a.tables, AllNamed os) :
    (∃ a', argusParseIn W V env a args = .ok (.returned Err.success, a') ∧ a'.tables = T ∧ a'.stack = path) ↔
      Accepted (W.seeing V (a.holding T path).silent) env a args T path := by
  rw [← C75_success_iff _ env a args T path hx hn]
  constructor
  · rintro ⟨a', h, rfl, rfl⟩
    have h1 := (C88_see_the_outcome W V env a a' args).1 h
    refine ⟨a', ?_, rfl, rfl⟩
    rw [← argusParse_holding h1]
    exact h1
  · rintro ⟨a', h, rfl, rfl⟩
    refine ⟨a', (C88_see_the_outcome W V env a a' args).2 ?_, rfl, rfl⟩
    rw [argusParse_holding h]
    exact h

/-- **C88** The order of the command line does not matter to such validators: two readable lines that ask the same of every entry
    and select the same path have the same outcome. -/
theorem C88_mixture_irrelevant (W : World) (V : Overview) (env : Env) (a : Argus) (args args' : List Str)
    (hx : HelpExits a.tables) (hn : ∀ os ∈ a.tables, AllNamed os)
    (hr : ∀ x ∈ a.asks args', x ≠ .noTable ∧ ∀ c, x ≠ .fail c)
    (hs : ∀ p, actsOn p (a.asks args') = actsOn p (a.asks args))
    (he : entered (a.asks args') = entered (a.asks args)) (a1 : Argus)
    (h : argusParseIn W V env a args = .ok (.returned Err.success, a1)) :
    ∃ a2, argusParseIn W V env a args' = .ok (.returned Err.success, a2) ∧ a2.tables = a1.tables ∧ a2.stack = a1.stack := by
  have h1 := (C88_see_the_outcome W V env a a1 args).1 h
  obtain ⟨a2, h2, e1, e2⟩ := C75_mixture_irrelevant _ env a args args' hx hn hr hs he a1 h1
  refine ⟨a2, (C88_see_the_outcome W V env a a2 args').2 ?_, e1, e2⟩
  have : a2.silent = a1.silent := by rw [argusParse_holding h2, argusParse_holding h1, e1, e2]
  rw [this]
  exact h2

/-- **C88** What a validator reads with `argus_get` is what the program reads after the parse. -/
theorem C88_reads_the_same (a : Argus) (path : Str) :
    (argusGet a.silent path).toOption.map (·.1) = (argusGet a path).toOption.map (·.1) ∧
    (argusIsSet a.silent path).toOption.map (·.1) = (argusIsSet a path).toOption.map (·.1) ∧
    (argusCount a.silent path).toOption.map (·.1) = (argusCount a path).toOption.map (·.1) := by
  unfold argusGet argusIsSet argusCount
  rw [lookup_silent]
  cases a.lookup path with
  | ub u => exact ⟨rfl, rfl, rfl⟩
  | ok r => cases r <;> exact ⟨rfl, rfl, rfl⟩

/-- **C88** Validators are not called before the command line and the environment are read: if the command line is refused or ends
    the program, or if the environment is refused, validators make no difference. -/
theorem C88_not_called_early (W : World) (V V' : Overview) (env : Env) (a : Argus) (args : List Str) (r : Int × Argus)
    (hr : parseArgs W a (some a.root) args = .ok r)
    (h : r.1 ≠ Err.success ∨ ∃ e, loadEnvVars W env { r.2 with errorCode := r.1 } = .ok e ∧ e.1 ≠ Err.success) :
    argusParseIn W V env a args = argusParseIn W V' env a args := by
  unfold argusParseIn
  rw [hr]
  simp only [Out.ok_bind]
  rcases h with h | ⟨e, he, h⟩
  · rw [if_pos h, if_pos h]
  · rw [he]
    simp only [Out.ok_bind]
    rw [if_pos h, if_pos h]

/-- **C88** A run with validators that may look at everything is a run with validators that see their option only. So what the
    other properties say of every single run holds here too. -/
theorem C88_single_run (W : World) (V : Overview) (env : Env) (a : Argus) (args : List Str) :
    ∃ f, argusParseIn W V env a args = argusParse (W.withPost f) env a args := by
  cases h : atValidation W env a args with
  | ok e => exact ⟨fun id o => V id e.2.silent o, argusParseIn_eq _ env a args e h (fun _ _ => rfl)⟩
  | ub u => exact ⟨fun _ _ => (0, none), argusParseIn_ub (fun _ _ => (0, none)) env a args u h⟩

/-- **C88** Validators that do not look at `argus` are the ones of the other properties. -/
theorem C88_local (W : World) (f : Nat → Opt → VRes) (env : Env) (a : Argus) (args : List Str) :
    argusParseIn W (fun id _ o => f id o) env a args = argusParse (W.withPost f) env a args := by
  cases h : atValidation W env a args with
  | ok e => exact argusParseIn_eq f env a args e h (fun _ _ => rfl)
  | ub u => exact argusParseIn_ub f env a args u h

/-! ## The documented program -/

/-- `--max 3 --min 5` and `--min 5 --max 3` are both refused, although `--min` has no value yet when the first one reads `--max`;
    `--max 7 --min 5` is accepted, and so it is with the minimum from the environment. -/
theorem C88_documented_case :
    (argusParseIn Sample.world Sample.overview Sample.noEnv Sample.bounds
      [c!"--max", c!"3", c!"--min", c!"5"]).toOption.map (·.1) = some (.returned Err.invalidValue) ∧
    (argusParseIn Sample.world Sample.overview Sample.noEnv Sample.bounds
      [c!"--min", c!"5", c!"--max", c!"3"]).toOption.map (·.1) = some (.returned Err.invalidValue) ∧
    (argusParseIn Sample.world Sample.overview Sample.noEnv Sample.bounds
      [c!"--max", c!"7", c!"--min", c!"5"]).toOption.map (·.1) = some (.returned Err.success) ∧
    (argusParseIn Sample.world Sample.overview (fun n => if n = c!"MIN" then some c!"9" else none) Sample.bounds
      [c!"--max", c!"7"]).toOption.map (·.1) = some (.returned Err.invalidValue) := by
  decide +kernel

/-- **C88** The documented validator asks for `min` by its bare name, which is looked up in the innermost command first. Under a
    subcommand with an option of that name it compares with that one: `--max 3 --min 5 run` is accepted. -/
theorem C88_documented_shadowed :
    (argusParseIn Sample.world Sample.overview Sample.noEnv Sample.bounds
      [c!"--max", c!"3", c!"--min", c!"5"]).toOption.map (·.1) = some (.returned Err.invalidValue) ∧
    (argusParseIn Sample.world Sample.overview Sample.noEnv Sample.bounds
      [c!"--max", c!"3", c!"--min", c!"5", c!"run"]).toOption.map (·.1) = some (.returned Err.success) ∧
    (argusParseIn Sample.world Sample.overview Sample.noEnv Sample.bounds
      [c!"--max", c!"3", c!"run", c!"--min", c!"5"]).toOption.map (·.1) = some (.returned Err.invalidValue) := by
  decide +kernel

/-- The hypotheses of `C88_all_met` and `C88_success_iff` hold of it. -/
example : HelpExits Sample.bounds.tables ∧ (∀ os ∈ Sample.bounds.tables, AllNamed os) ∧
    ∃ a', argusParseIn Sample.world Sample.overview Sample.noEnv Sample.bounds
      [c!"--max", c!"7", c!"--min", c!"5"] = .ok (.returned Err.success, a') :=
  ⟨helpExits_of_mem (by decide +kernel), by unfold AllNamed; decide +kernel, _, rfl⟩

end Argus
