import Verif.Lemmas.IsSet
import Verif.Props.Outcome
import Verif.Props.Final
import Verif.Props.Access
import Verif.Props.EnvLine
import Verif.Props.Order

/-!
# C86: argus_is_set

`source/api/argus_value_access.c:25-33`. The documentation (`docs/docs/fundamentals/accessing-values.md`,
`docs/docs/features/subcommands.md`) recommends it for telling what the user gave from what is a default, and for telling which
subcommand was selected.
-/

set_option autoImplicit false

namespace Argus

/-- **C86** After a successful parse `argus_is_set` answers true for an option without a default exactly if the command line
    gives it a text, or if it belongs to the main program or a selected subcommand and its variable is in the environment.
    Full statement: for every option. Missing: options with a default (`C86_default_always_set`). -/
theorem C86_option_partial (W : World) (env : Env) (a a' : Argus) (args : List Str) (path : Str) (p : Ptr) (o : Opt)
    (hok : argusParse W env a args = .ok (.returned Err.success, a')) (ho : a.getOpt p = .ok o)
    (ht : o.type = .option ∨ o.type = .positional) (hs : o.isSet = false) (hp : a'.findPath path = .ok (some p)) :
    ∃ b, argusIsSet a' path = .ok (b, a') ∧ (b = true ↔ textsOf p (a.asks args) ≠ [] ∨
      (a'.OnPath p.tbl ∧ ∃ n v, envVarName a.envPrefix o = some n ∧ env n = some v)) := by
  have hns : o.type ≠ .subcommand := by rcases ht with h | h <;> rw [h] <;> simp
  obtain ⟨o', h1, h2⟩ := C28_final_state W env a a' args p o hok ho hns
  refine ⟨o'.isSet, (C32_known_path a' path o' ⟨p, hp, h1⟩).2.1, ?_⟩
  rw [onPath_iff hok, ← allTexts_ne_nil ht hs]
  constructor
  · intro h he
    rw [he] at h2
    simp only [Opt.giveAll, Option.some.injEq] at h2
    subst h2
    rw [hs] at h; cases h
  · intro h
    exact giveAll_isSet _ h2 (.inl h)

/-- **C86** is violated by every option with a default: the answer is true whatever the user gives, so that it cannot tell
    a default from the user's own value. -/
theorem C86_default_always_set (W : World) (env : Env) (a a' : Argus) (args : List Str) (path : Str) (p : Ptr) (o : Opt)
    (hok : argusParse W env a args = .ok (.returned Err.success, a')) (ho : a.getOpt p = .ok o)
    (ht : o.type ≠ .subcommand) (hs : o.isSet = true) (hp : a'.findPath path = .ok (some p)) :
    argusIsSet a' path = .ok (true, a') := by
  obtain ⟨o', h1, h2⟩ := C28_final_state W env a a' args p o hok ho ht
  have := giveAll_isSet _ h2 (.inr hs)
  rw [(C32_known_path a' path o' ⟨p, hp, h1⟩).2.1, this]

/-- **C86** After a successful parse `argus_is_set` answers true for a subcommand, found under whatever path, exactly if it is on
    the path of selected subcommands. -/
theorem C86_command (W : World) (env : Env) (a a' : Argus) (args : List Str) (path : Str) (p : Ptr) (o : Opt)
    (hx : HelpExits a.tables) (hn : ∀ os ∈ a.tables, AllNamed os)
    (hok : argusParse W env a args = .ok (.returned Err.success, a')) (ho : a.getOpt p = .ok o)
    (ht : o.type = .subcommand) (hs : o.isSet = false) (hfresh : a.stack = [])
    (hp : a'.findPath path = .ok (some p)) :
    ∃ b, argusIsSet a' path = .ok (b, a') ∧ (b = true ↔ p ∈ a'.stack) := by
  have hacc := (C75_success_iff W env a args a'.tables a'.stack hx hn).1 ⟨a', hok, rfl, rfl⟩
  obtain ⟨o', h1, h2⟩ := hacc.entries p o (placeAt_getOpt.2 ho)
  refine ⟨o'.isSet, (C32_known_path a' path o' ⟨p, hp, placeAt_getOpt.1 h1⟩).2.1, ?_⟩
  have hg : ∀ x, Act.give p x ∉ a.asks args := by
    intro x hm
    obtain ⟨os, o1, e1, e2, e3⟩ := meaning_fits _ _ _ _ _ _ _ hm
    obtain ⟨os1, e4, e5⟩ := getOpt_eq_ok.1 ho
    rw [e1, Option.some.injEq] at e4; subst e4
    rw [e2, Option.some.injEq] at e5; subst e5
    rw [ht] at e3; simp at e3
  rw [through_subcommand _ _ ht hg h2, hs, hacc.selected, hfresh]
  simp [entered, List.mem_filterMap]
  constructor
  · intro h
    exact ⟨_, h, rfl⟩
  · rintro ⟨x, h, e⟩
    cases x <;> simp at e
    subst e; exact h

/-! ## Cases -/

/-- `run` has the options `--dry` (DRY) and `--jobs` (JOBS). Under `JOBS=4 prog run` the second counts as given, under `prog run`
    none does. -/
example : ∃ a', argusParse Sample.world (fun n => if n = c!"JOBS" then some c!"4" else none) Sample.runner [c!"run"] =
      .ok (.returned Err.success, a') ∧ a'.findPath c!"run.jobs" = .ok (some ⟨1, 2⟩) ∧
    argusIsSet a' c!"run.jobs" = .ok (true, a') ∧ argusIsSet a' c!"run.dry" = .ok (false, a') := by
  refine ⟨_, rfl, by decide +kernel, ?_, ?_⟩
  · obtain ⟨b, h1, h2⟩ := C86_option_partial Sample.world (fun n => if n = c!"JOBS" then some c!"4" else none) Sample.runner _
      [c!"run"] c!"run.jobs" ⟨1, 2⟩ _ rfl rfl (.inl rfl) rfl (by decide +kernel)
    have hb : b = true := h2.2 (.inr ⟨.inr ⟨⟨0, 1⟩, by decide +kernel, _, rfl, rfl⟩, c!"JOBS", c!"4", by decide +kernel,
      by decide⟩)
    rw [hb] at h1; exact h1
  · obtain ⟨b, h1, h2⟩ := C86_option_partial Sample.world (fun n => if n = c!"JOBS" then some c!"4" else none) Sample.runner _
      [c!"run"] c!"run.dry" ⟨1, 1⟩ _ rfl rfl (.inl rfl) rfl (by decide +kernel)
    have hb : b = false := by
      cases b with
      | false => rfl
      | true =>
        rcases h2.1 rfl with h | ⟨_, n, v, h3, h4⟩
        · exact absurd (show textsOf ⟨1, 1⟩ (Sample.runner.asks [c!"run"]) = [] by decide +kernel) h
        · have h5 : envVarName Sample.runner.envPrefix
            ({ optFlag 100 (some c!"dry") with envName := some c!"DRY" } : Opt) = some c!"DRY" := by decide +kernel
          have h6 : some n = some c!"DRY" := h3.symm.trans h5
          cases h6
          exact absurd h4 (by simp)
    rw [hb] at h1; exact h1

/-- A program with a default. -/
example : ∃ a', argusParse Sample.world Sample.noEnv Sample.defaulted [] = .ok (.returned Err.success, a') ∧
    argusIsSet a' c!"num" = .ok (true, a') :=
  ⟨_, rfl, C86_default_always_set Sample.world Sample.noEnv Sample.defaulted _ [] c!"num" ⟨0, 1⟩ _ rfl rfl
    (by decide) rfl (by decide +kernel)⟩

/-- `tool service config`, where `tool config` is a command, too. -/
def Sample.twoConfigs : Argus :=
  argusInit [[helpOption, subcommand c!"config" 1 none, subcommand c!"service" 2 none], [helpOption],
    [helpOption, subcommand c!"config" 1 none]] c!"tool" none

theorem twoConfigs_helpExits : HelpExits Sample.twoConfigs.tables := helpExits_of_mem (by decide +kernel)

theorem twoConfigs_allNamed : ∀ os ∈ Sample.twoConfigs.tables, AllNamed os := by unfold AllNamed; decide +kernel

/-- `tool service config` sets `service` and `service.config`, but not `.config`. -/
example : ∃ a', argusParse Sample.world Sample.noEnv Sample.twoConfigs [c!"service", c!"config"] =
      .ok (.returned Err.success, a') ∧ argusIsSet a' c!"service" = .ok (true, a') ∧
    argusIsSet a' c!"service.config" = .ok (true, a') ∧ argusIsSet a' c!".config" = .ok (false, a') := by
  refine ⟨_, rfl, ?_, ?_, ?_⟩
  · obtain ⟨b, h1, h2⟩ := C86_command Sample.world Sample.noEnv Sample.twoConfigs _ [c!"service", c!"config"] c!"service"
      ⟨0, 2⟩ _ twoConfigs_helpExits twoConfigs_allNamed rfl rfl rfl rfl rfl (by decide +kernel)
    rw [show b = true from h2.2 (by decide +kernel)] at h1; exact h1
  · obtain ⟨b, h1, h2⟩ := C86_command Sample.world Sample.noEnv Sample.twoConfigs _ [c!"service", c!"config"]
      c!"service.config" ⟨2, 1⟩ _ twoConfigs_helpExits twoConfigs_allNamed rfl rfl rfl rfl rfl (by decide +kernel)
    rw [show b = true from h2.2 (by decide +kernel)] at h1; exact h1
  · obtain ⟨b, h1, h2⟩ := C86_command Sample.world Sample.noEnv Sample.twoConfigs _ [c!"service", c!"config"]
      c!".config" ⟨0, 1⟩ _ twoConfigs_helpExits twoConfigs_allNamed rfl rfl rfl rfl rfl (by decide +kernel)
    have hb : b = false := by
      cases b with
      | false => rfl
      | true => exact absurd (h2.1 rfl) (by decide +kernel)
    rw [hb] at h1; exact h1

/-- **C86** A bare name of a command means the innermost one of that name: after `tool service config` the name `config` counts as
    set, although the command `config` of the main program was not selected. -/
theorem C86_bare_name_is_innermost :
    ((argusParse Sample.world Sample.noEnv Sample.twoConfigs [c!"service", c!"config"]).toOption.bind
      (fun r => (argusIsSet r.2 c!"config").toOption)).map (·.1) = some true ∧
    ((argusParse Sample.world Sample.noEnv Sample.twoConfigs [c!"service", c!"config"]).toOption.map
      (fun r => r.2.stack)) = some [⟨0, 2⟩, ⟨2, 1⟩] := by
  decide +kernel

end Argus
