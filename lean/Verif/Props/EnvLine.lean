import Verif.Lemmas.EnvLine
import Verif.Props.Outcome
import Verif.Props.Env

/-!
# C84: a variable acts like the option it stands for; C85: flags in the environment

`source/core/parsing/load_env_vars.c` calls the handler of an option with the text of its variable, after the command line has been read.
-/

set_option autoImplicit false

namespace Argus

/-- **C84** Setting the variable of an option is the same as giving its text on the command line: if the arguments `args'` ask
    for everything that `args` ask for and for one text `v` more, then `args` with the variable set to `v` succeed exactly if
    `args'` do without it, and leave the same tables and the same path of subcommands. The option must not be given in `args`,
    its level must be selected, and no other entry may read the variable.
    Full statement: also for options that count as set from the start. Missing: those with a default ignore the variable
    (`C84_default_ignores_variable`), and those with FLAG_ENV_OVERRIDE read it even if they are given
    (`C28_override`). -/
theorem C84_same_as_given_partial (W : World) (env : Env) (a : Argus) (args args' : List Str) (T : List (List Opt))
    (path : List Ptr) (p : Ptr) (o : Opt) (n v : Str) (l r : List Act)
    (hx : HelpExits a.tables) (hnm : ∀ os ∈ a.tables, AllNamed os)
    (ho : placeAt a.tables p = some o) (ht : o.type = .option ∨ o.type = .positional) (hs : o.isSet = false)
    (hov : o.flags.has .envOverride = false) (hn : envVarName a.envPrefix o = some n) (hu : env n = none)
    (halone : OnlyReader a p n) (h0 : a.asks args = l ++ r) (h1 : a.asks args' = l ++ .give p (some v) :: r)
    (hfresh : textsOf p (a.asks args) = []) (hsel : p.tbl ∈ pathTables a (a.stack ++ entered (a.asks args))) :
    (∃ a', argusParse W (env.with n v) a args = .ok (.returned Err.success, a') ∧ a'.tables = T ∧ a'.stack = path) ↔
    (∃ a', argusParse W env a args' = .ok (.returned Err.success, a') ∧ a'.tables = T ∧ a'.stack = path) := by
  rw [C75_success_iff W _ a args T path hx hnm, C75_success_iff W env a args' T path hx hnm]
  exact accepted_variable ho ht hs hov hn hu halone h0 h1 hfresh (fun _ => Iff.rfl) hsel

theorem chainEnd_mem {tables : List (List Opt)} {k : Nat} : ∀ {ps : List Ptr} {t : Option Nat},
    chainEnd tables t ps = some k → t = some k ∨ k ∈ ps.filterMap (tableBelow tables)
  | [], _, h => .inl h
  | p :: ps, t, h => by
    right
    rcases chainEnd_mem (ps := ps) h with h | h
    · exact List.mem_filterMap.2 ⟨p, by simp, h⟩
    · rw [List.mem_filterMap] at h ⊢
      obtain ⟨q, h1, h2⟩ := h
      exact ⟨q, by simp [h1], h2⟩

theorem entered_map (ps : List Ptr) (r : List Act) : entered (ps.map Act.enter ++ r) = ps ++ entered r := by
  induction ps with
  | nil => rfl
  | cons p ps ih =>
    rw [List.map_cons, List.cons_append]
    show p :: entered (ps.map Act.enter ++ r) = _
    rw [ih]; rfl

theorem chainEnd_selected {a : Argus} {ps : List Ptr} {k : Nat} {r : List Act}
    (h : chainEnd a.tables (some a.root) ps = some k) :
    k ∈ pathTables a (a.stack ++ entered (ps.map Act.enter ++ r)) := by
  unfold pathTables
  rw [entered_map]
  rcases chainEnd_mem h with h | h
  · cases h; simp
  · rw [List.filterMap_append, List.filterMap_append]
    simp [h]

/-- **C84** Spelled out: `NAME=v prog sub … rest` and `prog sub … --name=v rest` are the same, for an option `--name` of the
    command that the subcommand names `sub …` select (of the main program, if there are none), if `rest` does not give it.
    Missing as above; moreover only the first 63 bytes of a long name are looked at, and a name with `=` in it cannot be
    given. -/
theorem C84_long_partial (W : World) (env : Env) (a : Argus) (ps : List Ptr) (ns rest : List Str) (k : Nat)
    (before after : List Opt) (o : Opt) (name n v : Str) (T : List (List Opt)) (path : List Ptr)
    (hx : HelpExits a.tables) (hnm : ∀ os ∈ a.tables, AllNamed os)
    (hns : NamesChain a.tables (some a.root) ps ns) (hk : chainEnd a.tables (some a.root) ps = some k)
    (hos : a.tables[k]? = some (before ++ o :: after)) (hl : o.lname = some name)
    (hfirst : ∀ x ∈ before, x.type = .option → x.lname ≠ some name) (heq : (61 : Byte) ∉ name) (hlen : name.length ≤ 63)
    (ht : o.type = .option) (hval : o.valueType ≠ .flag) (hs : o.isSet = false)
    (hov : o.flags.has .envOverride = false) (hn : envVarName a.envPrefix o = some n) (hu : env n = none)
    (halone : OnlyReader a ⟨k, before.length⟩ n) (hfresh : textsOf ⟨k, before.length⟩ (a.asks (ns ++ rest)) = []) :
    (∃ a', argusParse W (env.with n v) a (ns ++ rest) = .ok (.returned Err.success, a') ∧ a'.tables = T ∧
        a'.stack = path) ↔
    (∃ a', argusParse W env a (ns ++ (c!"--" ++ name ++ c!"=" ++ v) :: rest) = .ok (.returned Err.success, a') ∧
        a'.tables = T ∧ a'.stack = path) := by
  have hidx : (before ++ o :: after)[before.length]? = some o := by simp
  have hf : isFlagAt (before ++ o :: after) before.length = false := by
    unfold isFlagAt; rw [hidx]; simpa using hval
  have e0 := meaning_names_then hns rest
  have e1 := meaning_names_then hns ((c!"--" ++ name ++ c!"=" ++ v) :: rest)
  rw [hk] at e0
  rw [hk, meaning_attached 0 hos (longIdx_first ht hl hfirst) heq hlen, hf] at e1
  refine C84_same_as_given_partial W env a _ _ T path ⟨k, before.length⟩ o n v _ _ hx hnm ?_ (.inl ht) hs hov hn hu halone
    e0 e1 hfresh ?_
  · unfold placeAt; rw [hos]; exact hidx
  · have : a.asks (ns ++ rest) = _ := e0
    rw [this]
    exact chainEnd_selected hk

/-- **C84** The same for flags: `NAME=… prog rest` and `prog --name rest` are the same. -/
theorem C84_flag_partial (W : World) (env : Env) (a : Argus) (ps : List Ptr) (ns rest : List Str) (k : Nat)
    (before after : List Opt) (o : Opt) (name n v : Str) (T : List (List Opt)) (path : List Ptr)
    (hx : HelpExits a.tables) (hnm : ∀ os ∈ a.tables, AllNamed os)
    (hns : NamesChain a.tables (some a.root) ps ns) (hk : chainEnd a.tables (some a.root) ps = some k)
    (hos : a.tables[k]? = some (before ++ o :: after)) (hl : o.lname = some name) (hne : name ≠ [])
    (hfirst : ∀ x ∈ before, x.type = .option → x.lname ≠ some name) (heq : (61 : Byte) ∉ name) (hlen : name.length ≤ 63)
    (ht : o.type = .option) (hval : o.valueType = .flag) (hh : o.handler = some .flag) (hpre : o.validators = none)
    (hs : o.isSet = false)
    (hov : o.flags.has .envOverride = false) (hn : envVarName a.envPrefix o = some n) (hu : env n = none)
    (halone : OnlyReader a ⟨k, before.length⟩ n) (hfresh : textsOf ⟨k, before.length⟩ (a.asks (ns ++ rest)) = []) :
    (∃ a', argusParse W (env.with n v) a (ns ++ rest) = .ok (.returned Err.success, a') ∧ a'.tables = T ∧
        a'.stack = path) ↔
    (∃ a', argusParse W env a (ns ++ (c!"--" ++ name) :: rest) = .ok (.returned Err.success, a') ∧
        a'.tables = T ∧ a'.stack = path) := by
  have hidx : (before ++ o :: after)[before.length]? = some o := by simp
  have hf : isFlagAt (before ++ o :: after) before.length = true := by
    unfold isFlagAt; rw [hidx]; simpa using hval
  have e0 := meaning_names_then hns rest
  have e1 := meaning_names_then hns ((c!"--" ++ name) :: rest)
  rw [hk] at e0
  rw [hk, meaning_alone 0 hos (longIdx_first ht hl hfirst) hf hne heq hlen] at e1
  rw [C75_success_iff W _ a _ T path hx hnm, C75_success_iff W env a _ T path hx hnm]
  refine accepted_variable (p := ⟨k, before.length⟩) (o := o) (x := none) ?_ (.inl ht) hs hov hn hu halone e0 e1 hfresh ?_ ?_
  · unfold placeAt; rw [hos]; exact hidx
  · intro o'
    have hg : o.give W none = o.give W (some v) := by unfold Opt.give; rw [hh]; rfl
    constructor
    · rintro ⟨-, h2, h3⟩; exact ⟨by simp [hpre], h2, hg ▸ h3⟩
    · rintro ⟨-, h2, h3⟩; exact ⟨by simp [hpre], h2, hg ▸ h3⟩
  · have : a.asks (ns ++ rest) = _ := e0
    rw [this]
    exact chainEnd_selected hk

/-- Checks for `OnlyReader` on a concrete program. -/
theorem onlyReader_of_check {a : Argus} {p : Ptr} {n : Str}
    (h : ∀ t ∈ List.range a.tables.length, ∀ i ∈ List.range (a.tables.getD t []).length,
      ((placeAt a.tables ⟨t, i⟩).all fun o => decide (envVarName a.envPrefix o = some n → (⟨t, i⟩ : Ptr) = p)) = true) :
    OnlyReader a p n := by
  intro q o hq _ hv
  have h2 := hq
  unfold placeAt at h2
  obtain ⟨os, e1, e2⟩ := Option.bind_eq_some_iff.1 h2
  have := h q.tbl (List.mem_range.2 (List.getElem?_eq_some_iff.1 e1).1) q.idx
    (by rw [List.getD_eq_getElem?_getD, e1]; exact List.mem_range.2 (List.getElem?_eq_some_iff.1 e2).1)
  rw [show (⟨q.tbl, q.idx⟩ : Ptr) = q from rfl, hq] at this
  exact of_decide_eq_true this hv

/-- `PORT=80 prog` is `prog --port=80`: all hypotheses hold, and both succeed. -/
example : ∃ o T, (∃ a', argusParse Sample.world (Sample.noEnv.with c!"PORT" c!"80") Sample.prog [c!"x"] =
      .ok (.returned Err.success, a') ∧ a'.tables = T ∧ a'.stack = []) ∧
    (∃ a', argusParse Sample.world Sample.noEnv Sample.prog [c!"--port=80", c!"x"] =
      .ok (.returned Err.success, a') ∧ a'.tables = T ∧ a'.stack = []) ∧ placeAt T ⟨0, 6⟩ = some o ∧ o.isSet = true := by
  have hrun : ∃ a', argusParse Sample.world Sample.noEnv Sample.prog [c!"--port=80", c!"x"] =
      .ok (.returned Err.success, a') ∧ a'.stack = [] ∧ ((placeAt a'.tables ⟨0, 6⟩).map (·.isSet)) = some true := by
    refine ⟨_, rfl, by decide +kernel, by decide +kernel⟩
  obtain ⟨a', h1, h2, h3⟩ := hrun
  obtain ⟨o, ho, hset⟩ := Option.map_eq_some_iff.1 h3
  refine ⟨o, a'.tables, ?_, ⟨a', h1, rfl, h2⟩, ho, hset⟩
  refine (C84_long_partial Sample.world Sample.noEnv Sample.prog [] [] [c!"x"] 0 (Sample.root.take 6) (Sample.root.drop 7)
    _ c!"port" c!"PORT" c!"80" a'.tables [] sample_helpExits sample_allNamed trivial rfl rfl rfl (by decide +kernel)
    (by decide) (by decide) rfl (by decide) rfl (by decide) (by decide +kernel) rfl
    (onlyReader_of_check (by decide +kernel)) (by decide +kernel)).2 ⟨a', h1, rfl, h2⟩

/-- A program with a command `run` that has a flag `--dry` (variable DRY) and an option `--jobs` (variable JOBS). -/
def Sample.runner : Argus :=
  argusInit [[helpOption, subcommand c!"run" 1 none],
    [helpOption, { optFlag 100 (some c!"dry") with envName := some c!"DRY" },
      { optInt 106 (some c!"jobs") with envName := some c!"JOBS" }]] c!"prog" none

theorem runner_helpExits : HelpExits Sample.runner.tables := helpExits_of_mem (by decide +kernel)

theorem runner_allNamed : ∀ os ∈ Sample.runner.tables, AllNamed os := by unfold AllNamed; decide +kernel

/-- `JOBS=4 prog run` is `prog run --jobs=4`, which succeeds. -/
example : ∃ T, (∃ a', argusParse Sample.world (Sample.noEnv.with c!"JOBS" c!"4") Sample.runner [c!"run"] =
      .ok (.returned Err.success, a') ∧ a'.tables = T ∧ a'.stack = [⟨0, 1⟩]) := by
  have hrun : ∃ a', argusParse Sample.world Sample.noEnv Sample.runner [c!"run", c!"--jobs=4"] =
      .ok (.returned Err.success, a') ∧ a'.stack = [⟨0, 1⟩] := ⟨_, rfl, by decide +kernel⟩
  obtain ⟨a', h1, h2⟩ := hrun
  exact ⟨a'.tables, (C84_long_partial Sample.world Sample.noEnv Sample.runner [⟨0, 1⟩] [c!"run"] [] 1
    ((Sample.runner.tables.getD 1 []).take 2) [] _ c!"jobs" c!"JOBS" c!"4" a'.tables _ runner_helpExits runner_allNamed
    ⟨rfl, _, _, rfl, rfl, rfl, rfl, by decide, by
      intro j o' n' hj ht _ _
      match j with
      | 0 => cases hj; cases ht
      | j + 1 => exact Nat.le_add_left 1 j, trivial⟩ rfl rfl rfl (by decide +kernel)
    (by decide) (by decide) rfl (by decide) rfl (by decide) (by decide +kernel) rfl
    (onlyReader_of_check (by decide +kernel)) (by decide +kernel)).2 ⟨a', h1, rfl, h2⟩⟩

/-- `DRY=0 prog run` is `prog run --dry`, which succeeds. -/
example : ∃ T, (∃ a', argusParse Sample.world (Sample.noEnv.with c!"DRY" c!"0") Sample.runner [c!"run"] =
      .ok (.returned Err.success, a') ∧ a'.tables = T ∧ a'.stack = [⟨0, 1⟩]) := by
  have hrun : ∃ a', argusParse Sample.world Sample.noEnv Sample.runner [c!"run", c!"--dry"] =
      .ok (.returned Err.success, a') ∧ a'.stack = [⟨0, 1⟩] := ⟨_, rfl, by decide +kernel⟩
  obtain ⟨a', h1, h2⟩ := hrun
  exact ⟨a'.tables, (C84_flag_partial Sample.world Sample.noEnv Sample.runner [⟨0, 1⟩] [c!"run"] [] 1
    ((Sample.runner.tables.getD 1 []).take 1) ((Sample.runner.tables.getD 1 []).drop 2) _ c!"dry" c!"DRY" c!"0" a'.tables _
    runner_helpExits runner_allNamed
    ⟨rfl, _, _, rfl, rfl, rfl, rfl, by decide, by
      intro j o' n' hj ht _ _
      match j with
      | 0 => cases hj; cases ht
      | j + 1 => exact Nat.le_add_left 1 j, trivial⟩ rfl rfl rfl (by decide) (by decide +kernel)
    (by decide) (by decide) rfl rfl rfl rfl rfl (by decide) (by decide +kernel) rfl
    (onlyReader_of_check (by decide +kernel)) (by decide +kernel)).2 ⟨a', h1, rfl, h2⟩⟩

/-- **C84** is violated by options with a default: `prog --num=7` makes it 7, `NUM=7 prog` leaves the default 5. -/
theorem C84_default_ignores_variable :
    (((argusParse Sample.world Sample.noEnv (Sample.envDefault 0) [c!"--num=7"]).toOption.bind
      (fun r => (r.2.getOpt ⟨0, 1⟩).toOption)).map (·.value) = some (.word (.bits 7))) ∧
    (((argusParse Sample.world (Sample.noEnv.with c!"NUM" c!"7") (Sample.envDefault 0) []).toOption.bind
      (fun r => (r.2.getOpt ⟨0, 1⟩).toOption)).map (·.value) = some (.word (.bits 5))) := by
  refine ⟨by decide +kernel, by decide +kernel⟩

/-! ## C85 -/

/-- **C85** A bool option that takes the text of its variable becomes what the text means; texts that mean nothing are
    refused (the parse does not succeed).
    Full statement: the same for flags, as docs/docs/features/environment.md:239-243 has it. Missing: flags, of which it is
    false, see `C85_flag_any_text`. -/
theorem C85_bool_partial (W : World) (env : Env) (a a' : Argus) (args : List Str) (p : Ptr)
    (o : Opt) (n v : Str) (hok : argusParse W env a args = .ok (.returned Err.success, a'))
    (ho : a.getOpt p = .ok o) (ht : o.type ≠ .subcommand) (hg : o.type ≠ .group) (hh : o.handler = some .bool)
    (hov : o.flags.has .envOverride = false) (hset : o.isSet = false)
    (hcl : textsOf p (a.asks args) = []) (hsel : Selected a a' p)
    (hn : envVarName a.envPrefix o = some n) (hv : env n = some v) :
    ∃ o' w, a'.getOpt p = .ok o' ∧ o'.isSet = true ∧ o'.value = .word w ∧
      (MeansTrue v ∧ w.asBool = .ok true ∨ MeansFalse v ∧ w.asBool = .ok false) := by
  obtain ⟨o', -, h2, h3, h4⟩ :=
    C28_environment_over_default_partial W env a a' args p o n v hok ho ht hg hov hset hcl hsel hn hv
  obtain ⟨w, b, e1, e2, e3⟩ := h4 _ hh rfl
  obtain ⟨t1, t2⟩ := stringToBool_iff v
  refine ⟨o', w, h2, h3, e1, ?_⟩
  cases b with
  | true => exact .inl ⟨t1.1 e2, e3⟩
  | false => exact .inr ⟨t2.1 e2, e3⟩

/-- **C85** is violated by flags: whatever the text of its variable is, the flag becomes true. -/
theorem C85_flag_any_text (W : World) (env : Env) (a a' : Argus) (args : List Str) (p : Ptr)
    (o : Opt) (n v : Str) (hok : argusParse W env a args = .ok (.returned Err.success, a'))
    (ho : a.getOpt p = .ok o) (ht : o.type ≠ .subcommand) (hg : o.type ≠ .group) (hh : o.handler = some .flag)
    (hov : o.flags.has .envOverride = false) (hset : o.isSet = false)
    (hcl : textsOf p (a.asks args) = []) (hsel : Selected a a' p)
    (hn : envVarName a.envPrefix o = some n) (hv : env n = some v) :
    ∃ o' w, a'.getOpt p = .ok o' ∧ o'.isSet = true ∧ o'.value = .word w ∧ w.asBool = .ok true := by
  obtain ⟨o', h1, h2, h3, -⟩ :=
    C28_environment_over_default_partial W env a a' args p o n v hok ho ht hg hov hset hcl hsel hn hv
  unfold Opt.give at h1
  rw [hh] at h1
  have h1' : some (o.setBool true).markSet = some o' := h1
  obtain ⟨w, e1, e2⟩ := o.setBool_holds true
  cases h1'
  exact ⟨_, w, h2, h3, e1, e2⟩

/-- A program with a bool option (variable DEBUG) and a flag (variable VERBOSE), as in docs/docs/features/environment.md:217-224. -/
def Sample.documented : Argus :=
  argusInit [[helpOption, { optBool 100 (some c!"debug") with envName := some c!"DEBUG" },
    { optFlag 118 (some c!"verbose") with envName := some c!"VERBOSE" }]] c!"prog" none

/-- What the program knows of the two options after `DEBUG=d VERBOSE=v prog`. -/
def Sample.debugVerbose (d v : Str) : Option (Int × Option Bool × Option Bool) :=
  match argusParse Sample.world ((Sample.noEnv.with c!"DEBUG" d).with c!"VERBOSE" v) Sample.documented [] with
  | .ok (.returned code, a) =>
    let truth := fun i => ((a.getOpt ⟨0, i⟩).toOption.bind fun o =>
      match o.value with | .word w => w.asBool.toOption | _ => none)
    some (code, truth 1, truth 2)
  | _ => none

/-- `DEBUG=Yes VERBOSE=1` and `DEBUG=off VERBOSE=0`: the hypotheses of the theorems are met; the second leaves the flag on. -/
example : (∃ o, Sample.documented.getOpt ⟨0, 1⟩ = .ok o ∧ o.type = .option ∧ o.handler = some .bool ∧
      o.flags.has .envOverride = false ∧ o.isSet = false ∧ envVarName Sample.documented.envPrefix o = some c!"DEBUG") ∧
    (∃ o, Sample.documented.getOpt ⟨0, 2⟩ = .ok o ∧ o.type = .option ∧ o.handler = some .flag ∧
      o.flags.has .envOverride = false ∧ o.isSet = false ∧ envVarName Sample.documented.envPrefix o = some c!"VERBOSE") ∧
    MeansTrue c!"Yes" ∧ MeansFalse c!"off" ∧ MeansFalse c!"0" ∧
    Sample.debugVerbose c!"Yes" c!"1" = some (Err.success, some true, some true) ∧
    Sample.debugVerbose c!"off" c!"0" = some (Err.success, some false, some true) ∧
    Sample.debugVerbose c!"off" c!"banana" = some (Err.success, some false, some true) ∧
    (Sample.debugVerbose c!"banana" c!"0").map (·.1) ≠ some Err.success := by
  refine ⟨⟨_, rfl, rfl, rfl, by decide, rfl, by decide +kernel⟩, ⟨_, rfl, rfl, rfl, by decide, rfl, by decide +kernel⟩,
    ?_, ?_, ?_, by decide +kernel, by decide +kernel, by decide +kernel, by decide +kernel⟩
  · unfold MeansTrue; decide +kernel
  · unfold MeansFalse; decide +kernel
  · unfold MeansFalse; decide +kernel

end Argus
