import Verif.Lemmas.FirstFaultLevel
import Verif.Props.Outcome

/-! Property C95: of several faults the first is reported. -/

set_option autoImplicit false

namespace Argus

/-- **C95** How a parse ends that does not succeed: exactly with the first fault. Faults of the line come first, in the
    order of the line; then those of the environment, in the order of the tables on the command path; then those of the
    declarations, level by level and entry by entry. -/
theorem C95_first_fault (W : World) (env : Env) (a a' : Argus) (args : List Str) (e : ParseEnd) (hx : HelpExits a.tables)
    (hn : ∀ os ∈ a.tables, AllNamed os) (h : argusParse W env a args = .ok (e, a')) (f : ParseEnd) :
    FirstFault W env a args f ↔ f = e ∧ f ≠ .returned Err.success := by
  constructor
  · intro hf
    by_cases he : e = .returned Err.success
    · subst he
      exact (firstFault_not_accepted hf ((argusParse_accepted hx hn).1 ⟨a', h, rfl, rfl⟩)).elim
    · have := firstFault_one (argusParse_fault hx hn h he) hf
      subst this
      exact ⟨rfl, he⟩
  · rintro ⟨rfl, he⟩
    exact argusParse_fault hx hn h he

/-- **C95** There is one first fault only. -/
theorem C95_one_fault (W : World) (env : Env) (a : Argus) (args : List Str) (e f : ParseEnd) (h : FirstFault W env a args e)
    (h' : FirstFault W env a args f) : f = e :=
  firstFault_one h h'

/-- **C95** What can be accepted has no fault, and what has one is not accepted. -/
theorem C95_fault_or_accepted (W : World) (env : Env) (a a' : Argus) (args : List Str) (e : ParseEnd) (hx : HelpExits a.tables)
    (hn : ∀ os ∈ a.tables, AllNamed os) (h : argusParse W env a args = .ok (e, a')) :
    (∃ f, FirstFault W env a args f) ↔ ¬ ∃ T path, Accepted W env a args T path := by
  constructor
  · rintro ⟨f, hf⟩ ⟨T, path, ha⟩
    exact firstFault_not_accepted hf ha
  · intro hno
    refine ⟨e, argusParse_fault hx hn h fun he => hno ?_⟩
    subst he
    exact ⟨_, _, (argusParse_accepted hx hn).1 ⟨a', h, rfl, rfl⟩⟩

/-- The rest of the line does not count for a fault on it. -/
theorem lineStops_rest {W : World} {a : Argus} {args args' : List Str} {st : Int} {done rest rest' : List Act} {act : Act}
    (h : LineStops W a args st done act rest) (h' : a.asks args' = done ++ act :: rest') : LineStops W a args' st done act rest' :=
  ⟨h', h.readable, h.depth, h.taken, h.stops⟩

/-- **C95** A fault on the line is reported whatever follows it on the line and whatever the environment says. -/
theorem C95_line_first (W : World) (env env' : Env) (a a1 a2 : Argus) (args args' : List Str) (st : Int) (done rest rest' : List Act)
    (act : Act) (e e' : ParseEnd) (hx : HelpExits a.tables) (hn : ∀ os ∈ a.tables, AllNamed os)
    (hl : LineStops W a args st done act rest) (hs : a.asks args' = done ++ act :: rest')
    (h : argusParse W env a args = .ok (e, a1)) (h' : argusParse W env' a args' = .ok (e', a2)) :
    e' = e ∧ e = (if st = Err.shouldExit then .exited else .returned st) := by
  have key : ∀ (env : Env) (args : List Str) (rest : List Act) (b : Argus) (e : ParseEnd), LineStops W a args st done act rest →
      argusParse W env a args = .ok (e, b) → e = (if st = Err.shouldExit then .exited else .returned st) := by
    intro env args rest b e hl h
    by_cases hst : st = Err.shouldExit
    · rw [if_pos hst]
      rw [hst] at hl
      exact ((C95_first_fault W env a b args e hx hn h .exited).1 (.exit done rest act hl)).1.symm
    · rw [if_neg hst]
      exact ((C95_first_fault W env a b args e hx hn h (.returned st)).1 (.line st done rest act hst hl)).1.symm
  have h1 := key env args rest a1 e hl h
  exact ⟨(key env' args' rest' a2 e' (lineStops_rest hl hs) h').trans h1.symm, h1⟩

/-- **C95** Only a line can end the program: neither a variable nor a validator does. -/
theorem C95_exit (W : World) (env : Env) (a a' : Argus) (args : List Str) (hx : HelpExits a.tables)
    (hn : ∀ os ∈ a.tables, AllNamed os) (h : argusParse W env a args = .ok (.exited, a')) :
    ∃ done act rest, LineStops W a args Err.shouldExit done act rest := by
  have := (C95_first_fault W env a a' args _ hx hn h .exited).2 ⟨rfl, by simp⟩
  cases this with
  | exit done rest act g => exact ⟨done, act, rest, g⟩

/-- `prog --port 0 --map a=x -z`: the port is out of its range, the map takes no `x`, and there is no option `z`. The map
    is reported, as the first fault of the line; the port is only looked at after the line. -/
example : ∀ f, FirstFault Sample.world Sample.noEnv Sample.prog [c!"--port", c!"0", c!"--map", c!"a=x", c!"-z"] f ↔
    f = .returned Err.invalidValue := by
  obtain ⟨a', h⟩ : ∃ a', argusParse Sample.world Sample.noEnv Sample.prog [c!"--port", c!"0", c!"--map", c!"a=x", c!"-z"] =
      .ok (.returned Err.invalidValue, a') := ⟨_, rfl⟩
  intro f
  rw [C95_first_fault _ _ _ _ _ _ sample_helpExits sample_allNamed h]
  exact ⟨fun h => h.1, fun h => ⟨h, by rw [h]; decide⟩⟩

/-- `prog --port 0 add`: the port is out of its range and `add` lacks its positional. The outer level is reported. With
    `--port 80` it is the inner one. -/
example :
    (∀ f, FirstFault Sample.world Sample.noEnv Sample.prog [c!"--port", c!"0", c!"add"] f ↔ f = .returned Err.invalidRange) ∧
    ∀ f, FirstFault Sample.world Sample.noEnv Sample.prog [c!"--port", c!"80", c!"add"] f ↔ f = .returned Err.missingRequired := by
  obtain ⟨a1, h1⟩ : ∃ a', argusParse Sample.world Sample.noEnv Sample.prog [c!"--port", c!"0", c!"add"] =
      .ok (.returned Err.invalidRange, a') := ⟨_, rfl⟩
  obtain ⟨a2, h2⟩ : ∃ a', argusParse Sample.world Sample.noEnv Sample.prog [c!"--port", c!"80", c!"add"] =
      .ok (.returned Err.missingRequired, a') := ⟨_, rfl⟩
  refine ⟨fun f => ?_, fun f => ?_⟩
  · rw [C95_first_fault _ _ _ _ _ _ sample_helpExits sample_allNamed h1]
    exact ⟨fun h => h.1, fun h => ⟨h, by rw [h]; decide⟩⟩
  · rw [C95_first_fault _ _ _ _ _ _ sample_helpExits sample_allNamed h2]
    exact ⟨fun h => h.1, fun h => ⟨h, by rw [h]; decide⟩⟩

/-- A flag read from the environment whose variable is no truth value: reported after the line, before the declarations. -/
example :
    let b : Opt := { optBool 98 (some c!"bool") with envName := some c!"B" }
    let x : Opt := { optInt 120 (some c!"x") with validators := some [vRange 1 9] }
    let a := argusInit [[b, x]] c!"prog" none
    let env : Env := fun n => if n = c!"B" then some c!"maybe" else none
    (argusParse Sample.world env a [c!"-x", c!"0"]).toOption.map (·.1) = some (.returned Err.invalidArgument) ∧
    FirstFault Sample.world env a [c!"-x", c!"0"] (.returned Err.invalidArgument) := by
  intro b x a env
  have h0 : (argusParse Sample.world env a [c!"-x", c!"0"]).toOption.map (·.1) = some (.returned Err.invalidArgument) := by
    decide +kernel
  refine ⟨h0, ?_⟩
  cases hp : argusParse Sample.world env a [c!"-x", c!"0"] with
  | ub u => rw [hp] at h0; cases h0
  | ok r =>
    rw [hp] at h0
    simp only [Out.toOption, Option.map_some, Option.some.injEq] at h0
    refine (C95_first_fault _ _ _ r.2 _ r.1 (helpExits_of_mem ?_) ?_ hp _).2 ⟨h0.symm, by decide⟩
    · decide +kernel
    · unfold AllNamed; decide +kernel

/-- `prog -z` and `prog -z --port 0`, with and without a variable. -/
example : LineStops Sample.world Sample.prog [c!"-z"] Err.invalidArgument [] (.fail Err.invalidArgument) [] ∧
    Sample.prog.asks [c!"-z", c!"--port", c!"0"] = [] ++ .fail Err.invalidArgument :: [.give ⟨0, 6⟩ (some c!"0")] :=
  ⟨⟨rfl, by simp, .inl rfl, fun _ o _ => ⟨o, rfl⟩, .inl rfl⟩, rfl⟩

end Argus
