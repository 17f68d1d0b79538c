import Verif.Lemmas.Calls
import Verif.Lemmas.FirstFaultLevel
import Verif.Props.Outcome

/-! Property C96: callbacks of the program are called for what was given, and for nothing else. -/

set_option autoImplicit false

namespace Argus

/-- **C96** A parse depends on the program's callbacks only through
    * the handlers and the validators of texts of entries that are given a text, on that text,
    * the validators of values of entries that are set, at the levels of the selected commands.
    Callbacks that do the same there make no difference whatever they do elsewhere; actions are not called at all. -/
theorem C96_calls (W : World) (f : Nat → Opt → Option Str → CustomResult) (g : Nat → Option Str → Int × Option Int)
    (h : Nat → Opt → Int × Option Int) (c : Nat → Argus → Int) (env : Env) (a : Argus) (args : List Str)
    (hc : SameWhereCalled W f g h env a args) :
    argusParse (W.withCallbacks f g h c) env a args = argusParse W env a args := calls_all hc

/-- **C96** No action is called by a parse. -/
theorem C96_actions (W : World) (c : Nat → Argus → Int) (env : Env) (a : Argus) (args : List Str) :
    argusParse (W.withCallbacks W.handler W.preValidator W.postValidator c) env a args = argusParse W env a args :=
  calls_all ⟨fun _ _ _ _ _ => ⟨fun _ _ _ _ => rfl, fun _ _ _ _ _ => rfl⟩, fun _ _ _ _ _ _ _ _ _ _ _ _ _ _ => rfl⟩

/-- **C96** A handler whose options are neither on the line nor read from the environment is not called: it could be any
    other. -/
theorem C96_handler_not_called (W : World) (id : Nat) (f : Opt → Option Str → CustomResult) (env : Env) (a : Argus) (args : List Str)
    (hg : ∀ p x o, IsGiven env a args p x → placeAt a.tables p = some o → o.handler ≠ some (.custom id)) :
    argusParse (W.withCallbacks (fun i => if i = id then f else W.handler i) W.preValidator W.postValidator W.action) env a args =
      argusParse W env a args := by
  refine calls_all ⟨fun p x o h1 h2 => ⟨fun i hi o' _ => ?_, fun _ _ _ _ _ => rfl⟩, fun _ _ _ _ _ _ _ _ _ _ _ _ _ _ => rfl⟩
  have : i ≠ id := fun he => hg p x o h1 h2 (by rw [hi, he])
  simp only [this, if_false]

/-- **C96** A validator of values none of whose entries is set at the levels of the selected commands is not called. -/
theorem C96_validator_not_called (W : World) (id : Nat) (h : Opt → Int × Option Int) (env : Env) (a : Argus) (args : List Str)
    (hs : ∀ p o, BecomesSet env a args p → p.tbl ∈ a.selects args → placeAt a.tables p = some o →
      ∀ v ∈ o.validators.getD [], v.order = .post → v.kind ≠ .custom id) :
    argusParse (W.withCallbacks W.handler W.preValidator (fun i => if i = id then h else W.postValidator i) W.action) env a args =
      argusParse W env a args := by
  refine calls_all ⟨fun _ _ _ _ _ => ⟨fun _ _ _ _ => rfl, fun _ _ _ _ _ => rfl⟩, fun p o h1 h2 h3 _ v hv ho i hi o' _ _ => ?_⟩
  have : i ≠ id := fun he => hs p o h1 h2 h3 v hv ho (by rw [hi, he])
  simp only [this, if_false]

/-- **C96** After a fault on the line nothing more is called: neither for the rest of the line, nor for the environment,
    nor for the values. -/
theorem C96_after_fault (W : World) (f : Nat → Opt → Option Str → CustomResult) (g : Nat → Option Str → Int × Option Int)
    (h : Nat → Opt → Int × Option Int) (c : Nat → Argus → Int) (env : Env) (a : Argus) (args : List Str) (st : Int)
    (done rest : List Act) (act : Act) (hx : HelpExits a.tables) (hl : LineStops W a args st done act rest)
    (hs : ∀ p x o, Act.give p x ∈ done ++ [act] → placeAt a.tables p = some o → SameFor W f g o x) :
    argusParse (W.withCallbacks f g h c) env a args = argusParse W env a args := calls_stops hx hl hs

/-- **C96** What is given on the line of a successful parse was shown to the callbacks of its entry, and they took it: the
    handler in some state of the entry, and each validator of texts. -/
theorem C96_called (W : World) (env : Env) (a a' : Argus) (args : List Str) (p : Ptr) (x : Option Str) (o : Opt)
    (hp : argusParse W env a args = .ok (.returned Err.success, a')) (hg : Act.give p x ∈ a.asks args)
    (ho : placeAt a.tables p = some o) :
    (∀ id, o.handler = some (.custom id) → ∃ o', DeclaredAs o o' ∧ (W.handler id o' x).status = Err.success) ∧
    ∀ v ∈ o.validators.getD [], v.order = .pre → ∀ id, v.kind = .custom id → (W.preValidator id x).1 = Err.success := by
  obtain ⟨a1, a2, h1, _, _⟩ := argusParse_success hp
  rw [parseArgs_run] at h1
  obtain ⟨d, d', h2, h3⟩ := calls_given (a0 := a) (a.asks args) rfl h1 hg (asks_no_fail0 a args)
  obtain ⟨o', h4, hm⟩ := shape_getOpt h2 (placeAt_getOpt.1 ho)
  obtain ⟨h5, h6⟩ := calls_accepts h4 h3
  have e1 : o'.handler = o.handler := (congrArg Opt.handler hm : o'.meta.handler = o.meta.handler)
  have e2 : o'.validators = o.validators := (congrArg Opt.validators hm : o'.meta.validators = o.meta.validators)
  exact ⟨fun id hid => ⟨o', declaredAs_of_meta hm.symm, h5 id (by rw [e1]; exact hid)⟩,
    fun v hv => h6 v (by rw [e2]; exact hv)⟩

/-! ### A program with callbacks -/

/-- `--level` is read by a handler of the program, `--name` has validators of both kinds. -/
def callingTable : List Opt :=
  [ helpOption, optFlag 118 (some c!"verbose"),
    { optString 108 (some c!"level") with handler := some (.custom 7), envName := some c!"LEVEL" },
    { optString 110 (some c!"name") with
      validators := some [⟨.custom 8, .pre, true⟩, ⟨.custom 9, .post, true⟩] } ]

/-- The program. -/
def calling : Argus := argusInit [callingTable] c!"prog" (some c!"1.0")

theorem calling_asks : calling.asks [c!"-v", c!"--name", c!"x"] = [.give ⟨0, 1⟩ none, .give ⟨0, 3⟩ (some c!"x")] := by decide +kernel

theorem calling_given {p : Ptr} {x : Option Str} (h : IsGiven Sample.noEnv calling [c!"-v", c!"--name", c!"x"] p x) :
    p = ⟨0, 1⟩ ∨ p = ⟨0, 3⟩ := by
  rcases h with h | ⟨_, o, n, v, _, _, _, _, h, _⟩
  · rw [calling_asks] at h
    simp only [List.mem_cons, Act.give.injEq, List.not_mem_nil, or_false] at h
    rcases h with ⟨h, _⟩ | ⟨h, _⟩
    · exact .inl h
    · exact .inr h
  · cases h

/-- `prog -v --name x`: the handler of `--level` could be any other. -/
example (f : Opt → Option Str → CustomResult) :
    argusParse (Sample.world.withCallbacks (fun i => if i = 7 then f else Sample.world.handler i) Sample.world.preValidator
      Sample.world.postValidator Sample.world.action) Sample.noEnv calling [c!"-v", c!"--name", c!"x"] =
    argusParse Sample.world Sample.noEnv calling [c!"-v", c!"--name", c!"x"] := by
  refine C96_handler_not_called _ _ _ _ _ _ fun p x o h1 h2 => ?_
  rcases calling_given h1 with rfl | rfl
  · have : o.handler = some .flag := by
      have : placeAt calling.tables ⟨0, 1⟩ = some (optFlag 118 (some c!"verbose")) := rfl
      rw [this] at h2; cases h2; rfl
    rw [this]; simp
  · have : o.handler = some .string := by
      have h3 : (placeAt calling.tables ⟨0, 3⟩).map (·.handler) = some (some .string) := rfl
      rw [h2] at h3; simpa using h3
    rw [this]; simp

/-- `prog -v --name x`: the callbacks of `--name` see `x`. With `--level 3` on the line the handler of `--level` counts: if
    it refuses `3`, so does the parse. -/
example : (Sample.world.preValidator 8 (some c!"x")).1 = Err.success ∧
    ((argusParse (Sample.world.withCallbacks (fun i o x => if i = 7 then ⟨Err.invalidValue, o.value, o.isAllocated, o.valueCount,
        o.valueCapacity, none⟩ else Sample.world.handler i o x) Sample.world.preValidator Sample.world.postValidator
        Sample.world.action) Sample.noEnv calling [c!"--level", c!"3"]).toOption.map (·.1)) = some (.returned Err.invalidValue) ∧
    ((argusParse Sample.world Sample.noEnv calling [c!"--level", c!"3"]).toOption.map (·.1)) = some (.returned Err.success) := by
  refine ⟨?_, by decide +kernel, by decide +kernel⟩
  obtain ⟨a', h⟩ : ∃ a', argusParse Sample.world Sample.noEnv calling [c!"-v", c!"--name", c!"x"] = .ok (.returned Err.success, a') :=
    ⟨_, rfl⟩
  obtain ⟨o, ho⟩ : ∃ o, placeAt calling.tables ⟨0, 3⟩ = some o := ⟨_, rfl⟩
  have hv : (placeAt calling.tables ⟨0, 3⟩).map (·.validators) = some (some [⟨.custom 8, .pre, true⟩, ⟨.custom 9, .post, true⟩]) := rfl
  rw [ho] at hv
  simp only [Option.map_some, Option.some.injEq] at hv
  exact (C96_called _ _ _ _ _ _ _ _ h (by rw [calling_asks]; simp) ho).2 ⟨.custom 8, .pre, true⟩ (by rw [hv]; simp) rfl 8 rfl

/-- `prog -v --nosuch --level 3`: the line stops at `--nosuch`, so the handler of `--level` is not called. -/
example (f : Opt → Option Str → CustomResult) :
    argusParse (Sample.world.withCallbacks (fun i => if i = 7 then f else Sample.world.handler i) Sample.world.preValidator
      Sample.world.postValidator Sample.world.action) Sample.noEnv calling [c!"-v", c!"--nosuch", c!"--level", c!"3"] =
    argusParse Sample.world Sample.noEnv calling [c!"-v", c!"--nosuch", c!"--level", c!"3"] := by
  have hasks : calling.asks [c!"-v", c!"--nosuch", c!"--level", c!"3"] =
      [.give ⟨0, 1⟩ none, .fail Err.invalidArgument, .give ⟨0, 2⟩ (some c!"3")] := by decide +kernel
  have hx : HelpExits calling.tables := helpExits_of_mem (by decide +kernel)
  obtain ⟨r, hr⟩ : ∃ r, parseArgs Sample.world calling (some calling.root) [c!"-v", c!"--nosuch", c!"--level", c!"3"] = .ok r :=
    ⟨_, rfl⟩
  have hne : r.1 ≠ Err.success := by
    have : (parseArgs Sample.world calling (some calling.root) [c!"-v", c!"--nosuch", c!"--level", c!"3"]).toOption.map (·.1) =
      some Err.invalidArgument := by decide +kernel
    rw [hr] at this
    simp only [Out.toOption, Option.map_some, Option.some.injEq] at this
    rw [this]; decide
  obtain ⟨done, act, rest, hl⟩ := parseArgs_stops hx hr hne
  refine C96_after_fault _ _ _ _ _ _ _ _ _ _ _ _ hx hl fun p x o hp ho => ⟨fun i hi o' _ => ?_, fun _ _ _ _ _ => rfl⟩
  have hpt : p = ⟨0, 1⟩ := by
    have hsp := hasks.symm.trans hl.split
    match done, hl, hp, hsp with
    | [], hl, hp, hsp =>
      simp only [List.nil_append, List.cons.injEq] at hsp
      rw [← hsp.1] at hp
      simp only [List.nil_append, List.mem_cons, Act.give.injEq, List.not_mem_nil, or_false] at hp
      exact hp.1
    | [d], hl, hp, hsp =>
      simp only [List.cons_append, List.nil_append, List.cons.injEq] at hsp
      rw [← hsp.1, ← hsp.2.1] at hp
      simp only [List.cons_append, List.nil_append, List.mem_cons, Act.give.injEq, List.not_mem_nil, or_false, reduceCtorEq] at hp
      exact hp.1
    | d :: d' :: ds, hl, hp, hsp =>
      simp only [List.cons_append, List.cons.injEq] at hsp
      exact absurd hsp.2.1.symm ((hl.readable d' (by simp)).2 _)
  subst hpt
  have h3 : (placeAt calling.tables ⟨0, 1⟩).map (·.handler) = some (some .flag) := rfl
  rw [ho] at h3
  simp only [Option.map_some, Option.some.injEq] at h3
  rw [h3] at hi; cases hi

end Argus
