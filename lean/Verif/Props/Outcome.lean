import Verif.Lemmas.Outcome
import Verif.Props.Values

/-!
# C75: the outcome of a parse, option by option
-/

set_option autoImplicit false

namespace Argus

/-- **C75** A parse succeeds, leaving the tables `T` and the command path `path`, if and only if the command line and
    the environment are accepted with them: all is readable, each option takes its own texts in turn and then what its
    variable says, the path is at most eight commands deep, and the result meets what the tables on the path declare.
    Nothing else is refused and nothing else is changed. -/
theorem C75_success_iff (W : World) (env : Env) (a : Argus) (args : List Str) (T : List (List Opt)) (path : List Ptr)
    (hx : HelpExits a.tables) (hn : ∀ os ∈ a.tables, AllNamed os) :
    (∃ a', argusParse W env a args = .ok (.returned Err.success, a') ∧ a'.tables = T ∧ a'.stack = path) ↔
      Accepted W env a args T path :=
  argusParse_accepted hx hn

/-- **C75** There is at most one outcome. -/
theorem C75_one_outcome (W : World) (env : Env) (a : Argus) (args : List Str) (T T' : List (List Opt))
    (path path' : List Ptr) (hx : HelpExits a.tables) (hn : ∀ os ∈ a.tables, AllNamed os)
    (h : Accepted W env a args T path) (h' : Accepted W env a args T' path') : T = T' ∧ path = path' := by
  obtain ⟨b, e1, e2, e3⟩ := (C75_success_iff W env a args T path hx hn).2 h
  obtain ⟨b', e1', e2', e3'⟩ := (C75_success_iff W env a args T' path' hx hn).2 h'
  rw [e1, Out.ok.injEq, Prod.mk.injEq] at e1'
  obtain ⟨_, rfl⟩ := e1'
  exact ⟨e2.symm.trans e2', e3.symm.trans e3'⟩

/-- **C75** A command line that is not accepted never yields success. -/
theorem C75_else_refused (W : World) (env : Env) (a : Argus) (args : List Str)
    (hx : HelpExits a.tables) (hn : ∀ os ∈ a.tables, AllNamed os)
    (h : ¬ ∃ T path, Accepted W env a args T path) (a' : Argus) :
    argusParse W env a args ≠ .ok (.returned Err.success, a') := by
  intro he
  exact h ⟨_, _, (C75_success_iff W env a args _ _ hx hn).1 ⟨a', he, rfl, rfl⟩⟩

/-- **C75** Only what is asked of each entry counts, not how the things asked of different entries are mixed: two
    readable command lines that ask the same of every entry and select the same path have the same outcome. -/
theorem C75_mixture_irrelevant (W : World) (env : Env) (a : Argus) (args args' : List Str)
    (hx : HelpExits a.tables) (hn : ∀ os ∈ a.tables, AllNamed os)
    (hr : ∀ x ∈ a.asks args', x ≠ .noTable ∧ ∀ c, x ≠ .fail c)
    (hs : ∀ p, actsOn p (a.asks args') = actsOn p (a.asks args))
    (he : entered (a.asks args') = entered (a.asks args)) (a1 : Argus)
    (h : argusParse W env a args = .ok (.returned Err.success, a1)) :
    ∃ a2, argusParse W env a args' = .ok (.returned Err.success, a2) ∧ a2.tables = a1.tables ∧ a2.stack = a1.stack := by
  have h1 := (C75_success_iff W env a args _ _ hx hn).1 ⟨a1, h, rfl, rfl⟩
  have key : ∀ p (l : List Act), l.filterMap (Act.change W p) = (actsOn p l).filterMap (Act.change W p) := by
    intro p l
    induction l with
    | nil => rfl
    | cons x l ih =>
      unfold actsOn at ih ⊢
      cases x with
      | give q y => by_cases hq : q = p <;> simp [Act.change, hq, ih]
      | enter q => by_cases hq : q = p <;> simp [Act.change, hq, ih]
      | fail c =>
        rw [List.filterMap_cons_none (by rfl), List.filter_cons_of_neg (by simp)]; exact ih
      | noTable =>
        rw [List.filterMap_cons_none (by rfl), List.filter_cons_of_neg (by simp)]; exact ih
  refine (C75_success_iff W env a args' _ _ hx hn).2 ⟨hr, by rw [he]; exact h1.selected, by rw [he]; exact h1.depth,
    h1.sizes, fun p o ho => ?_, h1.root, h1.levels⟩
  rw [key, hs, ← key]
  exact h1.entries p o ho

/-- **C75** Which texts an option with a scalar handler takes: its validators of texts are met, it does not end the
    program, and for a bool option the text is one of the spellings. It then holds what the text says. -/
theorem C75_scalar_takes (W : World) (o : Opt) (h : Handler) (v : Str) (hh : o.handler = some h)
    (hs : h.isScalar = true) :
    ((∃ o', TakesText W (some v) o o') ↔ (∀ x ∈ o.validators.getD [], x.order = .pre → MeetsText W (some v) x.kind) ∧
      o.flags.has .exit = false ∧ (h = .bool → MeansTrue v ∨ MeansFalse v)) ∧
    ∀ o', TakesText W (some v) o o' → Holds W h v o'.value ∧ o'.isSet = true ∧ o'.meta = o.meta := by
  constructor
  · constructor
    · rintro ⟨o', h1, h2, h3⟩
      refine ⟨h1, h2, fun hb => ?_⟩
      subst hb
      obtain ⟨⟨w, b, _, h4, _⟩, _⟩ := give_scalar hh hs h3
      cases b
      · exact .inr ((stringToBool_iff v).2.1 h4)
      · exact .inl ((stringToBool_iff v).1.1 h4)
    · rintro ⟨h1, h2, h3⟩
      have : ∃ o1 es, runHandler W { tables := [] } h o (some v) = .ok (Err.success, o1, es) := by
        cases h <;> simp only [Handler.isScalar, Bool.false_eq_true] at hs
        case bool =>
          simp only [runHandler, boolHandler]
          rcases h3 rfl with h4 | h4
          · rw [(stringToBool_iff v).1.2 h4]; exact ⟨_, _, rfl⟩
          · rw [(stringToBool_iff v).2.2 h4]; exact ⟨_, _, rfl⟩
        all_goals exact ⟨_, _, rfl⟩
      obtain ⟨o1, es, hr⟩ := this
      exact ⟨_, h1, h2, give_of_run hh hr⟩
  · intro o' ht
    obtain ⟨h1, h2⟩ := give_scalar hh hs ht.handled
    refine ⟨h1, h2, giveAll_meta (W := W) [some v] (o' := o') ?_⟩
    simp [Opt.giveAll, ht.handled]

/-- Help options are looked for in the tables. -/
theorem helpExits_of_mem {T : List (List Opt)}
    (h : ∀ os ∈ T, ∀ o ∈ os, o.handler = some .help → o.flags.has .exit = true) : HelpExits T := by
  intro p o ho hh
  unfold placeAt at ho
  obtain ⟨os, h1, h2⟩ := Option.bind_eq_some_iff.1 ho
  exact h os (List.mem_of_getElem? h1) o (List.mem_of_getElem? h2) hh

theorem sample_helpExits : HelpExits Sample.prog.tables := helpExits_of_mem (by decide +kernel)

theorem sample_allNamed : ∀ os ∈ Sample.prog.tables, AllNamed os := by unfold AllNamed; decide +kernel

/-- `prog -v --port 80 add 3 a` is accepted and selects `add`; `prog --port 0` and `prog --port` are not. -/
example :
    (∃ T, Accepted Sample.world Sample.noEnv Sample.prog [c!"-v", c!"--port", c!"80", c!"add", c!"3", c!"a"] T [⟨0, 8⟩]) ∧
    (¬ ∃ T path, Accepted Sample.world Sample.noEnv Sample.prog [c!"--port", c!"0"] T path) ∧
    ¬ ∃ T path, Accepted Sample.world Sample.noEnv Sample.prog [c!"--port"] T path := by
  have key : ∀ args (T : List (List Opt)) path, Accepted Sample.world Sample.noEnv Sample.prog args T path →
      (argusParse Sample.world Sample.noEnv Sample.prog args).toOption.map (·.1) = some (.returned Err.success) := by
    intro args T path h
    obtain ⟨a', h, _⟩ := (C75_success_iff _ _ _ _ _ _ sample_helpExits sample_allNamed).2 h
    rw [h]; rfl
  refine ⟨?_, ?_, ?_⟩
  · have hd : (argusParse Sample.world Sample.noEnv Sample.prog
        [c!"-v", c!"--port", c!"80", c!"add", c!"3", c!"a"]).toOption.map (fun r => (r.1, r.2.stack)) =
        some (.returned Err.success, [⟨0, 8⟩]) := by decide +kernel
    cases h : argusParse Sample.world Sample.noEnv Sample.prog [c!"-v", c!"--port", c!"80", c!"add", c!"3", c!"a"] with
    | ub u => rw [h] at hd; cases hd
    | ok r =>
      obtain ⟨e, a'⟩ := r
      rw [h] at hd
      simp only [Out.toOption, Option.map_some, Option.some.injEq, Prod.mk.injEq] at hd
      obtain ⟨rfl, hst⟩ := hd
      exact ⟨a'.tables, (C75_success_iff _ _ _ _ _ _ sample_helpExits sample_allNamed).1 ⟨a', h, rfl, hst⟩⟩
  · rintro ⟨T, path, h⟩
    exact absurd (key _ T path h) (by decide +kernel)
  · rintro ⟨T, path, h⟩
    exact absurd (key _ T path h) (by decide +kernel)

/-- `prog -v -n 3 x` and `prog x -n 3 -v` ask the same of every entry. -/
example : Sample.prog.asks [c!"-v", c!"-n", c!"3", c!"x"] =
      [.give ⟨0, 1⟩ none, .give ⟨0, 3⟩ (some c!"3"), .give ⟨0, 7⟩ (some c!"x")] ∧
    Sample.prog.asks [c!"x", c!"-n", c!"3", c!"-v"] =
      [.give ⟨0, 7⟩ (some c!"x"), .give ⟨0, 3⟩ (some c!"3"), .give ⟨0, 1⟩ none] := by
  refine ⟨by decide +kernel, by decide +kernel⟩

/-- `--port` of the sample has a scalar handler. -/
example : ∃ o, placeAt Sample.prog.tables ⟨0, 6⟩ = some o ∧ o.handler = some .int ∧ Handler.int.isScalar = true :=
  ⟨_, rfl, rfl, rfl⟩

end Argus
