import Verif.Lemmas.Unset
import Verif.Props.Outcome
import Verif.Props.Validation

/-!
# C87: limits on the number of values of options that are not given

`source/core/parsing/post_parse_validation.c` calls validators for options that count as set only. The documentation
(`docs/docs/features/validation.md`, `docs/docs/features/collections.md`) shows that a program with `VALIDATOR(V_COUNT(1, 5))` on an
array refuses an empty command line: "Values count 0 is out of [1, 5]".
-/

set_option autoImplicit false

namespace Argus

/-- **C87** A collection that is given, on the command line or by the environment, or that has a default, has a number of values
    within the limits of its V_COUNT after a successful parse.
    Full statement: every collection of a selected command, given or not. Missing: those that are not given, whose limits are not
    looked at (`C87_absent_not_checked`). -/
theorem C87_count_partial (W : World) (env : Env) (a a' : Argus) (args : List Str) (p : Ptr) (o : Opt) (mn mx : Int)
    (hok : argusParse W env a args = .ok (.returned Err.success, a')) (ho : a.getOpt p = .ok o) (hp : Selected a a' p)
    (ht : o.type = .option ∨ o.type = .positional) (hv : vCount mn mx ∈ o.validators.getD [])
    (hg : textsOf p (a.asks args) ≠ [] ∨ o.isSet = true) :
    ∃ o', a'.getOpt p = .ok o' ∧ mn ≤ o'.valueCount ∧ (o'.valueCount : Int) ≤ mx := by
  have hns : o.type ≠ .subcommand := by rcases ht with h | h <;> rw [h] <;> simp
  have hng : o.type ≠ .group := by rcases ht with h | h <;> rw [h] <;> simp
  obtain ⟨o', h1, h2⟩ := argusParse_texts hok ho hns
  have hs : o'.isSet = true := giveAll_isSet _ h2 (hg.imp_left fun h => by
    unfold allTexts
    intro e
    exact h (List.append_eq_nil_iff.1 e).1)
  exact ⟨o', h1, (C25_count W env a a' args p o o' mn mx hok ho hp hng hv h1 hs).2⟩

/-- **C87** is violated by every collection that is not given, in every program: if a command line is accepted and leaves an entry
    unset, then it is accepted, with the same result, whatever validators, requirements and conflicts that entry has. No
    V_COUNT can make it required. -/
theorem C87_absent_not_checked (W : World) (env : Env) (a a' : Argus) (args : List Str) (p : Ptr) (o' : Opt)
    (vs : Option (List Validator)) (rq cf : Option (List Str)) (hx : HelpExits a.tables)
    (hn : ∀ os ∈ a.tables, AllNamed os) (hok : argusParse W env a args = .ok (.returned Err.success, a'))
    (ho : a'.getOpt p = .ok o') (hu : o'.isSet = false) :
    ∃ b', argusParse W env (a.constrain p vs rq cf) args = .ok (.returned Err.success, b') ∧
      b'.tables = amend a'.tables p (Opt.constrained vs rq cf) ∧ b'.stack = a'.stack := by
  have hx' : HelpExits (a.constrain p vs rq cf).tables := by
    intro q x hq hh
    have hq' : placeAt (amend a.tables p (Opt.constrained vs rq cf)) q = some x := hq
    rw [placeAt_amend] at hq'
    split at hq'
    · obtain ⟨o, h1, h2⟩ := Option.map_eq_some_iff.1 hq'
      subst h2
      exact hx q o h1 hh
    · exact hx q x hq' hh
  have hn' : ∀ os ∈ (a.constrain p vs rq cf).tables, AllNamed os := by
    intro os hos x hxm ht
    obtain ⟨k, hk⟩ := List.getElem?_of_mem hos
    obtain ⟨i, hi⟩ := List.getElem?_of_mem hxm
    have hq : placeAt (amend a.tables p (Opt.constrained vs rq cf)) ⟨k, i⟩ = some x := by
      unfold placeAt
      rw [show (amend a.tables p (Opt.constrained vs rq cf))[k]? = some os from hk]
      exact hi
    have hall : ∀ o, placeAt a.tables ⟨k, i⟩ = some o → o.type ≠ .group → o.name ≠ none := by
      intro o ho1 ht1
      obtain ⟨os1, h3, h4⟩ := Option.bind_eq_some_iff.1 ho1
      exact hn os1 (List.mem_of_getElem? h3) o (List.mem_of_getElem? h4) ht1
    rw [placeAt_amend] at hq
    split at hq
    · obtain ⟨o, h1, h2⟩ := Option.map_eq_some_iff.1 hq
      subst h2
      exact hall o h1 ht
    · exact hall x hq ht
  have hacc := (C75_success_iff W env a args a'.tables a'.stack hx hn).1 ⟨a', hok, rfl, rfl⟩
  exact (C75_success_iff W env _ args _ _ hx' hn').2
    (accepted_constrain vs rq cf (placeAt_getOpt.2 ho) hu hacc)

/-- The program of the documentation: `--tags` with VALIDATOR(V_COUNT(1, 5)). -/
def Sample.tagged : Argus :=
  argusInit [[helpOption, { optArrayString 116 (some c!"tags") with validators := some [vCount 1 5] }]] c!"tool" none

/-- `tool --tags=web,api` has two tags; six are refused. -/
example : ∃ a' o', argusParse Sample.world Sample.noEnv Sample.tagged [c!"--tags=web,api"] =
      .ok (.returned Err.success, a') ∧ a'.getOpt ⟨0, 1⟩ = .ok o' ∧ (1 : Int) ≤ o'.valueCount ∧ (o'.valueCount : Int) ≤ 5 := by
  obtain ⟨o', h1, h2⟩ := C87_count_partial Sample.world Sample.noEnv Sample.tagged _ [c!"--tags=web,api"] ⟨0, 1⟩ _ 1 5 rfl rfl
    (.inl rfl) (.inl rfl) (by decide) (.inl (by decide +kernel))
  exact ⟨_, o', rfl, h1, h2⟩

example : (argusParse Sample.world Sample.noEnv Sample.tagged [c!"--tags=a,b,c,d,e,f"]).toOption.map (·.1) =
    some (.returned Err.invalidRange) := by decide +kernel

/-- **C87** is violated by the documented program: `tool` alone is accepted, with no tags. -/
theorem C87_documented_case :
    (argusParse Sample.world Sample.noEnv Sample.tagged []).toOption.map
      (fun r => (r.1, (r.2.getOpt ⟨0, 1⟩).toOption.map (·.valueCount))) =
    some (.returned Err.success, some 0) := by decide +kernel

theorem tagged_helpExits : HelpExits Sample.tagged.tables := helpExits_of_mem (by decide +kernel)

theorem tagged_allNamed : ∀ os ∈ Sample.tagged.tables, AllNamed os := by unfold AllNamed; decide +kernel

/-- With V_COUNT(3, 4) the empty command line is accepted just the same. -/
example : ∃ b', argusParse Sample.world Sample.noEnv (Sample.tagged.constrain ⟨0, 1⟩ (some [vCount 3 4]) none none) [] =
    .ok (.returned Err.success, b') := by
  obtain ⟨b', h, _⟩ := C87_absent_not_checked Sample.world Sample.noEnv Sample.tagged _ [] ⟨0, 1⟩ _ (some [vCount 3 4]) none none
    tagged_helpExits tagged_allNamed rfl rfl rfl
  exact ⟨b', h⟩

end Argus
