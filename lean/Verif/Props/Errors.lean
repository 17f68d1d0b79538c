import Verif.Lemmas.Codes
import Verif.Spec.Sample

/-! # C53: descriptions of error codes -/

set_option autoImplicit false

namespace Argus

/-- `st` is returned by some parse of some program with the handlers and validators of the library. -/
def ReturnedByParse (st : Int) : Prop :=
  ∃ (W : World) (env : Env) (a a1 : Argus) (args : List Str),
    (∀ os ∈ a.tables, ∀ o ∈ os, o.BuiltIn) ∧ argusParse W env a args = .ok (.returned st, a1)

theorem ReturnedByParse.mem {st : Int} (h : ReturnedByParse st) : st ∈ parseCodes := by
  obtain ⟨W, env, a, a1, args, hb, hr⟩ := h
  refine argusParse_codes (fun p o ho => ?_) hr
  obtain ⟨os, h1, h2⟩ := getOpt_eq_ok.1 ho
  have hb1 := hb os (List.mem_of_getElem? h1) o (List.mem_of_getElem? h2)
  exact ⟨hb1.handler, hb1.validators⟩

namespace Sample

/-- A program whose command lines give every code. -/
def faulty : Argus := argusInit
  [[ helpOption,
     { optFlag 108 (some c!"license") with envName := some c!"LICENSE", flags := Flags.ofList [.exit] },
     { optFlag 120 (some c!"broken") with handler := none },
     optBool 98 (some c!"bool"),
     { optInt 112 (some c!"port") with validators := some [vRange 1 65535] },
     { optString 109 (some c!"mode") with validators := some [vChoiceStr [c!"fast", c!"slow"]] },
     optMapInt 107 (some c!"keys"),
     { optFlag 114 (some c!"needs") with require := some [c!"port"] },
     { optFlag 99 (some c!"against") with conflict := some [c!"needs"] },
     groupBase (some c!"Group") (Flags.ofList [.exclusive]),
     optFlag 49 (some c!"one"),
     optFlag 50 (some c!"two"),
     groupBase none,
     subcommand c!"add" 1 (some 11),
     subcommand c!"admin" 1 (some 12) ],
   [ helpOption ]] c!"prog" none

theorem faulty_builtIn : ∀ os ∈ faulty.tables, ∀ o ∈ os, o.BuiltIn := by
  intro os hos o ho
  have h1 : ∀ os ∈ faulty.tables, ∀ o ∈ os, (match o.handler with | some (.custom _) => false | _ => true) = true := by
    decide +kernel
  have h2 : ∀ os ∈ faulty.tables, ∀ o ∈ os, ∀ v ∈ o.validators.getD [],
      (match v.kind with | .custom _ => false | _ => true) = true := by
    decide +kernel
  refine ⟨fun id hid => ?_, fun v hv id hid => ?_⟩
  · have := h1 os hos o ho; rw [hid] at this; simp at this
  · have := h2 os hos o ho v hv; rw [hid] at this; simp at this

/-- An environment in which LICENSE is 1. -/
def licenseEnv : Env := fun n => if n = c!"LICENSE" then some c!"1" else none

end Sample

/-- **C53** The codes `argus_parse` can return, exactly: success, should exit, invalid handler, invalid argument,
    missing value, missing required, conflicting options, invalid format, exclusive group, invalid choice, invalid
    range, ambiguous subcommand and invalid value. -/
theorem C53_codes (st : Int) : ReturnedByParse st ↔ st ∈ [0, 1, 4, 12, 13, 14, 15, 16, 17, 18, 19, 20, 29] := by
  refine ⟨fun h => h.mem, fun h => ?_⟩
  have go : ∀ {st : Int} (env : Env) (args : List Str),
      (∃ a1, argusParse Sample.world env Sample.faulty args = .ok (.returned st, a1)) → ReturnedByParse st :=
    fun env args ⟨a1, h1⟩ => ⟨_, env, _, a1, args, Sample.faulty_builtIn, h1⟩
  simp only [List.mem_cons, List.not_mem_nil, or_false] at h
  rcases h with rfl | rfl | rfl | rfl | rfl | rfl | rfl | rfl | rfl | rfl | rfl | rfl | rfl
  · exact go Sample.noEnv [] ⟨_, rfl⟩
  · exact go Sample.licenseEnv [] ⟨_, rfl⟩
  · exact go Sample.noEnv [c!"--broken"] ⟨_, rfl⟩
  · exact go Sample.noEnv [c!"--bool", c!"maybe"] ⟨_, rfl⟩
  · exact go Sample.noEnv [c!"--port"] ⟨_, rfl⟩
  · exact go Sample.noEnv [c!"--needs"] ⟨_, rfl⟩
  · exact go Sample.noEnv [c!"-p", c!"80", c!"-rc"] ⟨_, rfl⟩
  · exact go Sample.noEnv [c!"--keys=a"] ⟨_, rfl⟩
  · exact go Sample.noEnv [c!"--one", c!"--two"] ⟨_, rfl⟩
  · exact go Sample.noEnv [c!"--mode", c!"odd"] ⟨_, rfl⟩
  · exact go Sample.noEnv [c!"--port", c!"70000"] ⟨_, rfl⟩
  · exact go Sample.noEnv [c!"ad"] ⟨_, rfl⟩
  · exact go Sample.noEnv [c!"--keys=a=b"] ⟨_, rfl⟩

/-- **C53** Different codes have different descriptions. -/
theorem C53_distinct (st1 st2 : Int) (h1 : ReturnedByParse st1) (h2 : ReturnedByParse st2)
    (h : strerror st1 = strerror st2) : st1 = st2 := by
  have key : ∀ a ∈ parseCodes, ∀ b ∈ parseCodes, strerror a = strerror b → a = b := by decide +kernel
  exact key _ h1.mem _ h2.mem h

/-- **C53** (full statement: for every code `argus_parse` can return). Every code but that of an ambiguous subcommand
    has a description.
    Missing: ARGUS_ERROR_AMBIGUOUS_SUBCOMMAND, for which it is false, see below. -/
theorem C53_described_partial (st : Int) (h : ReturnedByParse st) (ha : st ≠ Err.ambiguousSubcommand) :
    strerror st ≠ c!"Unknown error" := by
  have key : ∀ a ∈ parseCodes, a ≠ Err.ambiguousSubcommand → strerror a ≠ c!"Unknown error" := by decide +kernel
  exact key _ h.mem ha

/-- A port out of range. -/
example : ReturnedByParse Err.invalidRange ∧ Err.invalidRange ≠ Err.ambiguousSubcommand ∧
    strerror Err.invalidRange = c!"Invalid range" :=
  ⟨(C53_codes _).2 (by decide), by decide, rfl⟩

/-- **C53** The claim as first stated is false: the description of an ambiguous subcommand is "Unknown error". -/
theorem C53_ambiguous_unknown : ReturnedByParse Err.ambiguousSubcommand ∧
    strerror Err.ambiguousSubcommand = c!"Unknown error" :=
  ⟨(C53_codes _).2 (by decide), rfl⟩

/-- **C53** beyond parsing: what `argus_exec` reports when there is nothing to run has a description too, distinct from
    those of a parse. -/
theorem C53_exec_described (W : World) (a : Argus) (st : Int) (es : List Event)
    (h : argusExec W a = .ok (st, none, es)) :
    strerror st ≠ c!"Unknown error" ∧ (a.stack = [] → ¬ ReturnedByParse st ∧ strerror st = c!"No command") := by
  unfold argusExec at h
  cases hs : a.stack.getLast? with
  | none =>
    rw [hs] at h
    cases h
    exact ⟨by decide +kernel, fun _ => ⟨fun h => absurd h.mem (by decide), rfl⟩⟩
  | some p =>
    rw [hs] at h
    obtain ⟨o, _, h2⟩ := Out.bind_eq_ok h
    cases ha : o.action with
    | none =>
      simp only [ha] at h2
      cases h2
      refine ⟨by decide +kernel, fun he => ?_⟩
      rw [he] at hs
      cases hs
    | some f =>
      simp only [ha] at h2
      cases h2

example : argusExec Sample.world Sample.faulty = .ok (21, none, [.commands]) ∧ Sample.faulty.stack = [] := ⟨rfl, rfl⟩

/-- **C53** does not extend to the codes that the value getters leave in the context: none of them has a description.
    -/
theorem C53_access_undescribed : ∀ st ∈ [Err.noValue, Err.invalidType, Err.invalidIndex, Err.invalidKey],
    strerror st = c!"Unknown error" := by decide +kernel

end Argus
