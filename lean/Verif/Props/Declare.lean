import Verif.Lemmas.Declare
import Verif.Model.Access
import Verif.Spec.Sample
import Verif.Props.Env

/-!
# C77: declaring further options

`a.declare k new` is the program `a` with the entries `new` at the end of its options array number `k`.
-/

set_option autoImplicit false

namespace Argus

/-- **C77** A program may be given further options, groups and subcommands without harm: if they have no default,
    nobody requires them, the environment has no variable for them and no argument spells the name of an option or
    begins that of a subcommand, then `argus_parse` ends as before, with the same status, the same messages, the same subcommands and the same value of every old
    option. The new entries stay as declared. If the old program ran into undefined behaviour, so does the new one,
    and only then. -/
theorem C77_declare_unspelled (W : World) (env : Env) (a : Argus) (k : Nat) (new : List Opt) (args : List Str)
    (hstack : a.stack = []) (hidle : ∀ o ∈ new, o.Idle)
    (hargs : ∀ arg ∈ args, ∀ o ∈ new, Unspelled o arg ∧ Uncalled o arg)
    (henv : ∀ o ∈ new, NoVariable env a.envPrefix o)
    (hreq : ∀ os, a.tables[k]? = some os → RequiresOld os new) :
    argusParse W env (a.declare k new) args =
      (do let r ← argusParse W env a args; .ok (r.1, r.2.declare k new)) :=
  declare_argusParse k hidle W env (by intro p hp; rw [hstack] at hp; exact (nomatch hp))
    (fun arg ha o ho => (hargs arg ha o ho).2) (.inr (fun arg ha o ho => (hargs arg ha o ho).1)) henv hreq

/-- **C77** The names of the new options may even occur, as values of other options or behind `--`, if the old program
    finds nothing unknown on the line and no argument begins the name of a new subcommand: then the old options keep
    their texts. -/
theorem C77_declare_understood (W : World) (env : Env) (a : Argus) (k : Nat) (new : List Opt) (args : List Str)
    (hstack : a.stack = []) (hidle : ∀ o ∈ new, o.Idle)
    (hargs : Act.fail Err.invalidArgument ∉ a.asks args) (hcall : ∀ arg ∈ args, ∀ o ∈ new, Uncalled o arg)
    (henv : ∀ o ∈ new, NoVariable env a.envPrefix o)
    (hreq : ∀ os, a.tables[k]? = some os → RequiresOld os new) :
    argusParse W env (a.declare k new) args =
      (do let r ← argusParse W env a args; .ok (r.1, r.2.declare k new)) :=
  declare_argusParse k hidle W env (by intro p hp; rw [hstack] at hp; exact (nomatch hp)) hcall
    (.inl hargs) henv hreq

/-- **C77**, what this means for the caller: the same end, messages and subcommands, each old option as before, each
    new entry as declared, and each path that does not end in a new name leads to the same option. -/
theorem C77_declare_observed (W : World) (env : Env) (a a' : Argus) (w : ParseEnd) (k : Nat) (new : List Opt)
    (args : List Str) (hstack : a.stack = []) (hidle : ∀ o ∈ new, o.Idle)
    (hargs : (∀ arg ∈ args, ∀ o ∈ new, Unspelled o arg) ∨ Act.fail Err.invalidArgument ∉ a.asks args)
    (hcall : ∀ arg ∈ args, ∀ o ∈ new, Uncalled o arg)
    (henv : ∀ o ∈ new, NoVariable env a.envPrefix o)
    (hreq : ∀ os, a.tables[k]? = some os → RequiresOld os new)
    (h : argusParse W env a args = .ok (w, a')) :
    ∃ b, argusParse W env (a.declare k new) args = .ok (w, b) ∧
      b.out = a'.out ∧ b.stack = a'.stack ∧ b.errorCode = a'.errorCode ∧
      (∀ p o, a'.getOpt p = .ok o → b.getOpt p = .ok o) ∧
      (∀ os i o, a.tables[k]? = some os → new[i]? = some o → b.getOpt ⟨k, os.length + i⟩ = .ok o) ∧
      (∀ path, (∀ o ∈ new, ∀ m, o.name = some m → ¬ m <:+ path) → ∀ p, a'.findPath path = .ok p →
        b.findPath path = .ok p) := by
  have hs : StackOk a := by intro p hp; rw [hstack] at hp; exact (nomatch hp)
  have key := declare_argusParse k hidle W env hs hcall hargs.symm henv hreq
  rw [h] at key
  refine ⟨a'.declare k new, key, rfl, rfl, rfl, fun p o ho => declare_getOpt ho k new, ?_, ?_⟩
  · intro os i o hos ho
    obtain ⟨ext, -, -, hf⟩ := argusParse_frame h
    have h1 := congrArg (fun s => s[k]?) hf.shape
    simp only [Argus.shape, List.getElem?_map, hos, Option.map_some] at h1
    cases h3 : a'.tables[k]? with
    | none => rw [h3] at h1; exact (nomatch h1)
    | some os' =>
      rw [h3] at h1
      simp only [Option.map_some, Option.some.injEq] at h1
      have hl : os'.length = os.length := by simpa using congrArg List.length h1
      refine getOpt_eq_ok.2 ⟨os' ++ new, ?_, ?_⟩
      · rw [declare_table_get, h3]; simp
      · rw [List.getElem?_append_right (by simp only [hl]; omega)]
        simp only [hl]
        rw [← ho]; congr 1; omega
  · intro path hp p hf
    rw [declare_lookup k (argusParse_stackOk hs h) hp, hf]

/-- What `argus_get`, `argus_is_set` and the other accessors find under a path is the same, too. -/
theorem C77_lookup_same (W : World) (env : Env) (a a' b : Argus) (w w' : ParseEnd) (k : Nat) (new : List Opt)
    (args : List Str) (hstack : a.stack = []) (hidle : ∀ o ∈ new, o.Idle)
    (hargs : (∀ arg ∈ args, ∀ o ∈ new, Unspelled o arg) ∨ Act.fail Err.invalidArgument ∉ a.asks args)
    (hcall : ∀ arg ∈ args, ∀ o ∈ new, Uncalled o arg)
    (henv : ∀ o ∈ new, NoVariable env a.envPrefix o)
    (hreq : ∀ os, a.tables[k]? = some os → RequiresOld os new)
    (h : argusParse W env a args = .ok (w, a')) (h' : argusParse W env (a.declare k new) args = .ok (w', b))
    (path : Str) (hpath : ∀ o ∈ new, ∀ m, o.name = some m → ¬ m <:+ path) (o : Option Opt)
    (ho : a'.lookup path = .ok o) : b.lookup path = .ok o := by
  obtain ⟨b', hb, -, -, -, hget, -, hfind⟩ :=
    C77_declare_observed W env a a' w k new args hstack hidle hargs hcall henv hreq h
  rw [h'] at hb
  cases hb
  unfold Argus.lookup at ho ⊢
  obtain ⟨p, hp, h1⟩ := Out.bind_eq_ok ho
  rw [hfind path hpath p hp]
  cases p with
  | none => exact h1
  | some p =>
    simp only [Out.ok_bind] at h1 ⊢
    obtain ⟨x, hx, h2⟩ := Out.bind_eq_ok h1
    rw [hget p x hx]
    exact h2

/-- A quiet flag, a `--color` option and a subcommand `remove` to add to the sample program. -/
def Sample.further : List Opt :=
  [groupBase (some c!"More"), optFlag 113 (some c!"quiet"), { optString 0 (some c!"color") with envName := some c!"COLOR" },
   subcommand c!"remove" 2]

/-- `prog --num 5 -v file` and even the faulty `prog --unknown` with the new options declared; PORT is set. -/
example : (∀ o ∈ Sample.further, o.Idle) ∧
    (∀ arg ∈ [c!"--num", c!"5", c!"-v", c!"file", c!"--unknown"], ∀ o ∈ Sample.further, Unspelled o arg ∧
      Uncalled o arg) ∧
    (∀ o ∈ Sample.further, NoVariable (Sample.env1 c!"PORT" c!"80") Sample.prog.envPrefix o) ∧
    RequiresOld Sample.root Sample.further := by
  refine ⟨?_, fun arg ha o ho => ⟨(by decide : ∀ arg ∈ [c!"--num", c!"5", c!"-v", c!"file", c!"--unknown"],
    ∀ o ∈ Sample.further, Unspelled o arg) arg ha o ho, ?_⟩, ?_, by decide⟩
  · intro o ho
    simp only [Sample.further, List.mem_cons, List.not_mem_nil, or_false] at ho
    rcases ho with rfl | rfl | rfl | rfl <;> exact ⟨by decide, by decide, by decide⟩
  · intro ht n hn hp
    have h : ∀ arg ∈ [c!"--num", c!"5", c!"-v", c!"file", c!"--unknown"], ∀ o ∈ Sample.further,
      o.type = .subcommand → (o.name.any (fun n => arg.isPrefixOf n)) = false := by decide
    have := h arg ha o ho ht
    rw [hn] at this
    simp only [Option.any_some] at this
    rw [List.isPrefixOf_iff_prefix.2 hp] at this
    exact (nomatch this)
  · intro o ho n hn
    simp only [Sample.further, List.mem_cons, List.not_mem_nil, or_false] at ho
    rcases ho with rfl | rfl | rfl | rfl <;> revert hn
    · rw [show envVarName Sample.prog.envPrefix (groupBase (some c!"More")) = none by decide]
      exact fun h => (nomatch h)
    · rw [show envVarName Sample.prog.envPrefix (optFlag 113 (some c!"quiet")) = none by decide]
      exact fun h => (nomatch h)
    · rw [show envVarName Sample.prog.envPrefix { optString 0 (some c!"color") with envName := some c!"COLOR" } =
        some c!"COLOR" by decide]
      intro h
      cases h
      decide
    · rw [show envVarName Sample.prog.envPrefix (subcommand c!"remove" 2) = none by decide]
      exact fun h => (nomatch h)

/-- Run: `prog --num 5 -v file` ends the same and leaves the options the same. -/
example : (argusParse Sample.world Sample.noEnv (Sample.prog.declare 0 Sample.further)
      [c!"--num", c!"5", c!"-v", c!"file"]).toOption =
    (argusParse Sample.world Sample.noEnv Sample.prog [c!"--num", c!"5", c!"-v", c!"file"]).toOption.map
      (fun r => (r.1, r.2.declare 0 Sample.further)) := by
  decide +kernel

/-- The spelling of a new option as the value of an old one is understood by the old program. -/
example : Act.fail Err.invalidArgument ∉ Sample.prog.asks [c!"--output", c!"--quiet", c!"--", c!"-q"] := by
  decide +kernel

/-- A program where `--num` requires an option `--quiet` that does not exist. -/
def Sample.requiring : Argus :=
  argusInit [[helpOption, { optInt 110 (some c!"num") with require := some [c!"quiet"] }]] c!"prog" none

/-- **C77** The condition on requirements is needed: `prog --num 5` succeeds as long as the required `--quiet` is not
    declared, and fails as soon as it is. -/
theorem C77_require_needed :
    (argusParse Sample.world Sample.noEnv Sample.requiring [c!"--num", c!"5"]).toOption.map (·.1) =
      some (.returned Err.success) ∧
    (argusParse Sample.world Sample.noEnv (Sample.requiring.declare 0 [optFlag 113 (some c!"quiet")])
      [c!"--num", c!"5"]).toOption.map (·.1) = some (.returned Err.missingRequired) := by
  constructor <;> decide +kernel

/-- **C77** The condition on subcommands is needed: `prog a` selects nothing and gives a to the positional `file` until a
    subcommand begins with a. -/
theorem C77_call_needed :
    (argusParse Sample.world Sample.noEnv (argusInit [[helpOption, posString c!"file"], []] c!"prog" none)
      [c!"a"]).toOption.map (fun r => (r.1, r.2.stack)) = some (.returned Err.success, []) ∧
    (argusParse Sample.world Sample.noEnv ((argusInit [[helpOption, posString c!"file"], []] c!"prog" none).declare 0
      [subcommand c!"add" 1]) [c!"a"]).toOption.map (fun r => (r.1, r.2.stack)) =
        some (.returned Err.missingRequired, [⟨0, 2⟩]) := by
  constructor <;> decide +kernel

/-- **C77** The condition on defaults is needed: an option with a default counts as given. Declared at the end of an
    exclusive group it makes every use of the group fail. -/
theorem C77_default_needed :
    ∃ a : Argus, ∃ o : Opt, o.isSet = true ∧
      (argusParse Sample.world Sample.noEnv a [c!"-v"]).toOption.map (·.1) = some (.returned Err.success) ∧
      (argusParse Sample.world Sample.noEnv (a.declare 0 [o]) [c!"-v"]).toOption.map (·.1) =
        some (.returned Err.exclusiveGroup) := by
  refine ⟨argusInit [[helpOption, groupBase (some c!"One of") (Flags.ofList [.exclusive]),
    optFlag 118 (some c!"verbose")]] c!"prog" none,
    { optInt 110 (some c!"num") with value := .word (.ofInt64 5), isSet := true }, rfl, ?_, ?_⟩ <;> decide +kernel

/-- **C77** A new option may hide one of an outer command from `argus_get`: with `--output x` given before `add`, the
    name `output` leads to x until `add` gets an `--output` of its own, and to nothing afterwards. -/
theorem C77_name_hides :
    ((argusParse Sample.world Sample.noEnv Sample.prog [c!"--output", c!"x", c!"add", c!"1"]).toOption.bind
      (fun r => (argusGet r.2 c!"output").toOption)).map (·.1) = some (.word (.ptr c!"x")) ∧
    ((argusParse Sample.world Sample.noEnv (Sample.prog.declare 1 [optString 0 (some c!"output")])
      [c!"--output", c!"x", c!"add", c!"1"]).toOption.bind
      (fun r => (argusGet r.2 c!"output").toOption)).map (·.1) = some .null := by
  constructor <;> decide +kernel

end Argus
