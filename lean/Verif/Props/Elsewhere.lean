import Verif.Lemmas.Elsewhere
import Verif.Spec.Sample

/-!
# C78: what is declared for commands that are not called

`SameWithin K a b`: the programs `a` and `b` are the same but for the options arrays outside of `K`. `Concerns a args`
are the array of the program and those of the subcommands that the line selects.
-/

set_option autoImplicit false

namespace Argus

/-- **C78** Only the options of the commands that are called matter: two programs that agree on these behave the same,
    whatever else they declare. They end with the same status, messages, subcommands and error code, and every option
    of the commands called holds the same in both. -/
theorem C78_only_called (W : World) (env : Env) (a b a' : Argus) (args : List Str) (w : ParseEnd)
    (hstack : a.stack = []) (hab : SameWithin (Concerns a args) a b) (h : argusParse W env a args = .ok (w, a')) :
    ∃ b', argusParse W env b args = .ok (w, b') ∧ b'.out = a'.out ∧ b'.stack = a'.stack ∧
      b'.errorCode = a'.errorCode ∧ ∀ p, Concerns a args p.tbl → b'.getOpt p = a'.getOpt p := by
  have key := within_argusParse (W := W) (env := env) (.inl rfl) hab
    (by intro p hp; rw [hstack] at hp; exact (nomatch hp)) args
    (fun p hp os o k h1 h2 h3 => .inr ⟨p, o, hp, getOpt_eq_ok.2 ⟨os, h1, h2⟩, h3⟩)
  rw [h] at key
  cases hb : argusParse W env b args with
  | ub u => rw [hb] at key; exact key.elim
  | ok r =>
    rw [hb] at key
    obtain ⟨h1, h2⟩ := key
    simp only at h1 h2
    exact ⟨r.2, by rw [← h1], h2.out, h2.stack, h2.errorCode, fun p hp => h2.getOpt hp⟩

/-- **C78** Undefined behaviour depends on the commands called, too. -/
theorem C78_only_called_ub (W : World) (env : Env) (a b : Argus) (args : List Str) (u : Ub)
    (hstack : a.stack = []) (hab : SameWithin (Concerns a args) a b) (h : argusParse W env a args = .ub u) :
    argusParse W env b args = .ub u := by
  have key := within_argusParse (W := W) (env := env) (.inl rfl) hab
    (by intro p hp; rw [hstack] at hp; exact (nomatch hp)) args
    (fun p hp os o k h1 h2 h3 => .inr ⟨p, o, hp, getOpt_eq_ok.2 ⟨os, h1, h2⟩, h3⟩)
  rw [h] at key
  cases hb : argusParse W env b args with
  | ub v => rw [hb] at key; rw [show u = v from key]
  | ok r => rw [hb] at key; exact key.elim

/-- The sample program with another `add` and with no options array for `admin`. -/
def Sample.otherAdd : Argus :=
  { Sample.prog with tables := [Sample.root, [optInt 110 (some c!"num"), posInt c!"other"]] }

/-- `prog --num 5 file` selects no subcommand, so the two programs behave the same. -/
example : SameWithin (Concerns Sample.prog [c!"--num", c!"5", c!"file"]) Sample.prog Sample.otherAdd ∧
    (argusParse Sample.world Sample.noEnv Sample.prog [c!"--num", c!"5", c!"file"]).toOption.map (·.1) =
      some (.returned Err.success) := by
  refine ⟨⟨fun k hk => ?_, rfl⟩, by decide +kernel⟩
  rcases hk with rfl | ⟨p, o, hp, -, -⟩
  · rfl
  · rw [show Sample.prog.asks [c!"--num", c!"5", c!"file"] =
      [.give ⟨0, 3⟩ (some c!"5"), .give ⟨0, 7⟩ (some c!"file")] by decide +kernel] at hp
    simp at hp

/-- `prog add 5 x` is a line that does concern the other array: there the programs differ. -/
example : Concerns Sample.prog [c!"add", c!"5", c!"x"] 1 ∧
    (argusParse Sample.world Sample.noEnv Sample.prog [c!"add", c!"5", c!"x"]).toOption.map (·.1) =
      some (.returned Err.success) ∧
    (argusParse Sample.world Sample.noEnv Sample.otherAdd [c!"add", c!"5", c!"x"]).toOption.map (·.1) =
      some (.returned Err.invalidArgument) := by
  refine ⟨.inr ⟨⟨0, 8⟩, _, by decide +kernel, rfl, rfl⟩, by decide +kernel, by decide +kernel⟩

end Argus
