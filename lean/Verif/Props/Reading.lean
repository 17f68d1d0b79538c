import Verif.Lemmas.Meaning
import Verif.Lemmas.Quiet
import Verif.Spec.Sample

/-!
# C58: a command line has one reading, fixed by the declarations

`a.asks args` (Spec/Meaning) is what a command line asks for: a list of texts handed to options, of
subcommands entered and of errors. It is computed from the declarations without running anything.
-/

set_option autoImplicit false

namespace Argus

/-- What the reading may depend on: the declared part of an option. -/
def SameDeclared (o o' : Opt) : Prop :=
  o' = { o with value := o'.value, isAllocated := o'.isAllocated, valueCount := o'.valueCount,
                valueCapacity := o'.valueCapacity, isSet := o'.isSet }

/-- **C58** The parse stage does what the command line asks for, one thing after the other, until
    something fails: whatever the handlers and validators do in between, the reading of the later
    arguments is the one fixed at the start. -/
theorem C58_parse_follows_reading (W : World) (a : Argus) (args : List Str) :
    parseArgs W a (some a.root) args = run W a (a.asks args) := parseArgs_run W a args

/-- **C58** Two command lines with the same reading are the same to `argus_parse`, in every
    environment. -/
theorem C58_same_reading_same_result (W : World) (env : Env) (a : Argus) (args args' : List Str)
    (h : a.asks args = a.asks args') : argusParse W env a args = argusParse W env a args' := by
  rw [argusParse_eq, argusParse_eq, parseArgs_run, parseArgs_run, h]

/-- **C58** The reading depends on the declarations only: two contexts whose options differ at most in
    their values and in what parsing has set read every command line alike. -/
theorem C58_reading_fixed_by_declarations (a b : Argus) (args : List Str) (hroot : b.root = a.root)
    (htab : b.tables.length = a.tables.length)
    (hlen : ∀ k : Nat, (b.tables[k]?).map List.length = (a.tables[k]?).map List.length)
    (hopt : ∀ (k i : Nat) (os os' : List Opt) (o o' : Opt), a.tables[k]? = some os → b.tables[k]? = some os' →
      os[i]? = some o → os'[i]? = some o' → SameDeclared o o') :
    b.asks args = a.asks args := by
  have hs : b.shape = a.shape := by
    unfold Argus.shape
    apply List.ext_getElem?
    intro k
    simp only [List.getElem?_map]
    cases ha : a.tables[k]? with
    | none =>
      have : b.tables[k]? = none := by
        rw [List.getElem?_eq_none_iff] at ha ⊢; omega
      rw [this]
    | some os =>
      have hl := hlen k
      rw [ha] at hl
      cases hb : b.tables[k]? with
      | none => rw [hb] at hl; simp at hl
      | some os' =>
        rw [hb] at hl
        simp only [Option.map_some, Option.some.injEq] at hl ⊢
        apply List.ext_getElem?
        intro i
        simp only [List.getElem?_map]
        cases hi : os[i]? with
        | none =>
          have : os'[i]? = none := by
            rw [List.getElem?_eq_none_iff] at hi ⊢; omega
          rw [this]
        | some o =>
          cases hi' : os'[i]? with
          | none =>
            rw [List.getElem?_eq_none_iff] at hi'
            have := List.getElem?_eq_some_iff.1 hi
            obtain ⟨hlt, _⟩ := this
            omega
          | some o' =>
            have := hopt k i os os' o o' ha hb hi hi'
            simp only [Option.map_some, Option.some.injEq]
            rw [this]; rfl
  unfold Argus.asks
  rw [hroot]
  exact meaning_congr hs _ _ _ _ _

/-- `prog -vo x add` and `prog --verbose --output=x add`
    have the same reading: set `verbose`, give `x` to `output`, enter `add`. -/
example : Sample.prog.asks [c!"-vo", c!"x", c!"add"] =
      Sample.prog.asks [c!"--verbose", c!"--output=x", c!"add"] ∧
    Sample.prog.asks [c!"-vo", c!"x", c!"add"] =
      [.give ⟨0, 1⟩ none, .give ⟨0, 2⟩ (some c!"x"), .enter ⟨0, 8⟩] ∧
    Sample.prog.asks [c!"-vo", c!"x", c!"add"] ≠ Sample.prog.asks [c!"-vo", c!"x", c!"--", c!"add"] := by
  decide +kernel

/-- A context in which `verbose` has already been set reads the line as a fresh one does. -/
example : ∃ b, parseArgs Sample.world Sample.prog (some 0) [c!"-v"] = .ok (Err.success, b) ∧
    (b.tables[0]?.bind (·[1]?)).map (·.isSet) = some true ∧
    b.asks [c!"-vo", c!"x", c!"add"] = Sample.prog.asks [c!"-vo", c!"x", c!"add"] :=
  ⟨_, rfl, by decide +kernel, by decide +kernel⟩

end Argus
