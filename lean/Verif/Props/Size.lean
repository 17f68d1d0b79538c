import Verif.Lemmas.SizeRoom
import Verif.Props.Arrays
import Verif.Props.Describe
import Verif.Props.RoundTrip

/-! # C105: what is kept is no larger than what was given -/

set_option autoImplicit false

namespace Argus

/-- **C105** (full statement, violated, see `C105_claim_false`). After a successful parse any options that use the library's
    handlers have, all together, at most one entry more for each byte of the command line and of their variables. -/
def C105_claim : Prop :=
  ∀ (W : World) (env : Env) (a a' : Argus) (args : List Str) (ps : List Ptr),
    argusParse W env a args = .ok (.returned Err.success, a') → ps.Nodup → (∀ p ∈ ps, a.BuiltInAt p) →
    a'.total Opt.valueCount ps ≤ a.total Opt.valueCount ps + (lineBytes args + a.envBytes env args ps)

/-- **C105** (full statement: `C105_claim`). It holds for all options other than int arrays. Missing: int arrays, where
    a range of a few bytes stands for many integers (`C105_one_range`). -/
theorem C105_entries_partial (W : World) (env : Env) (a a' : Argus) (args : List Str) (ps : List Ptr)
    (hok : argusParse W env a args = .ok (.returned Err.success, a')) (hn : ps.Nodup) (hb : ∀ p ∈ ps, a.BuiltInAt p)
    (hr : ∀ p ∈ ps, a.NoRangesAt p) :
    a'.total Opt.valueCount ps ≤ a.total Opt.valueCount ps + (lineBytes args + a.envBytes env args ps) := by
  have := total_grows (m := Opt.valueCount) (K := 1)
    (I := fun o => (∀ id, o.handler ≠ some (.custom id)) ∧ o.handler ≠ some .arrayInt) (fun o o' x hI h =>
      ⟨by rw [give_keeps_handler h]; exact hI, give_count hI.1 (Nat.le_refl 1) (fun e => absurd e hI.2) h⟩) hok hn (fun p hp => by
      obtain ⟨o, h1, h2, h3⟩ := hb p hp
      obtain ⟨o', h4, h5⟩ := hr p hp
      rw [h1] at h4; cases h4
      exact ⟨o, h1, h2, h3, h5⟩)
  rwa [Nat.one_mul] at this

/-- **C105** With int arrays each byte counts for at most as many entries as there are integers of type `int`. -/
theorem C105_entries_ranges (W : World) (env : Env) (a a' : Argus) (args : List Str) (ps : List Ptr)
    (hok : argusParse W env a args = .ok (.returned Err.success, a')) (hn : ps.Nodup) (hb : ∀ p ∈ ps, a.BuiltInAt p) :
    a'.total Opt.valueCount ps ≤ a.total Opt.valueCount ps + 4294967296 * (lineBytes args + a.envBytes env args ps) :=
  total_grows (m := Opt.valueCount) (K := 4294967296) (I := fun o => ∀ id, o.handler ≠ some (.custom id))
    (fun o o' x hI h => ⟨by rw [give_keeps_handler h]; exact hI, give_count hI (by decide) (fun _ => by decide) h⟩) hok hn hb

/-- **C105** The texts kept: strings, elements, keys and values of all options together take at most as many bytes more as
    the command line and the variables have. This holds with int arrays as well. -/
theorem C105_texts (W : World) (env : Env) (a a' : Argus) (args : List Str) (ps : List Ptr)
    (hok : argusParse W env a args = .ok (.returned Err.success, a')) (hn : ps.Nodup) (hb : ∀ p ∈ ps, a.BuiltInAt p) :
    a'.total Opt.textSize ps ≤ a.total Opt.textSize ps + (lineBytes args + a.envBytes env args ps) := by
  have := total_grows (m := Opt.textSize) (K := 1) (I := fun o => ∀ id, o.handler ≠ some (.custom id))
    (fun o o' x hI h => ⟨by rw [give_keeps_handler h]; exact hI, give_size hI h⟩) hok hn hb
  rwa [Nat.one_mul] at this

/-- **C105** (full statement: for int arrays as well). The room the collections take, in entries: at most eight for each
    option and two for each byte given, beyond what the options held before. Missing: int arrays, see
    `C105_entries_ranges`. -/
theorem C105_room_partial (W : World) (env : Env) (a a' : Argus) (args : List Str) (ps : List Ptr)
    (hok : argusParse W env a args = .ok (.returned Err.success, a')) (hn : ps.Nodup) (hb : ∀ p ∈ ps, a.BuiltInAt p)
    (hr : ∀ p ∈ ps, a.NoRangesAt p) :
    a'.total Opt.valueCapacity ps ≤
      a.total (fun o => max (max o.valueCapacity 8) (2 * o.valueCount)) ps + 2 * (lineBytes args + a.envBytes env args ps) := by
  have := total_grows (m := Opt.room) (K := 2)
    (I := fun o => (∀ id, o.handler ≠ some (.custom id)) ∧ o.handler ≠ some .arrayInt) (fun o o' x hI h =>
      ⟨by rw [give_keeps_handler h]; exact hI, give_room hI.1 (Nat.le_refl 2) (fun e => absurd e hI.2) h⟩) hok hn (fun p hp => by
      obtain ⟨o, h1, h2, h3⟩ := hb p hp
      obtain ⟨o', h4, h5⟩ := hr p hp
      rw [h1] at h4; cases h4
      exact ⟨o, h1, h2, h3, h5⟩)
  refine Nat.le_trans (sum_le_sum _ _ ps (fun p _ => ?_)) this
  cases a'.getOpt p with
  | ok o => simp only [Opt.room]; omega
  | ub _ => exact Nat.le_refl _

/-- **C105** What a single option keeps: an option that starts out empty has at most as many entries as the command line
    and its variable have bytes. -/
theorem C105_one_option_partial (W : World) (env : Env) (a a' : Argus) (args : List Str) (p : Ptr) (o : Opt)
    (hok : argusParse W env a args = .ok (.returned Err.success, a')) (ho : a.getOpt p = .ok o) (ht : o.type ≠ .subcommand)
    (hf : o.Fresh) (hc : ∀ id, o.handler ≠ some (.custom id)) (hi : o.handler ≠ some .arrayInt) :
    ∃ o', a'.getOpt p = .ok o' ∧ o'.valueCount ≤ lineBytes args + (a.tablesUsed args).count p.tbl * a.varBytes env p := by
  have h := C105_entries_partial W env a a' args [p] hok (by simp) (by
    intro q hq
    simp only [List.mem_singleton] at hq; subst hq
    exact ⟨o, ho, ht, hc⟩) (by
    intro q hq
    simp only [List.mem_singleton] at hq; subst hq
    exact ⟨o, ho, hi⟩)
  obtain ⟨o', e1, _⟩ := argusParse_texts hok ho ht
  refine ⟨o', e1, ?_⟩
  simp only [Argus.total, List.map_cons, List.map_nil, List.sum_cons, List.sum_nil, e1, ho, hf.2, Argus.envBytes] at h
  omega

/-- **C105** fails for int arrays, and without limit up to 2147483647 entries: the text `0:n`, of at most 22 bytes, stands for
    `n + 1` entries. -/
theorem C105_one_range (W : World) (o : Opt) (n : Nat) (hn : (n : Int) < intMax) (hh : o.handler = some .arrayInt)
    (hv : o.valueType = .arrayInt) (hf : o.Fresh) (hs : o.flags.has .sorted = false) (hu : o.flags.has .unique = false) :
    (c!"0:" ++ showInt n).length ≤ 22 ∧
    ∃ o', o.give W (some (c!"0:" ++ showInt n)) = some o' ∧ o'.valueCount = n + 1 := by
  have hlen : (c!"0:" ++ showInt n).length ≤ 22 := by
    have := showInt_length_le (n := n) (by omega) (by simp only [intMax] at hn; omega)
    simp only [List.length_append]
    have e : (c!"0:").length = 2 := rfl
    omega
  refine ⟨hlen, ?_⟩
  have hcomma : (44 : Byte) ∉ c!"0:" ++ showInt n := by
    intro h
    rcases List.mem_append.1 h with h | h
    · revert h; decide
    · exact absurd h (showInt_no_comma n)
  have hp : [c!"0:" ++ showInt n].flatMap pieces = [IntPiece.range 0 true n].map IntPiece.text := by
    simp only [List.flatMap_cons, List.flatMap_nil, List.append_nil, pieces, if_neg hcomma, List.map_cons, List.map_nil,
      IntPiece.text]
    rfl
  have hfit : ∀ q ∈ [IntPiece.range 0 true n], q.Fits := by
    intro q hq
    simp only [List.mem_singleton] at hq; subst hq
    simp only [IntPiece.Fits, intMin, intMax] at hn ⊢
    omega
  have hst : StartsWell [c!"0:" ++ showInt n] := by
    intro t ht
    simp only [List.head?_cons, Option.mem_def, Option.some.injEq] at ht; subst ht
    rw [pieces, if_neg hcomma]
    simp
  obtain ⟨o', shown, f1, f2, f3, _⟩ := ints_after W (.array _ hh hv hp hfit) hf (by simp) hst
  rw [f3.plain hs hu] at f2
  obtain ⟨cells, ⟨_, e1⟩, e2⟩ := f2
  refine ⟨o', ?_, ?_⟩
  · simp only [List.map_cons, List.map_nil, Opt.giveAll] at f1
    cases hg : o.give W (some (c!"0:" ++ showInt n)) with
    | none => rw [hg] at f1; exact (nomatch f1)
    | some o1 => rw [hg] at f1; simpa using f1
  · have e3 := congrArg List.length e2
    simp only [List.length_map, List.flatMap_cons, List.flatMap_nil, List.append_nil, IntPiece.ints, List.length_range] at e3
    omega

/-- A program with an option `-l` for integers. -/
def Sample.listing : Argus :=
  { tables := [[{ type := .option, sname := 108, name := some c!"l", handler := some .arrayInt, valueType := .arrayInt }]] }

/-- **C105** `-l0:9`, six bytes with the ending one, leaves ten entries. -/
theorem C105_claim_false : ¬ C105_claim := by
  intro h
  have e : ∃ a', argusParse Sample.world Sample.noEnv Sample.listing [c!"-l0:9"] = .ok (.returned Err.success, a') ∧
      a'.total Opt.valueCount [⟨0, 0⟩] = 10 := ⟨_, rfl, by decide +kernel⟩
  obtain ⟨a', e1, e2⟩ := e
  have := h Sample.world Sample.noEnv Sample.listing a' [c!"-l0:9"] [⟨0, 0⟩] e1 (by decide) (by
    intro p hp
    simp only [List.mem_singleton] at hp; subst hp
    exact ⟨_, rfl, by decide, by intro id e; exact (nomatch e)⟩)
  rw [e2] at this
  revert this
  decide +kernel

/-- A case of C105, where every bound is met: a word, a list and a map. -/
example : ∃ a', argusParse Sample.world Sample.noEnv Sample.prog [c!"-ta,b", c!"-mx=1", c!"in.txt"] =
      .ok (.returned Err.success, a') ∧
    a'.total Opt.valueCount [⟨0, 4⟩, ⟨0, 5⟩, ⟨0, 7⟩] = 4 ∧ a'.total Opt.textSize [⟨0, 4⟩, ⟨0, 5⟩, ⟨0, 7⟩] = 13 ∧
    lineBytes [c!"-ta,b", c!"-mx=1", c!"in.txt"] = 19 ∧ a'.total Opt.valueCapacity [⟨0, 4⟩, ⟨0, 5⟩, ⟨0, 7⟩] = 16 ∧
    [(⟨0, 4⟩ : Ptr), ⟨0, 5⟩, ⟨0, 7⟩].Nodup := ⟨_, rfl, by decide +kernel, by decide +kernel, by decide, by decide +kernel, by decide⟩

/-- The options of the case above are those the theorems speak of. -/
example : ∀ p ∈ [(⟨0, 4⟩ : Ptr), ⟨0, 5⟩, ⟨0, 7⟩], Sample.prog.BuiltInAt p ∧ Sample.prog.NoRangesAt p := by
  intro p hp
  simp only [List.mem_cons, List.not_mem_nil, or_false] at hp
  rcases hp with rfl | rfl | rfl <;>
    exact ⟨⟨_, rfl, by decide, by intro id e; exact (nomatch e)⟩, ⟨_, rfl, by decide⟩⟩

/-- A text can be as large as the line: the bound of `C105_texts` cannot be lowered. -/
example : ∃ a', argusParse Sample.world Sample.noEnv Sample.prog [c!"in.txt"] = .ok (.returned Err.success, a') ∧
    a'.total Opt.textSize [⟨0, 7⟩] = lineBytes [c!"in.txt"] ∧ Sample.prog.total Opt.textSize [⟨0, 7⟩] = 0 :=
  ⟨_, rfl, by decide +kernel, by decide +kernel⟩

/-- An option `C105_one_range` speaks of. -/
example : (optArrayInt 110 none).Fresh ∧ (optArrayInt 110 none).handler = some .arrayInt ∧
    (optArrayInt 110 none).valueType = .arrayInt ∧ (optArrayInt 110 none).flags.has .sorted = false ∧
    (optArrayInt 110 none).flags.has .unique = false :=
  ⟨⟨rfl, rfl⟩, rfl, rfl, rfl, rfl⟩

end Argus
