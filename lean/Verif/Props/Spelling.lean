import Verif.Lemmas.Spelling
import Verif.Lemmas.Quiet
import Verif.Spec.Sample

/-!
# C72: everything on an accepted command line is used

`Written drop tables …` (Spec/Spelling) is a grammar of command lines: it says how a list of wishes may be written. With
`drop = False` every byte of every argument belongs to a wish or is the first `--`.
-/

set_option autoImplicit false

namespace Argus

/-- **C72** The command lines that can succeed are exactly those of the grammar, and each can be read in one way only: what
    is carried out is what was written. -/
theorem C72_grammar (W : World) (a : Argus) (args : List Str) (acts : List Act) :
    (Written True a.tables (some a.root) 0 false args acts ↔ a.asks args = acts ∧ ∀ x ∈ acts, x.Wish) ∧
    (Written True a.tables (some a.root) 0 false args acts → parseArgs W a (some a.root) args = run W a acts) ∧
    ((∀ acts, ¬ Written True a.tables (some a.root) 0 false args acts) →
      ∀ a', parseArgs W a (some a.root) args ≠ .ok (Err.success, a')) := by
  refine ⟨⟨fun h => h.reads, ?_⟩, ?_, ?_⟩
  · rintro ⟨rfl, hw⟩
    exact written_of_meaning _ args (Nat.le_refl _) _ _ _ hw
  · intro h
    rw [parseArgs_run, show a.asks args = acts from h.reads.1]
  · intro h a' hp
    exact h _ (written_of_meaning _ args (Nat.le_refl _) _ _ _ (run_success_wishes W _ a a' (by
      rw [← hp, parseArgs_run]; rfl)
      (asks_no_fail0 a args)))

/-- The command line has none of the things that are dropped: a lone dash, a second `--`, a value attached to the name of a
    flag, a name of more than 63 bytes. -/
structure Frugal (a : Argus) (args : List Str) : Prop where
  dash : c!"-" ∉ args
  stops : args.count c!"--" ≤ 1
  flags : ∀ (name value : Str), (61 : Byte) ∉ name → (c!"--" ++ name ++ c!"=" ++ value) ∈ args →
    ∀ os ∈ a.tables, ∀ o ∈ os, o.lname = some name → o.valueType ≠ .flag
  names : ∀ (name text : Str), (61 : Byte) ∉ name → (c!"--" ++ name ++ text) ∈ args → name.length ≤ 63

/-- **C72** (full statement: whenever argus_parse succeeds, every argument is used to the last byte.) Proved for command
    lines that are `Frugal`; false otherwise, see `C72_dropped`.
    If argus_parse succeeds, the line is a way to write what was carried out, with nothing left over, and all of it was
    carried out without an error. -/
theorem C72_used_partial (W : World) (env : Env) (a a' : Argus) (args : List Str)
    (hok : argusParse W env a args = .ok (.returned Err.success, a')) (hf : Frugal a args) :
    ∃ acts a1, Written False a.tables (some a.root) 0 false args acts ∧ run W a acts = .ok (Err.success, a1) := by
  obtain ⟨a1, _, hp, _⟩ := argusParse_success hok
  rw [parseArgs_run] at hp
  refine ⟨a.asks args, a1, ?_, hp⟩
  have hw := written_of_meaning (tables := a.tables) _ args (Nat.le_refl _) (some a.root) 0 false
    (run_success_wishes W _ a a1 hp (asks_no_fail0 a args))
  exact hw.strict hf.dash hf.stops (by simp) hf.flags hf.names

/-- `prog -vo x --output=y -- -z`. -/
example : (∃ a', argusParse Sample.world Sample.noEnv Sample.prog [c!"-vo", c!"x", c!"--output=y", c!"--", c!"-z"] =
    .ok (.returned Err.success, a')) ∧
    Frugal Sample.prog [c!"-vo", c!"x", c!"--output=y", c!"--", c!"-z"] := by
  refine ⟨⟨_, rfl⟩, by decide, by decide, ?_, ?_⟩
  · intro name value hn hm os hos o ho hl
    have h1 : name = c!"output" := by
      simp only [List.mem_cons, List.not_mem_nil, or_false] at hm
      rcases hm with h | h | h | h | h
      · simp at h
      · simp at h
      · have h2 : c!"--output=y" = c!"--" ++ c!"output" ++ c!"=" ++ c!"y" := by decide
        rw [h2] at h
        simp only [List.append_assoc, List.append_cancel_left_eq] at h
        exact eq_before h.symm hn (by decide)
      · simp at h
      · simp at h
    subst h1
    have : ∀ os ∈ Sample.prog.tables, ∀ o ∈ os, o.lname = some c!"output" → o.valueType ≠ .flag := by decide +kernel
    exact this os hos o ho hl
  · intro name text hn hm
    have : ∀ x ∈ [c!"-vo", c!"x", c!"--output=y", c!"--", c!"-z"], x.length ≤ 20 := by decide
    have := this _ hm
    simp only [List.length_append, List.length_cons, List.length_nil] at this
    omega

/-- **C72** fails for four things, which are ignored in front of any command line: a lone dash; a second `--`; a value
    attached to a flag, so that `--flag=false` sets the flag; and what follows the 63rd byte of a name. -/
theorem C72_dropped (W : World) (env : Env) (a : Argus) (rest : List Str) :
    argusParse W env a (c!"-" :: rest) = argusParse W env a rest ∧
    argusParse W env a (c!"--" :: c!"--" :: rest) = argusParse W env a (c!"--" :: rest) ∧
    (∀ (os : List Opt) (name value : Str) (i : Nat) (o : Opt), a.tables[a.root]? = some os → CalledLong os name i o →
      o.valueType = .flag → name ≠ [] → (61 : Byte) ∉ name → name.length ≤ 63 →
      argusParse W env a ((c!"--" ++ name ++ c!"=" ++ value) :: rest) = argusParse W env a ((c!"--" ++ name) :: rest)) ∧
    (∀ (os : List Opt) (name tail : Str), a.tables[a.root]? = some os → name.length = 63 → (61 : Byte) ∉ name →
      (61 : Byte) ∉ tail →
      argusParse W env a ((c!"--" ++ name ++ tail) :: rest) = argusParse W env a ((c!"--" ++ name) :: rest)) := by
  have key : ∀ args args' : List Str, a.asks args = a.asks args' → argusParse W env a args = argusParse W env a args' := by
    intro args args' h
    rw [argusParse_eq, argusParse_eq, parseArgs_run, parseArgs_run, h]
  refine ⟨key _ _ ?_, key _ _ ?_, ?_, ?_⟩
  · exact meaning_dash
  · unfold Argus.asks
    rw [meaning_dashes, meaning_dashes, meaning_dashes]
  · intro os name value i o hk hc hf hne he hl
    apply key
    unfold Argus.asks
    rw [show c!"--" ++ name ++ c!"=" ++ value = 45 :: 45 :: (name ++ 61 :: value) by simp,
      show c!"--" ++ name = 45 :: 45 :: name by simp, meaning_long hk (argKind_attached he),
      meaning_long hk (argKind_long hne he), take_self hl]
    unfold longActs
    rw [longIdx_called.2 ⟨o, hc⟩]
    simp only [isFlagAt_of hc.1, hf, decide_true, if_true]
  · intro os name tail hk hl he ht
    apply key
    unfold Argus.asks
    have hn : name ≠ [] := by rintro rfl; simp at hl
    have hnt : (61 : Byte) ∉ name ++ tail := by
      intro hm
      rcases List.mem_append.1 hm with hm | hm
      · exact he hm
      · exact ht hm
    rw [show c!"--" ++ name ++ tail = 45 :: 45 :: (name ++ tail) by simp, show c!"--" ++ name = 45 :: 45 :: name by simp,
      meaning_long hk (argKind_long (by simp [hn]) hnt), meaning_long hk (argKind_long hn he),
      show (name ++ tail).take 63 = name by rw [← hl]; simp, take_self (by omega)]

/-- **C72** So `prog --verbose=no` is accepted, sets the flag, and cannot be written by the rules. -/
theorem C72_value_dropped : ∃ a', argusParse Sample.world Sample.noEnv Sample.prog [c!"--verbose=no"] =
      .ok (.returned Err.success, a') ∧ (a'.getOpt ⟨0, 1⟩).toOption.map (·.value) = some (.word (.bits 1)) ∧
    ∀ acts, ¬ Written False Sample.prog.tables (some 0) 0 false [c!"--verbose=no"] acts := by
  refine ⟨_, rfl, by decide +kernel, ?_⟩
  intro acts h
  have hr : Sample.prog.asks [c!"--verbose=no"] = [.give ⟨0, 1⟩ none] := by decide +kernel
  have ha : acts = [.give ⟨0, 1⟩ none] := by rw [← hr]; exact h.reads.1.symm
  generalize hargs : [c!"--verbose=no"] = args at h
  cases h with
  | longFlag _ _ os name i o rest _ hk hc hf hne hl he _ =>
    simp only [List.cons.injEq, show c!"--verbose=no" = c!"--" ++ c!"verbose=no" by decide, List.append_cancel_left_eq] at hargs
    rw [← hargs.1] at he
    exact he (by decide)
  | short _ _ os cluster extra rest acts1 _ hk hb hd =>
    simp only [List.cons.injEq, show c!"--verbose=no" = c!"-" ++ c!"-verbose=no" by decide, List.append_cancel_left_eq] at hargs
    rw [← hargs.1] at hd
    exact hd rfl
  | done => simp at hargs
  | longAttached => simp at ha
  | longSeparate => simp at ha
  | command => simp at ha
  | word => simp at ha
  | number => simp at ha
  | stop _ _ _ _ _ => simp at hargs
  | dropDash _ _ _ _ hd _ => exact hd
  | dropValue _ _ _ _ _ _ _ _ _ hd => exact hd
  | dropName _ _ _ _ _ _ _ _ _ _ hd => exact hd

end Argus
