import Verif.Props.Syntax

/-!
# C83: the short and the long name of an option are the same

`source/core/parsing/option_handle_long.c` and `option_handle_short.c` are separate functions with separate lookups.
-/

set_option autoImplicit false

namespace Argus

/-- Among the entries of a level, exactly one option goes by the short name `c` or by the long name `name`, and it has both. -/
def BothNames (os : List Opt) (c : Byte) (name : Str) : Prop :=
  ∃ o ∈ os, o.type = .option ∧ o.sname = c ∧ o.lname = some name ∧
    ∀ o' ∈ os, o'.type = .option → o'.sname = c ∨ o'.lname = some name → o' = o

theorem findIdx?_eq_on {α : Type} {p q : α → Bool} : ∀ {l : List α}, (∀ x ∈ l, p x = q x) → l.findIdx? p = l.findIdx? q
  | [], _ => rfl
  | x :: xs, h => by
    rw [List.findIdx?_cons, List.findIdx?_cons, h x (by simp), findIdx?_eq_on (fun y hy => h y (by simp [hy]))]

theorem BothNames.find {os : List Opt} {c : Byte} {name : Str} (h : BothNames os c name) :
    findLname os name = findSname os c := by
  obtain ⟨o, -, -, hs, hl, hu⟩ := h
  unfold findLname findSname
  apply findIdx?_eq_on
  intro o' ho'
  rw [Bool.eq_iff_iff]
  simp only [Bool.and_eq_true, beq_iff_eq]
  constructor
  · rintro ⟨ht, h2⟩
    exact ⟨ht, (hu o' ho' ht (.inr h2)) ▸ hs⟩
  · rintro ⟨ht, h1⟩
    exact ⟨ht, (hu o' ho' ht (.inl h1)) ▸ hl⟩

/-- **C83** An option is the same under its two names: `--name` may stand wherever `-c` may, with whatever follows (its value, if it
    takes one, or nothing). The outcome is the same altogether: return value, error code, values, allocations and what was
    reported to handlers.
    Full statement: this holds for every option that has both names. Missing: only the first 63 bytes of a long name are
    looked at, a name with `=` in it is cut there (`C83_equals_sign`), and `-5` is a number if the next positional is one
    (`C83_digit`). -/
theorem C83_either_name_partial (W : World) (env : Env) (a : Argus) (pre post : List Str) (s : PState) (os : List Opt)
    (c : Byte) (name : Str) (hs : Reach W a pre s) (honly : s.only = false) (ht : s.a.table s.t = .ok os)
    (hb : BothNames os c name) (hc : c ≠ 45) (hne : name ≠ []) (heq : (61 : Byte) ∉ name) (hlen : name.length ≤ 63)
    (hnum : isDigit c = false ∨ ∀ o, slotOf (positionals os) s.pos = some o → o.valueType.isNumeric = false) :
    argusParse W env a (pre ++ (c!"--" ++ name) :: post) = argusParse W env a (pre ++ (c!"-" ++ [c]) :: post) := by
  apply hs.argusParse_congr
  rw [finish_cons hs.skip, finish_cons hs.skip, honly]
  have e1 : c!"--" ++ name = 45 :: 45 :: name := by simp
  have e2 : c!"-" ++ [c] = 45 :: c :: [] := by simp
  have hneg : (looksNumeric (c :: []) && (slotOf (positionals os) s.pos).any (fun o => o.valueType.isNumeric)) = false := by
    rcases hnum with h1 | h
    · simp [looksNumeric, h1]
    · cases hsl : slotOf (positionals os) s.pos with
      | none => simp
      | some o => simp [h o hsl]
  rw [e1, e2, parseStep_long hne, parseStep_short ht hc hneg]
  suffices h : handleLong W s.a s.t name post = handleShort W s.t post s.a [c] by rw [h]
  obtain ⟨k, hk, hkt⟩ := table_eq_ok.1 ht
  have ht' : s.a.table (some k) = .ok os := hk ▸ ht
  rw [handleLong, handleShort, hk, ht', longParts_none heq hlen]
  simp only [Out.ok_bind]
  rw [hb.find]
  cases hf : findSname os c with
  | none => rfl
  | some i =>
    obtain ⟨o, ho, -⟩ := findSname_some hf
    simp only [table_getOpt ht' ho, Out.ok_bind]
    by_cases hfl : o.valueType = .flag
    · simp only [hfl, if_true]
      cases execCallbacks W s.a ⟨k, i⟩ none with
      | ub u => rfl
      | ok r =>
        simp only [Out.ok_bind, handleShort]
        by_cases h0 : r.1 = Err.success
        · simp [h0]
        · simp [h0]
    · simp only [hfl, if_false]
      cases post <;> rfl

/-- **C83** The same for a value attached to the name: `--name=value` and `-cvalue` are the same, if the option takes a
    value and the value is not empty (`-c` alone would take the next argument). -/
theorem C83_attached_partial (W : World) (env : Env) (a : Argus) (pre post : List Str) (s : PState) (os : List Opt)
    (c : Byte) (name value : Str) (hs : Reach W a pre s) (honly : s.only = false) (ht : s.a.table s.t = .ok os)
    (hb : BothNames os c name) (hval : ∀ o ∈ os, o.type = .option → o.sname = c → o.valueType ≠ .flag)
    (hc : c ≠ 45) (hne : name ≠ []) (heq : (61 : Byte) ∉ name) (hlen : name.length ≤ 63) (hv : value ≠ [])
    (hnum : (isDigit c = false ∧ c ≠ 46) ∨ ∀ o, slotOf (positionals os) s.pos = some o → o.valueType.isNumeric = false) :
    argusParse W env a (pre ++ (c!"--" ++ name ++ c!"=" ++ value) :: post) =
      argusParse W env a (pre ++ (c!"-" ++ [c] ++ value) :: post) := by
  rw [C01_long_attached_eq_separate W env a pre post s name value hs honly hne heq ?_,
    C02_short_attached_eq_separate W env a pre post s c value hs honly hc hv ?_ ?_]
  · exact C83_either_name_partial W env a pre (value :: post) s os c name hs honly ht hb hc hne heq hlen (hnum.imp_left (·.1))
  · intro os' o h1 h2
    rw [ht] at h1; cases h1
    have hm := List.find?_some h2
    have hmem := List.mem_of_find?_eq_some h2
    simp only [decide_eq_true_eq] at hm
    exact hval o hmem hm.1 hm.2
  · rcases hnum with h | h
    · exact .inl h
    · refine .inr (fun os' o h1 h2 => ?_)
      rw [ht] at h1; cases h1
      exact h o h2
  · intro os' o h1 h2
    rw [ht] at h1; cases h1
    rw [List.take_of_length_le hlen] at h2
    have hm := List.find?_some h2
    have hmem := List.mem_of_find?_eq_some h2
    simp only [decide_eq_true_eq] at hm
    obtain ⟨o1, -, -, hs1, -, hu⟩ := hb
    have e := hu o hmem hm.1 (.inr hm.2)
    exact hval o hmem hm.1 (e ▸ hs1)

/-- The hypotheses of C83 are met by `prog -v admin --user bob` and `prog -v admin -u bob`. -/
example : ∃ s os, Reach Sample.world Sample.prog [c!"-v", c!"admin"] s ∧ s.only = false ∧ s.a.table s.t = .ok os ∧
    BothNames os 117 c!"user" ∧ isDigit 117 = false ∧
    (argusParse Sample.world Sample.noEnv Sample.prog ([c!"-v", c!"admin"] ++ (c!"--" ++ c!"user") :: [c!"bob"])).toOption.map (·.1) =
      some (.returned Err.success) := by
  refine ⟨_, _, rfl, rfl, rfl, ⟨optString 117 (some c!"user"), by decide, rfl, rfl, rfl, ?_⟩, by decide, by decide +kernel⟩
  decide

/-- A program with an option `-5`, `--five` and a number as positional. -/
def Sample.fives : Argus := argusInit [[helpOption, optFlag 53 (some c!"five"), posInt c!"count"]] c!"prog" none

/-- **C83** Here the two names differ: `-5` is the number, `--five` the flag. -/
theorem C83_digit :
    BothNames [helpOption, optFlag 53 (some c!"five"), posInt c!"count"] 53 c!"five" ∧
    (argusParse Sample.world Sample.noEnv Sample.fives [c!"-5"]).toOption.map (·.1) = some (.returned Err.success) ∧
    (argusParse Sample.world Sample.noEnv Sample.fives [c!"--five"]).toOption.map (·.1) =
      some (.returned Err.missingRequired) := by
  refine ⟨⟨optFlag 53 (some c!"five"), by simp, rfl, rfl, rfl, ?_⟩, by decide +kernel, by decide +kernel⟩
  decide

/-- **C83** An option with `=` in its long name can only be called by the short one. -/
theorem C83_equals_sign (W : World) (env : Env) (a : Argus) (name rest : Str) (post : List Str) (os : List Opt)
    (ht : a.tables[a.root]? = some os) (heq : (61 : Byte) ∉ name) (hun : ∀ o ∈ os, o.type = .option → o.lname ≠ some (name.take 63))
    (hne : name ≠ []) (r : ParseEnd × Argus)
    (hr : argusParse W env a ((c!"--" ++ (name ++ c!"=" ++ rest)) :: post) = .ok r) : r.1 = .returned Err.invalidArgument := by
  refine (C04_unknown_long_rejected_partial W env a [] post (.start a) os name (some rest) rfl rfl hne heq
    (table_eq_ok.2 ⟨_, rfl, ht⟩) hun).2 r ?_
  have e : c!"--" ++ name ++ ((some rest).map (c!"=" ++ ·)).getD [] = c!"--" ++ (name ++ c!"=" ++ rest) := by simp
  rw [e]; exact hr

/-- The hypotheses are met by a program whose only further option is called `a=b`. -/
example : BothNames [helpOption, optFlag 97 (some c!"a=b")] 97 c!"a=b" ∧
    (∀ o ∈ [helpOption, optFlag 97 (some c!"a=b")], o.type = .option → o.lname ≠ some (c!"a".take 63)) ∧
    (argusParse Sample.world Sample.noEnv (argusInit [[helpOption, optFlag 97 (some c!"a=b")]] c!"prog" none) [c!"-a"]).toOption.map
      (·.1) = some (.returned Err.success) := by
  refine ⟨⟨optFlag 97 (some c!"a=b"), by decide, rfl, rfl, rfl, by decide⟩, by decide, by decide +kernel⟩

end Argus
