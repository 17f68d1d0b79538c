import Verif.Lemmas.Syntax
import Verif.Lemmas.Free
import Verif.Spec.Sample

/-!
# C01-C05: spellings of options

Every theorem speaks of `argusParse` on a whole command line: `pre` are the arguments read before
(leading to parser state `s`), `post` the ones after.
-/

set_option autoImplicit false

namespace Argus

/-- **C01** `--name=value` and `--name value` are the same command line, for a name of any length. Of the name the
    first 63 bytes count (`C04_first_63_bytes`); the option they name, if any, must take a value. -/
theorem C01_long_attached_eq_separate (W : World) (env : Env) (a : Argus) (pre post : List Str)
    (s : PState) (name value : Str) (hs : Reach W a pre s) (honly : s.only = false)
    (hne : name ≠ []) (heq : (61 : Byte) ∉ name)
    (hval : ∀ os o, s.a.table s.t = .ok os → byLong os (name.take 63) = some o → o.valueType ≠ .flag) :
    argusParse W env a (pre ++ (c!"--" ++ name ++ c!"=" ++ value) :: post) =
      argusParse W env a (pre ++ (c!"--" ++ name) :: value :: post) := by
  apply hs.argusParse_congr
  rw [finish_cons hs.skip, finish_cons hs.skip, honly]
  have e1 : c!"--" ++ name ++ c!"=" ++ value = 45 :: 45 :: (name ++ 61 :: value) := by simp
  have e2 : c!"--" ++ name = 45 :: 45 :: name := by simp
  rw [e1, e2, parseStep_long (by simp), parseStep_long hne]
  unfold handleLong
  rw [longParts_cut heq, longParts_cut_none heq]
  cases ht : s.a.table s.t with
  | ub u => rfl
  | ok os =>
    obtain ⟨k, hk, hkt⟩ := table_eq_ok.1 ht
    rw [hk] at ht ⊢
    simp only [Out.ok_bind]
    cases hf : findLname os (name.take 63) with
    | none => rfl
    | some i =>
      obtain ⟨o, ho, hb⟩ := findLname_some hf
      have hfl := hval os o (by rw [hk]; exact ht) hb
      simp only [table_getOpt ht ho, Out.ok_bind, hfl, if_false]
      cases execCallbacks W s.a ⟨k, i⟩ (some value) with
      | ub u => rfl
      | ok r =>
        simp only [Out.ok_bind]
        unfold OptRes.step
        by_cases h0 : r.1 = Err.success
        · simp only [h0, ne_eq, not_true_eq_false, if_false, parseLoop_skip]
        · simp only [h0, ne_eq, not_false_eq_true, if_true]

/-- The hypotheses of C01 are met by `prog -v --output ...`. -/
example : ∃ s, Reach Sample.world Sample.prog [c!"-v"] s ∧ s.only = false ∧
    (∀ os o, s.a.table s.t = .ok os → byLong os (c!"output".take 63) = some o → o.valueType ≠ .flag) ∧
    (argusParse Sample.world Sample.noEnv Sample.prog
      ([c!"-v"] ++ (c!"--" ++ c!"output" ++ c!"=" ++ c!"x.txt") :: [c!"f"])).toOption.map (·.1) =
      some (.returned Err.success) := by
  refine ⟨_, rfl, rfl, ?_, by decide +kernel⟩
  intro os o h1 h2
  cases h1
  cases h2
  decide

/-- **C02** `-ovalue` and `-o value` are the same command line. The last hypothesis says that `-o`
    could not be read as a negative number for the next positional. -/
theorem C02_short_attached_eq_separate (W : World) (env : Env) (a : Argus) (pre post : List Str)
    (s : PState) (c : Byte) (value : Str) (hs : Reach W a pre s) (honly : s.only = false)
    (hc : c ≠ 45) (hne : value ≠ [])
    (hval : ∀ os o, s.a.table s.t = .ok os → byShort os c = some o → o.valueType ≠ .flag)
    (hnum : (isDigit c = false ∧ c ≠ 46) ∨ ∀ os o, s.a.table s.t = .ok os →
      slotOf (positionals os) s.pos = some o → o.valueType.isNumeric = false) :
    argusParse W env a (pre ++ (c!"-" ++ [c] ++ value) :: post) =
      argusParse W env a (pre ++ (c!"-" ++ [c]) :: value :: post) := by
  apply hs.argusParse_congr
  rw [finish_cons hs.skip, finish_cons hs.skip, honly]
  have e1 : c!"-" ++ [c] ++ value = 45 :: c :: value := by simp
  have e2 : c!"-" ++ [c] = 45 :: c :: [] := by simp
  rw [e1, e2]
  cases ht : s.a.table s.t with
  | ub u => rw [parseStep_ub ht hc, parseStep_ub ht hc]; rfl
  | ok os =>
    have hneg : ∀ cs, (looksNumeric (c :: cs) &&
        (slotOf (positionals os) s.pos).any (fun o => o.valueType.isNumeric)) = false := by
      intro cs
      rcases hnum with ⟨h1, h2⟩ | h
      · simp [looksNumeric, h1, h2]
      · cases hsl : slotOf (positionals os) s.pos with
        | none => simp
        | some o => simp [h os o ht hsl]
    rw [parseStep_short ht hc (hneg value), parseStep_short ht hc (hneg [])]
    obtain ⟨k, hk, hkt⟩ := table_eq_ok.1 ht
    have ht' : s.a.table (some k) = .ok os := hk ▸ ht
    unfold handleShort
    rw [hk, ht']
    simp only [Out.ok_bind]
    cases hf : findSname os c with
    | none => rfl
    | some i =>
      obtain ⟨o, ho, hb⟩ := findSname_some hf
      have hfl := hval os o ht hb
      simp only [table_getOpt ht' ho, Out.ok_bind, hfl, if_false]
      cases value with
      | nil => exact absurd rfl hne
      | cons v vs =>
        simp only
        cases execCallbacks W s.a ⟨k, i⟩ (some (v :: vs)) with
        | ub u => rfl
        | ok r =>
          simp only [Out.ok_bind]
          unfold OptRes.step
          by_cases h0 : r.1 = Err.success
          · simp only [h0, ne_eq, not_true_eq_false, if_false, parseLoop_skip]
          · simp only [h0, ne_eq, not_false_eq_true, if_true]

/-- The hypotheses of C02 are met by `prog -v -n...`, also in a subcommand. -/
example : ∃ s, Reach Sample.world Sample.prog [c!"-v", c!"admin"] s ∧ s.only = false ∧
    (∀ os o, s.a.table s.t = .ok os → byShort os 117 = some o → o.valueType ≠ .flag) ∧
    isDigit 117 = false ∧
    (argusParse Sample.world Sample.noEnv Sample.prog
      ([c!"-v", c!"admin"] ++ (c!"-" ++ c!"u" ++ c!"bob") :: [])).toOption.map (·.1) =
      some (.returned Err.success) := by
  refine ⟨_, rfl, rfl, ?_, by decide, by decide +kernel⟩
  intro os o h1 h2
  cases h1
  cases h2
  decide

/-- **C03** A cluster `-fREST` beginning with a flag equals `-f` followed by `-REST`. Neither
    spelling may be readable as a number (for a numeric positional) or `-REST` as a long option. -/
theorem C03_cluster_eq_separate (W : World) (env : Env) (a : Argus) (pre post : List Str)
    (s : PState) (f c : Byte) (cs : Str) (hs : Reach W a pre s) (honly : s.only = false)
    (hf : f ≠ 45) (hc : c ≠ 45)
    (hflag : ∀ os o, s.a.table s.t = .ok os → byShort os f = some o → o.valueType = .flag)
    (hnum : (isDigit f = false ∧ f ≠ 46 ∧ isDigit c = false ∧ c ≠ 46) ∨
      ∀ os o, s.a.table s.t = .ok os → slotOf (positionals os) s.pos = some o →
        o.valueType.isNumeric = false) :
    argusParse W env a (pre ++ (c!"-" ++ [f] ++ (c :: cs)) :: post) =
      argusParse W env a (pre ++ (c!"-" ++ [f]) :: (c!"-" ++ (c :: cs)) :: post) := by
  apply hs.argusParse_congr
  rw [finish_cons hs.skip, finish_cons hs.skip, honly]
  have e1 : c!"-" ++ [f] ++ (c :: cs) = 45 :: f :: c :: cs := by simp
  have e2 : c!"-" ++ [f] = 45 :: f :: [] := by simp
  have e3 : c!"-" ++ (c :: cs) = 45 :: c :: cs := by simp
  rw [e1, e2, e3]
  cases ht : s.a.table s.t with
  | ub u => rw [parseStep_ub ht hf, parseStep_ub ht hf]; rfl
  | ok os =>
    have hnf : ∀ ds, (looksNumeric (f :: ds) &&
        (slotOf (positionals os) s.pos).any (fun o => o.valueType.isNumeric)) = false := by
      intro ds
      rcases hnum with ⟨h1, h2, -⟩ | h
      · simp [looksNumeric, h1, h2]
      · cases hsl : slotOf (positionals os) s.pos with
        | none => simp
        | some o => simp [h os o ht hsl]
    have hnc : ∀ ds, (looksNumeric (c :: ds) &&
        (slotOf (positionals os) s.pos).any (fun o => o.valueType.isNumeric)) = false := by
      intro ds
      rcases hnum with ⟨-, -, h1, h2⟩ | h
      · simp [looksNumeric, h1, h2]
      · cases hsl : slotOf (positionals os) s.pos with
        | none => simp
        | some o => simp [h os o ht hsl]
    rw [parseStep_short ht hf (hnf (c :: cs)), parseStep_short ht hf (hnf [])]
    obtain ⟨k, hk, hkt⟩ := table_eq_ok.1 ht
    have ht2 : s.a.table (some k) = .ok os := hk ▸ ht
    rw [handleShort, handleShort, hk, ht2]
    simp only [Out.ok_bind]
    cases hfs : findSname os f with
    | none => rfl
    | some i =>
      obtain ⟨o, ho, hb⟩ := findSname_some hfs
      have hfl := hflag os o ht hb
      simp only [table_getOpt ht2 ho, Out.ok_bind, hfl, if_true]
      cases hx : execCallbacks W s.a ⟨k, i⟩ none with
      | ub u => rfl
      | ok r =>
        simp only [Out.ok_bind]
        by_cases h0 : r.1 = Err.success
        · have hnil : ∀ X, handleShort W (some k) X r.2 [] = .ok ⟨Err.success, r.2, false⟩ :=
            fun _ => rfl
          simp only [h0, ne_eq, not_true_eq_false, if_false, hnil, Out.ok_bind]
          have hfr := (execCallbacks_one hx).inTable.frame
          obtain ⟨os', ht', hm⟩ := shape_table hfr.shape ht2
          have hst : parseStep W (some k) r.2 s.pos false (45 :: c :: cs) post =
              (do let q ← handleShort W (some k) post r.2 (c :: cs)
                  .ok (q.step s.pos)) :=
            parseStep_short ht' hc (by rw [slot_numeric_meta hm]; exact hnc cs) post
          have hstep : (OptRes.step ⟨Err.success, r.2, false⟩ s.pos) = .next r.2 s.pos false false := by
            simp [OptRes.step]
          rw [hstep]
          simp only [parseLoop, hst]; rfl
        · simp only [h0, ne_eq, not_false_eq_true, if_true, Out.ok_bind]
          simp [OptRes.step, h0]

/-- The hypotheses of C03 are met by `prog -vofile`, i.e. `prog -v -ofile`. -/
example : ∃ s, Reach Sample.world Sample.prog [] s ∧ s.only = false ∧
    (∀ os o, s.a.table s.t = .ok os → byShort os 118 = some o → o.valueType = .flag) ∧
    (isDigit 118 = false ∧ isDigit 111 = false) ∧
    (argusParse Sample.world Sample.noEnv Sample.prog
      ([] ++ (c!"-" ++ c!"v" ++ c!"ofile") :: [])).toOption.map (·.1) =
      some (.returned Err.success) := by
  refine ⟨_, rfl, rfl, ?_, by decide, by decide +kernel⟩
  intro os o h1 h2
  cases h1
  cases h2
  decide

/-- **C04** (long options) An undeclared `--name` (with or without `=value`) is rejected.
    Full statement: rejected whenever no option is called `name`. Missing: only the first 63 bytes of
    a name count, so for a longer name the first 63 bytes must not be declared either;
    `C04_long_name_cut` shows that this is needed. -/
theorem C04_unknown_long_rejected_partial (W : World) (env : Env) (a : Argus) (pre post : List Str)
    (s : PState) (os : List Opt) (name : Str) (value : Option Str) (hs : Reach W a pre s)
    (honly : s.only = false) (hne : name ≠ []) (heq : (61 : Byte) ∉ name)
    (ht : s.a.table s.t = .ok os)
    (hun : ∀ o ∈ os, o.type = .option → o.lname ≠ some (name.take 63)) :
    parseArgs W a (some a.root)
        (pre ++ (c!"--" ++ name ++ (value.map (c!"=" ++ ·)).getD []) :: post) =
      .ok (Err.invalidArgument, s.a.report Err.invalidArgument) ∧
    ∀ r, argusParse W env a (pre ++ (c!"--" ++ name ++ (value.map (c!"=" ++ ·)).getD []) :: post) =
      .ok r → r.1 = .returned Err.invalidArgument := by
  have key : parseArgs W a (some a.root)
        (pre ++ (c!"--" ++ name ++ (value.map (c!"=" ++ ·)).getD []) :: post) =
      .ok (Err.invalidArgument, s.a.report Err.invalidArgument) := by
    rw [hs.parseArgs, finish_cons hs.skip, honly]
    have e1 : c!"--" ++ name ++ (value.map (c!"=" ++ ·)).getD [] =
        45 :: 45 :: (name ++ (value.map (c!"=" ++ ·)).getD []) := by simp
    have hlp : (longParts (name ++ (value.map (c!"=" ++ ·)).getD [])).1 = name.take 63 := by
      cases value with
      | none => simp [longParts_cut_none heq]
      | some v =>
        have : name ++ ((some v).map (c!"=" ++ ·)).getD [] = name ++ 61 :: v := by simp
        rw [this, longParts_cut heq]
    have hno : findLname os (name.take 63) = none := by
      apply findLname_none
      unfold byLong
      rw [List.find?_eq_none]
      intro o ho
      simp only [decide_eq_true_eq, not_and]
      exact hun o ho
    rw [e1, parseStep_long (by simp [hne])]
    unfold handleLong
    rw [ht, Out.ok_bind, hlp, hno]
    cases s.t <;> rfl
  exact ⟨key, fun r hr => (argusParse_of_error key (by decide) (by decide) hr).1⟩

/-- **C04** (short options) A cluster beginning with an undeclared character is rejected, unless it
    is a negative number for a numeric positional. Together with C03 this covers every position in
    a cluster. -/
theorem C04_unknown_short_rejected (W : World) (env : Env) (a : Argus) (pre post : List Str)
    (s : PState) (os : List Opt) (c : Byte) (cs : Str) (hs : Reach W a pre s) (honly : s.only = false)
    (hc : c ≠ 45) (ht : s.a.table s.t = .ok os) (hun : ∀ o ∈ os, o.type = .option → o.sname ≠ c)
    (hnum : (isDigit c = false ∧ c ≠ 46) ∨ ∀ o, slotOf (positionals os) s.pos = some o →
      o.valueType.isNumeric = false) :
    parseArgs W a (some a.root) (pre ++ (c!"-" ++ [c] ++ cs) :: post) =
      .ok (Err.invalidArgument, s.a.report Err.invalidArgument) ∧
    ∀ r, argusParse W env a (pre ++ (c!"-" ++ [c] ++ cs) :: post) = .ok r →
      r.1 = .returned Err.invalidArgument := by
  have key : parseArgs W a (some a.root) (pre ++ (c!"-" ++ [c] ++ cs) :: post) =
      .ok (Err.invalidArgument, s.a.report Err.invalidArgument) := by
    rw [hs.parseArgs, finish_cons hs.skip, honly]
    have e1 : c!"-" ++ [c] ++ cs = 45 :: c :: cs := by simp
    have hneg : (looksNumeric (c :: cs) &&
        (slotOf (positionals os) s.pos).any (fun o => o.valueType.isNumeric)) = false := by
      rcases hnum with ⟨h1, h2⟩ | h
      · simp [looksNumeric, h1, h2]
      · cases hsl : slotOf (positionals os) s.pos with
        | none => simp
        | some o => simp [h o hsl]
    have hno : findSname os c = none := by
      apply findSname_none
      unfold byShort
      rw [List.find?_eq_none]
      intro o ho
      simp only [decide_eq_true_eq, not_and]
      exact hun o ho
    rw [e1, parseStep_short ht hc hneg, handleShort, ht, Out.ok_bind, hno]
    cases s.t <;> rfl
  exact ⟨key, fun r hr => (argusParse_of_error key (by decide) (by decide) hr).1⟩

/-- The hypotheses of C04 are met after `prog -v add`, for `--nope` and `-z`. -/
example : ∃ s os, Reach Sample.world Sample.prog [c!"-v", c!"add"] s ∧ s.only = false ∧
    s.a.table s.t = .ok os ∧ (∀ o ∈ os, o.type = .option → o.lname ≠ some c!"nope") ∧
    (∀ o ∈ os, o.type = .option → o.sname ≠ 122) ∧
    (argusParse Sample.world Sample.noEnv Sample.prog
      ([c!"-v", c!"add"] ++ (c!"--" ++ c!"nope") :: [])).toOption.map (·.1) =
      some (.returned Err.invalidArgument) := by
  refine ⟨_, _, rfl, rfl, rfl, by decide, by decide, by decide +kernel⟩

/-- A program with one flag whose long name has 63 bytes. -/
def Sample.longFlag : Argus :=
  argusInit [[helpOption, optFlag 120 (some (List.replicate 63 97))]] c!"prog" none

/-- A program with one string option whose long name has 64 bytes. -/
def Sample.longName : Argus :=
  argusInit [[helpOption, optString 120 (some (List.replicate 64 97))]] c!"prog" none

/-- **C04** fails for long names: `--aaa...a` with 64 bytes is not declared, but is taken for the
    declared option with 63 bytes. -/
theorem C04_long_name_cut : (∀ o ∈ [helpOption, optFlag 120 (some (List.replicate 63 97))],
      o.lname ≠ some (List.replicate 64 97)) ∧
    (argusParse Sample.world Sample.noEnv Sample.longFlag
      [c!"--" ++ List.replicate 64 97]).toOption.map (·.1) = some (.returned Err.success) := by
  constructor
  · decide
  · decide +kernel

/-- **C04**, **C05**, **C01** Of the name after `--` exactly the first 63 bytes count: the same line with the name cut
    there has the same outcome, whatever stands around it. -/
theorem C04_first_63_bytes (W : World) (env : Env) (a : Argus) (pre post : List Str) (s : PState) (name : Str)
    (value : Option Str) (hs : Reach W a pre s) (honly : s.only = false) (hne : name ≠ [])
    (heq : (61 : Byte) ∉ name) :
    argusParse W env a (pre ++ (c!"--" ++ name ++ (value.map (c!"=" ++ ·)).getD []) :: post) =
      argusParse W env a (pre ++ (c!"--" ++ name.take 63 ++ (value.map (c!"=" ++ ·)).getD []) :: post) := by
  apply hs.argusParse_congr
  rw [finish_cons hs.skip, finish_cons hs.skip, honly]
  have e : ∀ n : Str, c!"--" ++ n ++ (value.map (c!"=" ++ ·)).getD [] =
      45 :: 45 :: (n ++ (value.map (c!"=" ++ ·)).getD []) := fun n => by simp
  have hne' : name.take 63 ≠ [] := by
    cases name with
    | nil => exact absurd rfl hne
    | cons _ _ => simp
  have heq' : (61 : Byte) ∉ name.take 63 := fun h => heq (List.mem_of_mem_take h)
  have hlp : longParts (name ++ (value.map (c!"=" ++ ·)).getD []) =
      longParts (name.take 63 ++ (value.map (c!"=" ++ ·)).getD []) := by
    cases value with
    | none =>
      simp only [Option.map_none, Option.getD_none, List.append_nil]
      rw [longParts_cut_none heq, longParts_cut_none heq', List.take_take]
      rfl
    | some v =>
      have h1 : ∀ n : Str, n ++ ((some v).map (c!"=" ++ ·)).getD [] = n ++ 61 :: v := fun n => by simp
      rw [h1, h1, longParts_cut heq, longParts_cut heq', List.take_take]
      rfl
  rw [e, e, parseStep_long (by simp [hne]), parseStep_long (by simp [hne'])]
  unfold handleLong
  rw [hlp]

/-- A case of it: 63 letters `a` declared, 64 given, after `-x`. -/
example : ∃ s, Reach Sample.world Sample.longFlag [c!"-x"] s ∧ s.only = false ∧
    (List.replicate 64 (97 : Byte)).take 63 = List.replicate 63 97 := ⟨_, rfl, rfl, by decide⟩

/-- **C05** fails for long names: an option with a name of 64 bytes is not even found. -/
theorem C05_long_name_cut :
    byLong [helpOption, optString 120 (some (List.replicate 64 97))] (List.replicate 64 97) =
      some (optString 120 (some (List.replicate 64 97))) ∧
    (argusParse Sample.world Sample.noEnv Sample.longName
      [c!"--" ++ List.replicate 64 97]).toOption.map (·.1) = some (.returned Err.invalidArgument) := by
  constructor
  · decide
  · decide +kernel

/-- **C05** (long form) A value-taking option as last argument is rejected with
    `ARGUS_ERROR_MISSING_VALUE`; every option, in particular the named one, is as it was before the
    argument, up to the release of allocated values that follows every failed parse. The name is cut
    to its first 63 bytes, so `ho` asks for `name` itself when it is no longer than that.
    Full statement: for an option declared with `name` of any length. Missing: declared names longer
    than 63 bytes, for which `C05_long_name_cut` shows a counterexample. -/
theorem C05_missing_value_long_partial (W : World) (env : Env) (a : Argus) (pre : List Str) (s : PState)
    (os : List Opt) (o : Opt) (name : Str) (hs : Reach W a pre s) (honly : s.only = false)
    (hne : name ≠ []) (heq : (61 : Byte) ∉ name)
    (ht : s.a.table s.t = .ok os) (ho : byLong os (name.take 63) = some o) (hv : o.valueType ≠ .flag) :
    parseArgs W a (some a.root) (pre ++ [c!"--" ++ name]) =
      .ok (Err.missingValue, s.a.report Err.missingValue) ∧
    ∀ r, argusParse W env a (pre ++ [c!"--" ++ name]) = .ok r →
      r.1 = .returned Err.missingValue ∧
      ∀ p o, s.a.getOpt p = .ok o → ∃ o', r.2.getOpt p = .ok o' ∧ FreedOpt o o' := by
  have key : parseArgs W a (some a.root) (pre ++ [c!"--" ++ name]) =
      .ok (Err.missingValue, s.a.report Err.missingValue) := by
    rw [hs.parseArgs, finish_cons hs.skip, honly]
    have e1 : c!"--" ++ name = 45 :: 45 :: name := by simp
    obtain ⟨i, hi, hoi⟩ := findLname_of_byLong ho
    obtain ⟨k, hk, _⟩ := table_eq_ok.1 ht
    rw [e1, parseStep_long hne]
    unfold handleLong
    rw [longParts_cut_none heq, ht, Out.ok_bind, hi, hk]
    rw [hk] at ht
    simp only [table_getOpt ht hoi, Out.ok_bind, hv, if_false]
    rfl
  exact ⟨key, missing_value_core key⟩

/-- **C05** (short form). -/
theorem C05_missing_value_short (W : World) (env : Env) (a : Argus) (pre : List Str) (s : PState)
    (os : List Opt) (o : Opt) (c : Byte) (hs : Reach W a pre s) (honly : s.only = false) (hc : c ≠ 45)
    (ht : s.a.table s.t = .ok os) (ho : byShort os c = some o) (hv : o.valueType ≠ .flag)
    (hnum : isDigit c = false ∨ ∀ o, slotOf (positionals os) s.pos = some o →
      o.valueType.isNumeric = false) :
    parseArgs W a (some a.root) (pre ++ [c!"-" ++ [c]]) =
      .ok (Err.missingValue, s.a.report Err.missingValue) ∧
    ∀ r, argusParse W env a (pre ++ [c!"-" ++ [c]]) = .ok r →
      r.1 = .returned Err.missingValue ∧
      ∀ p o, s.a.getOpt p = .ok o → ∃ o', r.2.getOpt p = .ok o' ∧ FreedOpt o o' := by
  have key : parseArgs W a (some a.root) (pre ++ [c!"-" ++ [c]]) =
      .ok (Err.missingValue, s.a.report Err.missingValue) := by
    rw [hs.parseArgs, finish_cons hs.skip, honly]
    have e1 : c!"-" ++ [c] = 45 :: c :: [] := by simp
    have hneg : (looksNumeric (c :: []) &&
        (slotOf (positionals os) s.pos).any (fun o => o.valueType.isNumeric)) = false := by
      rcases hnum with h1 | h
      · simp [looksNumeric, h1]
      · cases hsl : slotOf (positionals os) s.pos with
        | none => simp
        | some o => simp [h o hsl]
    obtain ⟨i, hi, hoi⟩ := findSname_of_byShort ho
    obtain ⟨k, hk, _⟩ := table_eq_ok.1 ht
    rw [e1, parseStep_short ht hc hneg, handleShort, ht, Out.ok_bind, hi, hk]
    rw [hk] at ht
    simp only [table_getOpt ht hoi, Out.ok_bind, hv, if_false]
    rfl
  exact ⟨key, missing_value_core key⟩

/-- The hypotheses of C05 are met by `prog -v --tags a,b --output`; the array of `--tags` is
    released. -/
example : ∃ s os o, Reach Sample.world Sample.prog [c!"-v", c!"--tags", c!"a,b"] s ∧ s.only = false ∧
    s.a.table s.t = .ok os ∧ byLong os c!"output" = some o ∧ o.valueType ≠ .flag ∧
    (argusParse Sample.world Sample.noEnv Sample.prog
      ([c!"-v", c!"--tags", c!"a,b"] ++ [c!"--" ++ c!"output"])).toOption.map (·.1) =
      some (.returned Err.missingValue) := by
  refine ⟨_, _, _, rfl, rfl, rfl, rfl, by decide, by decide +kernel⟩

end Argus
