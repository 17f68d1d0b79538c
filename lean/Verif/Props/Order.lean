import Verif.Lemmas.Final
import Verif.Lemmas.Order
import Verif.Lemmas.Scalar
import Verif.Lemmas.Syntax
import Verif.Spec.Sample

/-!
# C10, C11, C12, C50, C51: what does and does not influence the result

`a.asks args` (Spec/Meaning) is what a command line asks for, read off the declarations;
`textsOf p` (Spec/History) are the texts it hands to option `p`.
-/

set_option autoImplicit false

namespace Argus

/-! ## C10 -/

/-- **C10** When a prefix makes the parse stage stop, with an error other than a missing value or with
    an exit, then neither the arguments after it nor the environment matter: status, values, messages
    and error code are those of the prefix alone. -/
theorem C10_rest_irrelevant (W : World) (env env' : Env) (a a1 : Argus) (pre post : List Str) (st : Int)
    (h : parseArgs W a (some a.root) pre = .ok (st, a1)) (h0 : st ≠ Err.success)
    (h1 : st ≠ Err.missingValue) :
    argusParse W env a (pre ++ post) = argusParse W env' a pre :=
  argusParse_append_done h h0 h1 post

/-- `prog -v --nope` stops at `--nope`, and `prog --tags=a --help` at `--help`. -/
example : (parseArgs Sample.world Sample.prog (some 0) [c!"-v", c!"--nope"]).toOption.map (·.1) =
      some Err.invalidArgument ∧
    (parseArgs Sample.world Sample.prog (some 0) [c!"--tags=a", c!"--help"]).toOption.map (·.1) =
      some Err.shouldExit := by decide +kernel

/-! ## C11 -/

/-- **C11** The final value of a scalar option is decided by the last text handed to it alone, on the command line or
    by the environment (`allTexts`, Spec/Final): not by earlier texts, not by the value it had before (its default),
    and not by anything concerning other options. -/
theorem C11_last_text (W : World) (env : Env) (a a' : Argus) (args : List Str) (p : Ptr) (o : Opt)
    (h : Handler) (earlier : List (Option Str)) (v : Str)
    (hok : argusParse W env a args = .ok (.returned Err.success, a'))
    (ho : a.getOpt p = .ok o) (ht : o.type ≠ .subcommand) (hh : o.handler = some h)
    (hs : h.isScalar = true) (hlast : allTexts env a args p o = earlier ++ [some v]) :
    ∃ o', a'.getOpt p = .ok o' ∧ Holds W h v o'.value ∧ o'.isSet = true := by
  obtain ⟨o1, h2, h1⟩ := argusParse_texts hok ho ht
  rw [hlast, giveAll_append] at h1
  cases he : o.giveAll W earlier with
  | none => rw [he] at h1; simp at h1
  | some o0 =>
    rw [he] at h1
    simp only [Option.bind_some, Opt.giveAll] at h1
    cases hg : o0.give W (some v) with
    | none => rw [hg] at h1; simp at h1
    | some o2 =>
      rw [hg] at h1
      simp only [Option.bind_some, Option.some.injEq] at h1
      subst h1
      obtain ⟨hv, hset⟩ := give_scalar ((give_handler he).trans hh) hs hg
      exact ⟨o2, h2, hv, hset⟩

/-- **C11** When a scalar option is given on the command line, its final value is decided by the last
    text given to it there, whatever the environment is (without FLAG_ENV_OVERRIDE). -/
theorem C11_last_wins (W : World) (env : Env) (a a' : Argus) (args : List Str) (p : Ptr) (o : Opt)
    (h : Handler) (earlier : List (Option Str)) (v : Str)
    (hok : argusParse W env a args = .ok (.returned Err.success, a'))
    (ho : a.getOpt p = .ok o) (ht : o.type ≠ .subcommand) (hh : o.handler = some h)
    (hs : h.isScalar = true) (hov : o.flags.has .envOverride = false)
    (hlast : textsOf p (a.asks args) = earlier ++ [some v]) :
    ∃ o', a'.getOpt p = .ok o' ∧ Holds W h v o'.value ∧ o'.isSet = true := by
  refine C11_last_text W env a a' args p o h earlier v hok ho ht hh hs ?_
  rw [allTexts_given hov (by rw [hlast]; simp), hlast]

/-- `prog -o x --num 3 --output=y` gives `x`, then `y`, to option 2. -/
example : ∃ o, Sample.prog.getOpt ⟨0, 2⟩ = .ok o ∧ o.type ≠ .subcommand ∧ o.handler = some .string ∧
    o.flags.has .envOverride = false ∧
    textsOf ⟨0, 2⟩ (Sample.prog.asks [c!"-o", c!"x", c!"--num", c!"3", c!"--output=y"]) =
      [some c!"x"] ++ [some c!"y"] ∧
    (argusParse Sample.world Sample.noEnv Sample.prog
      [c!"-o", c!"x", c!"--num", c!"3", c!"--output=y"]).toOption.map (·.1) =
      some (.returned Err.success) := by
  refine ⟨_, rfl, by decide, rfl, by decide, by decide +kernel, by decide +kernel⟩

/-! ## C12 -/

/-- **C12** However `argus_parse` ends: the number of tables and of options in each stays the same; of an
    option only the value fields (value, is_allocated, value_count, value_capacity, is_set) can differ;
    and an option of a table that is neither the root nor the table of a selected subcommand does not
    differ at all. The configuration stays, and the command stack and the output only grow. -/
theorem C12_frame (W : World) (env : Env) (a : Argus) (args : List Str) (r : ParseEnd × Argus)
    (h : argusParse W env a args = .ok r) :
    (r.2.tables.map List.length = a.tables.map List.length) ∧
    (∀ p o, a.getOpt p = .ok o → ∃ o', r.2.getOpt p = .ok o' ∧
      o' = { o with value := o'.value, isAllocated := o'.isAllocated, valueCount := o'.valueCount,
                    valueCapacity := o'.valueCapacity, isSet := o'.isSet }) ∧
    (∀ p, p.tbl ≠ a.root → (∀ q ∈ r.2.stack, ∀ cmd, a.getOpt q = .ok cmd → cmd.subOptions ≠ some p.tbl) →
      r.2.getOpt p = a.getOpt p) ∧
    r.2.envPrefix = a.envPrefix ∧ r.2.programName = a.programName ∧ r.2.version = a.version ∧
    r.2.description = a.description ∧ r.2.helper = a.helper ∧ r.2.root = a.root ∧
    a.stack <+: r.2.stack ∧ a.out <+: r.2.out := by
  obtain ⟨ext, hst, _, hf⟩ := argusParse_frame h
  refine ⟨?_, ?_, ?_, ?_⟩
  · have := congrArg (List.map List.length) hf.shape
    simpa [Argus.shape, List.map_map, Function.comp_def] using this
  · intro p o ho
    obtain ⟨o', ho', hm⟩ := shape_getOpt hf.shape ho
    refine ⟨o', ho', ?_⟩
    have e1 : ∀ x : Opt, x = { (Opt.meta x) with
        value := x.value
        isAllocated := x.isAllocated
        valueCount := x.valueCount
        valueCapacity := x.valueCapacity
        isSet := x.isSet } := fun x => rfl
    rw [e1 o', hm]
    rfl
  · intro p hroot hsub
    have hoff : ¬ r.2.onPath p.tbl := by
      rintro (h1 | ⟨q, hq, h1⟩)
      · exact hroot (h1.trans hf.root)
      · rw [subOf_shape hf.shape] at h1
        cases hg : a.getOpt q with
        | ok cmd => rw [subOf_eq hg] at h1; exact hsub q hq cmd hg h1
        | ub u => unfold Argus.subOf at h1; rw [hg] at h1; simp at h1
    have := hf.other p.tbl hoff
    unfold Argus.getOpt
    rw [this]
  · have e := hf.cfg
    unfold Argus.cfg at e
    simp only [Prod.mk.injEq] at e
    exact ⟨e.2.1, e.2.2.1, e.2.2.2.1, e.2.2.2.2.1, e.2.2.2.2.2, e.1, ⟨ext, hst.symm⟩, hf.out⟩

/-- `prog add 3 x` leaves the table of `admin` (2) alone, and changes tables 0 and 1. -/
example : ∃ r, argusParse Sample.world Sample.noEnv Sample.prog [c!"add", c!"3", c!"x"] = .ok r ∧
    r.1 = .returned Err.success ∧ r.2.stack = [⟨0, 8⟩] ∧
    (r.2.getOpt ⟨1, 2⟩).toOption.map (·.isSet) = some true := by
  refine ⟨_, rfl, by decide +kernel, by decide +kernel, by decide +kernel⟩

/-! ## C50 -/

/-- **C50** (full statement: ... and `argus_is_set` is true for such an option only if the user set it.)
    Proved: an option that is named neither on the command line nor by the environment is exactly as
    it was before: value, default and set mark. That the mark is false is wrong for options with a
    default, see `C50_default_counts_as_set`. -/
theorem C50_untouched_keeps_default_partial (W : World) (env : Env) (a a' : Argus) (args : List Str) (p : Ptr)
    (o : Opt) (hok : argusParse W env a args = .ok (.returned Err.success, a'))
    (ho : a.getOpt p = .ok o) (ht : o.type ≠ .subcommand)
    (hcl : ∀ x, Act.give p x ∉ a.asks args)
    (henv : ∀ n, envVarName a.envPrefix o = some n → env n = none) :
    a'.getOpt p = .ok o := by
  obtain ⟨o1, h1, h2⟩ := argusParse_history hok ho ht
  have : textsOf p (a.asks args) = [] := by
    unfold textsOf
    rw [List.filterMap_eq_nil_iff]
    intro x hx
    cases x with
    | give q y =>
      simp only
      split
      · rename_i hq; subst hq; exact absurd hx (hcl y)
      · rfl
    | _ => rfl
  rw [this] at h1
  simp only [Opt.giveAll, Option.some.injEq] at h1
  subst h1
  exact h2 (.inr (.inr (.inr henv)))

/-- In `prog -v` option 3 (`--num`) is not named. -/
example : (∀ x, Act.give ⟨0, 3⟩ x ∉ Sample.prog.asks [c!"-v"]) ∧
    (argusParse Sample.world Sample.noEnv Sample.prog [c!"-v"]).toOption.map (·.1) =
      some (.returned Err.success) := by
  have : Sample.prog.asks [c!"-v"] = [.give ⟨0, 1⟩ none] := by decide +kernel
  refine ⟨fun x hx => ?_, by decide +kernel⟩
  rw [this] at hx
  simp at hx

/-- A program with one option with a default. -/
def Sample.defaulted : Argus :=
  argusInit [[helpOption, (optInt 110 (some c!"num")).withDefault (.bits 5)]] c!"prog" none

/-- **C50** is violated in one point: an option with a default counts as set although nobody set it. -/
theorem C50_default_counts_as_set :
    Sample.defaulted.asks [] = [] ∧
    ((argusParse Sample.world Sample.noEnv Sample.defaulted []).toOption.bind
      (fun r => (argusIsSet r.2 c!"num").toOption)).map (·.1) = some true := by
  decide +kernel

/-! ## C51 -/

/-- **C51** Two adjacent requests for different options may be exchanged: if one command line asks for
    `xs`, then `x` for option `p`, then `y` for option `q`, then `ys`, and the other the same with the
    two exchanged, then success of the first means success of the second, with the same final tables
    (all values and set marks) and the same selected command. -/
theorem C51_exchange (W : World) (env : Env) (a a' : Argus) (args args' : List Str) (xs ys : List Act)
    (p q : Ptr) (x y : Option Str) (hpq : p ≠ q)
    (h1 : a.asks args = xs ++ .give p x :: .give q y :: ys)
    (h2 : a.asks args' = xs ++ .give q y :: .give p x :: ys)
    (hok : argusParse W env a args = .ok (.returned Err.success, a')) :
    ∃ b', argusParse W env a args' = .ok (.returned Err.success, b') ∧ b'.tables = a'.tables ∧
      b'.stack = a'.stack := by
  rw [argusParse_eq] at hok ⊢
  obtain ⟨r, hr, hk⟩ := Out.bind_eq_ok hok
  have hr0 : r.1 = Err.success := by
    obtain ⟨a1, a2, e1, -⟩ := argusParse_success (show argusParse W env a args = _ from by
      rw [argusParse_eq, hr]; exact hk)
    rw [e1] at hr
    simp only [Out.ok.injEq] at hr
    rw [← hr]
  rw [parseArgs_run, h1] at hr
  rw [parseArgs_run, h2]
  have hf : Act.fail Err.success ∉ xs := fun hm => asks_no_fail0 a args (by rw [h1]; simp [hm])
  obtain ⟨b1, hb1, hsim⟩ := swap_run hpq xs ys hf
    (show run W a _ = .ok (Err.success, r.2) by rw [hr, ← hr0])
  rw [hb1]
  simp only [Out.ok_bind]
  have hk' : afterParse W env (Err.success, r.2) = .ok (.returned Err.success, a') := by
    rw [← hk, ← hr0]
  obtain ⟨b', hb', hs'⟩ := (afterParse_sim (W := W) (env := env) Err.success hsim).of_ok hk'
  exact ⟨b', hb', hs'.tables.symm, hs'.stack.symm⟩

/-- `prog -n 4 -o x f` and `prog -o x -n 4 f`. -/
example : Sample.prog.asks [c!"-n", c!"4", c!"-o", c!"x", c!"f"] =
      [] ++ .give ⟨0, 3⟩ (some c!"4") :: .give ⟨0, 2⟩ (some c!"x") :: [.give ⟨0, 7⟩ (some c!"f")] ∧
    Sample.prog.asks [c!"-o", c!"x", c!"-n", c!"4", c!"f"] =
      [] ++ .give ⟨0, 2⟩ (some c!"x") :: .give ⟨0, 3⟩ (some c!"4") :: [.give ⟨0, 7⟩ (some c!"f")] ∧
    (argusParse Sample.world Sample.noEnv Sample.prog
      [c!"-n", c!"4", c!"-o", c!"x", c!"f"]).toOption.map (·.1) = some (.returned Err.success) := by
  decide +kernel

/-- **C51**, spelled out: exchanging `--m=v` and `--n=w`, anywhere on the command line, where both are
    accepted there. Whatever happens afterwards, success or error, happens in both cases with the same
    final tables. -/
theorem C51_exchange_long (W : World) (env : Env) (a : Argus) (pre post : List Str) (s s' : PState)
    (m n v w : Str) (os : List Opt) (o o' : Opt)
    (hs : Reach W a pre s) (honly : s.only = false) (ht : s.a.table s.t = .ok os)
    (hm : (61 : Byte) ∉ m) (hm2 : m.length ≤ 63) (hn : (61 : Byte) ∉ n) (hn2 : n.length ≤ 63)
    (hmn : m ≠ n) (ho : byLong os m = some o) (ho' : byLong os n = some o')
    (hv : o.valueType ≠ .flag) (hw : o'.valueType ≠ .flag)
    (hs' : Reach W a (pre ++ [c!"--" ++ m ++ c!"=" ++ v, c!"--" ++ n ++ c!"=" ++ w]) s')
    (r : ParseEnd × Argus)
    (hr : argusParse W env a
      (pre ++ (c!"--" ++ m ++ c!"=" ++ v) :: (c!"--" ++ n ++ c!"=" ++ w) :: post) = .ok r) :
    ∃ r', argusParse W env a
        (pre ++ (c!"--" ++ n ++ c!"=" ++ w) :: (c!"--" ++ m ++ c!"=" ++ v) :: post) = .ok r' ∧
      r'.1 = r.1 ∧ r'.2.tables = r.2.tables ∧ r'.2.stack = r.2.stack := by
  obtain ⟨k, hk, hkt⟩ := table_eq_ok.1 ht
  obtain ⟨i, hi, hoi⟩ := findLname_of_byLong ho
  obtain ⟨j, hj, hoj⟩ := findLname_of_byLong ho'
  rw [longIdx_eq] at hi hj
  have hfi : isFlagAt os i = false := by simp [isFlagAt, hoi, hv]
  have hfj : isFlagAt os j = false := by simp [isFlagAt, hoj, hw]
  have hne : (⟨k, i⟩ : Ptr) ≠ ⟨k, j⟩ := by
    intro h
    simp only [Ptr.mk.injEq, true_and] at h
    subst h
    obtain ⟨o1, h1, _, h2⟩ := longIdx_get hi
    obtain ⟨o2, h3, _, h4⟩ := longIdx_get hj
    rw [h1] at h3
    simp only [Option.some.injEq] at h3
    subst h3
    rw [h2] at h4
    exact hmn (by simpa using h4)
  have e : ∀ post, parseArgs W a (some a.root)
      (pre ++ (c!"--" ++ m ++ c!"=" ++ v) :: (c!"--" ++ n ++ c!"=" ++ w) :: post) =
      run W s.a ([.give ⟨k, i⟩ (some v), .give ⟨k, j⟩ (some w)] ++
        meaning s.a.tables (some k) s.pos false false post) := by
    intro post
    rw [hs.parseArgs, PState.finish, parseLoop_run, hk, honly, hs.skip,
      meaning_long_attached hkt hm hm2 hi hfi, meaning_long_attached hkt hn hn2 hj hfj]
    rfl
  have e' : parseArgs W a (some a.root)
      (pre ++ (c!"--" ++ n ++ c!"=" ++ w) :: (c!"--" ++ m ++ c!"=" ++ v) :: post) =
      run W s.a ([.give ⟨k, j⟩ (some w), .give ⟨k, i⟩ (some v)] ++
        meaning s.a.tables (some k) s.pos false false post) := by
    rw [hs.parseArgs, PState.finish, parseLoop_run, hk, honly, hs.skip,
      meaning_long_attached hkt hn hn2 hj hfj, meaning_long_attached hkt hm hm2 hi hfi]
    rfl
  -- both requests succeed
  have hboth : run W s.a [.give ⟨k, i⟩ (some v), .give ⟨k, j⟩ (some w)] = .ok (Err.success, s'.a) := by
    have h1 := hs'.parseArgs []
    rw [List.append_nil, e []] at h1
    have h2 : s'.finish W [] = .ok (Err.success, s'.a) := by
      cases hsk : s'.skip <;> simp [PState.finish, parseLoop]
    rw [h2] at h1
    simpa [meaning] using h1
  obtain ⟨b, hb, hsim⟩ := swap_run hne [] [] (by simp) hboth
  simp only [List.nil_append] at hb
  have key : OutSim (argusParse W env a
        (pre ++ (c!"--" ++ m ++ c!"=" ++ v) :: (c!"--" ++ n ++ c!"=" ++ w) :: post))
      (argusParse W env a
        (pre ++ (c!"--" ++ n ++ c!"=" ++ w) :: (c!"--" ++ m ++ c!"=" ++ v) :: post)) := by
    rw [argusParse_eq, argusParse_eq, e post, e', run_append _ _ _ (by simp), run_append _ _ _ (by simp),
      hboth, hb]
    simp only [Out.ok_bind, ne_eq, not_true_eq_false, if_false]
    exact (run_sim _ hsim).bind (fun st x y hxy => afterParse_sim st hxy)
  obtain ⟨b', hb', hs2⟩ := key.of_ok hr
  exact ⟨_, hb', rfl, hs2.tables.symm, hs2.stack.symm⟩

/-- The hypotheses of C51, spelled out, are met by `prog -v --num=4 --output=x ...`. -/
example : ∃ s s' os o o', Reach Sample.world Sample.prog [c!"-v"] s ∧ s.only = false ∧
    s.a.table s.t = .ok os ∧ byLong os c!"num" = some o ∧ byLong os c!"output" = some o' ∧
    o.valueType ≠ .flag ∧ o'.valueType ≠ .flag ∧
    Reach Sample.world Sample.prog ([c!"-v"] ++
      [c!"--" ++ c!"num" ++ c!"=" ++ c!"4", c!"--" ++ c!"output" ++ c!"=" ++ c!"x"]) s' := by
  refine ⟨_, _, _, _, _, rfl, rfl, rfl, rfl, rfl, by decide, by decide, rfl⟩

end Argus
