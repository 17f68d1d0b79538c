import Verif.Lemmas.SafeAccess
import Verif.Lemmas.Released
import Verif.Lemmas.Agree
import Verif.Props.Access
import Verif.Props.Commands

/-!
# C32, C36, C37, C42, C52: no undefined behaviour, release, error codes, reuse

`a.Proper` (Spec/Safe): the entries are as the macros of options.h make them, with built-in handlers, validators
used where they belong, and no default value or FLAG_ENV_OVERRIDE on arrays, maps and variadic positionals; the
tables of all subcommands exist.
-/

set_option autoImplicit false

namespace Argus

/-! ## C42: parsing and releasing -/

/-- What is known of a parse of a proper context: it can only go wrong by overflowing the subcommand stack. -/
theorem argusParse_proper (W : World) (env : Env) (a : Argus) (args : List Str) (hp : a.Proper)
    (hfresh : a.stack = []) (ht : a.TextsFit args env) :
    Defd (argusParse W env a args)
      (fun r => Freeable r.2 ∧ (r.1 = .returned Err.success → Good a.shape a.root r.2)) := by
  obtain ⟨hS, hg⟩ := hp.good hfresh
  exact argusParse_good W env hS hg (Good.texts rfl rfl rfl hg ht)

/-- **C42** (full statement: for every accepted definition with built-in handlers). Parsing a proper context and
    releasing it has no undefined behaviour, for every command line and environment where no array or map gets a
    text of commas only as its first, and no piece of a text for an int array means a range that ends at INT_MAX, and for
    definitions nested at most eight deep.
    Missing: the texts and definitions excluded here, for which the claim is false, see below. -/
theorem C42_defined_partial (W : World) (env : Env) (a : Argus) (args : List Str) (hp : a.Proper)
    (hfresh : a.stack = []) (hdepth : DepthAtMost a.tables (some a.root) 8)
    (ht : a.TextsFit args env) :
    ∃ e a1 a2, argusParse W env a args = .ok (e, a1) ∧ argusFree a1 = .ok a2 := by
  have h := argusParse_proper W env a args hp hfresh ht
  have hso := C41_no_stack_overflow W env a args hfresh hdepth
  cases hr : argusParse W env a args with
  | ub u => rw [hr] at h hso; exact absurd (congrArg Out.ub h) hso
  | ok r =>
    rw [hr] at h
    obtain ⟨a2, h2, _⟩ := argusFree_freeable h.1
    exact ⟨r.1, r.2, a2, rfl, h2⟩

/-- **C42** Without the bound on the nesting, the subcommand stack is the only thing that can go wrong. -/
theorem C42_only_overflow_partial (W : World) (env : Env) (a : Argus) (args : List Str) (u : Ub) (hp : a.Proper)
    (hfresh : a.stack = []) (ht : a.TextsFit args env)
    (hu : argusParse W env a args = .ub u) : u = .stackOverflow := by
  have h := argusParse_proper W env a args hp hfresh ht
  rw [hu] at h; exact h

/-- **C42** Definitions without arrays and maps: no condition on the texts at all. -/
theorem C42_without_lists_partial (W : World) (env : Env) (a : Argus) (args : List Str) (hp : a.Proper)
    (hfresh : a.stack = []) (hdepth : DepthAtMost a.tables (some a.root) 8)
    (hn : ∀ os ∈ a.tables, ∀ o ∈ os, ∀ h, o.handler = some h → h.splits = false) :
    ∃ e a1 a2, argusParse W env a args = .ok (e, a1) ∧ argusFree a1 = .ok a2 := by
  refine C42_defined_partial W env a args hp hfresh hdepth (fun q o h ho hh => ?_)
  obtain ⟨os, h1, h2⟩ := getOpt_eq_ok.1 ho
  have hf := hn os (List.mem_of_getElem? h1) o (List.mem_of_getElem? h2) h hh
  refine ⟨fun hs => ?_, fun hi => ?_⟩
  · rw [hf] at hs; simp at hs
  · subst hi; simp [Handler.splits] at hf

/-- An entry with a handler is proper if it has no value yet. -/
theorem Opt.Proper.fresh (o : Opt) (h : Handler) (fh : FreeHandler) (hh : o.handler = some h)
    (hfh : o.freeHandler = some fh) (hg : h.Goes o.valueType fh) (ha : o.isAllocated = false)
    (ht : o.type ≠ .subcommand) (hv : o.value = .null) (hn : o.valueCount = 0) (hs : o.isSet = false)
    (he : o.flags.has .envOverride = false) (hc : ∀ v ∈ o.validators.getD [], v.Suits h) : o.Proper where
  unallocated := ha
  goes h' hh' := by rw [hh] at hh'; simp only [Option.some.injEq] at hh'; subst hh'; exact ⟨fh, hfh, hg⟩
  bare hb := by rw [hh] at hb; simp at hb
  subcommand hb := absurd hb ht
  collection _ _ _ := ⟨⟨hv, hn⟩, hs, he⟩
  plain _ _ _ := ⟨_, hv⟩
  string _ := .inr ⟨hv, hs⟩
  number _ := ⟨_, hv⟩
  checks h' hh' := by rw [hh] at hh'; simp only [Option.some.injEq] at hh'; subst hh'; exact hc

/-- The sample program is proper. -/
theorem Sample.prog_proper : Sample.prog.Proper := by
  have sub : ∀ n k f, (Argus.subcommand n k f).Proper := by
    intro n k f
    refine ⟨rfl, ?_, ?_, ?_, ?_, ?_, ?_, ?_, ?_⟩ <;> simp [Argus.subcommand]
  refine ⟨?_, by decide +kernel, ?_⟩
  · intro os hos o ho
    have hos : os = Sample.root ∨ os = Sample.add ∨ os = Sample.admin := by
      have : Sample.prog.tables = [Sample.root, Sample.add, Sample.admin] := rfl
      rw [this] at hos; simpa using hos
    rcases hos with rfl | rfl | rfl
    · simp only [Sample.root, List.mem_cons, List.not_mem_nil, or_false] at ho
      rcases ho with rfl | rfl | rfl | rfl | rfl | rfl | rfl | rfl | rfl | rfl
      · exact .fresh _ .help .default rfl rfl .help rfl (by decide) rfl rfl rfl (by decide) (fun _ h => nomatch h)
      · exact .fresh _ .flag .default rfl rfl .flag rfl (by decide) rfl rfl rfl (by decide) (fun _ h => nomatch h)
      · exact .fresh _ .string .default rfl rfl .string rfl (by decide) rfl rfl rfl (by decide) (fun _ h => nomatch h)
      · exact .fresh _ .int .default rfl rfl .int rfl (by decide) rfl rfl rfl (by decide) (fun _ h => nomatch h)
      · exact .fresh _ .arrayString .arrayString rfl rfl .arrayString rfl (by decide) rfl rfl rfl (by decide) (fun _ h => nomatch h)
      · exact .fresh _ .mapInt .mapInt rfl rfl .mapInt rfl (by decide) rfl rfl rfl (by decide) (fun _ h => nomatch h)
      · refine .fresh _ .int .default rfl rfl .int rfl (by decide) rfl rfl rfl (by decide) ?_
        intro v hv
        have : v = vRange 1 65535 := by simpa using hv
        subst this; exact .inl rfl
      · exact .fresh _ .string .default rfl rfl .string rfl (by decide) rfl rfl rfl (by decide) (fun _ h => nomatch h)
      · exact sub _ _ _
      · exact sub _ _ _
    · simp only [Sample.add, List.mem_cons, List.not_mem_nil, or_false] at ho
      rcases ho with rfl | rfl | rfl | rfl
      · exact .fresh _ .help .default rfl rfl .help rfl (by decide) rfl rfl rfl (by decide) (fun _ h => nomatch h)
      · exact .fresh _ .flag .default rfl rfl .flag rfl (by decide) rfl rfl rfl (by decide) (fun _ h => nomatch h)
      · exact .fresh _ .int .default rfl rfl .int rfl (by decide) rfl rfl rfl (by decide) (fun _ h => nomatch h)
      · exact .fresh _ .variadicString .variadicString rfl rfl .variadicString rfl (by decide) rfl rfl rfl (by decide)
          (fun _ h => nomatch h)
    · simp only [Sample.admin, List.mem_cons, List.not_mem_nil, or_false] at ho
      rcases ho with rfl | rfl | rfl
      · exact .fresh _ .help .default rfl rfl .help rfl (by decide) rfl rfl rfl (by decide) (fun _ h => nomatch h)
      · exact .fresh _ .string .default rfl rfl .string rfl (by decide) rfl rfl rfl (by decide) (fun _ h => nomatch h)
      · exact sub _ _ _
  · have : ∀ os ∈ Sample.prog.tables, ∀ o ∈ os, o.type = .subcommand →
        o.subOptions = some 1 ∨ o.subOptions = some 2 := by decide +kernel
    intro os hos o ho ht
    rcases this os hos o ho ht with h | h
    · exact ⟨1, h, by decide +kernel⟩
    · exact ⟨2, h, by decide +kernel⟩

/-- `prog --tags a,,b, -t , -m x=1 -o , admin list 3 ,` meets all hypotheses of `C42_defined_partial`: only the first text
    of `--tags` must not be made of commas. -/
example : Sample.prog.Proper ∧ Sample.prog.stack = [] ∧
    DepthAtMost Sample.prog.tables (some Sample.prog.root) 8 ∧
    Sample.prog.TextsFit [c!"--tags", c!"a,,b,", c!"--tags=,", c!"-m", c!"x=1", c!"-o", c!",", c!"admin", c!"list", c!"3", c!","]
      Sample.noEnv := by
  refine ⟨Sample.prog_proper, rfl, Sample.prog_depth, ?_⟩
  intro q o h ho hh
  obtain ⟨os, h1, h2⟩ := getOpt_eq_ok.1 ho
  have hno : ∀ os ∈ Sample.prog.tables, ∀ o ∈ os, o.handler ≠ some .arrayInt := by decide +kernel
  refine ⟨fun hs t ht => ?_, fun hi => absurd (hi ▸ hh) (hno os (List.mem_of_getElem? h1) o (List.mem_of_getElem? h2))⟩
  have hev : (envVarName Sample.prog.envPrefix o).bind Sample.noEnv = none := by
    cases envVarName Sample.prog.envPrefix o <;> rfl
  unfold Argus.textsFor at ht
  rw [hev, Option.toList_none, List.map_nil, List.append_nil] at ht
  have hlt : q.tbl < 3 ∧ q.idx < 12 := by
    have hl : ∀ os ∈ Sample.prog.tables, os.length ≤ 12 := by decide +kernel
    have := hl os (List.mem_of_getElem? h1)
    refine ⟨?_, ?_⟩
    · rcases Nat.lt_or_ge q.tbl 3 with hlt | hge
      · exact hlt
      · rw [List.getElem?_eq_none (show Sample.prog.tables.length ≤ q.tbl from hge)] at h1; cases h1
    · rcases Nat.lt_or_ge q.idx 12 with hlt | hge
      · exact hlt
      · rw [List.getElem?_eq_none (by omega)] at h2; cases h2
  have hall : ∀ k < 3, ∀ i < 12, ∀ o ∈ (Sample.prog.tables[k]?.bind (fun os => os[i]?)).toList, o.handler.any Handler.splits = true →
      ∀ t ∈ (textsOf ⟨k, i⟩ (Sample.prog.asks
        [c!"--tags", c!"a,,b,", c!"--tags=,", c!"-m", c!"x=1", c!"-o", c!",", c!"admin", c!"list", c!"3", c!","])).head?.toList,
      t.any (fun s => s.any (· != 44)) = true := by decide +kernel
  have := hall q.tbl hlt.1 q.idx hlt.2 o (by rw [h1, Option.bind_some, h2]; simp) (by rw [hh]; exact hs) (some t)
    (by rw [show (⟨q.tbl, q.idx⟩ : Ptr) = q from rfl, ht]; simp)
  simp only [Option.any_some, List.any_eq_true, bne_iff_ne] at this
  exact .inr this

/-- **C42** The claim as first stated is false: after `--tags=,` the release reads through a NULL pointer. -/
theorem C42_only_commas : ∃ a1, argusParse Sample.world Sample.noEnv Sample.prog [c!"--tags=,"] =
    .ok (.returned Err.success, a1) ∧ argusFree a1 = .ub .nullDeref :=
  ⟨_, rfl, by decide +kernel⟩

/-- **C42** ... and with a further value the release frees an uninitialised pointer. -/
theorem C42_only_commas_then_more : ∃ a1, argusParse Sample.world Sample.noEnv Sample.prog
    [c!"--tags=,", c!"--tags=a"] = .ok (.returned Err.success, a1) ∧ argusFree a1 = .ub .badFree :=
  ⟨_, rfl, by decide +kernel⟩

/-- **C42** A range ending at INT_MAX overflows the loop counter. -/
theorem C42_int_max : argusParse Sample.world Sample.noEnv
    (argusInit [[helpOption, optArrayInt 110 (some c!"num")]] c!"prog" none) [c!"--num=2147483647"] =
      .ub .intOverflow := by decide +kernel

/-- **C42** An array option with a default value hands a pointer that was not allocated to `realloc`. -/
theorem C42_array_default : argusParse Sample.world Sample.noEnv
    (argusInit [[helpOption, { optArrayString 116 (some c!"tags") with
      value := .word (.ptr c!"x"), defaultValue := .ptr c!"x", haveDefault := true, isSet := true }]]
      c!"prog" none) [c!"--tags=a"] = .ub .badFree := by decide +kernel

/-- **C42** FLAG_ENV_OVERRIDE on a map: a variable that is rejected after the map was reallocated makes
    `argus_parse` restore, and free, a pointer to a block already released. -/
theorem C42_env_override : argusParse Sample.world
    (fun n => if n = c!"M" then some c!"b=1,c=1,d=2,e=3,f=5,g=5,h=5,i=6,a" else none)
    (argusInit [[helpOption, { optMapInt 109 (some c!"map") with
      envName := some c!"M", flags := Flags.ofList [.envOverride] }]] c!"prog" none) [c!"--map=a=1"] =
      .ub .badFree := by decide +kernel

/-- **C42** FLAG_ENV_OVERRIDE on an int array that was given one number: a rejected variable with seven numbers before
    the fault is harmless, one with eight makes `argus_parse` free a block already released. -/
theorem C42_env_override_array : (argusParse Sample.world
    (fun n => if n = c!"N" then some c!"2,3,4,5,6,7,8,x" else none)
    (argusInit [[helpOption, { optArrayInt 110 (some c!"num") with
      envName := some c!"N", flags := Flags.ofList [.envOverride] }]] c!"prog" none) [c!"--num=1"]).bind (fun r => .ok r.1) =
      .ok (.returned Err.invalidFormat) ∧
    argusParse Sample.world
    (fun n => if n = c!"N" then some c!"2,3,4,5,6,7,8,9,x" else none)
    (argusInit [[helpOption, { optArrayInt 110 (some c!"num") with
      envName := some c!"N", flags := Flags.ofList [.envOverride] }]] c!"prog" none) [c!"--num=1"] =
      .ub .badFree := by decide +kernel

/-- **C42** A length validator on an int option reads the number as a pointer. -/
theorem C42_wrong_validator : argusParse Sample.world Sample.noEnv
    (argusInit [[helpOption, { optInt 110 (some c!"num") with validators := some [vLength 1 3] }]]
      c!"prog" none) [c!"--num=4"] = .ub .outOfBounds := by decide +kernel

/-! ## C32: access after a successful parse -/

/-- **C32** (full statement: after every successful parse). After a successful parse under the conditions of C42,
    no query with any path, index or key is undefined, whatever queries were made before, and iterators may be
    advanced and reset at will. -/
theorem C32_defined_after_parse_partial (W : World) (env : Env) (a a1 : Argus) (args : List Str) (hp : a.Proper)
    (hfresh : a.stack = []) (ht : a.TextsFit args env)
    (h : argusParse W env a args = .ok (.returned Err.success, a1)) (qs : List Query) :
    ∃ a2, askAll a1 qs = .ok a2 ∧ ∀ q : Query, ∃ r, q.ask a2 = .ok r ∧
      (∀ it ops, r.1 = .arrayIt it → ∃ ws, it.play ops = .ok ws) ∧
      (∀ it ops, r.1 = .mapIt it → ∃ ws, it.play ops = .ok ws) := by
  have hd := argusParse_proper W env a args hp hfresh ht
  rw [h] at hd
  have hg := hd.2 rfl
  obtain ⟨h1, h2⟩ := argusParse_levels h hfresh
  have hask : Askable a1 := ⟨h1, h2, hg.all⟩
  obtain ⟨a2, h3, h4⟩ := hask.askAll qs
  refine ⟨a2, h3, fun q => ?_⟩
  obtain ⟨r, h5, h6, _⟩ := h4.ask q
  refine ⟨r, h5, ?_, ?_⟩
  · intro it ops he; rw [he] at h6; exact h6 ops
  · intro it ops he; rw [he] at h6; exact h6 ops

/-- **C32** After `--tags=,` reading element 0 goes through a NULL pointer although the count is 1. -/
theorem C32_only_commas : ∃ a1, argusParse Sample.world Sample.noEnv Sample.prog [c!"--tags=,"] =
    .ok (.returned Err.success, a1) ∧ argusCount a1 c!"tags" = .ok (1, a1) ∧
    argusArrayGet a1 c!"tags" 0 = .ub .nullDeref :=
  ⟨_, rfl, by decide +kernel, by decide +kernel⟩

/-! ## C36: release -/

/-- **C36** After `argus_free` no option of the selected path is allocated, and calling it again changes nothing. -/
theorem C36_free_releases (a a1 : Argus) (h : argusFree a = .ok a1) :
    (∀ k, a.Selected k → a1.Released k) ∧ argusFree a1 = .ok a1 := by
  obtain ⟨h1, h2⟩ := argusFree_released h
  refine ⟨fun k hk => h1 k ?_, h2⟩
  have hf := argusFree_frame h
  rcases hk with rfl | ⟨q, hq, cmd, h3, h4⟩
  · exact .inl hf.frame.root.symm
  · obtain ⟨c', h5, h6⟩ := shape_getOpt hf.frame.shape h3
    exact .inr ⟨q, by rw [hf.stack]; exact hq, c', h5,
      (congrArg Opt.subOptions h6 : c'.meta.subOptions = cmd.meta.subOptions).trans h4⟩

/-- `prog --tags a` and its release: something was allocated before, nothing is afterwards. -/
example : ∃ a1 a2, argusParse Sample.world Sample.noEnv Sample.prog [c!"--tags", c!"a"] =
    .ok (.returned Err.success, a1) ∧ ¬ a1.Released 0 ∧ argusFree a1 = .ok a2 := by
  refine ⟨_, _, rfl, ?_, rfl⟩
  intro h
  have := h 4 _ rfl
  revert this
  decide +kernel

/-- **C36** A parse that does not succeed has released everything already; calling `argus_free` then changes
    nothing. -/
theorem C36_failed_parse_has_freed (W : World) (env : Env) (a a1 : Argus) (args : List Str) (e : ParseEnd)
    (h : argusParse W env a args = .ok (e, a1)) (he : e ≠ .returned Err.success) :
    (∀ k, a1.Selected k → a1.Released k) ∧ argusFree a1 = .ok a1 := by
  unfold argusParse at h
  obtain ⟨r, _, h1⟩ := Out.bind_eq_ok h
  simp only at h1
  have key : ∀ (b : Argus) (e' : ParseEnd), (argusFree b >>= fun a2 => Out.ok (e', a2)) = .ok (e, a1) →
      (∀ k, a1.Selected k → a1.Released k) ∧ argusFree a1 = .ok a1 := by
    intro b e' hb
    obtain ⟨a2, h2, h3⟩ := Out.bind_eq_ok hb
    simp only [Out.ok.injEq, Prod.mk.injEq] at h3
    rw [← h3.2]; exact argusFree_released h2
  split at h1
  · exact key _ _ h1
  · split at h1
    · exact key _ _ h1
    · obtain ⟨q, _, h2⟩ := Out.bind_eq_ok h1
      split at h2
      · exact key _ _ h2
      · obtain ⟨v, _, h3⟩ := Out.bind_eq_ok h2
        split at h3
        · exact key _ _ h3
        · rename_i hs
          simp only [ne_eq, Decidable.not_not] at hs
          simp only [Out.ok.injEq, Prod.mk.injEq] at h3
          rw [hs] at h3
          exact absurd h3.1.symm he

/-- `prog --tags a --num` fails for want of a value. -/
example : ∃ a1, argusParse Sample.world Sample.noEnv Sample.prog [c!"--tags", c!"a", c!"--num"] =
    .ok (.returned Err.missingValue, a1) := ⟨_, rfl⟩

/-- **C36** From a fresh context in which nothing is allocated, parsing and releasing leaves nothing allocated at
    any level, selected or not. -/
theorem C36_nothing_left (W : World) (env : Env) (a a1 a2 : Argus) (args : List Str) (e : ParseEnd)
    (hclean : ∀ k, a.Released k) (h : argusParse W env a args = .ok (e, a1)) (hf : argusFree a1 = .ok a2) (k : Nat) :
    a2.Released k := by
  obtain ⟨_, _, _, h1⟩ := argusParse_frame h
  have h2 := argusFree_frame hf
  by_cases hk : a1.onPath k
  · refine (C36_free_releases a1 a2 hf).1 k ?_
    rcases hk with rfl | ⟨p, hp, h3⟩
    · exact .inl rfl
    · unfold Argus.subOf at h3
      split at h3
      · rename_i o ho; exact .inr ⟨p, hp, o, ho, h3⟩
      · simp at h3
  · intro i o ho
    have h4 : a2.tables[k]? = a.tables[k]? := (h2.frame.other k hk).trans (h1.other k hk)
    obtain ⟨os, g1, g2⟩ := getOpt_eq_ok.1 ho
    exact hclean k i o (getOpt_eq_ok.2 ⟨os, by rw [← h4]; exact g1, g2⟩)

/-- Nothing is allocated in the sample program. -/
example (k : Nat) : Sample.prog.Released k := by
  intro i o ho
  obtain ⟨os, h1, h2⟩ := getOpt_eq_ok.1 ho
  exact (Sample.prog_proper.entries os (List.mem_of_getElem? h1) o (List.mem_of_getElem? h2)).unallocated

/-- **C36** (full statement: for every state reachable by parsing). Under the conditions of C42, `argus_free` is
    defined after every parse, and so is a second call.
    Missing: a first text of commas only, after which it is not, see `C42_only_commas`. -/
theorem C36_free_defined_partial (W : World) (env : Env) (a a1 : Argus) (args : List Str) (e : ParseEnd)
    (hp : a.Proper) (hfresh : a.stack = []) (ht : a.TextsFit args env) (h : argusParse W env a args = .ok (e, a1)) :
    ∃ a2, argusFree a1 = .ok a2 ∧ argusFree a2 = .ok a2 := by
  have hd := argusParse_proper W env a args hp hfresh ht
  rw [h] at hd
  obtain ⟨a2, h2, _⟩ := argusFree_freeable hd.1
  exact ⟨a2, h2, (argusFree_released h2).2⟩

/-! ## C37: return value and error code -/

/-- **C37** (full statement: without the condition on FLAG_EXIT). With built-in handlers and validators, the error
    code after `argus_parse` returns is the status it returned, provided options with FLAG_EXIT are not read from
    the environment.
    Missing: options with FLAG_EXIT and an environment variable, for which it is false, see below. -/
theorem C37_status_is_error_code_partial (W : World) (env : Env) (a a1 : Argus) (args : List Str) (st : Int)
    (hb : ∀ os ∈ a.tables, ∀ o ∈ os, o.BuiltIn)
    (hx : ∀ os ∈ a.tables, ∀ o ∈ os, o.flags.has .exit = true → o.envName = none ∧ o.flags.has .autoEnv = false)
    (h : argusParse W env a args = .ok (.returned st, a1)) : a1.errorCode = st := by
  have hE : Everywhere Opt.Agreeable a := by
    intro p o ho
    obtain ⟨os, h1, h2⟩ := getOpt_eq_ok.1 ho
    have hb1 := hb os (List.mem_of_getElem? h1) o (List.mem_of_getElem? h2)
    exact ⟨⟨hb1.handler, hb1.validators⟩, hx os (List.mem_of_getElem? h1) o (List.mem_of_getElem? h2)⟩
  unfold argusParse at h
  obtain ⟨r, hr, h1⟩ := Out.bind_eq_ok h
  obtain ⟨_, _, _, hfr⟩ := parseLoop_frame _ hr
  simp only at h1
  have key : ∀ (b : Argus) (s : Int), b.errorCode = s →
      (argusFree b >>= fun a2 => Out.ok (ParseEnd.returned s, a2)) = .ok (.returned st, a1) → a1.errorCode = st := by
    intro b s hbs hb
    obtain ⟨a2, h2, h3⟩ := Out.bind_eq_ok hb
    simp only [Out.ok.injEq, Prod.mk.injEq, ParseEnd.returned.injEq] at h3
    rw [← h3.2, ← h3.1, argusFree_errorCode h2, hbs]
  split at h1
  · obtain ⟨a2, h2, h3⟩ := Out.bind_eq_ok h1
    simp at h3
  · split at h1
    · exact key _ _ rfl h1
    · rename_i hs
      simp only [ne_eq, Decidable.not_not] at hs
      obtain ⟨q, hq, h2⟩ := Out.bind_eq_ok h1
      have hE1 : Everywhere Opt.Agreeable { r.2 with errorCode := r.1 } := hE.of_shape hfr.shape
      have e1 := loadEnvVars_code hE1 hs hq
      split at h2
      · exact key _ _ e1 h2
      · rename_i hs2
        simp only [ne_eq, Decidable.not_not] at hs2
        obtain ⟨v, hv, h3⟩ := Out.bind_eq_ok h2
        have e2 := postValidation_code (hE1.of_shape (loadEnvVars_frame hq).frame.shape) (by rw [e1, hs2]) hv
        split at h3
        · exact key _ _ e2 h3
        · simp only [Out.ok.injEq, Prod.mk.injEq, ParseEnd.returned.injEq] at h3
          rw [← h3.2, ← h3.1]; exact e2

/-- The sample program meets the hypotheses; a port out of range is reported by the validator. -/
example : (∀ os ∈ Sample.prog.tables, ∀ o ∈ os, o.BuiltIn) ∧
    (∀ os ∈ Sample.prog.tables, ∀ o ∈ os, o.flags.has .exit = true →
      o.envName = none ∧ o.flags.has .autoEnv = false) ∧
    ∃ a1, argusParse Sample.world Sample.noEnv Sample.prog [c!"--port", c!"70000"] =
      .ok (.returned Err.invalidRange, a1) := by
  refine ⟨?_, by decide +kernel, _, rfl⟩
  intro os hos o ho
  have h1 : ∀ os ∈ Sample.prog.tables, ∀ o ∈ os, (match o.handler with | some (.custom _) => false | _ => true) = true := by
    decide +kernel
  have h2 : ∀ os ∈ Sample.prog.tables, ∀ o ∈ os, ∀ v ∈ o.validators.getD [],
      (match v.kind with | .custom _ => false | _ => true) = true := by
    decide +kernel
  refine ⟨fun id hid => ?_, fun v hv id hid => ?_⟩
  · have := h1 os hos o ho; rw [hid] at this; simp at this
  · have := h2 os hos o ho v hv; rw [hid] at this; simp at this

/-- **C37** When the process is ended by an option with FLAG_EXIT, the error code says so. -/
theorem C37_exit_code (W : World) (env : Env) (a a1 : Argus) (args : List Str)
    (h : argusParse W env a args = .ok (.exited, a1)) : a1.errorCode = Err.shouldExit := by
  unfold argusParse at h
  obtain ⟨r, hr, h1⟩ := Out.bind_eq_ok h
  simp only at h1
  split at h1
  · rename_i hs
    obtain ⟨a2, h2, h3⟩ := Out.bind_eq_ok h1
    simp only [Out.ok.injEq, Prod.mk.injEq] at h3
    rw [← h3.2, argusFree_errorCode h2]; exact hs
  · have no : ∀ (b : Argus) (s : Int),
        (argusFree b >>= fun a2 => Out.ok (ParseEnd.returned s, a2)) ≠ .ok (.exited, a1) := by
      intro b s hb
      obtain ⟨a2, _, h3⟩ := Out.bind_eq_ok hb
      simp at h3
    split at h1
    · exact absurd h1 (no _ _)
    · obtain ⟨q, _, h2⟩ := Out.bind_eq_ok h1
      split at h2
      · exact absurd h2 (no _ _)
      · obtain ⟨v, _, h3⟩ := Out.bind_eq_ok h2
        split at h3
        · exact absurd h3 (no _ _)
        · simp at h3

/-- **C37** The claim as first stated is false: an option with FLAG_EXIT set from the environment makes
    `argus_parse` return ARGUS_ERROR_SHOULD_EXIT with error code 0 (and does not end the process). -/
theorem C37_exit_from_environment : ∃ a1, argusParse Sample.world
    (fun n => if n = c!"LICENSE" then some c!"1" else none)
    (argusInit [[helpOption, { optFlag 108 (some c!"license") with
      envName := some c!"LICENSE", flags := Flags.ofList [.exit] }]] c!"prog" none) [] =
      .ok (.returned Err.shouldExit, a1) ∧ a1.errorCode = Err.success :=
  ⟨_, rfl, by decide +kernel⟩

/-! ## C52: using a context again -/

/-- **C52** (full statement: for every history of calls). For proper definitions without arrays, maps and variadic
    positionals, every history of parse and free calls is defined, but for the subcommand stack.
    Missing: options that collect values, for which it is false, see below. -/
theorem C52_scalars_partial (W : World) (a : Argus) (cs : List Call) (u : Ub) (hp : a.Proper) (hfresh : a.stack = [])
    (hn : ∀ os ∈ a.tables, ∀ o ∈ os, ∀ h, o.handler = some h → h.isCollection = false)
    (hu : runCalls W a cs = .ub u) : u = .stackOverflow := by
  obtain ⟨hS, hg⟩ := hp.good hfresh
  have hpl : Plain a.shape := by
    intro os hos o ho h hh
    unfold Argus.shape at hos
    obtain ⟨os0, hos0, rfl⟩ := List.mem_map.1 hos
    obtain ⟨o0, ho0, rfl⟩ := List.mem_map.1 ho
    exact hn os0 hos0 o0 ho0 h hh
  have := runCalls_plain W hS hpl cs hg
  rw [hu] at this; exact this

theorem runCalls_noSub (W : World) {S : List (List Opt)} {root : Nat} (hS : Closed S root) (hpl : Plain S)
    (hns : ∀ os ∈ S, ∀ o ∈ os, o.type ≠ .subcommand) : ∀ (cs : List Call) {a : Argus}, Good S root a →
    ∃ a1, runCalls W a cs = .ok a1
  | [], a, h => ⟨a, rfl⟩
  | .free :: cs, a, h => by
    unfold runCalls
    simp only [Call.run]
    rw [argusFree_plain hS h hpl]
    exact runCalls_noSub W hS hpl hns cs h
  | .parse env args :: cs, a, h => by
    unfold runCalls
    simp only [Call.run]
    have h1 := argusParse_plain W env hS hpl h args
    have h2 := C41_no_stack_overflow W env a args (h.noSub hns) (by
      intro ps hps
      cases ps with
      | nil => simp
      | cons p ps =>
        obtain ⟨_, os, o, g1, g2, g3, _⟩ := hps
        obtain ⟨os', f1, f2⟩ := shape_get (getOpt_eq_ok.2 ⟨os, g1, g2⟩)
        rw [h.shape] at f1
        exact absurd g3 (hns os' (List.mem_of_getElem? f1) o.meta (List.mem_of_getElem? f2)))
    cases hr : argusParse W env a args with
    | ub u => rw [hr] at h1 h2; exact absurd (congrArg Out.ub h1) h2
    | ok r => rw [hr] at h1; exact runCalls_noSub W hS hpl hns cs h1

/-- **C52** ... and without subcommands every history is defined. -/
theorem C52_scalars_without_subcommands_partial (W : World) (a : Argus) (cs : List Call) (hp : a.Proper)
    (hfresh : a.stack = [])
    (hn : ∀ os ∈ a.tables, ∀ o ∈ os, ∀ h, o.handler = some h → h.isCollection = false)
    (hns : ∀ os ∈ a.tables, ∀ o ∈ os, o.type ≠ .subcommand) : ∃ a1, runCalls W a cs = .ok a1 := by
  obtain ⟨hS, hg⟩ := hp.good hfresh
  refine runCalls_noSub W hS ?_ ?_ cs hg
  · intro os hos o ho h hh
    unfold Argus.shape at hos
    obtain ⟨os0, hos0, rfl⟩ := List.mem_map.1 hos
    obtain ⟨o0, ho0, rfl⟩ := List.mem_map.1 ho
    exact hn os0 hos0 o0 ho0 h hh
  · intro os hos o ho
    unfold Argus.shape at hos
    obtain ⟨os0, hos0, rfl⟩ := List.mem_map.1 hos
    obtain ⟨o0, ho0, rfl⟩ := List.mem_map.1 ho
    exact hns os0 hos0 o0 ho0

/-- A context with a flag and a number meets the hypotheses. -/
example : ∃ a : Argus, a.Proper ∧ a.stack = [] ∧
    (∀ os ∈ a.tables, ∀ o ∈ os, ∀ h, o.handler = some h → h.isCollection = false) ∧
    (∀ os ∈ a.tables, ∀ o ∈ os, o.type ≠ .subcommand) := by
  refine ⟨argusInit [[helpOption, optInt 110 (some c!"num")]] c!"prog" none, ⟨?_, by decide, ?_⟩, rfl, ?_, ?_⟩
  · intro os hos o ho
    have : os = [helpOption, optInt 110 (some c!"num")] := by simpa [argusInit] using hos
    subst this
    simp only [List.mem_cons, List.not_mem_nil, or_false] at ho
    rcases ho with rfl | rfl
    · exact .fresh _ .help .default rfl rfl .help rfl (by decide) rfl rfl rfl (by decide) (fun _ h => nomatch h)
    · exact .fresh _ .int .default rfl rfl .int rfl (by decide) rfl rfl rfl (by decide) (fun _ h => nomatch h)
  · have : ∀ os ∈ (argusInit [[helpOption, optInt 110 (some c!"num")]] c!"prog" none).tables, ∀ o ∈ os,
        o.type ≠ .subcommand := by decide +kernel
    intro os hos o ho ht
    exact absurd ht (this os hos o ho)
  · have : ∀ os ∈ (argusInit [[helpOption, optInt 110 (some c!"num")]] c!"prog" none).tables, ∀ o ∈ os,
        o.handler.all (fun h => !h.isCollection) = true := by decide +kernel
    intro os hos o ho h hh
    have := this os hos o ho
    rw [hh] at this; simpa using this
  · decide +kernel

/-- **C52** (full statement: for every history of calls). Any number of successful parses of the same context, with
    the texts of C42, followed by one more parse and a release: defined, but for the subcommand stack.
    Missing: parsing again after a release or after a failed parse when options collect values. -/
theorem C52_again_after_success_partial (W : World) (a : Argus) (hp : a.Proper) (hfresh : a.stack = [])
    (runs : List (Env × List Str)) (ht : ∀ r ∈ runs, a.TextsFit r.2 r.1) :
    (∀ (pre : List (Env × List Str)) (x : Env × List Str) (b : Argus), pre ++ [x] <+: runs →
      Parses W a pre b → argusParse W x.1 b x.2 = .ub .stackOverflow ∨
        ∃ e b1 b2, argusParse W x.1 b x.2 = .ok (e, b1) ∧ argusFree b1 = .ok b2) := by
  obtain ⟨hS, hg⟩ := hp.good hfresh
  intro pre x b hpre hb
  have hx : x ∈ runs := hpre.subset (by simp)
  have step : ∀ {b : Argus}, Good a.shape a.root b → b.envPrefix = a.envPrefix → ∀ r ∈ runs, Defd (argusParse W r.1 b r.2)
      (fun q => Freeable q.2 ∧ (q.1 = .returned Err.success → Good a.shape a.root q.2)) := by
    intro b hb he r hr
    exact argusParse_good W r.1 hS hb (Good.texts rfl rfl he hb (ht r hr))
  have hgb : Good a.shape a.root b ∧ b.envPrefix = a.envPrefix := by
    have hsub : ∀ r ∈ pre, r ∈ runs := fun r hr => hpre.subset (by simp [hr])
    clear hpre
    induction hb with
    | none => exact ⟨hg, rfl⟩
    | more b0 b1 ps r _ h2 ih =>
      obtain ⟨h3, he⟩ := ih (fun q hq => hsub q (by simp [hq]))
      have h4 := step h3 he r (hsub r (by simp))
      rw [h2] at h4
      obtain ⟨_, _, _, hfr⟩ := argusParse_frame h2
      exact ⟨h4.2 rfl, hfr.envPrefix.trans he⟩
  have h5 := step hgb.1 hgb.2 x hx
  cases hr : argusParse W x.1 b x.2 with
  | ub u => rw [hr] at h5; exact .inl (congrArg Out.ub h5)
  | ok q =>
    rw [hr] at h5
    obtain ⟨b2, h6, _⟩ := argusFree_freeable h5.1
    exact .inr ⟨q.1, q.2, b2, rfl, h6⟩

/-- **C52** The claim as first stated is false: parse, free, parse, free with an array option frees an
    uninitialised pointer, because the count is not reset. -/
theorem C52_array_after_free : runCalls Sample.world Sample.prog
    [.parse Sample.noEnv [c!"--tags", c!"a"], .free, .parse Sample.noEnv [c!"--tags", c!"b"], .free] =
      .ub .badFree := by decide +kernel

/-- **C52** ... with eight values the second parse writes outside the new buffer. -/
theorem C52_array_overflow_after_free : runCalls Sample.world Sample.prog
    [.parse Sample.noEnv [c!"--tags=a,b,c,d,e,f,g,h"], .free, .parse Sample.noEnv [c!"--tags=b"]] =
      .ub .outOfBounds := by decide +kernel

/-- **C52** The subcommand stack is never emptied: the ninth parse that selects a subcommand overflows it. -/
theorem C52_ninth_parse : runCalls Sample.world Sample.prog
    (List.replicate 9 (.parse Sample.noEnv [c!"admin"])) = .ub .stackOverflow := by decide +kernel

end Argus
