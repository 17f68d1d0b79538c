import Verif.Lemmas.ReadBack
import Verif.Props.Order
import Verif.Props.EnvLine
import Verif.Props.Arrays
import Verif.Props.Structure
import Verif.Props.Values

/-!
# C90: every value given can be read under the name of its option

`source/api/argus_value_access.c`, `source/utils/option_lookup.c`. `HasPath`, `FirstOfName` and `PlainCommands` are in Spec/ReadBack.
-/

set_option autoImplicit false

namespace Argus

/-- What the accesses rest on, after a successful parse. -/
theorem parse_levels_plain {W : World} {env : Env} {a a' : Argus} {args : List Str}
    (hok : argusParse W env a args = .ok (.returned Err.success, a')) (hfresh : a.stack = []) (hc : PlainCommands a.tables) :
    ∃ os lv, a'.tables[a'.root]? = some os ∧ LevelsOf a' a'.stack lv ∧ ∀ m ∈ lv.map Prod.fst, m ≠ [] ∧ (46 : Byte) ∉ m := by
  obtain ⟨⟨os, hr⟩, lv, hl⟩ := argusParse_levels hok hfresh
  refine ⟨os, lv, hr, hl, fun m hm => ?_⟩
  obtain ⟨q, hq, cmd, h1, h2⟩ := hl.names m hm
  obtain ⟨_, _, _, hf⟩ := argusParse_frame hok
  have hst : a'.stack = entered (a.asks args) := by
    obtain ⟨a1, a2, h1, h2, h3⟩ := argusParse_success hok
    obtain ⟨es, hes⟩ := postValidation_eq h3
    simp only at hes
    rw [hes, emits_stack, (loadEnvVars_frame h2).stack]
    rw [parseArgs_run] at h1
    rw [(run_stack _ h1 (asks_no_fail0 a args) : a1.stack = _), hfresh, List.nil_append]
  rw [hst] at hq
  have key : ∀ (ps : List Ptr) (t : Option Nat), SubChain a.tables t ps → ∀ q ∈ ps,
      ∃ os o, a.tables[q.tbl]? = some os ∧ os[q.idx]? = some o ∧ o.type = .subcommand := by
    intro ps
    induction ps with
    | nil => intro t _ q hq; simp at hq
    | cons p ps ih =>
      rintro t ⟨_, os, o, g1, g2, g3, g4⟩ q hq
      rcases List.mem_cons.1 hq with rfl | hq
      · exact ⟨os, o, g1, g2, g3⟩
      · exact ih _ g4 q hq
  obtain ⟨os', o, g1, g2, g3⟩ := key _ _ (meaning_chain a.tables args (some a.root) 0 false false) q hq
  obtain ⟨o', g4, g5⟩ := shape_getOpt hf.shape (getOpt_eq_ok.2 ⟨os', g1, g2⟩)
  rw [h1] at g4; cases g4
  have : cmd.meta.name = o.meta.name := congrArg Opt.name g5
  exact hc os' (List.mem_of_getElem? g1) o (List.mem_of_getElem? g2) g3 m ((this : cmd.name = o.name).symm.trans h2)

/-- **C90** After a successful parse exactly these entries can be read by some path: those of the main program and of the
    selected subcommands that are the first of their name in their table, except that a name with a dot works in the main
    program only. (Names of commands have no dots.) -/
theorem C90_has_path (W : World) (env : Env) (a a' : Argus) (args : List Str) (p : Ptr)
    (hok : argusParse W env a args = .ok (.returned Err.success, a')) (hfresh : a.stack = []) (hc : PlainCommands a.tables) :
    a'.HasPath p ↔ p.tbl ∈ a.tablesUsed args ∧ ∃ n, FirstOfName a.tables p n ∧ (p.tbl = a.root ∨ (46 : Byte) ∉ n) := by
  obtain ⟨os, lv, hr, hl, hm⟩ := parse_levels_plain hok hfresh hc
  obtain ⟨_, _, _, hf⟩ := argusParse_frame hok
  have hroot : a'.root = a.root := congrArg (fun c => c.1) hf.cfg
  rw [← onPath_iff hok]
  constructor
  · intro h
    obtain ⟨h1, n, h2, h3⟩ := (hasPath_iff hr hl p).1 h
    exact ⟨h1, n, firstOfName_shape hf.shape.symm h2, hroot ▸ h3⟩
  · rintro ⟨h1, n, h2, h3⟩
    exact (hasPath_iff hr hl p).2 hm h1 n (firstOfName_shape hf.shape h2) (hroot ▸ h3)

/-- **C90** A string, int, float or bool option or positional that was handed a text, on the command line or by the environment,
    is read under some path as what its last text means.
    Full statement: without asking that it is the first of its name. Missing: entries after another of the same name
    (`C90_hidden_case`), and names with dots below the main program (`C90_dotted_case`). -/
theorem C90_scalar_partial (W : World) (env : Env) (a a' : Argus) (args : List Str) (p : Ptr) (o : Opt) (h : Handler)
    (earlier : List (Option Str)) (n v : Str) (hok : argusParse W env a args = .ok (.returned Err.success, a'))
    (hfresh : a.stack = []) (hc : PlainCommands a.tables) (ho : a.getOpt p = .ok o) (ht : o.type ≠ .subcommand)
    (hh : o.handler = some h) (hs : h.isScalar = true) (hlast : allTexts env a args p o = earlier ++ [some v])
    (hn : FirstOfName a.tables p n) (hd : p.tbl = a.root ∨ (46 : Byte) ∉ n) :
    ∃ path x, argusGet a' path = .ok (x, { a' with errorCode := Err.success }) ∧ Holds W h v x ∧
      argusIsSet a' path = .ok (true, a') := by
  have hon : p.tbl ∈ a.tablesUsed args := (onPath_iff hok _).1 (allTexts_onPath hok (o := o) (by rw [hlast]; simp))
  obtain ⟨path, hp⟩ := (C90_has_path W env a a' args p hok hfresh hc).2 ⟨hon, n, hn, hd⟩
  obtain ⟨o', g1, g2, g3⟩ := C11_last_text W env a a' args p o h earlier v hok ho ht hh hs hlast
  have hk := C32_known_path a' path o' ⟨p, hp, g1⟩
  exact ⟨path, o'.value, hk.1, g2, g3 ▸ hk.2.1⟩

/-- **C90** The strings of an array or POSITIONAL_MANY are read under some path one by one, in order, and counted. The same
    entries are missing as above, as well as those whose first text has no element (`C13_only_commas`). -/
theorem C90_strings_partial (W : World) (env : Env) (a a' : Argus) (args : List Str) (p : Ptr) (o : Opt)
    (part : Str → List Str) (ts : List Str) (n : Str) (hg : GivenTexts W env a args a' p o ts)
    (hfresh : a.stack = []) (hc : PlainCommands a.tables)
    (hcs : CollectsStrings o part) (hk : o.valueType.listLike) (hf : o.Fresh) (hfirst : ∀ t ∈ ts.head?, part t ≠ [])
    (hs : o.flags.has .sorted = false) (hu : o.flags.has .unique = false)
    (hn : FirstOfName a.tables p n) (hd : p.tbl = a.root ∨ (46 : Byte) ∉ n) :
    ∃ path, argusCount a' path = .ok ((ts.flatMap part).length, a') ∧
      ∀ i s, (ts.flatMap part)[i]? = some s → ∃ w, argusArrayGet a' path i = .ok (w, { a' with errorCode := Err.success }) ∧
        w.asString = .ok (some s) := by
  have hon : p.tbl ∈ a.tablesUsed args := (onPath_iff hg.ok _).1 (allTexts_onPath hg.ok (o := o) (by
    rw [hg.texts]; simpa using hg.given))
  obtain ⟨path, hp⟩ := (C90_has_path W env a a' args p hg.ok hfresh hc).2 ⟨hon, n, hn, hd⟩
  obtain ⟨o', g1, cells, g2, g3⟩ := C13_strings_partial W env a a' args p o part ts hg hcs hf hfirst hs hu
  have hk' : o'.valueType.listLike := by
    obtain ⟨_, _, _, hfr⟩ := argusParse_frame hg.ok
    obtain ⟨o1, k1, k2⟩ := shape_getOpt hfr.shape hg.opt
    rw [g1] at k1; cases k1
    have : o'.meta.valueType = o.meta.valueType := congrArg Opt.valueType k2
    rw [show o'.valueType = o.valueType from this]
    exact hk
  have hlen : cells.length = (ts.flatMap part).length := by
    have := congrArg List.length g3
    simpa using this
  refine ⟨path, ?_, fun i s hi => ?_⟩
  · rw [← hlen]; exact (C32_array_get a' path o' cells 0 ⟨p, hp, g1⟩ hk' g2).1
  · have h2 := (C32_array_get a' path o' cells i ⟨p, hp, g1⟩ hk' g2).2
    have h3 := congrArg (fun l => l[i]?) g3
    simp only [List.getElem?_map, hi, Option.map_some, Option.map_eq_some_iff] at h3
    obtain ⟨w, e1, e2⟩ := h3
    rw [e1] at h2
    exact ⟨w, h2, e2⟩

/-- The names of a chain of commands lead to its end. -/
theorem NamesChain.leads {a b : Argus} (hs : b.shape = a.shape) {k : Nat} : ∀ {ps : List Ptr} {ns : List Str}
    {lv : List (Str × Nat)} {k0 : Nat}, NamesChain a.tables (some k0) ps ns → LevelsOf b ps lv →
    chainEnd a.tables (some k0) ps = some k → Leads (· = ·) ns lv k0 k
  | [], [], [], k0, _, _, he => by
    simp only [chainEnd, Option.some.injEq] at he
    subst he; exact .done _ _
  | [], _ :: _, _, _, h, _, _ => absurd h (by simp [NamesChain])
  | _ :: _, [], _, _, h, _, _ => absurd h (by simp [NamesChain])
  | [], [], _ :: _, _, _, h, _ => h.elim
  | _ :: _, _ :: _, [], _, _, h, _ => h.elim
  | p :: ps, n :: ns, (m, j) :: lv, k0, h, hl, he => by
    obtain ⟨_, os, o, h1, h2, _, h4, _, _, h7⟩ := h
    obtain ⟨⟨cmd, os', g1, g2, g3, _⟩, g5⟩ := hl
    obtain ⟨o', k1, k2⟩ := shape_getOpt hs (getOpt_eq_ok.2 ⟨os, h1, h2⟩)
    rw [g1] at k1; cases k1
    have e1 : cmd.meta.name = o.meta.name := congrArg Opt.name k2
    have e2 : cmd.meta.subOptions = o.meta.subOptions := congrArg Opt.subOptions k2
    have hm : m = n := by
      have : cmd.name = o.name := e1
      rw [g2, h4] at this
      exact Option.some.inj this
    have hj : o.subOptions = some j := (e2 : cmd.subOptions = o.subOptions).symm.trans g3
    have hb : tableBelow a.tables p = some j := by
      unfold tableBelow placeAt; rw [h1, Option.bind_some, h2, Option.bind_some, hj]
    rw [hj] at h7
    simp only [chainEnd, hb] at he
    exact .step n ns m j lv k0 k hm.symm (NamesChain.leads hs h7 g5 he)

/-- **C90** spelled out: if `prog c1 … cm --name=v` is accepted, then `argus_get(c1.….cm.name)` is what `v` means, and
    `argus_is_set` is true. (The option takes a value, none of the earlier entries of its table has the same name, and
    the environment does not override it.) -/
theorem C90_typed (W : World) (env : Env) (a a' : Argus) (ps : List Ptr) (ns : List Str) (k : Nat) (l r : List Opt) (o : Opt)
    (h : Handler) (name v : Str) (hfresh : a.stack = []) (hc : PlainCommands a.tables)
    (hns : NamesChain a.tables (some a.root) ps ns) (hend : chainEnd a.tables (some a.root) ps = some k)
    (hk : a.tables[k]? = some (l ++ o :: r)) (ht : o.type = .option) (hl : o.lname = some name) (hnm : o.name = some name)
    (hfl : ∀ x ∈ l, x.name ≠ some name) (hfl' : ∀ x ∈ l, x.type = .option → x.lname ≠ some name)
    (heq : (61 : Byte) ∉ name) (hdot : (46 : Byte) ∉ name) (hlen : name.length ≤ 63)
    (hh : o.handler = some h) (hsc : h.isScalar = true) (hv : o.valueType ≠ .flag)
    (hov : o.flags.has .envOverride = false)
    (hok : argusParse W env a (ns ++ [c!"--" ++ name ++ c!"=" ++ v]) = .ok (.returned Err.success, a')) :
    ∃ x, argusGet a' (pathText ns name) = .ok (x, { a' with errorCode := Err.success }) ∧ Holds W h v x ∧
      argusIsSet a' (pathText ns name) = .ok (true, a') := by
  have ho : a.getOpt ⟨k, l.length⟩ = .ok o := getOpt_eq_ok.2 ⟨_, hk, by simp⟩
  have hasks : a.asks (ns ++ [c!"--" ++ name ++ c!"=" ++ v]) = ps.map Act.enter ++ [.give ⟨k, l.length⟩ (some v)] := by
    unfold Argus.asks
    rw [meaning_names_then hns, hend, meaning_attached 0 hk (longIdx_first ht hl hfl') heq hlen]
    simp [isFlagAt, hv, meaning]
  have htx : textsOf ⟨k, l.length⟩ (a.asks (ns ++ [c!"--" ++ name ++ c!"=" ++ v])) = [] ++ [some v] := by
    rw [hasks]
    unfold textsOf
    rw [List.filterMap_append]
    rw [List.filterMap_eq_nil_iff.2 (fun x hx => by
      obtain ⟨q, _, rfl⟩ := List.mem_map.1 hx
      rfl)]
    simp
  obtain ⟨o', g1, g2, g3⟩ := C11_last_wins W env a a' _ ⟨k, l.length⟩ o h [] v hok ho (by rw [ht]; decide) hh hsc hov htx
  obtain ⟨os, lv, hr, hlv, hm⟩ := parse_levels_plain hok hfresh hc
  obtain ⟨_, _, _, hf⟩ := argusParse_frame hok
  have hroot : a'.root = a.root := congrArg (fun c => c.1) hf.cfg
  have hst : a'.stack = ps := by
    obtain ⟨a1, a2, h1, h2, h3⟩ := argusParse_success hok
    obtain ⟨es, hes⟩ := postValidation_eq h3
    simp only at hes
    rw [hes, emits_stack, (loadEnvVars_frame h2).stack]
    rw [parseArgs_run] at h1
    rw [(run_stack _ h1 (asks_no_fail0 a _) : a1.stack = _), hfresh, List.nil_append, hasks, entered_map]
    simp [entered]
  have hna : NameAt a' k name ⟨k, l.length⟩ := nameAt_iff.2 ⟨rfl, firstOfName_shape hf.shape
    ⟨l, o, r, hk, rfl, hnm, hfl⟩⟩
  have hle : Leads (· = ·) ns lv a'.root k := by
    rw [hroot]
    exact hns.leads hf.shape (hst ▸ hlv) hend
  have hp : a'.findPath (pathText ns name) = .ok (some ⟨k, l.length⟩) := by
    cases ns with
    | nil =>
      cases ps with
      | nil =>
        have hlv0 : lv = [] := by
          rw [hst] at hlv
          cases lv with
          | nil => rfl
          | cons _ _ => exact hlv.elim
        subst hlv0
        cases hle
        refine (C31_bare a' [] os _ _ hr hlv ?_).2 ⟨[], a'.root, [], rfl, ?_, by simp⟩
        · simpa [pathText] using hdot
        · simpa [pathText] using hna
      | cons _ _ => exact absurd hns (by simp [NamesChain])
    | cons c cs =>
      have hmem : ∀ (cs : List Str) (lv : List (Str × Nat)) (k0 k1 : Nat), Leads (· = ·) cs lv k0 k1 →
          ∀ x ∈ cs, x ∈ lv.map Prod.fst := by
        clear hle hend hk hna ho hasks htx g1 hok
        intro cs lv k0 k1 h
        induction h with
        | done => simp
        | step c cs n k' lv k k'' h1 _ ih =>
          intro x hx
          rcases List.mem_cons.1 hx with rfl | hx
          · simp [h1]
          · simp only [List.map_cons, List.mem_cons]; exact .inr (ih x hx)
      exact C31_full_path a' lv os c cs name k _ hr hlv (fun x hx => (hm x (hmem _ _ _ _ hle x hx)).2)
        (hm c (hmem _ _ _ _ hle c (by simp))).1 hdot hle hna
  have hk' := C32_known_path a' _ o' ⟨_, hp, g1⟩
  exact ⟨o'.value, hk'.1, g2, g3 ▸ hk'.2.1⟩

/-- **C90** In a definition that is accepted in debug mode, an option with a long name as the macros make it is the first entry of that
    name, unless a positional with the same name, or an option without a long name and with that name, stands before it. -/
theorem C90_accepted_names (W : World) (os l r : List Opt) (o : Opt) (name : Str) (hf : LevelFormed W os) (ho : os = l ++ o :: r)
    (ht : o.type = .option) (hl : o.lname = some name)
    (hpos : ∀ x ∈ l, x.type = .positional ∨ x.type = .group → x.name ≠ some name)
    (hshort : ∀ x ∈ l, x.type = .option → x.lname = none → x.name ≠ some name)
    (hmac : ∀ x ∈ l, x.type = .option → x.lname ≠ none → x.name = x.lname) :
    ∀ x ∈ l, x.name ≠ some name := by
  subst ho
  intro x hx he
  have hlong := (List.pairwise_append.1 hf.longDistinct).2.2 x hx o (by simp)
  have hsub := (List.pairwise_append.1 hf.optionsFirst).2.2 x hx o (by simp)
  cases hxt : x.type with
  | positional => exact hpos x hx (.inl hxt) he
  | group => exact hpos x hx (.inr hxt) he
  | subcommand => exact hsub hxt ht
  | option =>
    cases hxl : x.lname with
    | none => exact hshort x hx hxt hxl he
    | some m =>
      have hm := hmac x hx hxt (by rw [hxl]; simp)
      rw [he, hxl, Option.some.injEq] at hm
      subst hm
      exact (hlong _ hxl).2 hl

/-! ## Entries that cannot be read -/

/-- **C90** An entry that stands after another of the same name in its table is read by no path, whatever the program is given. -/
theorem C90_hidden (W : World) (env : Env) (a a' : Argus) (args : List Str) (p : Ptr) (o e : Opt) (l m r : List Opt)
    (hok : argusParse W env a args = .ok (.returned Err.success, a')) (hfresh : a.stack = []) (hc : PlainCommands a.tables)
    (hp : a.tables[p.tbl]? = some (l ++ e :: m ++ o :: r)) (hi : p.idx = (l ++ e :: m).length) (hn : e.name = o.name) :
    ∀ path, a'.findPath path ≠ .ok (some p) := by
  intro path hpath
  obtain ⟨_, n, ⟨pre, o', post, h1, h2, h3, h4⟩, _⟩ := (C90_has_path W env a a' args p hok hfresh hc).1 ⟨path, hpath⟩
  rw [hp, Option.some.injEq] at h1
  obtain ⟨e1, e2⟩ := List.append_inj h1 (by rw [h2, hi])
  simp only [List.cons.injEq] at e2
  rw [← e2.1] at h3
  exact h4 e (by rw [← e1]; simp) (hn.trans h3)

/-- A program with a positional `output` and an option `--output`. -/
def Sample.twoOutputs : List (List Opt) :=
  [[helpOption, (posString c!"output").withHelp c!"where to", (optString 111 (some c!"output")).withHelp c!"where to"]]

/-- **C90** is violated by a definition that is accepted in debug mode: what `prog x --output y` gives to `--output` cannot be read,
    `argus_get("output")` is the `x` of the positional. (The other order of the two declarations is refused.) -/
theorem C90_hidden_case : (∃ a, argusInitValidate Sample.world 9 Sample.twoOutputs c!"prog" none = .ok (some (some a)) ∧
      ∃ a', argusParse Sample.world Sample.noEnv a [c!"x", c!"--output", c!"y"] = .ok (.returned Err.success, a') ∧
        (a'.getOpt ⟨0, 2⟩).toOption.map (·.value) = some (.word (.ptr c!"y")) ∧
        (argusGet a' c!"output").toOption.map (·.1) = some (.word (.ptr c!"x")) ∧
        ∀ path, a'.findPath path ≠ .ok (some ⟨0, 2⟩)) ∧
    argusInitValidate Sample.world 9
      [[helpOption, (optString 111 (some c!"output")).withHelp c!"where to", (posString c!"output").withHelp c!"where to"]]
      c!"prog" none = .ok (some none) := by
  refine ⟨⟨_, rfl, _, rfl, by decide +kernel, by decide +kernel, ?_⟩, by decide +kernel⟩
  exact C90_hidden Sample.world Sample.noEnv (argusInit Sample.twoOutputs c!"prog" none) _
    [c!"x", c!"--output", c!"y"] ⟨0, 2⟩ _ _ [helpOption] [] [] rfl rfl
    (by unfold PlainCommands; decide +kernel) rfl rfl rfl

/-- A subcommand with a positional `in.file`. -/
def Sample.dotted : List (List Opt) :=
  [[helpOption, (subcommand c!"run" 1).withHelp c!"run it"], [helpOption, (posString c!"in.file").withHelp c!"input"]]

/-- **C90** is violated by a name with a dot below the main program, which is accepted in debug mode, too: what `prog run x` gives to
    the positional cannot be read by any path. -/
theorem C90_dotted_case : ∃ a, argusInitValidate Sample.world 9 Sample.dotted c!"prog" none = .ok (some (some a)) ∧
    ∃ a', argusParse Sample.world Sample.noEnv a [c!"run", c!"x"] = .ok (.returned Err.success, a') ∧
      (a'.getOpt ⟨1, 1⟩).toOption.map (·.value) = some (.word (.ptr c!"x")) ∧
      ∀ path, a'.findPath path ≠ .ok (some ⟨1, 1⟩) := by
  refine ⟨_, rfl, _, rfl, by decide +kernel, fun path hpath => ?_⟩
  obtain ⟨_, n, ⟨pre, o', post, h1, h2, h3, h4⟩, h5⟩ := (C90_has_path Sample.world Sample.noEnv
    (argusInit Sample.dotted c!"prog" none) _ [c!"run", c!"x"] ⟨1, 1⟩ rfl rfl (by unfold PlainCommands; decide +kernel)).1
      ⟨path, hpath⟩
  have e : (pre ++ o' :: post)[1]? = some ((posString c!"in.file").withHelp c!"input") := by
    have : (argusInit Sample.dotted c!"prog" none).tables[1]? =
      some [helpOption, (posString c!"in.file").withHelp c!"input"] := rfl
    rw [this] at h1
    rw [← Option.some.inj h1]; rfl
  rw [List.getElem?_append_right (by rw [h2]; exact Nat.le_refl _), h2] at e
  simp only [Nat.sub_self, List.getElem?_cons_zero, Option.some.injEq] at e
  rw [e] at h3
  have hn : n = c!"in.file" := (Option.some.inj h3).symm
  subst hn
  rcases h5 with h5 | h5
  · exact absurd h5 (by decide)
  · exact h5 (by decide)

/-! ## Cases -/

theorem prog_plain : PlainCommands Sample.prog.tables := by unfold PlainCommands; decide +kernel

/-- In `prog`, the word `admin` selects the command of table 2. -/
theorem prog_admin : NamesChain Sample.prog.tables (some Sample.prog.root) [⟨0, 9⟩] [c!"admin"] := by
  refine ⟨rfl, _, _, rfl, rfl, rfl, rfl, by decide, ?_, trivial⟩
  intro j o' n' hj ht hn hp
  by_cases h : 9 ≤ j
  · exact h
  · exfalso
    have key : ∀ j < 9, ∀ o ∈ Sample.root[j]?, o.type = .subcommand → ¬ (o.name.any (fun n' => c!"admin".isPrefixOf n') = true) := by
      decide +kernel
    exact key j (by omega) o' hj ht (by rw [hn]; simpa using hp)

/-- `prog admin --user=joe` is read as `admin.user`. -/
example : ∃ a' x, argusParse Sample.world Sample.noEnv Sample.prog ([c!"admin"] ++ [c!"--" ++ c!"user" ++ c!"=" ++ c!"joe"]) =
      .ok (.returned Err.success, a') ∧
    argusGet a' c!"admin.user" = .ok (x, { a' with errorCode := Err.success }) ∧ x = .word (.ptr c!"joe") := by
  obtain ⟨x, h1, h2, _⟩ := C90_typed Sample.world Sample.noEnv Sample.prog _ [⟨0, 9⟩] [c!"admin"] 2 [helpOption]
    [subcommand c!"list" 1 (some 13)] (optString 117 (some c!"user")) .string c!"user"
    c!"joe" rfl prog_plain prog_admin rfl rfl rfl rfl rfl (by decide) (by decide) (by decide) (by decide) (by decide) rfl rfl
    (by decide) (by decide) rfl
  exact ⟨_, x, rfl, h1, h2⟩

/-- An int in the main program: `prog --num=-5` is read as `num`. -/
example : ∃ a' x w, argusParse Sample.world Sample.noEnv Sample.prog ([] ++ [c!"--" ++ c!"num" ++ c!"=" ++ c!"-5"]) =
      .ok (.returned Err.success, a') ∧
    argusGet a' c!"num" = .ok (x, { a' with errorCode := Err.success }) ∧ x = .word w ∧ w.asInt64 = .ok (-5) := by
  obtain ⟨x, h1, h2, _⟩ := C90_typed Sample.world Sample.noEnv Sample.prog _ [] [] 0
    [helpOption, optFlag 118 (some c!"verbose"), optString 111 (some c!"output")] (Sample.root.drop 4)
    (optInt 110 (some c!"num")) .int c!"num"
    c!"-5" rfl prog_plain trivial rfl rfl rfl rfl rfl (by decide) (by decide) (by decide) (by decide) (by decide) rfl rfl
    (by decide) (by decide) rfl
  exact ⟨_, x, _, rfl, h1, h2, by decide +kernel⟩

/-- `prog -t a,b --tags c`: the strings of `tags`. -/
example : ∃ a', GivenTexts Sample.world Sample.noEnv Sample.prog [c!"-t", c!"a,b", c!"--tags", c!"c"] a' ⟨0, 4⟩
      (optArrayString 116 (some c!"tags")) [c!"a,b", c!"c"] ∧ ∃ path, argusCount a' path = .ok (3, a') ∧
    ∃ w, argusArrayGet a' path 2 = .ok (w, { a' with errorCode := Err.success }) ∧ w.asString = .ok (some c!"c") := by
  have key : ∀ a', GivenTexts Sample.world Sample.noEnv Sample.prog [c!"-t", c!"a,b", c!"--tags", c!"c"] a' ⟨0, 4⟩
      (optArrayString 116 (some c!"tags")) [c!"a,b", c!"c"] → ∃ path, argusCount a' path = .ok (3, a') ∧
      ∃ w, argusArrayGet a' path 2 = .ok (w, { a' with errorCode := Err.success }) ∧ w.asString = .ok (some c!"c") := by
    intro a' hg
    have hfl : [c!"a,b", c!"c"].flatMap pieces = [c!"a", c!"b", c!"c"] := by decide +kernel
    obtain ⟨path, h1, h2⟩ := C90_strings_partial Sample.world Sample.noEnv Sample.prog a' [c!"-t", c!"a,b", c!"--tags", c!"c"] ⟨0, 4⟩
      (optArrayString 116 (some c!"tags")) pieces [c!"a,b", c!"c"] c!"tags"
      hg rfl prog_plain (.array rfl rfl) trivial ⟨rfl, rfl⟩ (by decide +kernel)
      (by decide) (by decide) ⟨Sample.root.take 4, _, Sample.root.drop 5, rfl, rfl, rfl, by decide +kernel⟩ (.inl rfl)
    rw [hfl] at h1 h2
    exact ⟨path, h1, h2 2 c!"c" rfl⟩
  have hg : ∃ a', GivenTexts Sample.world Sample.noEnv Sample.prog [c!"-t", c!"a,b", c!"--tags", c!"c"] a' ⟨0, 4⟩
      (optArrayString 116 (some c!"tags")) [c!"a,b", c!"c"] := ⟨_, rfl, rfl, by decide, by decide +kernel, by simp⟩
  obtain ⟨a', hg⟩ := hg
  exact ⟨a', hg, key a' hg⟩

/-- In the definition `Sample.checked`, which is accepted, `--port` is the first entry named so. -/
example : ∃ os l o r, Sample.checked[0]? = some os ∧ LevelFormed Sample.world os ∧ os = l ++ o :: r ∧ o.lname = some c!"port" ∧
    l.length = 2 ∧ ∀ x ∈ l, x.name ≠ some c!"port" := by
  obtain ⟨os, h1, h2⟩ := ((C40_accepts_exactly_well_formed Sample.world Sample.checked c!"prog" none).1 ⟨9, _, rfl⟩).level 0 .root
  have h1' : Sample.checked[0]? = some (Sample.checked[0]'(by decide)) := rfl
  rw [h1'] at h1
  have h3 := Option.some.inj h1
  subst h3
  exact ⟨_, (Sample.checked[0]'(by decide)).take 2, _, (Sample.checked[0]'(by decide)).drop 3, rfl, h2, rfl, rfl, rfl,
    C90_accepted_names Sample.world _ _ _ _ c!"port" h2 rfl rfl rfl (by decide +kernel) (by decide +kernel) (by decide +kernel)⟩

/-- `prog admin -u joe` with `--user` read under some path. -/
example : ∃ a' path, argusParse Sample.world Sample.noEnv Sample.prog [c!"admin", c!"-u", c!"ann", c!"-u", c!"joe"] =
      .ok (.returned Err.success, a') ∧
    argusGet a' path = .ok (.word (.ptr c!"joe"), { a' with errorCode := Err.success }) := by
  have key : ∀ a', argusParse Sample.world Sample.noEnv Sample.prog [c!"admin", c!"-u", c!"ann", c!"-u", c!"joe"] =
      .ok (.returned Err.success, a') → ∃ path, argusGet a' path =
        .ok (.word (.ptr c!"joe"), { a' with errorCode := Err.success }) := by
    intro a' hok
    obtain ⟨path, x, h1, h2, _⟩ := C90_scalar_partial Sample.world Sample.noEnv Sample.prog a' _ ⟨2, 1⟩
      (optString 117 (some c!"user")) .string [some c!"ann"] c!"user" c!"joe" hok rfl prog_plain rfl (by decide) rfl rfl
      (by decide +kernel) ⟨[helpOption], _, [subcommand c!"list" 1 (some 13)], rfl, rfl, rfl, by decide⟩ (.inr (by decide))
    cases h2
    exact ⟨path, h1⟩
  have hok : ∃ a', argusParse Sample.world Sample.noEnv Sample.prog [c!"admin", c!"-u", c!"ann", c!"-u", c!"joe"] =
      .ok (.returned Err.success, a') := ⟨_, rfl⟩
  obtain ⟨a', hok⟩ := hok
  obtain ⟨path, h⟩ := key a' hok
  exact ⟨a', path, hok, h⟩

end Argus
