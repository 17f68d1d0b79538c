import Verif.Lemmas.Env
import Verif.Spec.EnvName
import Verif.Spec.Sample

/-!
# C28, C29, C30: the environment

`textsOf p (a.asks args)` (Spec/History) are the texts the command line hands to option `p`;
`o.give W (some v)` is the option after its handler has accepted the text `v`.
-/

set_option autoImplicit false

namespace Argus

/-! ## C28 -/

/-- The option's table is read: it is the root or the table of a selected subcommand. -/
def Selected (a a' : Argus) (p : Ptr) : Prop :=
  p.tbl = a.root ∨ ∃ q ∈ a'.stack, ∃ cmd, a.getOpt q = .ok cmd ∧ cmd.subOptions = some p.tbl

theorem Selected.sub {a a' : Argus} {p : Ptr} (h : Selected a a' p) :
    p.tbl = a.root ∨ ∃ q ∈ a'.stack, a.subOf q = some p.tbl :=
  h.imp id (fun ⟨q, hq, cmd, h1, h2⟩ => ⟨q, hq, (subOf_eq h1).trans h2⟩)

/-- **C28**, command line over environment: an option given on the command line, without
    FLAG_ENV_OVERRIDE, ends with what the command line gives it, whatever the environment is. -/
theorem C28_command_line_over_environment (W : World) (env : Env) (a a' : Argus) (args : List Str) (p : Ptr)
    (o : Opt) (hok : argusParse W env a args = .ok (.returned Err.success, a'))
    (ho : a.getOpt p = .ok o) (ht : o.type ≠ .subcommand) (hov : o.flags.has .envOverride = false)
    (hcl : textsOf p (a.asks args) ≠ []) :
    ∃ o', o.giveAll W (textsOf p (a.asks args)) = some o' ∧ a'.getOpt p = .ok o' := by
  obtain ⟨o1, h1, h2⟩ := argusParse_history hok ho ht
  refine ⟨o1, h1, h2 (.inr (.inr (.inl ⟨giveAll_isSet _ h1 (.inl hcl), ?_⟩)))⟩
  rw [giveAll_flags h1]; exact hov

/-- **C28**, environment over default (full statement: also for options with a default). Proved: an option
    that is not given on the command line and does not yet count as set takes the value of its variable,
    exactly as if that value had been given to it on the command line. Options with a default count as
    set and are wrongly skipped: see `C28_default_hides_environment`. -/
theorem C28_environment_over_default_partial (W : World) (env : Env) (a a' : Argus) (args : List Str) (p : Ptr)
    (o : Opt) (n v : Str) (hok : argusParse W env a args = .ok (.returned Err.success, a'))
    (ho : a.getOpt p = .ok o) (ht : o.type ≠ .subcommand) (hg : o.type ≠ .group)
    (hov : o.flags.has .envOverride = false) (hset : o.isSet = false)
    (hcl : textsOf p (a.asks args) = []) (hsel : Selected a a' p)
    (hn : envVarName a.envPrefix o = some n) (hv : env n = some v) :
    ∃ o', o.give W (some v) = some o' ∧ a'.getOpt p = .ok o' ∧ o'.isSet = true ∧
      ∀ h, o.handler = some h → h.isScalar = true → Holds W h v o'.value := by
  have hV : Visits W env a.envPrefix p (· = o) (fun o' => o.give W (some v) = some o') := by
    intro b r ob h1 hep hob hi
    rcases hi with rfl | hq
    · obtain ⟨o', e1, e2⟩ := loadEnvStep_reads h1 hob hg ht (.inl hset) (by rw [hep]; exact hn) hv
      exact ⟨o', e2, e1⟩
    · refine ⟨ob, loadEnvStep_keeps h1 hob (.inr (.inr (.inl ⟨give_isSet hq, ?_⟩))), hq⟩
      have : ob.flags = o.flags :=
        (congrArg Opt.flags (runHandler_keeps_meta hq) : ob.meta.flags = o.meta.flags)
      rw [this]; exact hov
  obtain ⟨o', e1, e2⟩ := argusParse_visit hok hV ho ht (by
    intro o1 h1; rw [hcl] at h1; simpa [Opt.giveAll] using h1.symm) hsel.sub
  exact ⟨o', e2, e1, give_isSet e2, fun h hh hs => (give_scalar hh hs e2).1⟩

/-- **C28**, FLAG_ENV_OVERRIDE: the variable of a scalar option decides, given or not, default or not. -/
theorem C28_override (W : World) (env : Env) (a a' : Argus) (args : List Str) (p : Ptr) (o : Opt)
    (h : Handler) (n v : Str) (hok : argusParse W env a args = .ok (.returned Err.success, a'))
    (ho : a.getOpt p = .ok o) (ht : o.type ≠ .subcommand) (hg : o.type ≠ .group)
    (hov : o.flags.has .envOverride = true) (hh : o.handler = some h) (hs : h.isScalar = true)
    (hsel : Selected a a' p) (hn : envVarName a.envPrefix o = some n) (hv : env n = some v) :
    ∃ o', a'.getOpt p = .ok o' ∧ Holds W h v o'.value ∧ o'.isSet = true := by
  have hV : Visits W env a.envPrefix p (fun o1 => o1.meta = o.meta)
      (fun o' => o'.meta = o.meta ∧ Holds W h v o'.value ∧ o'.isSet = true) := by
    intro b r ob h1 hep hob hi
    have hm : ob.meta = o.meta := hi.elim id (·.1)
    have m1 : ob.type = o.type := (congrArg Opt.type hm : ob.meta.type = o.meta.type)
    have m2 : ob.flags = o.flags := (congrArg Opt.flags hm : ob.meta.flags = o.meta.flags)
    have m3 : ob.handler = o.handler := (congrArg Opt.handler hm : ob.meta.handler = o.meta.handler)
    obtain ⟨o', e1, e2⟩ := loadEnvStep_reads h1 hob (m1 ▸ hg) (m1 ▸ ht) (.inr (m2 ▸ hov))
      (by rw [hep, envVarName_meta hm]; exact hn) hv
    obtain ⟨e3, e4⟩ := give_scalar (m3.trans hh) hs e1
    exact ⟨o', e2, (runHandler_keeps_meta e1).trans hm, e3, e4⟩
  obtain ⟨o', e1, e2⟩ := argusParse_visit hok hV ho ht (fun o1 h1 => giveAll_meta _ h1) hsel.sub
  exact ⟨o', e1, e2.2⟩

/-- **C28**, default: an option given neither on the command line nor by a variable keeps what it had. -/
theorem C28_default (W : World) (env : Env) (a a' : Argus) (args : List Str) (p : Ptr) (o : Opt)
    (hok : argusParse W env a args = .ok (.returned Err.success, a'))
    (ho : a.getOpt p = .ok o) (ht : o.type ≠ .subcommand) (hcl : textsOf p (a.asks args) = [])
    (henv : ∀ n, envVarName a.envPrefix o = some n → env n = none) : a'.getOpt p = .ok o := by
  obtain ⟨o1, h1, h2⟩ := argusParse_history hok ho ht
  rw [hcl] at h1
  simp only [Opt.giveAll, Option.some.injEq] at h1
  subst h1
  exact h2 (.inr (.inr (.inr henv)))

/-- An environment with one variable. -/
def Sample.env1 (n v : Str) : Env := fun m => if m = n then some v else none

/-- PORT=80: `prog --port 90` keeps 90 and `prog` takes 80; both succeed. -/
example : ∃ o, Sample.prog.getOpt ⟨0, 6⟩ = .ok o ∧ o.type ≠ .subcommand ∧ o.type ≠ .group ∧
    o.flags.has .envOverride = false ∧ o.isSet = false ∧ o.handler = some .int ∧
    envVarName Sample.prog.envPrefix o = some c!"PORT" ∧ (⟨0, 6⟩ : Ptr).tbl = Sample.prog.root ∧
    textsOf ⟨0, 6⟩ (Sample.prog.asks [c!"--port", c!"90"]) = [some c!"90"] ∧
    textsOf ⟨0, 6⟩ (Sample.prog.asks []) = [] ∧
    (argusParse Sample.world (Sample.env1 c!"PORT" c!"80") Sample.prog
      [c!"--port", c!"90"]).toOption.map (·.1) = some (.returned Err.success) ∧
    (argusParse Sample.world (Sample.env1 c!"PORT" c!"80") Sample.prog []).toOption.map (·.1) =
      some (.returned Err.success) := by
  refine ⟨_, rfl, by decide, by decide, by decide, rfl, rfl, by decide +kernel, rfl, by decide +kernel,
    by decide +kernel, by decide +kernel, by decide +kernel⟩

/-- A program with an int option `--num`, default 5, variable NUM, with the given flags. -/
def Sample.envDefault (flags : Flags) : Argus :=
  argusInit [[helpOption, { (optInt 110 (some c!"num")).withDefault (.bits 5) with
    envName := some c!"NUM", flags := (optInt 110 (some c!"num")).flags ||| flags }]] c!"prog" none

/-- With FLAG_ENV_OVERRIDE, NUM=7 replaces both the default and a value given. -/
example : ∃ o, (Sample.envDefault (Flags.ofList [.envOverride])).getOpt ⟨0, 1⟩ = .ok o ∧ o.isSet = true ∧
    o.flags.has .envOverride = true ∧ o.handler = some .int ∧
    envVarName none o = some c!"NUM" ∧
    (argusParse Sample.world (Sample.env1 c!"NUM" c!"7") (Sample.envDefault (Flags.ofList [.envOverride]))
      [c!"--num", c!"6"]).toOption.map (·.1) = some (.returned Err.success) := by
  refine ⟨_, rfl, by decide, by decide, rfl, by decide +kernel, by decide +kernel⟩

/-- **C28** is violated for options with a default: with NUM=7 and no `--num` on the command line the
    option keeps its default 5. -/
theorem C28_default_hides_environment :
    (Sample.envDefault 0).asks [] = [] ∧
    (∃ o, (Sample.envDefault 0).getOpt ⟨0, 1⟩ = .ok o ∧ envVarName none o = some c!"NUM") ∧
    ((argusParse Sample.world (Sample.env1 c!"NUM" c!"7") (Sample.envDefault 0) []).toOption.bind
      (fun r => (r.2.getOpt ⟨0, 1⟩).toOption)).map (·.value) = some (.word (.bits 5)) := by
  refine ⟨by decide +kernel, ⟨_, rfl, by decide +kernel⟩, by decide +kernel⟩

/-! ## C29 -/

/-- The variable of an option, as documented. -/
def documentedVariable (ep : Option Str) (o : Opt) : Option Str :=
  let pre := underscored (ep.getD [])
  match o.envName with
  | some n => some (if o.flags.has .noEnvPrefix ∨ pre <+: n then n else pre ++ n)
  | none =>
    if o.flags.has .autoEnv then
      let name := envCase ((o.name.orElse fun _ => o.lname).getD [])
      some (if o.flags.has .noEnvPrefix then name else pre ++ name)
    else none

/-- **C29** The variable consulted is the documented one. (Full statement: for every option and prefix.)
    Proved for names of at most 127 bytes, when a declared name beginning with the text of the prefix
    begins with the prefix and its underscore, and, for generated names, a prefix without lower-case
    letters and hyphens. For the other cases see `C29_prefix_text_taken_for_prefix`,
    `C29_prefix_upper_cased` and `C29_long_name_truncated`. -/
theorem C29_variable_name_partial (ep : Option Str) (o : Opt)
    (hlen : ∀ n, documentedVariable ep o = some n → n.length ≤ 127)
    (htext : ∀ n, o.envName = some n → o.flags.has .noEnvPrefix = false → ep.getD [] <+: n →
      underscored (ep.getD []) <+: n)
    (hcase : o.envName = none → envCase (ep.getD []) = ep.getD []) :
    envVarName ep o = documentedVariable ep o := by
  have hsplit : ∀ m, (underscored (ep.getD []) ++ m).length ≤ 127 →
      (if (decide ((ep.getD []).length > 0) && (ep.getD []).getLast? != some 95) = true
        then envBuffer (ep.getD [] ++ [95] ++ m) else envBuffer (ep.getD [] ++ m)) =
      underscored (ep.getD []) ++ m := by
    intro m hm
    unfold underscored at hm ⊢
    by_cases hp : ep.getD [] = [] ∨ (ep.getD []).getLast? = some 95
    · rw [if_pos hp] at hm ⊢
      rw [if_neg (by
        rcases hp with hp | hp
        · rw [hp]; simp
        · rw [hp]; simp)]
      unfold envBuffer
      rw [List.take_of_length_le hm]
    · rw [if_neg hp] at hm ⊢
      have hp1 : ep.getD [] ≠ [] := fun h => hp (.inl h)
      have hp2 : (ep.getD []).getLast? ≠ some 95 := fun h => hp (.inr h)
      rw [if_pos (by
        simp only [Bool.and_eq_true, decide_eq_true_eq, bne_iff_ne]
        exact ⟨List.length_pos_iff.2 hp1, hp2⟩)]
      unfold envBuffer
      exact List.take_of_length_le hm
  unfold documentedVariable at hlen ⊢
  unfold envVarName
  cases hn : o.envName with
  | some n =>
    rw [hn] at hlen
    simp only at hlen ⊢
    by_cases hno : o.flags.has .noEnvPrefix = true
    · rw [if_pos hno, if_pos (Or.inl hno)]
    · by_cases hpre : underscored (ep.getD []) <+: n
      · have hd : (if o.flags.has .noEnvPrefix = true ∨ underscored (ep.getD []) <+: n then n
            else underscored (ep.getD []) ++ n) = n := if_pos (Or.inr hpre)
        rw [hd] at hlen ⊢
        rw [if_neg hno]
        have hshort : ep.getD [] <+: n := by
          refine List.IsPrefix.trans ?_ hpre
          unfold underscored
          split
          · exact List.prefix_rfl
          · exact List.prefix_append _ _
        cases ep with
        | none =>
          have h1 := hlen _ rfl
          simp only [Option.isSome_none, Bool.false_and, Bool.false_eq_true, if_false, Option.getD_none,
            List.length_nil, gt_iff_lt, Nat.lt_irrefl, decide_false, List.nil_append]
          unfold envBuffer
          rw [List.take_of_length_le h1]
        | some pre =>
          rw [if_pos (by
            simp only [Option.isSome_some, Bool.true_and]
            rw [strncmpEq_iff, List.take_length]
            exact (List.prefix_iff_eq_take.1 hshort).symm)]
      · have hns : ¬ (ep.getD [] <+: n) := fun h => hpre (htext n hn (by simpa using hno) h)
        have hd : (if o.flags.has .noEnvPrefix = true ∨ underscored (ep.getD []) <+: n then n
            else underscored (ep.getD []) ++ n) = underscored (ep.getD []) ++ n :=
          if_neg (fun h => h.elim hno hpre)
        rw [hd] at hlen ⊢
        rw [if_neg hno]
        have h2 : ¬ ((ep.isSome && strncmpEq (ep.getD []).length n (ep.getD [])) = true) := by
          simp only [Bool.and_eq_true, not_and]
          intro _ h
          rw [strncmpEq_iff, List.take_length] at h
          exact hns (List.prefix_iff_eq_take.2 h.symm)
        rw [if_neg h2, ← hsplit n (hlen _ rfl)]
        split <;> rfl
  | none =>
    rw [hn] at hlen
    simp only at hlen ⊢
    by_cases hauto : o.flags.has .autoEnv = true
    · rw [if_pos hauto] at hlen ⊢
      rw [if_pos hauto]
      have hc : ∀ s : Str, s.map (fun c => if c == 45 then 95 else toUpper c) = envCase s := by
        intro s
        unfold envCase
        refine List.map_congr_left (fun c _ => ?_)
        unfold toUpper
        simp only [beq_iff_eq, Bool.and_eq_true, decide_eq_true_eq]
      have hl : ∀ s : Str, (envCase s).length = s.length := fun s => by simp [envCase]
      congr 1
      rw [hc]
      have h1 := hlen _ rfl
      by_cases hno : o.flags.has .noEnvPrefix = true
      · rw [if_pos hno] at h1 ⊢
        rw [if_pos hno]
        rw [hl] at h1
        unfold envBuffer
        rw [List.take_of_length_le h1]
      · rw [if_neg hno] at h1 ⊢
        rw [if_neg hno]
        rw [List.length_append, hl, ← List.length_append] at h1
        rw [hsplit _ h1]
        have ha : ∀ s t : Str, envCase (s ++ t) = envCase s ++ envCase t := fun s t => by simp [envCase]
        rw [ha]
        congr 1
        unfold underscored
        split
        · exact hcase hn
        · rw [ha, hcase hn]; rfl
    · rw [if_neg hauto, if_neg hauto]

/-- Prefix APP: `ENV_VAR("PORT")` reads APP_PORT, `ENV_VAR("APP_PORT")` too, FLAG_NO_ENV_PREFIX reads
    PORT, and FLAG_AUTO_ENV on `--dry-run` reads APP_DRY_RUN. -/
example :
    let o := { optInt 112 (some c!"port") with envName := some c!"PORT" }
    let o2 := { optFlag 0 (some c!"dry-run") with flags := Flags.ofList [.autoEnv] }
    documentedVariable (some c!"APP") o = some c!"APP_PORT" ∧
    documentedVariable (some c!"APP") { o with envName := some c!"APP_PORT" } = some c!"APP_PORT" ∧
    documentedVariable (some c!"APP") { o with flags := Flags.ofList [.noEnvPrefix] } = some c!"PORT" ∧
    documentedVariable (some c!"APP") o2 = some c!"APP_DRY_RUN" ∧
    envCase c!"APP" = c!"APP" := by decide +kernel

/-- **C29** is violated when a declared name only begins with the text of the prefix: with prefix APP,
    `ENV_VAR("APPLE")` reads APPLE instead of APP_APPLE. -/
theorem C29_prefix_text_taken_for_prefix :
    let o := { optInt 112 (some c!"port") with envName := some c!"APPLE" }
    documentedVariable (some c!"APP") o = some c!"APP_APPLE" ∧
    envVarName (some c!"APP") o = some c!"APPLE" := by decide +kernel

/-- **C29** A generated name has the prefix in upper case: with prefix `my-app`, FLAG_AUTO_ENV on `--port`
    reads MY_APP_PORT, not my-app_PORT. -/
theorem C29_prefix_upper_cased :
    let o := { optInt 112 (some c!"port") with flags := Flags.ofList [.autoEnv] }
    documentedVariable (some c!"my-app") o = some c!"my-app_PORT" ∧
    envVarName (some c!"my-app") o = some c!"MY_APP_PORT" := by decide +kernel

/-- **C29** Longer names are cut to 127 bytes: the variable read is then another one. -/
theorem C29_long_name_truncated (pre n : Str) (o : Opt) (hn : o.envName = some n)
    (hno : o.flags.has .noEnvPrefix = false) (hp : ¬ pre <+: n)
    (hlong : 127 < (underscored pre ++ n).length) :
    documentedVariable (some pre) o = some (underscored pre ++ n) ∧
    envVarName (some pre) o = some ((underscored pre ++ n).take 127) := by
  have hne : ¬ underscored pre <+: n := by
    intro h
    refine hp (List.IsPrefix.trans ?_ h)
    unfold underscored
    split
    · exact List.prefix_rfl
    · exact List.prefix_append _ _
  constructor
  · unfold documentedVariable
    simp only [hn, hno, Option.getD_some, Bool.false_eq_true, false_or, if_neg hne]
  · unfold envVarName
    have h1 : strncmpEq pre.length n pre = false := by
      rw [Bool.eq_false_iff]
      intro h
      rw [strncmpEq_iff, List.take_length] at h
      exact hp (List.prefix_iff_eq_take.2 h.symm)
    simp only [hn, hno, Option.getD_some, Bool.false_eq_true, if_false, h1, Bool.and_false]
    unfold underscored envBuffer
    by_cases hpp : pre = [] ∨ pre.getLast? = some 95
    · rw [if_pos hpp, if_neg (by rcases hpp with h | h <;> simp [h])]
    · rw [if_neg hpp, if_pos (by
        simp only [Bool.and_eq_true, decide_eq_true_eq, bne_iff_ne]
        exact ⟨List.length_pos_iff.2 (fun h => hpp (.inl h)), fun h => hpp (.inr h)⟩)]

/-- A declared name of 130 bytes with prefix APP. -/
example : let o := { optInt 112 (some c!"port") with envName := some (List.replicate 130 65) }
    o.envName = some (List.replicate 130 65) ∧ o.flags.has .noEnvPrefix = false ∧
    ¬ c!"APP" <+: List.replicate 130 65 ∧ 127 < (underscored c!"APP" ++ List.replicate 130 65).length := by
  decide +kernel

/-! ## C29, exactly -/

theorem underscored_prefix (pre : Str) : pre <+: underscored pre := by
  unfold underscored
  split
  · exact List.prefix_rfl
  · exact List.prefix_append _ _

/-- What the buffer of 128 bytes gets: the prefix, its underscore and the name, cut after 127 bytes. -/
theorem envBuffer_underscored (pre m : Str) :
    (if (decide (pre.length > 0) && pre.getLast? != some 95) = true
      then envBuffer (pre ++ [95] ++ m) else envBuffer (pre ++ m)) = (underscored pre ++ m).take 127 := by
  unfold underscored envBuffer
  by_cases hpp : pre = [] ∨ pre.getLast? = some 95
  · rw [if_pos hpp, if_neg (by rcases hpp with h | h <;> simp [h])]
  · rw [if_neg hpp, if_pos (by
      simp only [Bool.and_eq_true, decide_eq_true_eq, bne_iff_ne]
      exact ⟨List.length_pos_iff.2 (fun h => hpp (.inl h)), fun h => hpp (.inr h)⟩)]

theorem envCase_eq_map (s : Str) : s.map (fun c => if c == 45 then 95 else toUpper c) = envCase s := by
  unfold envCase
  refine List.map_congr_left (fun c _ => ?_)
  unfold toUpper
  simp only [beq_iff_eq, Bool.and_eq_true, decide_eq_true_eq]

theorem take127_eq {s t : Str} (hl : s.length = t.length) : s.take 127 = t ↔ s = t ∧ s.length ≤ 127 := by
  constructor
  · intro h
    have h1 := congrArg List.length h
    rw [List.length_take] at h1
    have h2 : s.length ≤ 127 := by omega
    rw [List.take_of_length_le h2] at h
    exact ⟨h, h2⟩
  · rintro ⟨rfl, h⟩
    exact List.take_of_length_le h

/-- The declared name `n` is read as documented: it is taken as it is, or it carries the prefix and its
    underscore and a prefix is set, or it does not begin with the text of the prefix and fits the buffer. -/
def DeclaredAsDocumented (ep : Option Str) (o : Opt) (n : Str) : Prop :=
  o.flags.has .noEnvPrefix = true ∨
  (ep ≠ none ∧ underscored (ep.getD []) <+: n) ∨
  ((ep = none ∨ ¬ ep.getD [] <+: n) ∧ (underscored (ep.getD []) ++ n).length ≤ 127)

/-- The name made from the option's own name is as documented: it fits the buffer, and a prefix put before
    it has neither lower-case letters nor hyphens. -/
def GeneratedAsDocumented (ep : Option Str) (o : Opt) : Prop :=
  let name := (o.name.orElse fun _ => o.lname).getD []
  if o.flags.has .noEnvPrefix = true then name.length ≤ 127
  else envCase (ep.getD []) = ep.getD [] ∧ (underscored (ep.getD []) ++ name).length ≤ 127

/-- **C29** exactly: the variable consulted is the documented one in these cases and in no other. -/
theorem C29_exactly (ep : Option Str) (o : Opt) :
    envVarName ep o = documentedVariable ep o ↔
      (∀ n, o.envName = some n → DeclaredAsDocumented ep o n) ∧
      (o.envName = none → o.flags.has .autoEnv = true → GeneratedAsDocumented ep o) := by
  unfold documentedVariable envVarName
  cases hn : o.envName with
  | some n =>
    simp only [Option.some.injEq, forall_eq', reduceCtorEq, false_implies, and_true]
    unfold DeclaredAsDocumented
    by_cases hno : o.flags.has .noEnvPrefix = true
    · rw [if_pos hno, if_pos (Or.inl hno)]
      exact ⟨fun _ => .inl hno, fun _ => rfl⟩
    · rw [if_neg hno]
      have hbuf : (if (decide ((ep.getD []).length > 0) && (ep.getD []).getLast? != some 95) = true
          then some (envBuffer (ep.getD [] ++ [95] ++ n)) else some (envBuffer (ep.getD [] ++ n))) =
          some ((underscored (ep.getD []) ++ n).take 127) := by
        rw [← envBuffer_underscored]; split <;> rfl
      rw [hbuf]
      have hcmp : (ep.isSome && strncmpEq (ep.getD []).length n (ep.getD [])) = true ↔
          ep ≠ none ∧ ep.getD [] <+: n := by
        rw [Bool.and_eq_true, strncmpEq_iff, List.take_length, Option.isSome_iff_ne_none]
        constructor
        · rintro ⟨h1, h2⟩; exact ⟨h1, List.prefix_iff_eq_take.2 h2.symm⟩
        · rintro ⟨h1, h2⟩; exact ⟨h1, (List.prefix_iff_eq_take.1 h2).symm⟩
      by_cases hp : ep ≠ none ∧ ep.getD [] <+: n
      · rw [if_pos (hcmp.2 hp)]
        by_cases hu : underscored (ep.getD []) <+: n
        · rw [if_pos (Or.inr hu)]
          exact ⟨fun _ => .inr (.inl ⟨hp.1, hu⟩), fun _ => rfl⟩
        · rw [if_neg (fun h => h.elim hno hu)]
          constructor
          · intro h
            have h1 := congrArg List.length (Option.some.inj h)
            rw [List.length_append] at h1
            have h2 : underscored (ep.getD []) = [] := List.eq_nil_of_length_eq_zero (by omega)
            exact absurd (by rw [h2]; exact List.nil_prefix) hu
          · rintro (h | ⟨_, h⟩ | ⟨h | h, _⟩)
            · exact absurd h hno
            · exact absurd h hu
            · exact absurd h hp.1
            · exact absurd hp.2 h
      · rw [if_neg (fun h => hp (hcmp.1 h))]
        have hp' : ep = none ∨ ¬ ep.getD [] <+: n := by
          by_cases he : ep = none
          · exact .inl he
          · exact .inr (fun h => hp ⟨he, h⟩)
        have hdoc : (if o.flags.has .noEnvPrefix = true ∨ underscored (ep.getD []) <+: n then n
            else underscored (ep.getD []) ++ n) = underscored (ep.getD []) ++ n := by
          by_cases hu : underscored (ep.getD []) <+: n
          · have he : ep = none := by
              rcases hp' with h | h
              · exact h
              · exact absurd ((underscored_prefix _).trans hu) h
            subst he
            rw [if_pos (Or.inr hu)]
            rfl
          · exact if_neg (fun h => h.elim hno hu)
        rw [hdoc, Option.some.injEq, take127_eq rfl]
        constructor
        · rintro ⟨_, h⟩; exact .inr (.inr ⟨hp', h⟩)
        · rintro (h | ⟨h1, h2⟩ | ⟨_, h⟩)
          · exact absurd h hno
          · exact absurd ⟨h1, (underscored_prefix _).trans h2⟩ hp
          · exact ⟨rfl, h⟩
  | none =>
    simp only [reduceCtorEq, false_implies, implies_true, true_and, true_implies]
    by_cases hauto : o.flags.has .autoEnv = true
    · rw [if_pos hauto, if_pos hauto]
      simp only [hauto, true_implies, Option.some.injEq]
      unfold GeneratedAsDocumented
      simp only
      have hl : ∀ s : Str, (envCase s).length = s.length := fun s => by simp [envCase]
      have ha : ∀ s t : Str, envCase (s ++ t) = envCase s ++ envCase t := fun s t => by simp [envCase]
      have ht : ∀ s : Str, envCase (s.take 127) = (envCase s).take 127 := fun s => by simp [envCase]
      rw [envCase_eq_map]
      generalize (o.name.orElse fun _ => o.lname).getD [] = name
      by_cases hno : o.flags.has .noEnvPrefix = true
      · rw [if_pos hno, if_pos hno, if_pos hno]
        unfold envBuffer
        rw [ht, take127_eq rfl, hl]
        exact ⟨fun h => h.2, fun h => ⟨rfl, h⟩⟩
      · rw [if_neg hno, if_neg hno, if_neg hno, envBuffer_underscored, ht, take127_eq (by simp [hl]), hl, ha]
        have hu : envCase (underscored (ep.getD [])) = underscored (ep.getD []) ↔
            envCase (ep.getD []) = ep.getD [] := by
          unfold underscored
          split
          · exact Iff.rfl
          · rw [ha]
            have : envCase [95] = [95] := by decide
            rw [this]
            exact ⟨fun h => List.append_cancel_right h, fun h => by rw [h]⟩
        rw [← hu]
        constructor
        · rintro ⟨h1, h2⟩; exact ⟨List.append_cancel_right h1, h2⟩
        · rintro ⟨h1, h2⟩; exact ⟨by rw [h1], h2⟩
    · rw [if_neg hauto, if_neg hauto]
      exact ⟨fun _ h => absurd h hauto, fun _ => rfl⟩

/-- Prefix APP: PORT is read as documented and APPLE is not; without a prefix a declared name of 130 bytes
    is not, with an empty one it is. -/
example :
    let o := optInt 112 (some c!"port")
    DeclaredAsDocumented (some c!"APP") o c!"PORT" ∧ ¬ DeclaredAsDocumented (some c!"APP") o c!"APPLE" ∧
    ¬ DeclaredAsDocumented none o (List.replicate 130 65) ∧
    DeclaredAsDocumented (some []) o (List.replicate 130 65) ∧
    GeneratedAsDocumented (some c!"APP") o ∧ ¬ GeneratedAsDocumented (some c!"my-app") o := by
  unfold DeclaredAsDocumented GeneratedAsDocumented
  decide +kernel

/-! ## C30 -/

/-- The variables consulted for the options of the levels a command line selects. -/
def Consulted (a : Argus) (args : List Str) (n : Str) : Prop :=
  ∃ k os o, (k = a.root ∨ ∃ q ∈ entered (a.asks args), ∃ cmd, a.getOpt q = .ok cmd ∧
      cmd.subOptions = some k) ∧
    a.tables[k]? = some os ∧ o ∈ os ∧ o.type ≠ .group ∧ o.type ≠ .subcommand ∧
    envVarName a.envPrefix o = some n

/-- **C30** Two environments that agree on the variables consulted for the options of the selected levels
    give identical results: status, values, messages, error code, or undefined behaviour. -/
theorem C30_only_consulted_variables (W : World) (env env' : Env) (a : Argus) (args : List Str)
    (hfresh : a.stack = []) (h : ∀ n, Consulted a args n → env n = env' n) :
    argusParse W env a args = argusParse W env' a args := by
  rw [argusParse_eq, argusParse_eq]
  cases hp : parseArgs W a (some a.root) args with
  | ub u => rfl
  | ok r =>
    simp only [Out.ok_bind]
    unfold afterParse
    simp only
    split
    · rfl
    · split
      · rfl
      · rename_i h1 h2
        have h0 : r.1 = Err.success := Classical.not_not.1 h2
        obtain ⟨ext, hst, _, hf⟩ := parseLoop_frame _ hp
        have e1 : r.2.stack = entered (a.asks args) := by
          rw [parseArgs_run] at hp
          rw [run_stack _ (show run W a (a.asks args) = .ok (Err.success, r.2) by rw [hp, ← h0])
            (asks_no_fail0 a args), hfresh, List.nil_append]
        rw [loadEnvVars_congr]
        intro k hk i o n ho hg hs hn
        apply h
        change r.2.getOpt ⟨k, i⟩ = .ok o at ho
        obtain ⟨o', ho', hm⟩ := shape_getOpt hf.shape.symm ho
        have ht : o'.type = o.type := (congrArg Opt.type hm : o'.meta.type = o.meta.type)
        obtain ⟨os, g1, g2⟩ := getOpt_eq_ok.1 ho'
        refine ⟨k, os, o', ?_, g1, List.mem_of_getElem? g2, ht ▸ hg, ht ▸ hs, ?_⟩
        · rcases hk with hk | ⟨q, hq, e⟩
          · exact .inl (hk.trans hf.root)
          · right
            refine ⟨q, by rw [← e1]; exact hq, ?_⟩
            have e' : r.2.subOf q = some k := e
            rw [subOf_shape hf.shape] at e'
            cases hg : a.getOpt q with
            | ok cmd => rw [subOf_eq hg] at e'; exact ⟨cmd, rfl, e'⟩
            | ub u => unfold Argus.subOf at e'; rw [hg] at e'; simp at e'
        · rw [envVarName_meta hm]
          have : r.2.envPrefix = a.envPrefix := hf.envPrefix
          rw [← this]; exact hn

/-- `prog -v` consults PORT and nothing else. -/
example : Sample.prog.stack = [] ∧ ∀ n, Consulted Sample.prog [c!"-v"] n ↔ n = c!"PORT" := by
  have he : entered (Sample.prog.asks [c!"-v"]) = [] := by decide +kernel
  refine ⟨rfl, fun n => ⟨?_, ?_⟩⟩
  · rintro ⟨k, os, o, hk, hos, ho, _, _, hn⟩
    rw [he] at hk
    rcases hk with hk | ⟨q, hq, _⟩
    · subst hk
      have : os = Sample.root := by
        have h : Sample.prog.tables[Sample.prog.root]? = some Sample.root := rfl
        rw [h] at hos; simpa using hos.symm
      subst this
      have hall : ∀ o ∈ Sample.root, ∀ m ∈ envVarName Sample.prog.envPrefix o, m = c!"PORT" := by
        decide +kernel
      exact hall o ho n hn
    · simp at hq
  · rintro rfl
    have hx : Sample.root[6]? = some Sample.root[6] := rfl
    exact ⟨0, Sample.root, Sample.root[6], .inl rfl, rfl, List.mem_of_getElem? hx, by decide, by decide,
      by decide +kernel⟩

end Argus
