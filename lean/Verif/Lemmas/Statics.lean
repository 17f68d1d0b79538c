import Verif.Lemmas.Buffer
import Verif.Lemmas.Env
import Verif.Lemmas.FrameApi
import Verif.Lemmas.SameText
import Verif.Spec.Statics

/-! # Static variables: refinement -/

set_option autoImplicit false

namespace Argus

/-! ## The counter -/

/-- With an unchanged counter beside it. -/
def besideDepth (d : Int) (r : Out (Option Int)) : Out (Option (Int × Int)) := do
  match ← r with
  | none => .ok none
  | some st => .ok (some (st, d))

theorem intInc_ok {d : Int} (h : d < 2147483647) : intInc d = .ok (d + 1) := by
  unfold intInc; rw [if_neg (by omega)]

theorem intDec_ok {d : Int} (h : 0 ≤ d) : intDec (d + 1) = .ok d := by
  unfold intDec; rw [if_neg (by omega)]; congr 1; omega

theorem subLoopS_eq {sub : Option Nat → Out (Option Int)} {subS : Option Nat → Int → Out (Option (Int × Int))} {d : Nat}
    (hd : (d : Int) < 2147483647) (h : ∀ t, subS t ((d : Int) + 1) = besideDepth ((d : Int) + 1) (sub t)) :
    ∀ (os : List Opt) (st : Int), subLoopS subS st d os = besideDepth d (subLoop sub d st os)
  | [], st => rfl
  | o :: os, st => by
    unfold subLoopS subLoop
    by_cases hs : o.type = .subcommand ∧ o.subOptions ≠ none
    · rw [if_pos hs, if_pos hs, intInc_ok hd]
      simp only [Out.ok_bind, h]
      cases hr : sub o.subOptions with
      | ub u => rfl
      | ok r =>
        cases r with
        | none => rfl
        | some st' =>
          simp only [besideDepth, Out.ok_bind, intDec_ok (Int.natCast_nonneg d)]
          rw [subLoopS_eq hd h os]
          have e : (if st' ≠ Err.success then Err.malformedOption else if (d : Int) + 1 > 8 then Err.malformedOption else st) =
              check (st' != Err.success) Err.malformedOption
                (check (decide (d + 1 > maxSubcommandDepth)) Err.malformedOption st) := by
            have : ((d : Int) + 1 > 8) ↔ (d + 1 > maxSubcommandDepth) := by unfold maxSubcommandDepth; omega
            simp only [check, bne_iff_ne, decide_eq_true_eq, this]
          rw [e]; rfl
    · rw [if_neg hs, if_neg hs]
      exact subLoopS_eq hd h os st

theorem validateStructureS_eq (W : World) (tables : List (List Opt)) : ∀ (fuel d : Nat) (t : Option Nat),
    d + fuel < 2147483648 →
    validateStructureS W tables fuel t d = besideDepth d (validateStructure W tables fuel d t)
  | 0, _, _, _ => rfl
  | fuel + 1, d, t, hd => by
    unfold validateStructureS validateStructure
    cases t with
    | none => rfl
    | some k =>
      simp only
      cases tables[k]? with
      | none => rfl
      | some os =>
        simp only [Out.ok_bind]
        cases hf : validateTypeFormat W os with
        | ub u => rfl
        | ok f =>
          simp only [Out.ok_bind]
          rw [subLoopS_eq (sub := validateStructure W tables fuel (d + 1)) (by omega)
            (fun t' => by
              have := validateStructureS_eq W tables fuel (d + 1) t' (by omega)
              simpa using this)]
          simp only [check, bne_iff_ne]

/-! ## The buffers -/

theorem readStr_append : ∀ (s : Str) (rest : Mem), 0 ∉ s → readStr (s ++ 0 :: rest) = .ok s
  | [], rest, _ => by simp [readStr]
  | b :: s, rest, h => by
    simp only [List.mem_cons, not_or] at h
    simp only [List.cons_append, readStr]
    rw [if_neg (Ne.symm h.1), readStr_append s rest h.2]
    rfl

theorem upperLoop_append : ∀ (s : Str) (rest : Mem), 0 ∉ s →
    upperLoop (s ++ 0 :: rest) = .ok (s.map (fun c => if c == 45 then 95 else toUpper c) ++ 0 :: rest)
  | [], rest, _ => by simp [upperLoop]
  | b :: s, rest, h => by
    simp only [List.mem_cons, not_or] at h
    simp only [List.cons_append, upperLoop]
    rw [if_neg (Ne.symm h.1), upperLoop_append s rest h.2]
    simp

theorem snprintfS_eq {size : Nat} {buf : Mem} {s : Str} (hz : 0 < size) (hb : buf.length = size) (h : (0 : Byte) ∉ s) :
    ∃ rest, snprintfS size buf s = .ok (s.take (size - 1) ++ 0 :: rest) ∧ (s.take (size - 1) ++ 0 :: rest).length = size := by
  have h0 : (0 : Byte) ∉ s.take (size - 1) := fun hm => h (List.mem_of_mem_take hm)
  have hl : (s.take (size - 1)).length + 1 ≤ size := by rw [List.length_take]; omega
  have e := cCopy_append (s.take (size - 1)) [] [] (buf.take ((s.take (size - 1)).length + 1))
    (buf.drop ((s.take (size - 1)).length + 1)) h0 (by rw [List.length_take (l := buf)]; omega)
  simp only [List.nil_append, List.take_append_drop, List.length_nil] at e
  refine ⟨_, e, ?_⟩
  simp only [List.length_append, List.length_cons, List.length_drop]
  omega

theorem toUpper_ne_zero {c : Byte} (h : c ≠ 0) : (if c == 45 then 95 else toUpper c) ≠ 0 := by
  have key : ∀ c : Fin 256, UInt8.ofFin c ≠ 0 → (if UInt8.ofFin c == 45 then 95 else toUpper (UInt8.ofFin c)) ≠ 0 := by
    decide +kernel
  exact key c.toFin h

theorem upper_noNul {s : Str} (h : (0 : Byte) ∉ s) : (0 : Byte) ∉ s.map (fun c => if c == 45 then 95 else toUpper c) := by
  intro hm
  obtain ⟨c, hc, e⟩ := List.mem_map.1 hm
  exact toUpper_ne_zero (fun e' => h (e' ▸ hc)) e

theorem noNul_getD {s : Option Str} (h : NoNul s) : (0 : Byte) ∉ s.getD [] := by
  cases s with
  | none => simp
  | some t => exact h t rfl

theorem noNul_app {s t : Str} (hs : (0 : Byte) ∉ s) (ht : (0 : Byte) ∉ t) : (0 : Byte) ∉ s ++ t := by
  simp only [List.mem_append, not_or]; exact ⟨hs, ht⟩

/-- The name is found whatever the buffer held. -/
theorem getEnvVarNameS_eq {ep : Option Str} {o : Opt} {buf : Mem} (hb : buf.length = 128) (hp : NoNul ep)
    (ho : o.StringNames) :
    ∃ q, getEnvVarNameS ep o buf = .ok q ∧ q.1.text q.2 = .ok (envVarName ep o) ∧ q.2.length = 128 := by
  have hpre := noNul_getD hp
  have hu : (0 : Byte) ∉ ([95] : Str) := by decide
  unfold getEnvVarNameS envVarName
  simp only
  cases he : o.envName with
  | some n =>
    have hn := ho.envName n he
    simp only
    by_cases h1 : o.flags.has .noEnvPrefix = true
    · rw [if_pos h1, if_pos h1]; exact ⟨_, rfl, rfl, hb⟩
    · rw [if_neg h1, if_neg h1]
      by_cases h2 : (ep.isSome && strncmpEq (ep.getD []).length n (ep.getD [])) = true
      · rw [if_pos h2, if_pos h2]; exact ⟨_, rfl, rfl, hb⟩
      · rw [if_neg h2, if_neg h2]
        by_cases h3 : (decide ((ep.getD []).length > 0) && (ep.getD []).getLast? != some 95) = true
        · rw [if_pos h3, if_pos h3]
          have hs := noNul_app (noNul_app hpre hu) hn
          obtain ⟨rest, e, el⟩ := snprintfS_eq (by decide) hb hs
          rw [e]
          refine ⟨_, rfl, ?_, el⟩
          simp only [NamePtr.text]
          rw [readStr_append _ _ (fun hm => hs (List.mem_of_mem_take hm))]
          rfl
        · rw [if_neg h3, if_neg h3]
          have hs := noNul_app hpre hn
          obtain ⟨rest, e, el⟩ := snprintfS_eq (by decide) hb hs
          rw [e]
          refine ⟨_, rfl, ?_, el⟩
          simp only [NamePtr.text]
          rw [readStr_append _ _ (fun hm => hs (List.mem_of_mem_take hm))]
          rfl
  | none =>
    simp only
    by_cases h1 : o.flags.has .autoEnv = true
    · rw [if_pos h1, if_pos h1]
      have hn : (0 : Byte) ∉ (o.name.orElse fun _ => o.lname).getD [] := by
        cases h : o.name with
        | none => exact noNul_getD ho.lname
        | some t => exact ho.name t h
      generalize (o.name.orElse fun _ => o.lname).getD [] = name at hn
      generalize (decide ((ep.getD []).length > 0) && (ep.getD []).getLast? != some 95) = us
      have hs : (0 : Byte) ∉ (if o.flags.has .noEnvPrefix = true then name
          else if us = true then ep.getD [] ++ [95] ++ name else ep.getD [] ++ name) := by
        split
        · exact hn
        · split
          · exact noNul_app (noNul_app hpre hu) hn
          · exact noNul_app hpre hn
      have eo : (if o.flags.has .noEnvPrefix = true then envBuffer name
          else if us = true then envBuffer (ep.getD [] ++ [95] ++ name) else envBuffer (ep.getD [] ++ name)) =
          (if o.flags.has .noEnvPrefix = true then name
          else if us = true then ep.getD [] ++ [95] ++ name else ep.getD [] ++ name).take 127 := by
        split
        · rfl
        · split <;> rfl
      rw [eo]
      obtain ⟨rest, e, el⟩ := snprintfS_eq (size := 128) (by decide) hb hs
      rw [e]
      have h0 : (0 : Byte) ∉ (if o.flags.has .noEnvPrefix = true then name
          else if us = true then ep.getD [] ++ [95] ++ name else ep.getD [] ++ name).take (128 - 1) :=
        fun hm => hs (List.mem_of_mem_take hm)
      simp only [Out.ok_bind]
      rw [upperLoop_append _ _ h0]
      refine ⟨_, rfl, ?_, ?_⟩
      · simp only [NamePtr.text]
        rw [readStr_append _ _ (upper_noNul h0)]
        rfl
      · simpa using el
    · rw [if_neg h1, if_neg h1]; exact ⟨_, rfl, rfl, hb⟩

/-- The same result, and a buffer of the same size. -/
def Beside {α : Type} (n : Nat) (r : Out (α × Mem)) (s : Out α) : Prop :=
  match r with
  | .ok x => s = .ok x.1 ∧ x.2.length = n
  | .ub u => s = .ub u

theorem Beside.ok_elim {α : Type} {n : Nat} {r : Out (α × Mem)} {x : α} (h : Beside n r (.ok x)) :
    ∃ m, r = .ok (x, m) ∧ m.length = n := by
  cases r with
  | ub u => exact (nomatch h)
  | ok y =>
    obtain ⟨h1, h2⟩ := h
    cases h1
    exact ⟨y.2, rfl, h2⟩

theorem Beside.ub_elim {α : Type} {n : Nat} {r : Out (α × Mem)} {u : Ub} (h : Beside n r (.ub u)) : r = .ub u := by
  cases r with
  | ub v => cases h; rfl
  | ok y => exact (nomatch h.1)

theorem Argus.StringNames.at {a : Argus} (h : a.StringNames) {p : Ptr} {o : Opt} (ho : a.getOpt p = .ok o) : o.StringNames := by
  obtain ⟨os, h1, h2⟩ := getOpt_eq_ok.1 ho
  exact h.options os (List.mem_of_getElem? h1) o (List.mem_of_getElem? h2)

theorem stringNames_meta {o o' : Opt} (h : o'.meta = o.meta) (ho : o.StringNames) : o'.StringNames := by
  have h1 : o'.envName = o.envName := (congrArg Opt.envName h : o'.meta.envName = o.meta.envName)
  have h3 : o'.name = o.name := (congrArg Opt.name h : o'.meta.name = o.meta.name)
  have h4 : o'.lname = o.lname := (congrArg Opt.lname h : o'.meta.lname = o.meta.lname)
  exact ⟨by rw [h1]; exact ho.envName, by rw [h3]; exact ho.name, by rw [h4]; exact ho.lname⟩

theorem Argus.StringNames.later {a b : Argus} (h : a.StringNames) (hs : b.shape = a.shape) (hp : b.envPrefix = a.envPrefix) :
    b.StringNames := by
  refine ⟨by rw [hp]; exact h.envPrefix, fun os hos o ho => ?_⟩
  obtain ⟨k, hk⟩ := List.mem_iff_getElem?.1 hos
  obtain ⟨i, hi⟩ := List.mem_iff_getElem?.1 ho
  have hg : b.getOpt ⟨k, i⟩ = .ok o := getOpt_eq_ok.2 ⟨os, hk, hi⟩
  obtain ⟨o', h1, h2⟩ := shape_getOpt hs.symm hg
  exact stringNames_meta h2.symm (h.at h1)

theorem loadEnvStepS_eq {W : World} {env : Env} {a : Argus} {p : Ptr} {buf : Mem} (h : a.StringNames) (hb : buf.length = 128) :
    Beside 128 (loadEnvStepS W env a p buf) (loadEnvStep W env a p) := by
  unfold loadEnvStepS loadEnvStep
  cases ho : a.getOpt p with
  | ub u => exact rfl
  | ok o =>
    simp only [Out.ok_bind]
    split
    · exact ⟨rfl, hb⟩
    split
    · exact ⟨rfl, hb⟩
    obtain ⟨q, e1, e2, e3⟩ := getEnvVarNameS_eq hb h.envPrefix (h.at ho)
    rw [e1]
    simp only [Out.ok_bind]
    rw [e2]
    simp only [Out.ok_bind]
    cases envVarName a.envPrefix o with
    | none => exact ⟨rfl, e3⟩
    | some n =>
      simp only
      cases env n with
      | none => exact ⟨rfl, e3⟩
      | some v =>
        simp only
        cases execCallbacks W a p (some v) with
        | ub u => exact rfl
        | ok r =>
          simp only [Out.ok_bind]
          split
          · split
            · cases r.2.getOpt p with
              | ub u => exact rfl
              | ok o1 => exact ⟨rfl, e3⟩
            · exact ⟨rfl, e3⟩
          · exact ⟨rfl, e3⟩

theorem loadEnvLoopS_eq {W : World} {env : Env} {k : Nat} : ∀ (n i : Nat) (a : Argus) (buf : Mem), a.StringNames →
    buf.length = 128 → Beside 128 (loadEnvLoopS W env k n i a buf) (loadEnvLoop W env k n i a)
  | 0, _, _, _, _, hb => ⟨rfl, hb⟩
  | n + 1, i, a, buf, h, hb => by
    unfold loadEnvLoopS loadEnvLoop
    have e := loadEnvStepS_eq (W := W) (env := env) (p := ⟨k, i⟩) h hb
    cases hr : loadEnvStep W env a ⟨k, i⟩ with
    | ub u =>
      rw [hr] at e; rw [e.ub_elim]; exact rfl
    | ok r =>
      rw [hr] at e
      obtain ⟨m, e1, hm⟩ := e.ok_elim
      rw [e1]
      simp only [Out.ok_bind]
      have hf := (loadEnvStep_one hr).inTable.frame
      split
      · exact ⟨rfl, hm⟩
      · exact loadEnvLoopS_eq n (i + 1) r.2 m (h.later hf.shape hf.envPrefix) hm

theorem loadEnvTableS_eq {W : World} {env : Env} {a : Argus} {buf : Mem} (h : a.StringNames) (hb : buf.length = 128) (k : Nat) :
    Beside 128 (loadEnvTableS W env a k buf) (loadEnvTable W env a k) := by
  unfold loadEnvTableS loadEnvTable
  cases a.table (some k) with
  | ub u => exact rfl
  | ok os => exact loadEnvLoopS_eq _ _ _ _ h hb

theorem loadEnvStackS_eq {W : World} {env : Env} : ∀ (ps : List Ptr) (a : Argus) (buf : Mem), a.StringNames →
    buf.length = 128 → Beside 128 (loadEnvStackS W env a buf ps) (loadEnvStack W env a ps)
  | [], _, _, _, hb => ⟨rfl, hb⟩
  | p :: ps, a, buf, h, hb => by
    unfold loadEnvStackS loadEnvStack
    cases a.getOpt p with
    | ub u => exact rfl
    | ok o =>
      simp only [Out.ok_bind]
      cases o.subOptions with
      | none => exact loadEnvStackS_eq ps a buf h hb
      | some k =>
        simp only
        have e := loadEnvTableS_eq (W := W) (env := env) h hb k
        cases hr : loadEnvTable W env a k with
        | ub u => rw [hr] at e; rw [e.ub_elim]; exact rfl
        | ok r =>
          rw [hr] at e
          obtain ⟨m, e1, hm⟩ := e.ok_elim
          rw [e1]
          simp only [Out.ok_bind]
          have hf := (loadEnvTable_frame hr).frame
          split
          · exact ⟨rfl, hm⟩
          · exact loadEnvStackS_eq ps r.2 m (h.later hf.shape hf.envPrefix) hm

theorem loadEnvVarsS_eq {W : World} {env : Env} {a : Argus} {buf : Mem} (h : a.StringNames) (hb : buf.length = 128) :
    Beside 128 (loadEnvVarsS W env a buf) (loadEnvVars W env a) := by
  unfold loadEnvVarsS loadEnvVars
  have e := loadEnvTableS_eq (W := W) (env := env) h hb a.root
  cases hr : loadEnvTable W env a a.root with
  | ub u => rw [hr] at e; rw [e.ub_elim]; exact rfl
  | ok r =>
    rw [hr] at e
    obtain ⟨m, e1, hm⟩ := e.ok_elim
    rw [e1]
    simp only [Out.ok_bind]
    have hf := (loadEnvTable_frame hr).frame
    split
    · exact ⟨rfl, hm⟩
    · exact loadEnvStackS_eq _ r.2 m (h.later hf.shape hf.envPrefix) hm

theorem argusParseS_eq {W : World} {env : Env} {a : Argus} {args : List Str} {buf : Mem} (h : a.StringNames)
    (hb : buf.length = 128) : Beside 128 (argusParseS W env a args buf) (argusParse W env a args) := by
  unfold argusParseS argusParse
  cases hq : parseArgs W a (some a.root) args with
  | ub u => exact rfl
  | ok q =>
    simp only [Out.ok_bind]
    obtain ⟨_, _, _, hf⟩ := parseLoop_frame _ hq
    split
    · cases argusFree { q.2 with errorCode := q.1 } with
      | ub u => exact rfl
      | ok a2 => exact ⟨rfl, hb⟩
    split
    · cases argusFree (({ q.2 with errorCode := q.1 }.emit (.usage none)).emit .tryHelp) with
      | ub u => exact rfl
      | ok a2 => exact ⟨rfl, hb⟩
    have h1 : ({ q.2 with errorCode := q.1 } : Argus).StringNames := h.later hf.shape hf.envPrefix
    have e := loadEnvVarsS_eq (W := W) (env := env) h1 hb
    cases hr : loadEnvVars W env { q.2 with errorCode := q.1 } with
    | ub u => rw [hr] at e; rw [e.ub_elim]; exact rfl
    | ok r =>
      rw [hr] at e
      obtain ⟨m, e1, hm⟩ := e.ok_elim
      rw [e1]
      simp only [Out.ok_bind]
      split
      · cases argusFree r.2 with
        | ub u => exact rfl
        | ok a2 => exact ⟨rfl, hm⟩
      cases postValidation W r.2 with
      | ub u => exact rfl
      | ok v =>
        simp only [Out.ok_bind]
        split
        · cases argusFree v.2 with
          | ub u => exact rfl
          | ok a2 => exact ⟨rfl, hm⟩
        · exact ⟨rfl, hm⟩

/-! ## Help -/

theorem displayEnvName_eq (ep : Option Str) (o : Opt) : displayEnvName ep o = envVarName ep o := by
  unfold displayEnvName envVarName
  generalize ep.getD [] = pre
  have h3 : (if pre.length > 0 ∧ pre.getLast? ≠ some 95 then [95] else []) =
      if (decide (pre.length > 0) && pre.getLast? != some 95) = true then ([95] : Str) else [] := by
    simp only [Bool.and_eq_true, decide_eq_true_eq, bne_iff_ne]
  simp only
  rw [h3]
  generalize (decide (pre.length > 0) && pre.getLast? != some 95) = us
  have h4 : ∀ n : Str, (ep.isSome = true ∧ strncmpEq pre.length n pre = true) ↔
      (ep.isSome && strncmpEq pre.length n pre) = true := fun n => by simp
  cases o.envName with
  | some n =>
    simp only [h4]
    cases us <;> simp [snprintf, envBuffer]
  | none =>
    simp only
    cases us <;> cases o.flags.has .noEnvPrefix <;> simp [snprintf, envBuffer]

theorem appendEnvS_eq {ep : Option Str} {o : Opt} {d : Str} {buf : Mem} (hb : buf.length = 128) (hp : NoNul ep)
    (ho : o.StringNames) : Beside 128 (appendEnvS ep o d buf) (.ok (appendEnv ep o d)) := by
  unfold appendEnvS appendEnv
  obtain ⟨q, e1, e2, e3⟩ := getEnvVarNameS_eq hb hp ho
  rw [e1, displayEnvName_eq]
  simp only [Out.ok_bind]
  rw [e2]
  simp only [Out.ok_bind]
  cases envVarName ep o with
  | none => exact ⟨rfl, e3⟩
  | some e =>
    simp only
    split
    · exact ⟨rfl, e3⟩
    · exact ⟨rfl, e3⟩

theorem printHintS_eq {vt : ValueType} {hint : Str} {buf : Mem} (hb : buf.length = 64) (h : (0 : Byte) ∉ hint) :
    Beside 64 (printHintS vt hint buf) (.ok (match collectionHint vt hint with
      | some s => c!" <" ++ s ++ c!">"
      | none => c!" <" ++ hint ++ c!">")) := by
  have key : ∀ p q : Str, (0 : Byte) ∉ p → (0 : Byte) ∉ q →
      Beside 64 (do
        let b ← snprintfS 64 buf (p ++ hint ++ q)
        let s ← readStr b
        .ok (c!" <" ++ s ++ c!">", b)) (.ok (c!" <" ++ snprintf 64 (p ++ hint ++ q) ++ c!">")) := by
    intro p q hp hq
    have hs := noNul_app (noNul_app hp h) hq
    obtain ⟨rest, e, el⟩ := snprintfS_eq (by decide) hb hs
    rw [e]
    simp only [Out.ok_bind]
    rw [readStr_append _ _ (fun hm => hs (List.mem_of_mem_take hm))]
    exact ⟨rfl, el⟩
  unfold printHintS collectionFormat collectionHint
  by_cases h1 : vt.isVariadic = true
  · rw [if_pos h1, if_pos h1]
    exact key [] c!"..." (by simp) (by decide)
  · rw [if_neg h1, if_neg h1]
    by_cases h2 : vt.isArray = true
    · rw [if_pos h2, if_pos h2]
      exact key [] c!",..." (by simp) (by decide)
    · rw [if_neg h2, if_neg h2]
      by_cases h3 : vt.isMap = true
      · rw [if_pos h3, if_pos h3]
        exact key c!"KEY=" c!",..." (by decide) (by decide)
      · rw [if_neg h3, if_neg h3]
        exact ⟨rfl, hb⟩

theorem optionNameS_eq {F : Fmt} {cfg : HelperConfig} {o : Opt} {buf : Mem} (hb : buf.length = 64)
    (h : (0 : Byte) ∉ smartHint F cfg o) : Beside 64 (optionNameS F cfg o buf) (.ok (optionName F cfg o)) := by
  unfold optionNameS optionName
  by_cases h1 : o.valueType ≠ .flag
  · simp only [if_pos h1]
    obtain ⟨m, e, hm⟩ := (printHintS_eq (vt := o.valueType) hb h).ok_elim
    rw [e]
    exact ⟨rfl, hm⟩
  · simp only [if_neg h1]
    refine ⟨?_, hb⟩
    simp only [List.append_nil]
    rfl

/-! ## Calls one after another -/

theorem callS_eq {s : Statics} {c : StaticCall} (hs : s.Sized) (hd : s.depth = 0) (hc : c.Proper) :
    (∃ a s', callS s c = .ok (some (a, s')) ∧ c.alone = .ok (some a) ∧ s'.Sized ∧ s'.depth = 0) ∨
    (callS s c = .ok none ∧ c.alone = .ok none) ∨ (∃ u, callS s c = .ub u ∧ c.alone = .ub u) := by
  cases c with
  | validate W fuel tables =>
    have hf : fuel < 2147483648 := hc
    unfold callS StaticCall.alone
    simp only
    rw [hd, show ((0 : Int)) = ((0 : Nat) : Int) from rfl]
    rw [validateStructureS_eq W tables fuel 0 (some 0) (by omega)]
    cases validateStructure W tables fuel 0 (some 0) with
    | ub u => exact .inr (.inr ⟨u, rfl, rfl⟩)
    | ok r =>
      cases r with
      | none => exact .inr (.inl ⟨rfl, rfl⟩)
      | some st => exact .inl ⟨_, _, rfl, rfl, ⟨hs.fullName, hs.shownName, hs.hint⟩, rfl⟩
  | parse W env a args =>
    unfold callS StaticCall.alone
    have e := argusParseS_eq (W := W) (env := env) (args := args) (a := a) hc hs.fullName
    simp only
    cases hr : argusParse W env a args with
    | ub u => rw [hr] at e; rw [e.ub_elim]; exact .inr (.inr ⟨u, rfl, rfl⟩)
    | ok r =>
      rw [hr] at e
      obtain ⟨m, e1, hm⟩ := e.ok_elim
      rw [e1]
      exact .inl ⟨_, _, rfl, rfl, ⟨hm, hs.shownName, hs.hint⟩, hd⟩
  | envInfo ep o d =>
    unfold callS StaticCall.alone
    obtain ⟨m, e1, hm⟩ := (appendEnvS_eq (d := d) hs.shownName hc.1 hc.2).ok_elim
    simp only
    rw [e1]
    exact .inl ⟨_, _, rfl, rfl, ⟨hs.fullName, hm, hs.hint⟩, hd⟩
  | optionName F cfg o =>
    unfold callS StaticCall.alone
    obtain ⟨m, e1, hm⟩ := (optionNameS_eq (F := F) (cfg := cfg) (o := o) hs.hint hc).ok_elim
    simp only
    rw [e1]
    exact .inl ⟨_, _, rfl, rfl, ⟨hs.fullName, hs.shownName, hm⟩, hd⟩

theorem callsS_eq : ∀ (cs : List StaticCall) (s : Statics), s.Sized → s.depth = 0 → (∀ c ∈ cs, c.Proper) →
    callsS s cs = eachAlone cs
  | [], _, _, _, _ => rfl
  | c :: cs, s, hs, hd, h => by
    unfold callsS eachAlone
    rcases callS_eq hs hd (h c (by simp)) with ⟨a, s', e1, e2, h1, h2⟩ | ⟨e1, e2⟩ | ⟨u, e1, e2⟩
    · rw [e1, e2]
      simp only [Out.ok_bind]
      rw [callsS_eq cs s' h1 h2 (fun c' hc' => h c' (by simp [hc']))]
      rfl
    · rw [e1, e2]; rfl
    · rw [e1, e2]; rfl

end Argus
