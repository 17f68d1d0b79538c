import Verif.Model.Display
import Verif.Model.Parse
import Verif.Lemmas.State
import Verif.Spec.Sample

/-!
# C45: the help shows the variable that is read

`envVarName` is the name `load_env_vars` passes to `getenv`.
-/

set_option autoImplicit false

namespace Argus

/-- **C45** The two functions that compute the name of an option's environment variable agree. -/
theorem C45_same (envPrefix : Option Str) (o : Opt) : displayEnvName envPrefix o = envVarName envPrefix o := by
  unfold displayEnvName envVarName snprintf envBuffer
  have hdec : (decide ((envPrefix.getD []).length > 0) && (envPrefix.getD []).getLast? != some 95) =
      decide ((envPrefix.getD []).length > 0 ∧ (envPrefix.getD []).getLast? ≠ some 95) := by
    rw [Bool.decide_and]
    congr 1
    by_cases h : (envPrefix.getD []).getLast? = some 95 <;> simp [h]
  simp only [hdec]
  by_cases hu : (envPrefix.getD []).length > 0 ∧ (envPrefix.getD []).getLast? ≠ some 95
  · simp only [if_pos hu, decide_eq_true hu, if_true]
    cases o.envName with
    | some e => simp only [Bool.and_eq_true]
    | none => cases o.flags.has .noEnvPrefix <;> simp
  · simp only [if_neg hu, decide_eq_false hu, Bool.false_eq_true, if_false, List.append_nil]
    cases o.envName with
    | some e => simp only [Bool.and_eq_true]
    | none => cases o.flags.has .noEnvPrefix <;> simp

/-- **C45** (for names of up to 247 bytes) The description in the help contains the name that is read. -/
theorem C45_shown_partial (F : Fmt) (a : Argus) (o : Opt) (e d : Str) (he : envVarName a.envPrefix o = some e)
    (hl : e.length ≤ 247) (hd : buildDescription F a o = .ok d) :
    ∃ before after, d = before ++ c!"env: " ++ e ++ c!")" ++ after := by
  unfold buildDescription at hd
  obtain ⟨d0, _, hd⟩ := Out.bind_eq_ok hd
  simp only [Out.ok.injEq] at hd
  have key : ∃ before, appendEnv a.envPrefix o d0 = before ++ c!"env: " ++ e ++ c!")" := by
    unfold appendEnv
    rw [C45_same, he]
    simp only
    split
    · refine ⟨d0.dropLast ++ c!", ", ?_⟩
      unfold appendTo snprintf
      rw [List.take_of_length_le (by simp; omega)]
      simp
    · refine ⟨d0 ++ c!" (", ?_⟩
      unfold appendTo snprintf
      rw [List.take_of_length_le (by simp; omega)]
      simp
  obtain ⟨before, hb⟩ := key
  rw [hb] at hd
  unfold appendFlags appendTo at hd
  exact ⟨before, _, hd.symm⟩

/-- **C45** exactly, for names of any length: the description shows the first 248 bytes of the name that is
    read, and the bracket after it only if the whole name has at most 247 bytes. -/
theorem C45_shown_cut (F : Fmt) (a : Argus) (o : Opt) (e d : Str) (he : envVarName a.envPrefix o = some e)
    (hd : buildDescription F a o = .ok d) :
    ∃ before after, d = before ++ c!"env: " ++ e.take 248 ++ (if e.length ≤ 247 then c!")" else []) ++ after ∧
      (after = [] ∨ ∃ t, after = c!" " ++ t) := by
  unfold buildDescription at hd
  obtain ⟨d0, _, hd⟩ := Out.bind_eq_ok hd
  simp only [Out.ok.injEq] at hd
  have cut : ∀ s : Str, s.length = 7 → (s ++ e ++ c!")").take 255 =
      s ++ e.take 248 ++ (if e.length ≤ 247 then c!")" else []) := by
    intro s hs
    rw [List.append_assoc, List.take_append, List.take_of_length_le (by omega : s.length ≤ 255), hs,
      List.take_append, List.append_assoc]
    congr 2
    split
    · rw [List.take_of_length_le (by simp; omega)]
    · rw [show 255 - 7 - e.length = 0 by omega]; rfl
  have key : ∃ before, appendEnv a.envPrefix o d0 =
      before ++ c!"env: " ++ e.take 248 ++ (if e.length ≤ 247 then c!")" else []) := by
    unfold appendEnv
    rw [C45_same, he]
    simp only
    split
    · refine ⟨d0.dropLast ++ c!", ", ?_⟩
      unfold appendTo snprintf
      rw [cut _ (by decide)]
      simp
    · refine ⟨d0 ++ c!" (", ?_⟩
      unfold appendTo snprintf
      rw [cut _ (by decide)]
      simp
  obtain ⟨before, hb⟩ := key
  rw [hb] at hd
  unfold appendFlags appendTo at hd
  refine ⟨before, _, hd.symm, ?_⟩
  cases o.flags.has .exit <;> cases o.flags.has .required <;> cases o.flags.has .deprecated <;>
    cases o.flags.has .experimental <;> first
      | exact .inl (by decide)
      | exact .inr ⟨_, rfl⟩

/-- The name of `C45_cut`: 300 bytes are read, 248 are shown. -/
example : let o := { optInt 112 (some c!"port") with
      envName := some (List.replicate 300 65), flags := Flags.ofList [.noEnvPrefix, .required] }
    envVarName Sample.prog.envPrefix o = some (List.replicate 300 65) ∧
    buildDescription ⟨fun _ => [], fun _ => [], fun _ => none⟩ Sample.prog o =
      .ok (c!" (env: " ++ List.replicate 248 65 ++ c!" (required)") := by decide +kernel

/-- **C45** An option for which no variable is read gets no mention of one. -/
theorem C45_none (envPrefix : Option Str) (o : Opt) (d : Str) (he : envVarName envPrefix o = none) :
    appendEnv envPrefix o d = d := by
  unfold appendEnv
  rw [C45_same, he]

example : envVarName (some c!"APP") Sample.root[6] = some c!"APP_PORT" ∧
    buildDescription ⟨fun _ => [], fun _ => [], fun _ => none⟩ { Sample.prog with envPrefix := some c!"APP" }
      Sample.root[6] = .ok c!" (env: APP_PORT)" ∧
    envVarName (some c!"APP") Sample.root[1] = none := by decide +kernel

/-- **C45** fails for a longer name: it is cut off in the help, although it is read in full. -/
theorem C45_cut : ∃ (F : Fmt) (a : Argus) (o : Opt) (e d : Str), envVarName a.envPrefix o = some e ∧
    buildDescription F a o = .ok d ∧ e.length = 300 ∧ d.length = 255 := by
  refine ⟨⟨fun _ => [], fun _ => [], fun _ => none⟩, Sample.prog,
    { optInt 112 (some c!"port") with envName := some (List.replicate 300 65), flags := Flags.ofList [.noEnvPrefix] },
    List.replicate 300 65, c!" (env: " ++ List.replicate 248 65, ?_⟩
  decide +kernel

end Argus
