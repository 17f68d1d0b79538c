import Verif.Lemmas.Statics
import Verif.Spec.Sample
import Verif.Spec.Structure

/-! # C103: static variables carry nothing from one call to the next -/

set_option autoImplicit false

namespace Argus

/-- C103. Calls made one after another in one process give what each of them gives by itself, whatever the static arrays hold at
    the beginning. -/
theorem C103_calls (s : Statics) (cs : List StaticCall) (hs : s.Sized) (hd : s.depth = 0) (h : ∀ c ∈ cs, c.Proper) :
    callsS s cs = eachAlone cs := callsS_eq cs s hs hd h

/-- C103. In particular a call gives after any other calls what it gives as the first call of the process. -/
theorem C103_as_if_first (cs : List StaticCall) (c : StaticCall) (as : List StaticAnswer)
    (h : ∀ c' ∈ cs ++ [c], c'.Proper) (hr : callsS .start (cs ++ [c]) = .ok (some as)) :
    ∃ x, callsS .start [c] = .ok (some [x]) ∧ as.getLast? = some x := by
  have h1 : ∀ (cs : List StaticCall) (as : List StaticAnswer), eachAlone (cs ++ [c]) = .ok (some as) →
      ∃ x, c.alone = .ok (some x) ∧ as.getLast? = some x := by
    intro cs
    induction cs with
    | nil =>
      intro as h
      simp only [List.nil_append, eachAlone] at h
      cases hc : c.alone with
      | ub u => rw [hc] at h; exact (nomatch h)
      | ok r =>
        rw [hc] at h
        cases r with
        | none => exact (nomatch h)
        | some x => cases h; exact ⟨x, rfl, rfl⟩
    | cons d cs ih =>
      intro as h
      simp only [List.cons_append, eachAlone] at h
      cases hc : d.alone with
      | ub u => rw [hc] at h; exact (nomatch h)
      | ok r =>
        rw [hc] at h
        cases r with
        | none => exact (nomatch h)
        | some y =>
          simp only [Out.ok_bind] at h
          cases he : eachAlone (cs ++ [c]) with
          | ub u => rw [he] at h; exact (nomatch h)
          | ok r2 =>
            rw [he] at h
            cases r2 with
            | none => exact (nomatch h)
            | some bs =>
              obtain ⟨x, e1, e2⟩ := ih bs he
              cases h
              refine ⟨x, e1, ?_⟩
              cases bs with
              | nil => exact (nomatch e2)
              | cons b bs => rw [List.getLast?_cons_cons]; exact e2
  have hs : Statics.start.Sized := ⟨by simp [Statics.start], by simp [Statics.start], by simp [Statics.start]⟩
  rw [C103_calls _ _ hs rfl h] at hr
  obtain ⟨x, e1, e2⟩ := h1 cs as hr
  refine ⟨x, ?_, e2⟩
  rw [C103_calls _ _ hs rfl (fun c' hc' => h c' (by simp at hc'; simp [hc']))]
  unfold eachAlone
  rw [e1]
  rfl

/-- C103. `validate_structure` leaves its counter as it was, at any depth of nesting, and never takes it out of the range of
    `int`. -/
theorem C103_counter (W : World) (tables : List (List Opt)) (fuel d : Nat) (t : Option Nat) (hd : d + fuel < 2147483648)
    (st d' : Int) (h : validateStructureS W tables fuel t d = .ok (some (st, d'))) :
    d' = d ∧ validateStructure W tables fuel d t = .ok (some st) := by
  rw [validateStructureS_eq W tables fuel d t hd] at h
  cases hv : validateStructure W tables fuel d t with
  | ub u => rw [hv] at h; exact (nomatch h)
  | ok r =>
    rw [hv] at h
    cases r with
    | none => exact (nomatch h)
    | some x => cases h; exact ⟨rfl, rfl⟩

/-- C103. The name of a variable is written within the 128 bytes of the buffer, read back whole, and is the name of the option,
    whatever name was in the buffer before. -/
theorem C103_name (envPrefix : Option Str) (o : Opt) (buf : Mem) (hb : buf.length = 128) (hp : NoNul envPrefix)
    (ho : o.StringNames) :
    ∃ q, getEnvVarNameS envPrefix o buf = .ok q ∧ q.1.text q.2 = .ok (envVarName envPrefix o) ∧ q.2.length = 128 :=
  getEnvVarNameS_eq hb hp ho

/-- C103. A parse does not depend on what an earlier parse left in the buffer. -/
theorem C103_parse (W : World) (env : Env) (a : Argus) (args : List Str) (buf : Mem) (hb : buf.length = 128)
    (h : a.StringNames) (r : ParseEnd × Argus) :
    argusParse W env a args = .ok r ↔ ∃ buf', argusParseS W env a args buf = .ok (r, buf') := by
  have e := argusParseS_eq (W := W) (env := env) (args := args) h hb
  constructor
  · intro hr
    rw [hr] at e
    obtain ⟨m, e1, _⟩ := e.ok_elim
    exact ⟨m, e1⟩
  · rintro ⟨m, hr⟩
    rw [hr] at e
    exact e.1

/-- A program whose names are strings. -/
theorem Sample.stringNames : Sample.prog.StringNames := by
  have key : ∀ s : Option Str, s.all (fun t => !t.contains 0) = true → NoNul s := by
    intro s h t e
    subst e
    simpa using h
  have h1 : (Sample.prog.tables.all fun os => os.all fun o =>
      o.envName.all (fun t => !t.contains 0) && o.name.all (fun t => !t.contains 0) &&
      o.lname.all (fun t => !t.contains 0)) = true := by decide +kernel
  refine ⟨fun t h => (nomatch h), fun os hos o ho => ?_⟩
  have h2 := List.all_eq_true.1 (List.all_eq_true.1 h1 os hos) o ho
  simp only [Bool.and_eq_true] at h2
  exact ⟨key _ h2.1.1, key _ h2.1.2, key _ h2.2⟩

/-- A program validated and parsed twice, with help in between: the counter and the three buffers are all used. -/
def Sample.calls : List StaticCall := [
    .validate Sample.world 9 Sample.checked,
    .parse Sample.world (fun n => if n = c!"PORT" then some c!"80" else none) Sample.prog [c!"--num=4"],
    .envInfo (some c!"APP") { optInt 112 (some c!"port") with flags := Flags.ofList [.autoEnv] } c!"The port",
    .optionName ⟨fun _ => [], fun _ => [], fun _ => none⟩ {} (optArrayString 116 (some c!"tags")),
    .parse Sample.world (fun n => if n = c!"PORT" then some c!"80" else none) Sample.prog [c!"--num=4"],
    .validate Sample.world 9 Sample.checked]

example : ∀ c ∈ Sample.calls, c.Proper := by
  intro c hc
  simp only [Sample.calls, List.mem_cons, List.not_mem_nil, or_false] at hc
  rcases hc with rfl | rfl | rfl | rfl | rfl | rfl
  · exact (by decide : 9 < 2147483648)
  · exact Sample.stringNames
  · refine ⟨?_, ?_, ?_, ?_⟩ <;> intro t h <;> cases h <;> decide
  · exact (by decide +kernel : (0 : Byte) ∉ smartHint ⟨fun _ => [], fun _ => [], fun _ => none⟩ {} (optArrayString 116 (some c!"tags")))
  · exact Sample.stringNames
  · exact (by decide : 9 < 2147483648)

example : (match callsS .start Sample.calls with
    | .ok (some as) => as.length
    | _ => 0) = 6 := by decide +kernel

example : Statics.start.Sized := ⟨by simp [Statics.start], by simp [Statics.start], by simp [Statics.start]⟩

/-! ## Why it is not a matter of course -/

/-- A name is good until the next call only: the pointer for the first option then leads to the name of the second. -/
theorem C103_overwritten : ∃ (o1 o2 : Opt) (q1 q2 : NamePtr × Mem),
    getEnvVarNameS (some c!"APP") o1 Statics.start.fullName = .ok q1 ∧ q1.1.text q1.2 = .ok (some c!"APP_PORT") ∧
    getEnvVarNameS (some c!"APP") o2 q1.2 = .ok q2 ∧ q1.1.text q2.2 = .ok (some c!"APP_A") :=
  ⟨{ optInt 112 (some c!"port") with envName := some c!"PORT" }, { optInt 97 (some c!"all") with envName := some c!"A" },
    (.buffer, c!"APP_PORT" ++ List.replicate 120 0), (.buffer, c!"APP_A" ++ 0 :: c!"RT" ++ List.replicate 120 0),
    by decide +kernel, by decide +kernel, by decide +kernel, by decide +kernel⟩

/-- A counter left at 8 would make a good program a bad one. -/
theorem C103_counter_matters :
    validateStructureS Sample.world Sample.checked 9 (some 0) 0 = .ok (some (Err.success, 0)) ∧
    validateStructureS Sample.world Sample.checked 9 (some 0) 8 = .ok (some (Err.malformedOption, 8)) := by
  decide +kernel

end Argus
