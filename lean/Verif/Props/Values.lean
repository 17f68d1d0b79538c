import Verif.Props.Order
import Verif.Lemmas.Collected

/-!
# Properties C14, C20, C21: comma splitting, integers and booleans
-/

set_option autoImplicit false

namespace Argus

/-! ## C14 -/

/-- **C14** Splitting on commas yields the non-empty ones among the fields of the text, in order. The
    fields are determined by the text: they contain no comma and joined by commas they are the text. -/
theorem C14_split (s : Str) :
    (∃ fs : List Str, [44].intercalate fs = s ∧ fs ≠ [] ∧ (∀ f ∈ fs, (44 : Byte) ∉ f) ∧
      split s c!"," = fs.filter (· ≠ [])) := by
  refine ⟨fields (· == 44) s, fields_join 44 s, fields_ne_nil _ s, ?_, split_comma s⟩
  intro f hf hc
  exact absurd (fields_no_sep (· == 44) s f hf 44 hc) (by decide)

/-- There is only one way to see a text as fields joined by commas. -/
theorem C14_fields_unique : ∀ (fs gs : List Str), fs ≠ [] → gs ≠ [] → (∀ f ∈ fs, (44 : Byte) ∉ f) →
    (∀ g ∈ gs, (44 : Byte) ∉ g) → [44].intercalate fs = [44].intercalate gs → fs = gs := by
  have key : ∀ fs : List Str, fs ≠ [] → (∀ f ∈ fs, (44 : Byte) ∉ f) →
      fields (· == 44) ([44].intercalate fs) = fs := by
    intro fs
    induction fs with
    | nil => intro h; exact absurd rfl h
    | cons f fs ih =>
      intro _ hc
      have hf : ∀ c ∈ f, (c == (44 : Byte)) = false := by
        intro c hcf
        have : c ≠ 44 := by rintro rfl; exact hc f (by simp) hcf
        simpa using this
      cases fs with
      | nil =>
        have := fields_word (· == 44) f [] hf
        simp only [List.append_nil] at this
        rw [show ([44] : Str).intercalate [f] = f by simp [List.intercalate], this]
        simp [fields]
      | cons g gs =>
        have e : ([44] : Str).intercalate (f :: g :: gs) = f ++ 44 :: [44].intercalate (g :: gs) := by
          simp [List.intercalate, List.intersperse]
        rw [e, fields_word (· == 44) f _ hf, fields, if_pos (by decide),
          ih (by simp) (fun x hx => hc x (by simp [hx]))]
        simp
  intro fs gs hf hg h1 h2 he
  rw [← key fs hf h1, ← key gs hg h2, he]

/-- A case: `,a,,bc,`. -/
example : split c!",a,,bc," c!"," = [c!"a", c!"bc"] ∧
    ([44] : Str).intercalate [c!"", c!"a", c!"", c!"bc", c!""] = c!",a,,bc," := by decide +kernel

/-! ## C20 -/

/-- **C20** (full statement: moreover text that is not a number is rejected). After a successful parse
    whose last text for an int option is the decimal representation of a 64-bit integer, reading the
    option as `as_int64` gives exactly that integer. Text that is not a number is not rejected: see
    `C20_garbage_accepted`. -/
theorem C20_exact_partial (W : World) (env : Env) (a a' : Argus) (args : List Str) (p : Ptr) (o : Opt)
    (earlier : List (Option Str)) (n : Int)
    (hok : argusParse W env a args = .ok (.returned Err.success, a'))
    (ho : a.getOpt p = .ok o) (ht : o.type ≠ .subcommand) (hh : o.handler = some .int)
    (hlast : allTexts env a args p o = earlier ++ [some (showInt n)])
    (hmin : -9223372036854775808 ≤ n) (hmax : n ≤ 9223372036854775807) :
    ∃ o' w, a'.getOpt p = .ok o' ∧ o'.value = .word w ∧ w.asInt64 = .ok n := by
  obtain ⟨o', h1, h2, _⟩ := C11_last_text W env a a' args p o .int earlier _ hok ho ht hh rfl hlast
  have hs := strtoll_showInt n [] (by simp)
  rw [List.append_nil] at hs
  have h2 : o'.value = .word (.bits (BitVec.ofInt 64 (strtoll (showInt n)).1)) := h2
  rw [hs, clampLL_id hmin hmax] at h2
  exact ⟨o', _, h1, h2, congrArg Out.ok (ofInt64_toInt hmin hmax)⟩

/-- **C20** Numerals out of range saturate: for any numeral (white space, sign, digits) the option holds
    its value or the nearest 64-bit integer. -/
theorem C20_saturates_partial (W : World) (env : Env) (a a' : Argus) (args : List Str) (p : Ptr) (o : Opt)
    (earlier : List (Option Str)) (v : Str) (n : Int)
    (hok : argusParse W env a args = .ok (.returned Err.success, a'))
    (ho : a.getOpt p = .ok o) (ht : o.type ≠ .subcommand) (hh : o.handler = some .int)
    (hlast : allTexts env a args p o = earlier ++ [some v]) (hv : IsNumeral v n) :
    ∃ o' w, a'.getOpt p = .ok o' ∧ o'.value = .word w ∧
      w.asInt64 = .ok (max (-9223372036854775808) (min n 9223372036854775807)) := by
  obtain ⟨o', h1, h2, _⟩ := C11_last_text W env a a' args p o .int earlier _ hok ho ht hh rfl hlast
  have h2 : o'.value = .word (.bits (BitVec.ofInt 64 (strtoll v).1)) := h2
  rw [isNumeral_strtoll hv] at h2
  refine ⟨o', _, h1, h2, ?_⟩
  have hr := clampLL_range n
  show Out.ok (BitVec.ofInt 64 (clampLL n)).toInt = _
  rw [ofInt64_toInt hr.1 hr.2]
  unfold clampLL llongMin llongMax
  congr 1
  repeat' split
  all_goals omega

/-- **C20** for variadic int positionals, which do check their texts: a text is accepted if and only if it
    is a numeral, and then its value (or the nearest 64-bit integer) is appended. -/
theorem C20_variadic (W : World) (o : Opt) (v : Str) (hh : o.handler = some .variadicInt)
    (hv : o.valueType = .variadicInt) (hf : o.Fresh) :
    ((∃ o', o.give W (some v) = some o') ↔ ∃ n, IsNumeral v n) ∧
    ∀ n, IsNumeral v n → ∃ o', o.give W (some v) = some o' ∧
      o'.Int64s [max (-9223372036854775808) (min n 9223372036854775807)] := by
  obtain ⟨h1, h2⟩ := variadicInt_gives W o [] v hf.arr hh (by rw [hv]; rfl) (by simp)
  simp only at h1 h2
  have hacc : ∀ n, IsNumeral v n → ∃ o', o.give W (some v) = some o' ∧
      o'.Int64s [max (-9223372036854775808) (min n 9223372036854775807)] := by
    intro n hn
    obtain ⟨o', e1, e2⟩ := h1 [Word.ofInt64 (clampLL n)] (by rw [wholeInt_numeral hn]; rfl) (by simp)
    rw [List.nil_append, flagged_short W _ _ (by simp)] at e2
    refine ⟨o', e1, _, e2.elements (by simp), ?_⟩
    have hr := clampLL_range n
    show [Out.ok (BitVec.ofInt 64 (clampLL n)).toInt] = _
    rw [ofInt64_toInt hr.1 hr.2]
    simp only [List.map_cons, List.map_nil, List.cons.injEq, and_true, Out.ok.injEq]
    unfold clampLL llongMin llongMax
    repeat' split
    all_goals omega
  refine ⟨⟨?_, fun ⟨n, hn⟩ => by obtain ⟨o', e, _⟩ := hacc n hn; exact ⟨o', e⟩⟩, hacc⟩
  rintro ⟨o', ho'⟩
  by_cases hp : ∃ n rest, NumeralThen v n rest
  · obtain ⟨n, rest, hp⟩ := hp
    cases rest with
    | nil => exact ⟨n, hp⟩
    | cons c r =>
      have : wholeInt v = none := by
        unfold wholeInt
        rw [strtoll_numeral hp]
        simp
      rw [h2 (by rw [this]; rfl)] at ho'
      cases ho'
  · have : wholeInt v = none := by
      unfold wholeInt
      rw [strtoll_other (fun n rest h => hp ⟨n, rest, h⟩)]
      simp
    rw [h2 (by rw [this]; rfl)] at ho'
    cases ho'

/-- **C20** fails for text that is not a number: an int option accepts every text, and one that does not
    begin with a numeral is stored as 0. -/
theorem C20_garbage_accepted (W : World) (o : Opt) (v : Str) (hh : o.handler = some .int)
    (hv : ∀ n rest, ¬ NumeralThen v n rest) :
    ∃ o', o.give W (some v) = some o' ∧ o'.value = .word (.bits 0) ∧ o'.isSet = true := by
  refine ⟨_, give_of_run hh rfl, ?_, rfl⟩
  show Val.word (.ofInt64 (strtoll v).1) = _
  rw [strtoll_other hv]
  rfl

/-- **C20** for every text: after a successful parse whatever the last text of an int option was, reading the
    option gives the numeral at the beginning of that text, brought to the nearest 64-bit integer, or 0 if there is
    none. -/
theorem C20_every_text (W : World) (env : Env) (a a' : Argus) (args : List Str) (p : Ptr) (o : Opt)
    (earlier : List (Option Str)) (v : Str)
    (hok : argusParse W env a args = .ok (.returned Err.success, a'))
    (ho : a.getOpt p = .ok o) (ht : o.type ≠ .subcommand) (hh : o.handler = some .int)
    (hlast : allTexts env a args p o = earlier ++ [some v]) :
    ∃ o' w n, a'.getOpt p = .ok o' ∧ o'.value = .word w ∧ w.asInt64 = .ok n ∧
      (∀ k rest, NumeralThen v k rest → n = max (-9223372036854775808) (min k 9223372036854775807)) ∧
      ((∀ k rest, ¬ NumeralThen v k rest) → n = 0) := by
  obtain ⟨o', h1, h2, _⟩ := C11_last_text W env a a' args p o .int earlier _ hok ho ht hh rfl hlast
  have h2 : o'.value = .word (.bits (BitVec.ofInt 64 (strtoll v).1)) := h2
  have hr : llongMin ≤ (strtoll v).1 ∧ (strtoll v).1 ≤ llongMax := by
    by_cases hp : ∃ n rest, NumeralThen v n rest
    · obtain ⟨n, rest, hp⟩ := hp
      rw [strtoll_numeral hp]
      exact clampLL_range n
    · rw [strtoll_other (fun n rest h => hp ⟨n, rest, h⟩)]
      exact ⟨(by decide : llongMin ≤ 0), (by decide : (0 : Int) ≤ llongMax)⟩
  refine ⟨o', _, (strtoll v).1, h1, h2, congrArg Out.ok (ofInt64_toInt hr.1 hr.2), fun k rest hk => ?_, fun hk => ?_⟩
  · rw [strtoll_numeral hk]
    show clampLL k = _
    unfold clampLL llongMin llongMax
    repeat' split
    all_goals omega
  · rw [strtoll_other hk]

/-- A case of both: `--num abc` succeeds and leaves 0, `--num -42` leaves -42. -/
example :
    ((argusParse Sample.world Sample.noEnv Sample.prog [c!"--num", c!"abc"]).toOption.bind
      (fun r => (r.2.getOpt ⟨0, 3⟩).toOption)).map (·.value) = some (.word (.bits 0)) ∧
    (∃ o, Sample.prog.getOpt ⟨0, 3⟩ = .ok o ∧
      allTexts Sample.noEnv Sample.prog [c!"-n7", c!"--num=-42"] ⟨0, 3⟩ o = [some c!"7"] ++ [some (showInt (-42))]) ∧
    ((argusParse Sample.world Sample.noEnv Sample.prog [c!"-n7", c!"--num=-42"]).toOption.bind
      (fun r => (r.2.getOpt ⟨0, 3⟩).toOption)).map (·.value) = some (.word (.ofInt64 (-42))) := by
  refine ⟨by decide +kernel, ⟨_, rfl, by decide +kernel⟩, by decide +kernel⟩

/-! ## C21 -/

/-- **C21** A bool option accepts exactly the listed spellings, in any letter case, with the evident
    meaning; any other text is rejected with ARGUS_ERROR_INVALID_ARGUMENT and leaves the option as it
    was. -/
theorem C21_bool_option (W : World) (a : Argus) (o : Opt) (v : Str) :
    (MeansTrue v → ∃ o', runHandler W a .bool o (some v) = .ok (Err.success, o', []) ∧
      ∃ w, o'.value = .word w ∧ w.asBool = .ok true) ∧
    (MeansFalse v → ∃ o', runHandler W a .bool o (some v) = .ok (Err.success, o', []) ∧
      ∃ w, o'.value = .word w ∧ w.asBool = .ok false) ∧
    (¬ MeansTrue v → ¬ MeansFalse v → runHandler W a .bool o (some v) =
      .ok (Err.invalidArgument, o, [.error Err.invalidArgument])) := by
  obtain ⟨h1, h2⟩ := stringToBool_iff v
  simp only [runHandler, boolHandler]
  refine ⟨fun h => ?_, fun h => ?_, fun ht hf => ?_⟩
  · rw [h1.2 h]; exact ⟨_, rfl, o.setBool_holds true⟩
  · rw [h2.2 h]; exact ⟨_, rfl, o.setBool_holds false⟩
  · cases h : stringToBool v with
    | none => rfl
    | some b =>
      cases b
      · exact absurd (h2.1 h) hf
      · exact absurd (h1.1 h) ht

/-- **C21** at the level of a whole parse: after a successful one, a bool option whose last text is `v`
    reads as the meaning of `v`. -/
theorem C21_parse (W : World) (env : Env) (a a' : Argus) (args : List Str) (p : Ptr) (o : Opt)
    (earlier : List (Option Str)) (v : Str)
    (hok : argusParse W env a args = .ok (.returned Err.success, a'))
    (ho : a.getOpt p = .ok o) (ht : o.type ≠ .subcommand) (hh : o.handler = some .bool)
    (hlast : allTexts env a args p o = earlier ++ [some v]) :
    ∃ o' w, a'.getOpt p = .ok o' ∧ o'.value = .word w ∧
      (MeansTrue v ∧ w.asBool = .ok true ∨ MeansFalse v ∧ w.asBool = .ok false) := by
  obtain ⟨o', h1, ⟨w, b, h2, h3, h4⟩, _⟩ :=
    C11_last_text W env a a' args p o .bool earlier _ hok ho ht hh rfl hlast
  refine ⟨o', w, h1, h2, ?_⟩
  cases b
  · exact .inr ⟨(stringToBool_iff v).2.1 h3, h4⟩
  · exact .inl ⟨(stringToBool_iff v).1.1 h3, h4⟩

/-- Cases of C21: `YeS` is true, `0B0` is false, `2` is rejected. -/
example : MeansTrue c!"YeS" ∧ MeansFalse c!"0B0" ∧ ¬ MeansTrue c!"2" ∧ ¬ MeansFalse c!"2" := by decide +kernel

end Argus
