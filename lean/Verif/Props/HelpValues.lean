import Verif.Props.HelpNames
import Verif.Props.Validation
import Verif.Props.Values

/-!
# C107: values shown in the help can be given

The help shows the choices and the limits of an option (`format_choices_validator`, `format_range_validator`) and its default
(`append_default_info` of `source/display/help/help_formatter.c`). The validators and the handlers are other functions, which read
the value in another width.
-/

set_option autoImplicit false

namespace Argus

/-- Option `i` of level `t`, under the long name `l`: it takes a value, is found under its name, ends no program, and its
    validators all look at the parsed value. -/
structure ShownOption (a : Argus) (t i : Nat) (o : Opt) (l : Str) : Prop where
  place : ∃ os, a.tables[t]? = some os ∧ os[i]? = some o ∧ OwnLong os i l
  type : o.type = .option
  takes : o.valueType ≠ .flag
  name : o.lname = some l
  stays : o.flags.has .exit = false
  posts : ∀ v ∈ o.validators.getD [], v.order = .post

theorem runPreAll_posts {W : World} {x : Option Str} {a : Argus} : ∀ vs : List Validator, (∀ v ∈ vs, v.order = .post) →
    runPreAll W a x vs = .ok (Err.success, a)
  | [], _ => rfl
  | v :: vs, h => by
    unfold runPreAll
    rw [if_neg (by rw [h v (by simp)]; simp)]
    exact runPreAll_posts vs (fun v hv => h v (by simp [hv]))

/-- The option after `--name=value`, if the handler takes the value. -/
theorem ShownOption.given {W : World} {a : Argus} {t i : Nat} {o o1 : Opt} {l v : Str} {h : Handler}
    (hs : ShownOption a t i o l) (hh : o.handler = some h)
    (hr : runHandler W a h o (some v) = .ok (Err.success, o1, [])) (hfl : o1.flags = o.flags) :
    ∃ a', parseArgs W a (some t) [c!"--" ++ (l ++ c!"=" ++ v)] = .ok (Err.success, a') ∧
      a'.getOpt ⟨t, i⟩ = .ok o1.markSet := by
  obtain ⟨os, h1, h2, h3⟩ := hs.place
  have ho : a.getOpt ⟨t, i⟩ = .ok o := getOpt_eq_ok.2 ⟨os, h1, h2⟩
  refine ⟨a.setOpt ⟨t, i⟩ o1.markSet, ?_, getOpt_setOpt_self ho⟩
  rw [(C106_long_value W a t i os o l v h1 h2 hs.type hs.takes hs.name).1 h3]
  unfold execCallbacks
  have hx : o1.markSet.flags.has .exit = false := by
    show o1.flags.has .exit = false
    rw [hfl]; exact hs.stays
  simp only [ho, Out.ok_bind, hh, runPreAll_posts _ hs.posts, ne_eq, not_true_eq_false, if_false, hr, emits_nil, hx,
    Bool.false_eq_true]

/-- **C107** The choices of a string option: `--name=value` is taken and passes the validator exactly if the value is one of
    those that the help lists (if the list fits the buffers of the help). -/
theorem C107_string_choice (F : Fmt) (W : World) (a : Argus) (t i : Nat) (o : Opt) (l s : Str) (cs : List Str)
    (hs : ShownOption a t i o l) (hh : o.handler = some .string) :
    ((bars cs).length ≤ 252 → (vChoiceStr cs).text F = some (bars cs)) ∧
    ∃ a' o', parseArgs W a (some t) [c!"--" ++ (l ++ c!"=" ++ s)] = .ok (Err.success, a') ∧
      a'.getOpt ⟨t, i⟩ = .ok o' ∧ o'.ReadsString s ∧
      (runPost W (vChoiceStr cs).kind o' = .ok (Err.success, none) ↔ s ∈ cs) := by
  refine ⟨fun hf => C67_words_partial F (vChoiceStr cs) ⟨hf, fun _ => rfl⟩, ?_⟩
  obtain ⟨a', h1, h2⟩ := hs.given (W := W) (v := s) hh rfl rfl
  have hr : ({ o with value := .word (.ofArg (some s)) } : Opt).markSet.ReadsString s := rfl
  refine ⟨a', _, h1, h2, hr, ?_⟩
  rw [show (vChoiceStr cs).kind = .choiceStr cs from rfl, C24_string_decides W _ cs s hr]
  by_cases hm : s ∈ cs <;> simp [hm, Err.invalidChoice, Err.success]

/-- What an int option holds after a number: the number in 64 bits, and, if it fits, in 32. -/
theorem ShownOption.number {W : World} {a : Argus} {t i : Nat} {o : Opt} {l : Str} (hs : ShownOption a t i o l)
    (hh : o.handler = some .int) (n : Int) (hmin : -2147483648 ≤ n) (hmax : n ≤ 2147483647) :
    ∃ a' o', parseArgs W a (some t) [c!"--" ++ (l ++ c!"=" ++ showInt n)] = .ok (Err.success, a') ∧
      a'.getOpt ⟨t, i⟩ = .ok o' ∧ o'.ReadsInt n ∧ o'.ReadsInt64 n := by
  obtain ⟨a', h1, h2⟩ := hs.given (W := W) (v := showInt n) hh rfl rfl
  have e := strtoll_showInt n [] (by simp)
  rw [List.append_nil] at e
  have hv : ({ o with value := .word (.ofInt64 (strtoll (showInt n)).1) } : Opt).markSet.value = .word (.bits (BitVec.ofInt 64 n)) := by
    show Val.word (.bits (BitVec.ofInt 64 (strtoll (showInt n)).1)) = _
    rw [e, clampLL_id (by unfold llongMin; omega) (by unfold llongMax; omega)]
  exact ⟨a', _, h1, h2, ⟨_, hv, congrArg Out.ok (toInt_truncate hmin hmax)⟩,
    ⟨_, hv, congrArg Out.ok (ofInt64_toInt (by unfold llongMin; omega) (by unfold llongMax; omega))⟩⟩

/-- **C107** (full statement: for all 64-bit integers.) The choices of an int option: a number of 32 bits is taken and passes
    the validator exactly if it is one of those that the help lists. Missing: larger choices (`C107_claim_false`). -/
theorem C107_int_choice_partial (F : Fmt) (W : World) (a : Argus) (t i : Nat) (o : Opt) (l : Str) (cs : List Int) (n : Int)
    (hs : ShownOption a t i o l) (hh : o.handler = some .int) (hmin : -2147483648 ≤ n) (hmax : n ≤ 2147483647) :
    ((bars (cs.map showInt)).length ≤ 252 ∧ (∀ c ∈ cs, -2 ^ 63 ≤ c ∧ c < 2 ^ 63) →
      (vChoiceInt cs).text F = some (bars (cs.map showInt))) ∧
    ∃ a' o', parseArgs W a (some t) [c!"--" ++ (l ++ c!"=" ++ showInt n)] = .ok (Err.success, a') ∧
      a'.getOpt ⟨t, i⟩ = .ok o' ∧ o'.ReadsInt64 n ∧
      (runPost W (vChoiceInt cs).kind o' = .ok (Err.success, none) ↔ n ∈ cs) := by
  refine ⟨fun hf => C67_words_partial F (vChoiceInt cs) ⟨hf, fun _ => rfl⟩, ?_⟩
  obtain ⟨a', o', h1, h2, h3, h4⟩ := hs.number (W := W) hh n hmin hmax
  refine ⟨a', o', h1, h2, h4, ?_⟩
  rw [show (vChoiceInt cs).kind = .choiceInt cs from rfl, C24_int_decides_partial W _ cs n h3]
  by_cases hm : n ∈ cs <;> simp [hm, Err.invalidChoice, Err.success]

/-- **C107** (full statement: for all 64-bit integers.) The limits of an int option: a number of 32 bits is taken and passes the
    validator exactly if it lies between those that the help shows; in particular both limits do, if they are ordered.
    Missing: larger numbers (`C107_range_case`). -/
theorem C107_range_partial (F : Fmt) (W : World) (a : Argus) (t i : Nat) (o : Opt) (l : Str) (mn mx n : Int)
    (hs : ShownOption a t i o l) (hh : o.handler = some .int) (hmin : -2147483648 ≤ n) (hmax : n ≤ 2147483647) :
    ((showInt mn ++ c!"-" ++ showInt mx).length ≤ 31 → (vRange mn mx).text F = some (showInt mn ++ c!"-" ++ showInt mx)) ∧
    ∃ a' o', parseArgs W a (some t) [c!"--" ++ (l ++ c!"=" ++ showInt n)] = .ok (Err.success, a') ∧
      a'.getOpt ⟨t, i⟩ = .ok o' ∧ o'.ReadsInt64 n ∧
      (runPost W (vRange mn mx).kind o' = .ok (Err.success, none) ↔ mn ≤ n ∧ n ≤ mx) := by
  refine ⟨fun hf => C67_words_partial F (vRange mn mx) ⟨hf, fun _ => rfl⟩, ?_⟩
  obtain ⟨a', o', h1, h2, h3, h4⟩ := hs.number (W := W) hh n hmin hmax
  refine ⟨a', o', h1, h2, h4, ?_⟩
  rw [show (vRange mn mx).kind = .range mn mx from rfl, C22_rejects W _ mn mx n h3]
  by_cases hm : mn ≤ n ∧ n ≤ mx
  · simp [hm]
  · rw [if_neg hm]
    simp only [Err.invalidRange, Err.success]
    constructor
    · intro h; simp at h
    · intro h; exact absurd h hm

/-- The text that the help shows for a default, between `(default: ` and `)`. -/
inductive ShownDefault (f2 : F64 → Str) (o : Opt) : Str → Prop
  | int (n : Int) : o.handler = some .int → o.defaultValue.asInt64 = .ok n → -2147483648 ≤ n → n ≤ 2147483647 →
      ShownDefault f2 o (showInt n)
  | string (s : Str) : o.handler = some .string → o.defaultValue = .ptr s → ShownDefault f2 o s
  | bool (b : Bool) : o.handler = some .bool → o.defaultValue.asBool = .ok b →
      ShownDefault f2 o (if b then c!"true" else c!"false")
  | float (x : F64) : o.handler = some .float → o.defaultValue.asFloat = .ok x → ShownDefault f2 o (f2 x)

/-- **C107** This text is what the help prints for the default, a string in quotes: for an option that has a default and whose
    handler is that of its type, if the text fits the buffer. -/
theorem C107_default_shown (F : Fmt) (o : Opt) (d s : Str) (hd : ShownDefault F.f2 o s) (hh : o.haveDefault = true)
    (ht : (o.handler = some .int → o.valueType = .int) ∧ (o.handler = some .string → o.valueType = .string) ∧
      (o.handler = some .bool → o.valueType = .bool) ∧ (o.handler = some .float → o.valueType = .float))
    (hl : s.length ≤ 113) :
    appendDefault F o d =
      .ok (d ++ (if o.valueType = .string then c!" (default: \"" ++ s ++ c!"\")" else c!" (default: " ++ s ++ c!")")) := by
  cases hd with
  | int n h1 h2 h3 h4 =>
    rw [appendDefault_eq F o d _ (.int n hh (ht.1 h1) h2 (by omega) (by omega)), ht.1 h1]; rfl
  | string s h1 h2 =>
    rw [appendDefault_eq F o d _ (.string s hh (ht.2.1 h1) h2 hl), ht.2.1 h1]; rfl
  | bool b h1 h2 =>
    rw [appendDefault_eq F o d _ (.bool b hh (ht.2.2.1 h1) h2), ht.2.2.1 h1]; rfl
  | float x h1 h2 =>
    rw [appendDefault_eq F o d _ (.float x hh (ht.2.2.2 h1) h2 (by omega)), ht.2.2.2 h1]; rfl

/-- Reading the option gives the default: as an int, a string, a truth value or a float, whichever the handler stores. -/
def Opt.ReadsDefault (o o' : Opt) : Prop :=
  ∃ w, o'.value = .word w ∧
    (o.handler = some .int → w.asInt64 = o.defaultValue.asInt64) ∧
    (o.handler = some .string → w = o.defaultValue) ∧
    (o.handler = some .bool → w.asBool = o.defaultValue.asBool) ∧
    (o.handler = some .float → w.asFloat = o.defaultValue.asFloat)

/-- **C107** (full statement: for all defaults.) The default that the help shows, typed as the value of the option, gives the
    default. Missing: floats whose two decimals do not read as the float (`C107_float_default`), and ints of more than 32 bits,
    which are shown wrong (`C67_default_truncated`). -/
theorem C107_default_partial (F : Fmt) (W : World) (a : Argus) (t i : Nat) (o : Opt) (l s : Str)
    (hs : ShownOption a t i o l) (hd : ShownDefault F.f2 o s)
    (hfl : ∀ x, o.handler = some .float → o.defaultValue.asFloat = .ok x → W.strtof (F.f2 x) = x) :
    ∃ a' o', parseArgs W a (some t) [c!"--" ++ (l ++ c!"=" ++ s)] = .ok (Err.success, a') ∧
      a'.getOpt ⟨t, i⟩ = .ok o' ∧ o'.isSet = true ∧ o.ReadsDefault o' := by
  cases hd with
  | int n hh hn h1 h2 =>
    obtain ⟨a', h1', h2'⟩ := hs.given (W := W) (v := showInt n) hh rfl rfl
    have e := strtoll_showInt n [] (by simp)
    rw [List.append_nil] at e
    refine ⟨a', _, h1', h2', rfl, .bits (BitVec.ofInt 64 (strtoll (showInt n)).1), rfl, ?_⟩
    rw [hh, e, clampLL_id (by unfold llongMin; omega) (by unfold llongMax; omega), hn]
    refine ⟨fun _ => congrArg Out.ok (ofInt64_toInt (by unfold llongMin; omega) (by unfold llongMax; omega)), nofun, nofun, nofun⟩
  | string s hh hp =>
    obtain ⟨a', h1', h2'⟩ := hs.given (W := W) (v := s) hh rfl rfl
    refine ⟨a', _, h1', h2', rfl, .ptr s, rfl, ?_⟩
    rw [hh, hp]
    exact ⟨nofun, fun _ => rfl, nofun, nofun⟩
  | bool b hh hb =>
    have hb' : stringToBool (if b then c!"true" else c!"false") = some b := by cases b <;> decide
    obtain ⟨a', h1', h2'⟩ := hs.given (W := W) (v := if b then c!"true" else c!"false") (o1 := o.setBool b) hh
      (by simp only [runHandler, boolHandler, hb']) (by unfold Opt.setBool; split <;> rfl)
    obtain ⟨w, g1, g2⟩ := Opt.setBool_holds o b
    refine ⟨a', _, h1', h2', rfl, w, g1, ?_⟩
    rw [hh, hb]
    exact ⟨nofun, nofun, fun _ => g2, nofun⟩
  | float x hh hx =>
    obtain ⟨a', h1', h2'⟩ := hs.given (W := W) (v := F.f2 x) hh rfl rfl
    refine ⟨a', _, h1', h2', rfl, .bits (W.strtof (F.f2 x)), rfl, ?_⟩
    rw [hh, hx, hfl x hh hx]
    exact ⟨nofun, nofun, nofun, fun _ => rfl⟩

/-- **C107** Of two floats that are shown alike, at least one cannot be given as it is shown: whatever option has it as its
    default, the text of its help gives another value. -/
theorem C107_float_default (F : Fmt) (W : World) (x y : F64) (hne : x ≠ y) (hsame : F.f2 x = F.f2 y) :
    ∃ z, (z = x ∨ z = y) ∧ ∀ (a : Argus) (t i : Nat) (o : Opt) (l : Str), ShownOption a t i o l →
      o.handler = some .float → o.defaultValue.asFloat = .ok z →
      ∃ a' o', parseArgs W a (some t) [c!"--" ++ (l ++ c!"=" ++ F.f2 z)] = .ok (Err.success, a') ∧
        a'.getOpt ⟨t, i⟩ = .ok o' ∧ ¬ o.ReadsDefault o' := by
  have key : ∀ z, W.strtof (F.f2 z) ≠ z → ∀ (a : Argus) (t i : Nat) (o : Opt) (l : Str), ShownOption a t i o l →
      o.handler = some .float → o.defaultValue.asFloat = .ok z →
      ∃ a' o', parseArgs W a (some t) [c!"--" ++ (l ++ c!"=" ++ F.f2 z)] = .ok (Err.success, a') ∧
        a'.getOpt ⟨t, i⟩ = .ok o' ∧ ¬ o.ReadsDefault o' := by
    intro z hz a t i o l hs hh hd
    obtain ⟨a', h1, h2⟩ := hs.given (W := W) (v := F.f2 z) hh rfl rfl
    refine ⟨a', _, h1, h2, ?_⟩
    rintro ⟨w, g1, -, -, -, g2⟩
    have g1 : Val.word (.bits (W.strtof (F.f2 z))) = .word w := g1
    have e : w = .bits (W.strtof (F.f2 z)) := by injection g1 with g1; exact g1.symm
    have g3 := g2 hh
    rw [hd, e] at g3
    exact hz (Out.ok.inj g3)
  by_cases hx : W.strtof (F.f2 x) = x
  · refine ⟨y, .inr rfl, key y (fun hy => hne ?_)⟩
    rw [← hx, hsame, hy]
  · exact ⟨x, .inl rfl, key x hx⟩

/-- **C107** The claim for the choices of int options. -/
def C107_claim : Prop :=
  ∀ (W : World) (a : Argus) (t i : Nat) (o : Opt) (l : Str) (cs : List Int) (n : Int), ShownOption a t i o l →
    o.handler = some .int → vChoiceInt cs ∈ o.validators.getD [] → n ∈ cs → -2 ^ 63 ≤ n → n < 2 ^ 63 →
    ∃ a' o', parseArgs W a (some t) [c!"--" ++ (l ++ c!"=" ++ showInt n)] = .ok (Err.success, a') ∧
      a'.getOpt ⟨t, i⟩ = .ok o' ∧ runPost W (vChoiceInt cs).kind o' = .ok (Err.success, none)

/-! ## Cases -/

/-- An int with a choice beyond 32 bits, one with such a limit, and a port with a default. -/
def Sample.shownValues : List (List Opt) :=
  [[helpOption,
    { (optInt 115 (some c!"size")).withHelp c!"size" with validators := some [vChoiceInt [1, 5000000000]] },
    { (optInt 97 (some c!"address")).withHelp c!"address" with validators := some [vRange 0 4294967295] },
    { ((optInt 112 (some c!"port")).withHelp c!"port").withDefault (.ofInt64 80) with validators := some [vRange 1 65535] },
    { (optString 99 (some c!"color")).withHelp c!"color" with validators := some [vChoiceStr [c!"red", c!"green"]] }]]

theorem Sample.shownValues_option (i : Nat) (o : Opt) (l : Str) (hi : (Sample.shownValues[0]?.getD [])[i]? = some o)
    (hl : o.lname = some l) (h0 : i ≠ 0) : ShownOption (argusInit Sample.shownValues c!"prog" none) 0 i o l := by
  have hlt : i < 5 := (List.getElem?_eq_some_iff.1 hi).1
  have hi4 : i = 1 ∨ i = 2 ∨ i = 3 ∨ i = 4 := by omega
  have own : OwnLong (Sample.shownValues[0]?.getD []) i l := by
    rcases hi4 with rfl | rfl | rfl | rfl <;> (cases hi; cases hl; refine ⟨by decide, by decide, ?_⟩; intro j hj o' ho' _ hl')
    · have : j = 0 := by omega
      subst this; cases ho'; exact absurd hl' (by decide)
    · have : j = 0 ∨ j = 1 := by omega
      rcases this with rfl | rfl <;> cases ho' <;> exact absurd hl' (by decide)
    · have : j = 0 ∨ j = 1 ∨ j = 2 := by omega
      rcases this with rfl | rfl | rfl <;> cases ho' <;> exact absurd hl' (by decide)
    · have : j = 0 ∨ j = 1 ∨ j = 2 ∨ j = 3 := by omega
      rcases this with rfl | rfl | rfl | rfl <;> cases ho' <;> exact absurd hl' (by decide)
  refine ⟨⟨_, rfl, hi, own⟩, ?_, ?_, hl, ?_, ?_⟩ <;>
    (rcases hi4 with rfl | rfl | rfl | rfl <;> cases hi <;> decide)

/-- **C107** is violated: the help lists the choice 5000000000, debug mode accepts the definition, and the value is refused,
    as the validator reads its lower 32 bits. -/
theorem C107_claim_false : ¬ C107_claim := by
  intro h
  have hs := Sample.shownValues_option 1 _ c!"size" rfl rfl (by decide)
  obtain ⟨a', o', h1, h2, h3⟩ := h Sample.world _ 0 1 _ c!"size" [1, 5000000000] 5000000000 hs rfl (by decide) (by decide)
    (by decide) (by decide)
  obtain ⟨a1, g1, g2⟩ := hs.given (W := Sample.world) (v := showInt 5000000000) rfl rfl rfl
  rw [h1] at g1
  cases g1
  rw [h2] at g2
  cases g2
  revert h3
  decide +kernel

/-- **C107** The help shows 0-4294967295, the definition is accepted in debug mode, and the upper limit is refused as out of range. -/
theorem C107_range_case : ∃ a, argusInitValidate Sample.world 9 Sample.shownValues c!"prog" none = .ok (some (some a)) ∧
    (vRange 0 4294967295).text Sample.fmt = some c!"0-4294967295" ∧
    (∃ a', argusParse Sample.world Sample.noEnv a [c!"--address=4294967295"] = .ok (.returned Err.invalidRange, a')) ∧
    ∃ a', argusParse Sample.world Sample.noEnv a [c!"--size=5000000000"] = .ok (.returned Err.invalidChoice, a') :=
  ⟨_, rfl, by decide +kernel, ⟨_, rfl⟩, ⟨_, rfl⟩⟩

/-- The hypotheses are met: `--color=green` is listed and passes, `--color=blue` does not, `--port=65535` passes, and the default
    80 of the port is shown and can be given. -/
example (F : Fmt) (W : World) :
    (∃ a' o', parseArgs W (argusInit Sample.shownValues c!"prog" none) (some 0) [c!"--" ++ (c!"color" ++ c!"=" ++ c!"green")] =
        .ok (Err.success, a') ∧ a'.getOpt ⟨0, 4⟩ = .ok o' ∧ o'.ReadsString c!"green" ∧
      (runPost W (vChoiceStr [c!"red", c!"green"]).kind o' = .ok (Err.success, none) ↔ c!"green" ∈ [c!"red", c!"green"])) ∧
    (∃ a' o', parseArgs W (argusInit Sample.shownValues c!"prog" none) (some 0) [c!"--" ++ (c!"port" ++ c!"=" ++ showInt 65535)] =
        .ok (Err.success, a') ∧ a'.getOpt ⟨0, 3⟩ = .ok o' ∧ o'.ReadsInt64 65535 ∧
      (runPost W (vRange 1 65535).kind o' = .ok (Err.success, none) ↔ (1 : Int) ≤ 65535 ∧ (65535 : Int) ≤ 65535)) ∧
    ∃ a' o', parseArgs W (argusInit Sample.shownValues c!"prog" none) (some 0) [c!"--" ++ (c!"port" ++ c!"=" ++ showInt 80)] =
        .ok (Err.success, a') ∧ a'.getOpt ⟨0, 3⟩ = .ok o' ∧ o'.isSet = true ∧
        Opt.ReadsDefault { ((optInt 112 (some c!"port")).withHelp c!"port").withDefault (.ofInt64 80) with
          validators := some [vRange 1 65535] } o' :=
  ⟨(C107_string_choice F W _ 0 4 _ c!"color" c!"green" [c!"red", c!"green"]
      (Sample.shownValues_option 4 _ _ rfl rfl (by decide)) rfl).2,
   (C107_range_partial F W _ 0 3 _ c!"port" 1 65535 65535 (Sample.shownValues_option 3 _ _ rfl rfl (by decide)) rfl (by decide)
      (by decide)).2,
   C107_default_partial F W _ 0 3 _ c!"port" _ (Sample.shownValues_option 3 _ _ rfl rfl (by decide))
      (.int 80 rfl (by decide +kernel) (by decide) (by decide)) (fun x h => nomatch h)⟩

end Argus
