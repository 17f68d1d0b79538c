import Verif.Props.HelpValues

/-!
# C107: values shown in the help can be given, positional arguments
-/

set_option autoImplicit false

namespace Argus

/-- The words `pre`, typed after `--` at level `t`, are taken and lead to the context `a`, in which entry `i` is the next
    positional argument: as many single positional arguments stand before it as there are words. It ends no program, and its
    validators all look at the parsed value. -/
structure ShownPositional (W : World) (a0 : Argus) (t : Nat) (pre : List Str) (a : Argus) (i : Nat) (o : Opt) : Prop where
  before : parseArgs W a0 (some t) (c!"--" :: pre) = .ok (Err.success, a)
  words : ∀ w ∈ pre, w ≠ c!"--"
  place : ∃ os, a.tables[t]? = some os ∧ os[i]? = some o ∧
    ((os.take i).filter fun x => x.type = .positional).length = pre.length ∧
    ∀ x ∈ os.take i, x.type = .positional → x.valueType.isVariadic = false
  type : o.type = .positional
  stays : o.flags.has .exit = false
  posts : ∀ v ∈ o.validators.getD [], v.order = .post

theorem findPositionalFrom_next (o : Opt) (ht : o.type = .positional) : ∀ (os : List Opt) (i k pos n : Nat), os[i]? = some o →
    pos + ((os.take i).filter fun x => x.type = .positional).length = n →
    (∀ x ∈ os.take i, x.type = .positional → x.valueType.isVariadic = false) → findPositionalFrom n k pos os = some (k + i)
  | [], i, k, pos, n, h, _, _ => by simp at h
  | x :: os, 0, k, pos, n, h, hn, _ => by
    simp only [List.getElem?_cons_zero, Option.some.injEq] at h
    subst h
    have : pos = n := by simpa using hn
    simp [findPositionalFrom, ht, this]
  | x :: os, i + 1, k, pos, n, h, hn, hb => by
    have hi : os[i]? = some o := by simpa using h
    have hb' : ∀ y ∈ os.take i, y.type = .positional → y.valueType.isVariadic = false :=
      fun y hy => hb y (by simp [hy])
    rw [findPositionalFrom]
    by_cases hx : x.type = .positional
    · have hv := hb x (by simp) hx
      have hn' : pos + 1 + ((os.take i).filter fun x => x.type = .positional).length = n := by
        simp only [List.take_succ_cons, List.filter_cons, hx, decide_true, if_true, List.length_cons] at hn
        omega
      have hne : (pos == n) = false := by simp; omega
      simp only [hx, beq_self_eq_true, if_true, hv, hne, Bool.or_false, Bool.false_eq_true, if_false]
      rw [findPositionalFrom_next o ht os i (k + 1) (pos + 1) n hi hn' hb']
      congr 1
      omega
    · have hn' : pos + ((os.take i).filter fun x => x.type = .positional).length = n := by
        simpa [List.filter_cons, hx] using hn
      simp only [beq_iff_eq, hx, if_false]
      rw [findPositionalFrom_next o ht os i (k + 1) pos n hi hn' hb']
      congr 1
      omega

/-- After `--`, words that are taken are followed by the rest of the line. -/
theorem parseLoop_words_then (W : World) (t : Nat) (rest : List Str) : ∀ (pre : List Str) (a b : Argus) (pos : Nat),
    (∀ w ∈ pre, w ≠ c!"--") → parseLoop W (some t) a pos true false pre = .ok (Err.success, b) →
    parseLoop W (some t) a pos true false (pre ++ rest) = parseLoop W (some t) b (pos + pre.length) true false rest
  | [], a, b, pos, _, h => by
    simp only [parseLoop, Out.ok.injEq, Prod.mk.injEq, true_and] at h
    subst h
    simp
  | w :: pre, a, b, pos, hw, h => by
    have hne : w ≠ [45, 45] := hw w (by simp)
    have hstep : ∀ l, parseStep W (some t) a pos true w l = stepPositional W (some t) a pos true w := by
      intro l; unfold parseStep; rw [if_neg hne, if_pos rfl]
    rw [List.cons_append]
    rw [parseLoop, hstep] at h ⊢
    unfold stepPositional at h ⊢
    cases hp : handlePositional W a (some t) w pos with
    | ub u => rw [hp] at h; exact nomatch h
    | ok r =>
      rw [hp] at h
      simp only [Out.ok_bind] at h ⊢
      by_cases hr : r.1 ≠ Err.success
      · simp only [if_pos hr, Out.ok.injEq, Prod.mk.injEq] at h
        exact absurd h.1 hr
      · simp only [if_neg hr] at h ⊢
        rw [parseLoop_words_then W t rest pre r.2 b (pos + 1) (fun x hx => hw x (by simp [hx])) h, List.length_cons]
        congr 1
        omega

/-- The argument after `-- words value`, if the handler takes the value. -/
theorem ShownPositional.given {W : World} {a0 a : Argus} {t i : Nat} {pre : List Str} {o o1 : Opt} {v : Str} {h : Handler}
    (hs : ShownPositional W a0 t pre a i o) (hv : v ≠ c!"--") (hh : o.handler = some h)
    (hr : runHandler W a h o (some v) = .ok (Err.success, o1, [])) (hfl : o1.flags = o.flags) :
    ∃ a', parseArgs W a0 (some t) (c!"--" :: (pre ++ [v])) = .ok (Err.success, a') ∧ a'.getOpt ⟨t, i⟩ = .ok o1.markSet := by
  obtain ⟨os, h1, h2, h3, h4⟩ := hs.place
  have ho : a.getOpt ⟨t, i⟩ = .ok o := getOpt_eq_ok.2 ⟨os, h1, h2⟩
  refine ⟨a.setOpt ⟨t, i⟩ o1.markSet, ?_, getOpt_setOpt_self ho⟩
  have hx : o1.markSet.flags.has .exit = false := by
    show o1.flags.has .exit = false
    rw [hfl]; exact hs.stays
  have hex : execCallbacks W a ⟨t, i⟩ (some v) = .ok (Err.success, a.setOpt ⟨t, i⟩ o1.markSet) := by
    unfold execCallbacks
    simp only [ho, Out.ok_bind, hh, runPreAll_posts _ hs.posts, ne_eq, not_true_eq_false, if_false, hr, emits_nil, hx,
      Bool.false_eq_true]
  have hp : findPositional os pre.length = some i := by
    have := findPositionalFrom_next o hs.type os i 0 0 pre.length h2 (by omega) h4
    simpa [findPositional] using this
  have htab : a.table (some t) = .ok os := table_eq_ok.2 ⟨t, rfl, h1⟩
  have hdash : ∀ l, parseArgs W a0 (some t) (c!"--" :: l) = parseLoop W (some t) a0 0 true false l := by
    intro l
    unfold parseArgs
    have hstep : parseStep W (some t) a0 0 false c!"--" l = .ok (.next a0 0 true false) := by
      unfold parseStep; rw [if_pos rfl]
    rw [parseLoop, hstep, Out.ok_bind]
  have hb := hs.before
  rw [hdash] at hb
  rw [hdash, parseLoop_words_then W t [v] pre a0 a 0 hs.words hb, Nat.zero_add]
  have hstep2 : parseStep W (some t) a pre.length true v [] = stepPositional W (some t) a pre.length true v := by
    unfold parseStep; rw [if_neg hv, if_pos rfl]
  rw [parseLoop, hstep2]
  unfold stepPositional handlePositional
  simp only [htab, Out.ok_bind, hp, hex]
  simp [Out.ok_bind, parseLoop]

/-- **C107** The choices of a positional argument that is a text: after `--`, a value is taken and passes the validator exactly
    if it is one of those that the help lists. (A choice `--` cannot be given, as it is dropped: C72.) -/
theorem C107_positional_string (F : Fmt) (W : World) (a0 a : Argus) (t i : Nat) (pre : List Str) (o : Opt) (s : Str) (cs : List Str)
    (hs : ShownPositional W a0 t pre a i o) (hv : s ≠ c!"--") (hh : o.handler = some .string) :
    ((bars cs).length ≤ 252 → (vChoiceStr cs).text F = some (bars cs)) ∧
    ∃ a' o', parseArgs W a0 (some t) (c!"--" :: (pre ++ [s])) = .ok (Err.success, a') ∧
      a'.getOpt ⟨t, i⟩ = .ok o' ∧ o'.ReadsString s ∧
      (runPost W (vChoiceStr cs).kind o' = .ok (Err.success, none) ↔ s ∈ cs) := by
  refine ⟨fun hf => C67_words_partial F (vChoiceStr cs) ⟨hf, fun _ => rfl⟩, ?_⟩
  obtain ⟨a', h1, h2⟩ := hs.given (W := W) (v := s) hv hh rfl rfl
  have hr : ({ o with value := .word (.ofArg (some s)) } : Opt).markSet.ReadsString s := rfl
  refine ⟨a', _, h1, h2, hr, ?_⟩
  rw [show (vChoiceStr cs).kind = .choiceStr cs from rfl, C24_string_decides W _ cs s hr]
  by_cases hm : s ∈ cs <;> simp [hm, Err.invalidChoice, Err.success]

theorem showInt_ne_dashes (n : Int) : showInt n ≠ c!"--" := by
  intro h
  have e := strtoll_showInt n [] (by simp)
  rw [List.append_nil, h] at e
  have hd : (strtoll c!"--").2 = c!"--" := by decide
  rw [e] at hd
  exact nomatch hd

theorem ShownPositional.number {W : World} {a0 a : Argus} {t i : Nat} {pre : List Str} {o : Opt} (hs : ShownPositional W a0 t pre a i o)
    (hh : o.handler = some .int) (n : Int) (hmin : -2147483648 ≤ n) (hmax : n ≤ 2147483647) :
    ∃ a' o', parseArgs W a0 (some t) (c!"--" :: (pre ++ [showInt n])) = .ok (Err.success, a') ∧
      a'.getOpt ⟨t, i⟩ = .ok o' ∧ o'.ReadsInt n ∧ o'.ReadsInt64 n := by
  obtain ⟨a', h1, h2⟩ := hs.given (W := W) (v := showInt n) (showInt_ne_dashes n) hh rfl rfl
  have e := strtoll_showInt n [] (by simp)
  rw [List.append_nil] at e
  have hv : ({ o with value := .word (.ofInt64 (strtoll (showInt n)).1) } : Opt).markSet.value = .word (.bits (BitVec.ofInt 64 n)) := by
    show Val.word (.bits (BitVec.ofInt 64 (strtoll (showInt n)).1)) = _
    rw [e, clampLL_id (by unfold llongMin; omega) (by unfold llongMax; omega)]
  exact ⟨a', _, h1, h2, ⟨_, hv, congrArg Out.ok (toInt_truncate hmin hmax)⟩,
    ⟨_, hv, congrArg Out.ok (ofInt64_toInt (by unfold llongMin; omega) (by unfold llongMax; omega))⟩⟩

/-- **C107** (full statement: for all 64-bit integers.) The choices of a positional argument that is an int. Missing: larger
    choices (`C107_claim_false`). -/
theorem C107_positional_int_partial (F : Fmt) (W : World) (a0 a : Argus) (t i : Nat) (pre : List Str) (o : Opt) (cs : List Int)
    (n : Int)
    (hs : ShownPositional W a0 t pre a i o) (hh : o.handler = some .int) (hmin : -2147483648 ≤ n) (hmax : n ≤ 2147483647) :
    ((bars (cs.map showInt)).length ≤ 252 ∧ (∀ c ∈ cs, -2 ^ 63 ≤ c ∧ c < 2 ^ 63) →
      (vChoiceInt cs).text F = some (bars (cs.map showInt))) ∧
    ∃ a' o', parseArgs W a0 (some t) (c!"--" :: (pre ++ [showInt n])) = .ok (Err.success, a') ∧
      a'.getOpt ⟨t, i⟩ = .ok o' ∧ o'.ReadsInt64 n ∧
      (runPost W (vChoiceInt cs).kind o' = .ok (Err.success, none) ↔ n ∈ cs) := by
  refine ⟨fun hf => C67_words_partial F (vChoiceInt cs) ⟨hf, fun _ => rfl⟩, ?_⟩
  obtain ⟨a', o', h1, h2, h3, h4⟩ := hs.number (W := W) hh n hmin hmax
  refine ⟨a', o', h1, h2, h4, ?_⟩
  rw [show (vChoiceInt cs).kind = .choiceInt cs from rfl, C24_int_decides_partial W _ cs n h3]
  by_cases hm : n ∈ cs <;> simp [hm, Err.invalidChoice, Err.success]

/-- **C107** (full statement: for all 64-bit integers.) The limits of a positional argument that is an int. Missing: larger
    numbers (`C107_range_case`). -/
theorem C107_positional_range_partial (F : Fmt) (W : World) (a0 a : Argus) (t i : Nat) (pre : List Str) (o : Opt)
    (mn mx n : Int)
    (hs : ShownPositional W a0 t pre a i o) (hh : o.handler = some .int) (hmin : -2147483648 ≤ n) (hmax : n ≤ 2147483647) :
    ((showInt mn ++ c!"-" ++ showInt mx).length ≤ 31 → (vRange mn mx).text F = some (showInt mn ++ c!"-" ++ showInt mx)) ∧
    ∃ a' o', parseArgs W a0 (some t) (c!"--" :: (pre ++ [showInt n])) = .ok (Err.success, a') ∧
      a'.getOpt ⟨t, i⟩ = .ok o' ∧ o'.ReadsInt64 n ∧
      (runPost W (vRange mn mx).kind o' = .ok (Err.success, none) ↔ mn ≤ n ∧ n ≤ mx) := by
  refine ⟨fun hf => C67_words_partial F (vRange mn mx) ⟨hf, fun _ => rfl⟩, ?_⟩
  obtain ⟨a', o', h1, h2, h3, h4⟩ := hs.number (W := W) hh n hmin hmax
  refine ⟨a', o', h1, h2, h4, ?_⟩
  rw [show (vRange mn mx).kind = .range mn mx from rfl, C22_rejects W _ mn mx n h3]
  by_cases hm : mn ≤ n ∧ n ≤ mx
  · simp [hm]
  · rw [if_neg hm]
    simp only [Err.invalidRange, Err.success]
    constructor
    · intro h; simp at h
    · intro h; exact absurd h hm

/-- **C107** (full statement: for all defaults.) The default that the help shows for a positional argument, typed, gives the
    default. Missing: as in `C107_default_partial`, and a default that is `--`. -/
theorem C107_positional_default_partial (F : Fmt) (W : World) (a0 a : Argus) (t i : Nat) (pre : List Str) (o : Opt) (s : Str)
    (hs : ShownPositional W a0 t pre a i o) (hv : s ≠ c!"--") (hd : ShownDefault F.f2 o s)
    (hfl : ∀ x, o.handler = some .float → o.defaultValue.asFloat = .ok x → W.strtof (F.f2 x) = x) :
    ∃ a' o', parseArgs W a0 (some t) (c!"--" :: (pre ++ [s])) = .ok (Err.success, a') ∧
      a'.getOpt ⟨t, i⟩ = .ok o' ∧ o'.isSet = true ∧ o.ReadsDefault o' := by
  cases hd with
  | int n hh hn h1 h2 =>
    obtain ⟨a', h1', h2'⟩ := hs.given (W := W) (v := showInt n) hv hh rfl rfl
    have e := strtoll_showInt n [] (by simp)
    rw [List.append_nil] at e
    refine ⟨a', _, h1', h2', rfl, .bits (BitVec.ofInt 64 (strtoll (showInt n)).1), rfl, ?_⟩
    rw [hh, e, clampLL_id (by unfold llongMin; omega) (by unfold llongMax; omega), hn]
    refine ⟨fun _ => congrArg Out.ok (ofInt64_toInt (by unfold llongMin; omega) (by unfold llongMax; omega)), nofun, nofun, nofun⟩
  | string s hh hp =>
    obtain ⟨a', h1', h2'⟩ := hs.given (W := W) (v := s) hv hh rfl rfl
    refine ⟨a', _, h1', h2', rfl, .ptr s, rfl, ?_⟩
    rw [hh, hp]
    exact ⟨nofun, fun _ => rfl, nofun, nofun⟩
  | bool b hh hb =>
    have hb' : stringToBool (if b then c!"true" else c!"false") = some b := by cases b <;> decide
    obtain ⟨a', h1', h2'⟩ := hs.given (W := W) (v := if b then c!"true" else c!"false") (o1 := o.setBool b) hv hh
      (by simp only [runHandler, boolHandler, hb']) (by unfold Opt.setBool; split <;> rfl)
    obtain ⟨w, g1, g2⟩ := Opt.setBool_holds o b
    refine ⟨a', _, h1', h2', rfl, w, g1, ?_⟩
    rw [hh, hb]
    exact ⟨nofun, nofun, fun _ => g2, nofun⟩
  | float x hh hx =>
    obtain ⟨a', h1', h2'⟩ := hs.given (W := W) (v := F.f2 x) hv hh rfl rfl
    refine ⟨a', _, h1', h2', rfl, .bits (W.strtof (F.f2 x)), rfl, ?_⟩
    rw [hh, hx, hfl x hh hx]
    exact ⟨nofun, nofun, nofun, fun _ => rfl⟩

/-- A level with an option, a text and a number from -5 to 5. -/
def shownNumber : Opt := { positionalBase c!"level" .int .int with validators := some [vRange (-5) 5] }
def shownLevel : Argus := argusInit [[helpOption, positionalBase c!"file" .string .string, shownNumber]] c!"prog" none

/-- The hypotheses are met, and `-- f -5` passes while `-- f 6` does not. -/
example (F : Fmt) (W : World) : ∃ a,
    ShownPositional W shownLevel 0 [c!"f"] a 2 shownNumber ∧
    (∃ a' o', parseArgs W shownLevel (some 0) [c!"--", c!"f", c!"-5"] = .ok (Err.success, a') ∧ a'.getOpt ⟨0, 2⟩ = .ok o' ∧
      o'.ReadsInt64 (-5) ∧ runPost W (vRange (-5) 5).kind o' = .ok (Err.success, none)) ∧
    ∃ a' o', parseArgs W shownLevel (some 0) [c!"--", c!"f", c!"6"] = .ok (Err.success, a') ∧ a'.getOpt ⟨0, 2⟩ = .ok o' ∧
      o'.ReadsInt64 6 ∧ runPost W (vRange (-5) 5).kind o' ≠ .ok (Err.success, none) := by
  obtain ⟨a, hs⟩ : ∃ a, ShownPositional W shownLevel 0 [c!"f"] a 2 shownNumber :=
    ⟨_, rfl, by decide, ⟨_, rfl, rfl, by decide, by decide⟩, rfl, by decide, by decide⟩
  obtain ⟨a1, o1, g1, g2, g3, g4⟩ := (C107_positional_range_partial F W _ _ 0 2 _ _ (-5) 5 (-5) hs rfl (by decide) (by decide)).2
  obtain ⟨a2, o2, k1, k2, k3, k4⟩ := (C107_positional_range_partial F W _ _ 0 2 _ _ (-5) 5 6 hs rfl (by decide) (by decide)).2
  exact ⟨a, hs, ⟨a1, o1, g1, g2, g3, g4.2 (by decide)⟩, a2, o2, k1, k2, k3, fun h => absurd (k4.1 h) (by decide)⟩

/-- A text with the default `out.txt`, alone on its level. -/
def shownFile : Opt :=
  { positionalBase c!"file" .string .string with defaultValue := .ptr c!"out.txt", haveDefault := true, isSet := true }

/-- The hypotheses for defaults are met: `-- out.txt` gives the default. -/
example (F : Fmt) (W : World) : ∃ a' o',
    parseArgs W (argusInit [[helpOption, shownFile]] c!"prog" none) (some 0) [c!"--", c!"out.txt"] = .ok (Err.success, a') ∧
      a'.getOpt ⟨0, 1⟩ = .ok o' ∧ o'.isSet = true ∧ shownFile.ReadsDefault o' :=
  C107_positional_default_partial F W _ _ 0 1 [] shownFile c!"out.txt"
    ⟨rfl, by decide, ⟨_, rfl, rfl, by decide, by decide⟩, rfl, by decide, by decide⟩ (by decide) (.string _ rfl rfl) nofun

end Argus
