import Verif.Lemmas.HelpNames
import Verif.Props.Help
import Verif.Props.DescribeCut
import Verif.Props.Structure

/-!
# C106: what the help shows can be typed

`source/display/help/help_formatter.c:211-239` prints the names of every option, and
`source/core/parsing/option_handle_long.c`, `option_handle_short.c` and `parse_args.c` look them up again: a different
piece of code, which reads a copy of the word and stops at the first match.
-/

set_option autoImplicit false

namespace Argus

/-- Entry `i` is the first option of its level with the long name `l`, and `l` is not cut when it is read: it has at most
    63 bytes and no `=`. -/
def OwnLong (os : List Opt) (i : Nat) (l : Str) : Prop :=
  l.length ≤ 63 ∧ (61 : Byte) ∉ l ∧ ∀ j < i, ∀ o', os[j]? = some o' → o'.type = .option → o'.lname ≠ some l

/-- Entry `i` is the first option of its level with the short name `c`. -/
def OwnShort (os : List Opt) (i : Nat) (c : Byte) : Prop :=
  ∀ j < i, ∀ o', os[j]? = some o' → o'.type = .option → o'.sname ≠ c

/-- The name `n` does not begin with a dash, and no subcommand before entry `i` has a name that begins with it. -/
def OwnCommand (os : List Opt) (i : Nat) (n : Str) : Prop :=
  n.head? ≠ some 45 ∧ ∀ j < i, ∀ o' n', os[j]? = some o' → o'.type = .subcommand → o'.name = some n' → ¬ n <+: n'

theorem parse_one_spares {W : World} {a : Argus} {t i : Nat} {w : Str}
    (h : (∀ x, Act.give ⟨t, i⟩ x ∉ meaning a.tables (some t) 0 false false [w]) ∧
      Act.enter ⟨t, i⟩ ∉ meaning a.tables (some t) 0 false false [w]) {r : Int × Argus}
    (hr : parseArgs W a (some t) [w] = .ok r) : r.2.getOpt ⟨t, i⟩ = a.getOpt ⟨t, i⟩ := by
  unfold parseArgs at hr
  rw [parseLoop_run] at hr
  exact run_spares _ hr h.1 h.2

theorem parse_one_gives {W : World} {a : Argus} {t i : Nat} {w : Str} {x : Option Str}
    (h : meaning a.tables (some t) 0 false false [w] = [.give ⟨t, i⟩ x]) :
    parseArgs W a (some t) [w] = execCallbacks W a ⟨t, i⟩ x := by
  unfold parseArgs
  rw [parseLoop_run, h, run_give_one]

/-- **C106** The long name of a flag, typed as the help shows it. It reaches the flag exactly if the name is not cut when it
    is read and no option before it has the same name: otherwise the flag stays as it was, whatever the parse returns. -/
theorem C106_long_flag (W : World) (a : Argus) (t i : Nat) (os : List Opt) (o : Opt) (l : Str)
    (htab : a.tables[t]? = some os) (hi : os[i]? = some o) (ht : o.type = .option) (hf : o.valueType = .flag)
    (hl : o.lname = some l) (hne : l ≠ []) :
    (OwnLong os i l → parseArgs W a (some t) [c!"--" ++ l] = execCallbacks W a ⟨t, i⟩ none) ∧
    (¬ OwnLong os i l → ∀ r, parseArgs W a (some t) [c!"--" ++ l] = .ok r → r.2.getOpt ⟨t, i⟩ = a.getOpt ⟨t, i⟩) := by
  have hflag : isFlagAt os i = true := by simp [isFlagAt, hi, hf]
  constructor
  · rintro ⟨h1, h2, h3⟩
    have hk := argKind_long_plain hne h2
    rw [List.take_of_length_le h1] at hk
    apply parse_one_gives
    rw [meaning_long_one htab hk]
    simp [longActs, (longIdx_at hi ht hl).2 h3, hflag]
  · intro hno r hr
    refine parse_one_spares ?_ hr
    by_cases h2 : (61 : Byte) ∈ l
    · rw [meaning_long_one htab (argKind_long_eq h2)]
      apply longActs_only
      intro hx
      obtain ⟨o', g1, -, g3⟩ := longIdx_get hx
      rw [hi] at g1; cases g1
      rw [hl] at g3
      have : (61 : Byte) ∈ (l.takeWhile (· != 61)).take 63 := by rw [← Option.some.inj g3]; exact h2
      exact not_mem_before_eq l (List.mem_of_mem_take this)
    · rw [meaning_long_one htab (argKind_long_plain hne h2)]
      apply longActs_only
      intro hx
      obtain ⟨o', g1, -, g3⟩ := longIdx_get hx
      rw [hi] at g1; cases g1
      rw [hl] at g3
      have e := Option.some.inj g3
      have hlen : l.length ≤ 63 := by rw [e, List.length_take]; omega
      rw [← e] at hx
      exact hno ⟨hlen, h2, (longIdx_at hi ht hl).1 hx⟩

/-- **C106** The same for an option that takes a value, given as `--name=value`. -/
theorem C106_long_value (W : World) (a : Argus) (t i : Nat) (os : List Opt) (o : Opt) (l v : Str)
    (htab : a.tables[t]? = some os) (hi : os[i]? = some o) (ht : o.type = .option) (hf : o.valueType ≠ .flag)
    (hl : o.lname = some l) :
    (OwnLong os i l → parseArgs W a (some t) [c!"--" ++ (l ++ c!"=" ++ v)] = execCallbacks W a ⟨t, i⟩ (some v)) ∧
    (¬ OwnLong os i l → ∀ r, parseArgs W a (some t) [c!"--" ++ (l ++ c!"=" ++ v)] = .ok r →
      r.2.getOpt ⟨t, i⟩ = a.getOpt ⟨t, i⟩) := by
  have hflag : isFlagAt os i = false := by simp [isFlagAt, hi, hf]
  have he : l ++ c!"=" ++ v = l ++ 61 :: v := by simp
  rw [he]
  have hk := argKind_long_eq (r := l ++ 61 :: v) (by simp)
  constructor
  · rintro ⟨h1, h2, h3⟩
    rw [(takeWhile_ne_eq h2).1, (takeWhile_ne_eq h2).2, List.take_of_length_le h1] at hk
    apply parse_one_gives
    rw [meaning_long_one htab hk]
    simp [longActs, (longIdx_at hi ht hl).2 h3, hflag]
  · intro hno r hr
    refine parse_one_spares ?_ hr
    rw [meaning_long_one htab hk]
    apply longActs_only
    intro hx
    obtain ⟨o', g1, -, g3⟩ := longIdx_get hx
    rw [hi] at g1; cases g1
    rw [hl] at g3
    have e := Option.some.inj g3
    have hlen : l.length ≤ 63 := by rw [e, List.length_take]; omega
    have h2 : (61 : Byte) ∉ l := by
      intro h2
      rw [e] at h2
      exact not_mem_before_eq _ (List.mem_of_mem_take h2)
    rw [← e] at hx
    exact hno ⟨hlen, h2, (longIdx_at hi ht hl).1 hx⟩

/-- **C106** The short name of a flag. It reaches the flag exactly if the name is not a dash, no option before it has the
    same name, and the word is not read as a negative number for the first positional. -/
theorem C106_short_flag (W : World) (a : Argus) (t i : Nat) (os : List Opt) (o : Opt)
    (htab : a.tables[t]? = some os) (hi : os[i]? = some o) (ht : o.type = .option) (hf : o.valueType = .flag) :
    (o.sname ≠ 45 ∧ OwnShort os i o.sname ∧ negNumber os 0 [o.sname] = false →
      parseArgs W a (some t) [[45, o.sname]] = execCallbacks W a ⟨t, i⟩ none) ∧
    (¬ (o.sname ≠ 45 ∧ OwnShort os i o.sname ∧ negNumber os 0 [o.sname] = false) →
      ∀ r, parseArgs W a (some t) [[45, o.sname]] = .ok r → r.2.getOpt ⟨t, i⟩ = a.getOpt ⟨t, i⟩) := by
  have hflag : isFlagAt os i = true := by simp [isFlagAt, hi, hf]
  have hk : o.sname ≠ 45 → argKind [45, o.sname] = .short [o.sname] := by
    intro h; unfold argKind; split <;> simp_all
  constructor
  · rintro ⟨h1, h2, h3⟩
    apply parse_one_gives
    rw [meaning_short_one htab (hk h1)]
    simp [h3, shortActs, (shortIdx_at hi ht rfl).2 h2, hflag]
  · intro hno r hr
    refine parse_one_spares ?_ hr
    by_cases h1 : o.sname = 45
    · rw [h1]
      have : meaning a.tables (some t) 0 false false [[45, 45]] = [] := by
        unfold meaning; simp [argKind, meaning]
      rw [this]; simp
    · rw [meaning_short_one htab (hk h1)]
      split
      · exact posActs_only hi (by rw [ht]; simp)
      · rename_i h3
        apply shortActs_only
        intro c hc
        obtain ⟨o', g1, -, g3⟩ := shortIdx_get hc
        rw [hi] at g1; cases g1
        subst g3
        exact hno ⟨h1, (shortIdx_at hi ht rfl).1 hc, by simpa using h3⟩

/-- **C106** The same for an option that takes a value, given as `-cvalue`. (A dash as the short name makes the word a
    long name, which may be that of any option.) -/
theorem C106_short_value (W : World) (a : Argus) (t i : Nat) (os : List Opt) (o : Opt) (v : Str)
    (htab : a.tables[t]? = some os) (hi : os[i]? = some o) (ht : o.type = .option) (hf : o.valueType ≠ .flag)
    (hv : v ≠ []) (h1 : o.sname ≠ 45) :
    (OwnShort os i o.sname ∧ negNumber os 0 (o.sname :: v) = false →
      parseArgs W a (some t) [45 :: o.sname :: v] = execCallbacks W a ⟨t, i⟩ (some v)) ∧
    (¬ (OwnShort os i o.sname ∧ negNumber os 0 (o.sname :: v) = false) →
      ∀ r, parseArgs W a (some t) [45 :: o.sname :: v] = .ok r → r.2.getOpt ⟨t, i⟩ = a.getOpt ⟨t, i⟩) := by
  have hflag : isFlagAt os i = false := by simp [isFlagAt, hi, hf]
  have hk : argKind (45 :: o.sname :: v) = .short (o.sname :: v) := by
    unfold argKind; split <;> simp_all
  constructor
  · rintro ⟨h2, h3⟩
    apply parse_one_gives
    rw [meaning_short_one htab hk]
    obtain ⟨x, xs, rfl⟩ := List.exists_cons_of_ne_nil hv
    simp [h3, shortActs, (shortIdx_at hi ht rfl).2 h2, hflag]
  · intro hno r hr
    refine parse_one_spares ?_ hr
    rw [meaning_short_one htab hk]
    split
    · exact posActs_only hi (by rw [ht]; simp)
    · rename_i h3
      apply shortActs_only
      intro c hc
      obtain ⟨o', g1, -, g3⟩ := shortIdx_get hc
      rw [hi] at g1; cases g1
      subst g3
      exact hno ⟨(shortIdx_at hi ht rfl).1 hc, by simpa using h3⟩

/-- **C106** The help shows `--name <VALUE>` and `-c <VALUE>`. With the value as a word of its own, whatever it looks like, the
    option gets it. -/
theorem C106_separate (W : World) (a : Argus) (t i : Nat) (os : List Opt) (o : Opt) (v : Str)
    (htab : a.tables[t]? = some os) (hi : os[i]? = some o) (ht : o.type = .option) (hf : o.valueType ≠ .flag) :
    (∀ l, o.lname = some l → l ≠ [] → OwnLong os i l →
      parseArgs W a (some t) [c!"--" ++ l, v] = execCallbacks W a ⟨t, i⟩ (some v)) ∧
    (o.sname ≠ 45 ∧ OwnShort os i o.sname ∧ negNumber os 0 [o.sname] = false →
      parseArgs W a (some t) [[45, o.sname], v] = execCallbacks W a ⟨t, i⟩ (some v)) := by
  have hflag : isFlagAt os i = false := by simp [isFlagAt, hi, hf]
  constructor
  · rintro l hl hne ⟨h1, h2, h3⟩
    have hk := argKind_long_plain hne h2
    rw [List.take_of_length_le h1] at hk
    unfold parseArgs
    rw [parseLoop_run, ← run_give_one]
    congr 1
    have hk' : argKind (45 :: 45 :: l) = .long l none := hk
    unfold meaning
    simp [hk', htab, longActs, (longIdx_at hi ht hl).2 h3, hflag, meaning]
  · rintro ⟨h1, h2, h3⟩
    have hk : argKind [45, o.sname] = .short [o.sname] := by
      unfold argKind; split <;> simp_all
    unfold parseArgs
    rw [parseLoop_run, ← run_give_one]
    congr 1
    unfold meaning
    simp [hk, htab, h3, shortActs, (shortIdx_at hi ht rfl).2 h2, hflag, meaning]

/-- **C106** The name of a subcommand, typed as the help shows it. It selects the subcommand exactly if it does not begin
    with a dash and begins no name of a subcommand before it: otherwise the subcommand stays unselected. -/
theorem C106_command (W : World) (a : Argus) (t i : Nat) (os : List Opt) (o : Opt) (n : Str)
    (htab : a.tables[t]? = some os) (hi : os[i]? = some o) (ht : o.type = .subcommand) (hn : o.name = some n) :
    (OwnCommand os i n → parseArgs W a (some t) [n] = (enterSub a ⟨t, i⟩).bind fun e => .ok (Err.success, e.2)) ∧
    (¬ OwnCommand os i n → ∀ r, parseArgs W a (some t) [n] = .ok r → r.2.getOpt ⟨t, i⟩ = a.getOpt ⟨t, i⟩) := by
  have hmem : (o, i) ∈ subMatches os n := by
    unfold subMatches
    rw [List.mem_filter]
    exact ⟨List.mk_mem_zipIdx_iff_getElem?.2 hi, by simp [ht, hn]⟩
  have hword : n.head? ≠ some 45 → argKind n = .word := by
    intro h; unfold argKind; split <;> simp_all
  have hmean : argKind n = .word → meaning a.tables (some t) 0 false false [n] =
      match subChoice os n with
      | some (.ok x) => [.enter ⟨t, x.2⟩]
      | some (.error c) => [.fail c]
      | none => posActs t os 0 n := by
    intro hw
    unfold meaning
    simp only [hw, reduceCtorEq, if_false, false_and, Option.bind_some, htab]
    cases subChoice os n with
    | none => simp [meaning]
    | some x => cases x <;> simp [meaning]
  constructor
  · rintro ⟨h1, h2⟩
    have hc : subChoice os n = some (.ok (o, i)) := by
      have hs := subMatches_sorted os n
      unfold subChoice
      cases hm : subMatches os n with
      | nil => rw [hm] at hmem; simp at hmem
      | cons x xs =>
        rw [hm] at hmem hs
        have hx : x = (o, i) := by
          rcases List.mem_cons.1 hmem with h | h
          · exact h.symm
          · exfalso
            have hlt := (List.pairwise_cons.1 hs).1 _ h
            have hxm : x ∈ subMatches os n := by rw [hm]; simp
            unfold subMatches at hxm
            rw [List.mem_filter, decide_eq_true_eq] at hxm
            obtain ⟨g1, g2, g3⟩ := hxm
            have g1 : os[x.2]? = some x.1 := List.mk_mem_zipIdx_iff_getElem?.1 g1
            cases hxn : x.1.name with
            | none => rw [hxn] at g3; simp at g3
            | some n' =>
              rw [hxn] at g3
              exact h2 x.2 hlt x.1 n' g1 g2 hxn (List.isPrefixOf_iff_prefix.1 (by simpa using g3))
        subst hx
        cases xs <;> simp [hn]
    unfold parseArgs
    rw [parseLoop_run, hmean (hword h1), hc]
    rfl
  · intro hno r hr
    by_cases h1 : n.head? = some 45
    · refine parse_one_spares ?_ hr
      constructor
      · intro x hx
        obtain ⟨os', o', g1, g2, g3⟩ := meaning_fits _ _ _ _ _ _ _ hx
        rw [htab] at g1; cases g1
        rw [hi] at g2; cases g2
        rw [ht] at g3; simp at g3
      · obtain ⟨r', rfl⟩ : ∃ r', n = 45 :: r' := by
          cases n with
          | nil => simp at h1
          | cons x xs => exact ⟨xs, by simp at h1; rw [h1]⟩
        have hnw : argKind (45 :: r') ≠ .word := by
          unfold argKind; split <;> (try split) <;> simp_all
        cases hk : argKind (45 :: r') with
        | word => exact absurd hk hnw
        | dashes =>
          have : meaning a.tables (some t) 0 false false [45 :: r'] = [] := by
            unfold meaning; simp [hk, meaning]
          rw [this]; simp
        | long nm v =>
          rw [meaning_long_one htab hk]
          refine (longActs_only ?_).2
          intro hx
          obtain ⟨o', g1, g2, -⟩ := longIdx_get hx
          rw [hi] at g1; cases g1; rw [ht] at g2; simp at g2
        | short cs =>
          cases cs with
          | nil =>
            have : meaning a.tables (some t) 0 false false [45 :: r'] = [] := by
              unfold meaning; simp [hk, meaning]
            rw [this]; simp
          | cons c cs =>
            rw [meaning_short_one htab hk]
            split
            · exact (posActs_only hi (by rw [ht]; simp)).2
            · refine (shortActs_only ?_ _).2
              intro c hx
              obtain ⟨o', g1, g2, -⟩ := shortIdx_get hx
              rw [hi] at g1; cases g1; rw [ht] at g2; simp at g2
    · refine parse_one_spares ?_ hr
      rw [hmean (hword h1)]
      cases hc : subChoice os n with
      | none => exact posActs_only hi (by rw [ht]; simp)
      | some y =>
        cases y with
        | error e => simp
        | ok x =>
          have hxi : x.2 ≠ i := by
            intro hxi
            apply hno
            refine ⟨h1, fun j hj o' n' ho' ht' hn' hp => ?_⟩
            have hjm : (o', j) ∈ subMatches os n := by
              unfold subMatches
              rw [List.mem_filter]
              exact ⟨List.mk_mem_zipIdx_iff_getElem?.2 ho', by simp [ht', hn', hp]⟩
            have hs := subMatches_sorted os n
            unfold subChoice at hc
            cases hm : subMatches os n with
            | nil => rw [hm] at hjm; simp at hjm
            | cons z zs =>
              rw [hm] at hc hs hjm
              have hz : z = x := by
                cases zs with
                | nil => simpa using hc
                | cons z' zs =>
                  simp only at hc
                  split at hc
                  · simpa using hc
                  · simp at hc
              subst hz
              rcases List.mem_cons.1 hjm with h | h
              · have : j = z.2 := by rw [← h]
                omega
              · have : z.2 < j := (List.pairwise_cons.1 hs).1 _ h
                omega
          have : ¬ i = x.2 := fun h => hxi h.symm
          simp [this]

/-- **C106** The claim for accepted definitions: whatever name the help of the main program shows for a flag or a subcommand,
    typing it reaches this flag or this subcommand. -/
def C106_claim : Prop :=
  ∀ (W : World) (fuel : Nat) (tables : List (List Opt)) (prog : Str) (version : Option Str) (a : Argus) (os : List Opt),
    argusInitValidate W fuel tables prog version = .ok (some (some a)) → a.tables[a.root]? = some os →
    ∀ i ∈ listed os, ∀ o, os[i]? = some o →
      (o.type = .option → o.valueType = .flag → ∀ l, o.lname = some l →
        parseArgs W a (some a.root) [c!"--" ++ l] = execCallbacks W a ⟨a.root, i⟩ none) ∧
      (o.type = .subcommand → ∀ n, o.name = some n →
        parseArgs W a (some a.root) [n] = (enterSub a ⟨a.root, i⟩).bind fun e => .ok (Err.success, e.2))

/-- The names of a level can all be told apart as they are read: long names are distinct, not empty, at most 63 bytes long and
    without `=`; short names are distinct, no dash, digit or dot; names of subcommands do not begin with a dash, and
    none begins another. -/
structure NamesApart (os : List Opt) : Prop where
  long : ∀ (i j : Nat) (o o' : Opt) (l : Str), os[i]? = some o → os[j]? = some o' → o.type = .option → o'.type = .option →
    o.lname = some l → o'.lname = some l → i = j
  whole : ∀ o ∈ os, o.type = .option → ∀ l, o.lname = some l → l ≠ [] ∧ l.length ≤ 63 ∧ (61 : Byte) ∉ l
  short : ∀ (i j : Nat) (o o' : Opt), os[i]? = some o → os[j]? = some o' → o.type = .option → o'.type = .option →
    o.sname ≠ 0 → o.sname = o'.sname → i = j
  letter : ∀ o ∈ os, o.type = .option → o.sname ≠ 45 ∧ o.sname ≠ 46 ∧ ¬ (48 ≤ o.sname ∧ o.sname ≤ 57)
  command : ∀ (i j : Nat) (o o' : Opt) (n n' : Str), os[i]? = some o → os[j]? = some o' → o.type = .subcommand → o'.type = .subcommand →
    o.name = some n → o'.name = some n' → n <+: n' → i = j
  word : ∀ o ∈ os, o.type = .subcommand → ∀ n, o.name = some n → n.head? ≠ some 45

theorem isDigit_false {c : Byte} (h : ¬ (48 ≤ c ∧ c ≤ 57)) : isDigit c = false := by
  unfold isDigit
  simpa using h

/-- **C106** If the names of a level can be told apart, then what the help shows can be typed: the line of an option begins with
    its names, each of them reaches this option with the value it is given, and the name of a subcommand selects this
    subcommand. (This holds for all entries of the level; the help lists those that are not hidden, `C43_once`.)
    Full statement: `C106_claim`, without `NamesApart`. Missing: definitions with names that cannot be told apart are
    accepted (`C106_claim_false`, `C106_number_case`, `C106_prefix_case`). -/
theorem C106_listed_partial (F : Fmt) (W : World) (a : Argus) (t : Nat) (os : List Opt) (htab : a.tables[t]? = some os)
    (hn : NamesApart os) (i : Nat) (o : Opt) (hi : os[i]? = some o) :
    (o.type = .option →
      (∃ rest, optionName F a.helper o = o.typed ++ rest) ∧
      (∀ l, o.lname = some l →
        (o.valueType = .flag → parseArgs W a (some t) [c!"--" ++ l] = execCallbacks W a ⟨t, i⟩ none) ∧
        (o.valueType ≠ .flag → ∀ v, parseArgs W a (some t) [c!"--" ++ (l ++ c!"=" ++ v)] =
          execCallbacks W a ⟨t, i⟩ (some v))) ∧
      (o.sname ≠ 0 →
        (o.valueType = .flag → parseArgs W a (some t) [[45, o.sname]] = execCallbacks W a ⟨t, i⟩ none) ∧
        (o.valueType ≠ .flag → ∀ v, v ≠ [] → parseArgs W a (some t) [45 :: o.sname :: v] =
          execCallbacks W a ⟨t, i⟩ (some v)))) ∧
    (o.type = .subcommand → ∀ n, o.name = some n →
      parseArgs W a (some t) [n] = (enterSub a ⟨t, i⟩).bind fun e => .ok (Err.success, e.2)) := by
  have hmem : o ∈ os := List.mem_of_getElem? hi
  refine ⟨fun ht => ⟨?_, fun l hl => ?_, fun hs => ?_⟩, fun ht n hname => ?_⟩
  · rw [optTyped_eq]; exact ⟨_, rfl⟩
  · obtain ⟨w1, w2, w3⟩ := hn.whole o hmem ht l hl
    have own : OwnLong os i l := ⟨w2, w3, fun j hj o' ho' ht' hl' => by
      have := hn.long i j o o' l hi ho' ht ht' hl hl'; omega⟩
    exact ⟨fun hf => (C106_long_flag W a t i os o l htab hi ht hf hl w1).1 own,
      fun hf v => (C106_long_value W a t i os o l v htab hi ht hf hl).1 own⟩
  · obtain ⟨w1, w2, w3⟩ := hn.letter o hmem ht
    have own : OwnShort os i o.sname := fun j hj o' ho' ht' hs' => by
      have := hn.short i j o o' hi ho' ht ht' hs hs'.symm; omega
    have hneg : ∀ v, negNumber os 0 (o.sname :: v) = false := by
      intro v; simp [negNumber, looksNumeric, isDigit_false w3, w2]
    exact ⟨fun hf => (C106_short_flag W a t i os o htab hi ht hf).1 ⟨w1, own, hneg []⟩,
      fun hf v hv => (C106_short_value W a t i os o v htab hi ht hf hv w1).1 ⟨own, hneg v⟩⟩
  · refine (C106_command W a t i os o n htab hi ht hname).1 ⟨hn.word o hmem ht n hname, ?_⟩
    intro j hj o' n' ho' ht' hn' hp
    have := hn.command i j o o' n n' hi ho' ht ht' hname hn' hp; omega

/-- **C106** In a definition that debug mode accepts, at every level: the long name the help shows for a flag reaches it exactly
    if it has at most 63 bytes and no `=`, and the short name exactly if it is not read as a negative number. -/
theorem C106_accepted (W : World) (fuel : Nat) (tables : List (List Opt)) (prog : Str) (version : Option Str) (a : Argus)
    (hacc : argusInitValidate W fuel tables prog version = .ok (some (some a))) (k : Nat) (hk : Reaches tables 0 k) :
    ∃ os, a.tables[k]? = some os ∧ ∀ i o, os[i]? = some o → o.type = .option → o.valueType = .flag →
      (∀ l, o.lname = some l →
        (l.length ≤ 63 ∧ (61 : Byte) ∉ l → parseArgs W a (some k) [c!"--" ++ l] = execCallbacks W a ⟨k, i⟩ none) ∧
        (¬ (l.length ≤ 63 ∧ (61 : Byte) ∉ l) → ∀ r, parseArgs W a (some k) [c!"--" ++ l] = .ok r →
          r.2.getOpt ⟨k, i⟩ = a.getOpt ⟨k, i⟩)) ∧
      (o.sname ≠ 0 →
        (negNumber os 0 [o.sname] = false → parseArgs W a (some k) [[45, o.sname]] = execCallbacks W a ⟨k, i⟩ none) ∧
        (negNumber os 0 [o.sname] = true → ∀ r, parseArgs W a (some k) [[45, o.sname]] = .ok r →
          r.2.getOpt ⟨k, i⟩ = a.getOpt ⟨k, i⟩)) := by
  obtain ⟨os, h1, h2⟩ := ((C40_accepts_exactly_well_formed W tables prog version).1 ⟨fuel, a, hacc⟩).level k hk
  have ha := C40_same_context W fuel tables prog version a hacc
  have htab : a.tables[k]? = some os := by rw [ha]; exact h1
  refine ⟨os, htab, fun i o hi ht hf => ⟨fun l hl => ?_, fun hs => ?_⟩⟩
  · have hne := (h2.longForm o (List.mem_of_getElem? hi) l hl).1
    have hd : ∀ j < i, ∀ o', os[j]? = some o' → o'.type = .option → o'.lname ≠ some l := by
      intro j hj o' ho' _ hl'
      have hp := h2.longDistinct
      rw [List.pairwise_iff_getElem] at hp
      obtain ⟨hil, hgi⟩ := List.getElem?_eq_some_iff.1 hi
      obtain ⟨hjl, hgj⟩ := List.getElem?_eq_some_iff.1 ho'
      have := (hp j i hjl hil hj l (by rw [hgj]; exact hl')).2
      rw [hgi] at this
      exact this hl
    have hc := C106_long_flag W a k i os o l htab hi ht hf hl hne
    exact ⟨fun h => hc.1 ⟨h.1, h.2, hd⟩, fun h => hc.2 (fun h' => h ⟨h'.1, h'.2.1⟩)⟩
  · have h45 := (h2.shortForm o (List.mem_of_getElem? hi)).2
    have hd : OwnShort os i o.sname := by
      intro j hj o' ho' _ hl'
      have hp := h2.shortDistinct
      rw [List.pairwise_iff_getElem] at hp
      obtain ⟨hil, hgi⟩ := List.getElem?_eq_some_iff.1 hi
      obtain ⟨hjl, hgj⟩ := List.getElem?_eq_some_iff.1 ho'
      have := hp j i hjl hil hj (by rw [hgj, hl']; exact hs)
      rw [hgi, hgj] at this
      exact this hl'
    have hc := C106_short_flag W a k i os o htab hi ht hf
    exact ⟨fun h => hc.1 ⟨h45, hd, h⟩, fun h => hc.2 (fun h' => by rw [h'.2.2] at h; simp at h)⟩

/-! ## Cases -/

/-- A flag with `=` in its name, a flag `-5`, and a number as positional. -/
def Sample.shownFlags : List (List Opt) :=
  [[helpOption, (optFlag 0 (some c!"a=b")).withHelp c!"a flag", (optFlag 53 none).withHelp c!"five",
    (posInt c!"num").withHelp c!"a number"]]

/-- Two subcommands, the name of the second begins that of the first. -/
def Sample.shownCommands : List (List Opt) :=
  [[helpOption, (subcommand c!"address" 1).withHelp c!"address", (subcommand c!"add" 1).withHelp c!"add"], [helpOption]]

/-- **C106** is violated: debug mode accepts a flag named `a=b`, the help shows `--a=b`, and `prog --a=b` fails and leaves the
    flag as it was. -/
theorem C106_claim_false : ¬ C106_claim := by
  intro h
  have := (h Sample.world 9 Sample.shownFlags c!"prog" none (argusInit Sample.shownFlags c!"prog" none) _ rfl rfl 1
    (by decide +kernel) _ rfl).1 rfl rfl c!"a=b" rfl
  have h1 := congrArg (fun x => x.toOption.map (·.1)) this
  revert h1
  decide +kernel

/-- **C106** The help shows `-5`, and `prog -5` gives -5 to the positional. -/
theorem C106_number_case : ∃ a, argusInitValidate Sample.world 9 Sample.shownFlags c!"prog" none = .ok (some (some a)) ∧
    2 ∈ listed (Sample.shownFlags[0]?.getD []) ∧
    ∃ r, parseArgs Sample.world a (some 0) [c!"-5"] = .ok r ∧ r.1 = Err.success ∧
      (r.2.getOpt ⟨0, 2⟩).toOption.map (·.isSet) = some false ∧
      (r.2.getOpt ⟨0, 3⟩).toOption.map (·.value) = some (.word (.ofInt64 (-5))) :=
  ⟨_, rfl, by decide +kernel, _, rfl, by decide +kernel, by decide +kernel, by decide +kernel⟩

/-- **C106** The help shows the subcommand `add`, and `prog add` fails as ambiguous, as `address` is declared before it. -/
theorem C106_prefix_case : ∃ a, argusInitValidate Sample.world 9 Sample.shownCommands c!"prog" none = .ok (some (some a)) ∧
    2 ∈ listed (Sample.shownCommands[0]?.getD []) ∧
    ∃ r, parseArgs Sample.world a (some 0) [c!"add"] = .ok r ∧ r.1 = Err.ambiguousSubcommand ∧
      (r.2.getOpt ⟨0, 2⟩).toOption.map (·.isSet) = some false :=
  ⟨_, rfl, by decide +kernel, _, rfl, by decide +kernel, by decide +kernel⟩

theorem Sample.checked_apart : NamesApart (Sample.checked[0]?.getD []) := by
  have lt : ∀ {i : Nat} {o : Opt}, (Sample.checked[0]?.getD [])[i]? = some o → i = 0 ∨ i = 1 ∨ i = 2 ∨ i = 3 := by
    intro i o h
    have : i < 4 := (List.getElem?_eq_some_iff.1 h).1
    omega
  have mem : ∀ {o : Opt}, o ∈ Sample.checked[0]?.getD [] → ∃ i : Nat, (Sample.checked[0]?.getD [])[i]? = some o :=
    fun h => List.getElem?_of_mem h
  constructor
  · intro i j o o' l hi hj ht ht' hl hl'
    rcases lt hi with rfl | rfl | rfl | rfl <;> rcases lt hj with rfl | rfl | rfl | rfl <;> cases hi <;> cases hj <;>
      first | rfl | exact absurd (hl.trans hl'.symm) (by decide) | exact absurd ht (by decide) | exact absurd ht' (by decide)
  · intro o ho ht l hl
    obtain ⟨i, hi⟩ := mem ho
    rcases lt hi with rfl | rfl | rfl | rfl <;> cases hi <;> first | exact absurd ht (by decide) | (cases hl; decide)
  · intro i j o o' hi hj ht ht' h0 he
    rcases lt hi with rfl | rfl | rfl | rfl <;> rcases lt hj with rfl | rfl | rfl | rfl <;> cases hi <;> cases hj <;>
      first | rfl | exact absurd he (by decide) | exact absurd ht (by decide) | exact absurd ht' (by decide)
  · intro o ho ht
    obtain ⟨i, hi⟩ := mem ho
    rcases lt hi with rfl | rfl | rfl | rfl <;> cases hi <;> first | exact absurd ht (by decide) | decide
  · intro i j o o' n n' hi hj ht ht' _ _ _
    rcases lt hi with rfl | rfl | rfl | rfl <;> rcases lt hj with rfl | rfl | rfl | rfl <;> cases hi <;> cases hj <;>
      first | rfl | exact absurd ht (by decide) | exact absurd ht' (by decide)
  · intro o ho ht n hn
    obtain ⟨i, hi⟩ := mem ho
    rcases lt hi with rfl | rfl | rfl | rfl <;> cases hi <;> first | exact absurd ht (by decide) | (cases hn; decide)

/-- The hypotheses are met by a definition that debug mode accepts: `run` selects the subcommand, and `-p81` reaches `--port`. -/
example (F : Fmt) :
    (∃ a, argusInitValidate Sample.world 9 Sample.checked c!"prog" none = .ok (some (some a))) ∧
    parseArgs Sample.world (argusInit Sample.checked c!"prog" none) (some 0) [c!"-p81"] =
      execCallbacks Sample.world (argusInit Sample.checked c!"prog" none) ⟨0, 2⟩ (some c!"81") ∧
    parseArgs Sample.world (argusInit Sample.checked c!"prog" none) (some 0) [c!"run"] =
      (enterSub (argusInit Sample.checked c!"prog" none) ⟨0, 3⟩).bind fun e => .ok (Err.success, e.2) :=
  ⟨⟨_, rfl⟩,
   (((C106_listed_partial F Sample.world (argusInit Sample.checked c!"prog" none) 0 _ rfl Sample.checked_apart 2 _ rfl).1
      rfl).2.2 (by decide)).2 (by decide) c!"81" (by decide),
   (C106_listed_partial F Sample.world (argusInit Sample.checked c!"prog" none) 0 _ rfl Sample.checked_apart 3 _ rfl).2
      rfl c!"run" rfl⟩

/-- The value of a long option, and a long name that belongs to an earlier option. -/
example :
    (∃ r, parseArgs Sample.world (argusInit Sample.checked c!"prog" none) (some 0) [c!"--port=81"] = .ok r ∧
      (r.2.getOpt ⟨0, 2⟩).toOption.map (·.value) = some (.word (.ofInt64 81))) ∧
    (∃ r, parseArgs Sample.world (argusInit Sample.checked c!"prog" none) (some 0) [c!"-p", c!"--verbose"] = .ok r ∧
      (r.2.getOpt ⟨0, 1⟩).toOption.map (·.isSet) = some false ∧ (r.2.getOpt ⟨0, 2⟩).toOption.map (·.isSet) = some true) ∧
    ¬ OwnLong [optFlag 97 (some c!"all"), optFlag 98 (some c!"all")] 1 c!"all" :=
  ⟨⟨_, rfl, by decide +kernel⟩, ⟨_, rfl, by decide +kernel, by decide +kernel⟩, fun h => h.2.2 0 (by decide) _ rfl rfl rfl⟩

end Argus
