import Verif.Spec.Meaning
import Verif.Lemmas.Positional

/-! The parser carries out the meaning of the command line. -/

set_option autoImplicit false

namespace Argus

/-! ### Lookups depend on metadata only -/

theorem longIdx_meta (os : List Opt) (n : Str) : longIdx (os.map Opt.meta) n = longIdx os n := by
  unfold longIdx; rw [List.findIdx?_map]; rfl

theorem shortIdx_meta (os : List Opt) (c : Byte) : shortIdx (os.map Opt.meta) c = shortIdx os c := by
  unfold shortIdx; rw [List.findIdx?_map]; rfl

theorem isFlagAt_meta (os : List Opt) (i : Nat) : isFlagAt (os.map Opt.meta) i = isFlagAt os i := by
  unfold isFlagAt; rw [List.getElem?_map, Option.any_map]; rfl

theorem slotAt_meta (os : List Opt) (k : Nat) :
    slotAt (os.map Opt.meta) k = (slotAt os k).map (fun x => (x.1.meta, x.2)) := by
  unfold slotAt
  rw [List.zipIdx_map, List.filter_map, slotBy_map]; rfl

theorem subMatches_meta (os : List Opt) (arg : Str) :
    subMatches (os.map Opt.meta) arg = (subMatches os arg).map (fun x => (x.1.meta, x.2)) := by
  unfold subMatches
  rw [List.zipIdx_map, List.filter_map]; rfl

theorem posActs_meta (t : Nat) (os : List Opt) (pos : Nat) (arg : Str) :
    posActs t (os.map Opt.meta) pos arg = posActs t os pos arg := by
  unfold posActs; rw [slotAt_meta]; cases slotAt os pos <;> rfl

theorem longActs_meta (t : Nat) (os : List Opt) (name : Str) (v n : Option Str) :
    longActs t (os.map Opt.meta) name v n = longActs t os name v n := by
  unfold longActs; rw [longIdx_meta]; simp only [isFlagAt_meta]

theorem shortActs_meta (t : Nat) (os : List Opt) (n : Option Str) : ∀ cs : Str,
    shortActs t (os.map Opt.meta) n cs = shortActs t os n cs
  | [] => rfl
  | c :: cs => by
    unfold shortActs
    rw [shortIdx_meta, shortActs_meta t os n cs]
    simp only [isFlagAt_meta]

theorem negNumber_meta (os : List Opt) (pos : Nat) (cl : Str) :
    negNumber (os.map Opt.meta) pos cl = negNumber os pos cl := by
  unfold negNumber; rw [slotAt_meta, Option.any_map]; rfl

theorem subChoice_meta (os : List Opt) (arg : Str) : subChoice (os.map Opt.meta) arg =
    (subChoice os arg).map (fun e => e.map (fun x => (x.1.meta, x.2))) := by
  unfold subChoice
  rw [subMatches_meta]
  match subMatches os arg with
  | [] => rfl
  | [x] => rfl
  | x :: y :: l =>
    simp only [List.map_cons]
    by_cases h : x.1.name = some arg
    · have h' : x.1.meta.name = some arg := h
      simp only [h, h', if_true]; rfl
    · have h' : ¬ x.1.meta.name = some arg := h
      simp only [h, h', if_false]; rfl

theorem meaning_shape (tables : List (List Opt)) : ∀ (args : List Str) (t : Option Nat) (pos : Nat)
    (only skip : Bool), meaning (tables.map (·.map Opt.meta)) t pos only skip args =
      meaning tables t pos only skip args
  | [], _, _, _, skip => by cases skip <;> rfl
  | arg :: rest, t, pos, only, true => by
    unfold meaning; exact meaning_shape tables rest t pos only false
  | arg :: rest, t, pos, only, false => by
    have ih := meaning_shape tables rest
    unfold meaning
    split
    · exact ih t pos true false
    split
    · exact ih t pos only false
    · cases t with
      | none => rfl
      | some k =>
        simp only [Option.bind_some, List.getElem?_map]
        cases tables[k]? with
        | none => rfl
        | some os =>
          simp only [Option.map_some, posActs_meta, longActs_meta, shortActs_meta, negNumber_meta,
            subChoice_meta, ih]
          cases subChoice os arg with
          | none => rfl
          | some e =>
            cases e with
            | error c => rfl
            | ok x =>
              simp only [Option.map_some, Except.map]
              rfl

theorem meaning_congr {a b : Argus} (h : b.shape = a.shape) (t : Option Nat) (pos : Nat)
    (only skip : Bool) (args : List Str) :
    meaning b.tables t pos only skip args = meaning a.tables t pos only skip args := by
  rw [← meaning_shape b.tables, ← meaning_shape a.tables]
  unfold Argus.shape at h
  rw [h]

/-! ### Spelling -/

theorem strchrSplit_mem (c : Byte) : ∀ s : Str, c ∈ s →
    strchrSplit c s = some (s.takeWhile (· != c), (s.dropWhile (· != c)).drop 1)
  | [], h => by simp at h
  | b :: bs, h => by
    unfold strchrSplit
    by_cases hb : b = c
    · subst hb; simp
    · have hb' : (b == c) = false := by simp [hb]
      have : c ∈ bs := by
        rcases List.mem_cons.1 h with h | h
        · exact absurd h.symm hb
        · exact h
      simp [hb, strchrSplit_mem c bs this]

theorem longParts_kind (r : Str) :
    (if (61 : Byte) ∈ r then
      ArgKind.long ((r.takeWhile (· != 61)).take 63) (some ((r.dropWhile (· != 61)).drop 1))
    else .long (r.take 63) none) = .long (longParts r).1 (longParts r).2 := by
  unfold longParts
  split
  · rename_i h; rw [strchrSplit_mem 61 r h]
  · rename_i h; rw [(strchrSplit_none_iff 61 r).2 h]

/-- The kind of an argument as the parser finds it out. -/
theorem argKind_cases (arg : Str) :
    (arg = [45, 45] ∧ argKind arg = .dashes) ∨
    (arg ≠ [45, 45] ∧ ∃ r, startsWith [45, 45] arg = some r ∧
      argKind arg = .long (longParts r).1 (longParts r).2) ∨
    (arg ≠ [45, 45] ∧ startsWith [45, 45] arg = none ∧ ∃ r, startsWith [45] arg = some r ∧
      argKind arg = .short r) ∨
    (arg ≠ [45, 45] ∧ startsWith [45, 45] arg = none ∧ startsWith [45] arg = none ∧
      argKind arg = .word) := by
  unfold argKind
  split
  · left; exact ⟨rfl, rfl⟩
  · rename_i r hr
    right; left
    refine ⟨by simpa using hr, r, startsWith_dd_long r, longParts_kind r⟩
  · rename_i r _ hr
    right; right; left
    have h2 : startsWith [45, 45] (45 :: r) = none := by
      cases r with
      | nil => rfl
      | cons c r =>
        apply startsWith_dd_none
        rintro rfl; exact hr r rfl
    refine ⟨?_, h2, r, startsWith_d r, rfl⟩
    rintro h; rw [h] at h2; simp [startsWith_dd_long] at h2
  · rename_i h1 h2 h3
    right; right; right
    have hd : arg.head? ≠ some 45 := by
      cases arg with
      | nil => simp
      | cons c r =>
        simp only [List.head?_cons, ne_eq, Option.some.injEq]
        rintro rfl
        exact h3 r rfl
    refine ⟨?_, startsWith_dash_none rfl hd, startsWith_dash_none rfl hd, rfl⟩
    rintro rfl; exact hd rfl

/-! ### Subcommand choice -/

theorem findSubFrom_matches (name : Str) : ∀ (os : List Opt) (i : Nat) (sub : Option Nat),
    findSubFrom name i sub os =
      match sub, (os.zipIdx i).filter (fun x =>
        decide (x.1.type = .subcommand ∧ x.1.name.any (fun n => name.isPrefixOf n) = true)) with
      | sub, [] => (Err.success, sub)
      | some _, _ :: _ => (Err.ambiguousSubcommand, none)
      | none, [x] => (Err.success, some x.2)
      | none, x :: _ :: _ =>
        if x.1.name = some name then (Err.success, some x.2) else (Err.ambiguousSubcommand, none)
  | [], i, sub => by cases sub <;> rfl
  | o :: os, i, sub => by
    have ih := findSubFrom_matches name os (i + 1)
    unfold findSubFrom
    rw [List.zipIdx_cons]
    split
    · rename_i n ht hn
      by_cases hp : name <+: n
      · have hs : (startsWith name n).isSome = true := by
          cases h : startsWith name n with
          | none => rw [startsWith_eq_none_iff] at h; exact absurd hp h
          | some _ => rfl
        rw [List.filter_cons_of_pos (by simp [ht, hn, hp])]
        simp only [hs, if_true]
        cases sub with
        | some j => simp
        | none =>
          simp only [Option.isSome_none, Bool.false_eq_true, if_false]
          rw [ih (some i)]
          by_cases he : name = n
          · subst he
            simp only [strcmp_self, if_true]
            cases List.filter (fun x : Opt × Nat => decide (x.1.type = OptType.subcommand ∧
              (x.1.name.any fun n => name.isPrefixOf n) = true)) (os.zipIdx (i + 1)) <;> simp [hn]
          · have he1 : ¬ strcmp name n = 0 := by rw [strcmp_eq_zero_iff]; exact he
            have he2 : ¬ n = name := fun h => he h.symm
            simp only [he1, if_false]
            cases List.filter (fun x : Opt × Nat => decide (x.1.type = OptType.subcommand ∧
              (x.1.name.any fun n => name.isPrefixOf n) = true)) (os.zipIdx (i + 1)) <;> simp [hn, he2]
      · have hs : (startsWith name n).isSome = false := by
          rw [(startsWith_eq_none_iff name n).2 hp]; rfl
        rw [List.filter_cons_of_neg (by simp [hn, hp])]
        simp only [hs, Bool.false_eq_true, if_false]
        exact ih sub
    · rename_i hno
      rw [List.filter_cons_of_neg ?_]
      · exact ih sub
      · simp only [decide_eq_true_eq, not_and]
        intro ht
        cases hn : o.name with
        | none => simp
        | some n => exact absurd hn (hno n ht)

theorem findSub_choice (os : List Opt) (arg : Str) : findSub os arg =
    match subChoice os arg with
    | none => (Err.success, none)
    | some (.ok x) => (Err.success, some x.2)
    | some (.error c) => (c, none) := by
  unfold findSub subChoice subMatches
  rw [findSubFrom_matches]
  match List.filter (fun x : Opt × Nat => decide (x.1.type = OptType.subcommand ∧
      (x.1.name.any fun n => arg.isPrefixOf n) = true)) os.zipIdx with
  | [] => rfl
  | [x] => rfl
  | x :: y :: l =>
    simp only
    by_cases h : x.1.name = some arg
    · simp only [h, if_true]
    · simp only [h, if_false]

theorem subChoice_get {os : List Opt} {arg : Str} {x : Opt × Nat}
    (h : subChoice os arg = some (.ok x)) : os[x.2]? = some x.1 ∧ x.1.type = .subcommand := by
  have hmem : x ∈ subMatches os arg := by
    unfold subChoice at h
    split at h
    · simp at h
    · rename_i y hy; simp only [Option.some.injEq, Except.ok.injEq] at h; subst h; rw [hy]; simp
    · rename_i y l hl hy
      split at h
      · simp only [Option.some.injEq, Except.ok.injEq] at h; subst h; rw [hy]; simp
      · simp at h
  unfold subMatches at hmem
  rw [List.mem_filter] at hmem
  refine ⟨List.mk_mem_zipIdx_iff_getElem?.1 hmem.1, ?_⟩
  have := hmem.2
  simp only [decide_eq_true_eq] at this
  exact this.1

theorem subChoice_error {os : List Opt} {arg : Str} {c : Int}
    (h : subChoice os arg = some (.error c)) : c = Err.ambiguousSubcommand := by
  unfold subChoice at h
  split at h
  · simp at h
  · simp at h
  · split at h
    · simp at h
    · simp only [Option.some.injEq, Except.error.injEq] at h; exact h.symm

/-! ### Running -/

theorem run_give (W : World) (a : Argus) (p : Ptr) (x : Option Str) :
    run W a [.give p x] = execCallbacks W a p x := by
  unfold run
  cases execCallbacks W a p x with
  | ub u => rfl
  | ok r =>
    simp only [Out.ok_bind]
    by_cases h : r.1 = Err.success
    · simp only [h, ne_eq, not_true_eq_false, if_false, run]; rw [← h]
    · simp only [h, ne_eq, not_false_eq_true, if_true]

theorem run_append {W : World} : ∀ (xs ys : List Act) (a : Argus),
    (∀ c, Act.fail c ∈ xs → c ≠ Err.success) →
    run W a (xs ++ ys) = (do
      let r ← run W a xs
      if r.1 ≠ Err.success then .ok r else run W r.2 ys)
  | [], ys, a, _ => by simp [run]
  | .give p x :: xs, ys, a, h => by
    simp only [List.cons_append, run]
    cases execCallbacks W a p x with
    | ub u => rfl
    | ok r =>
      simp only [Out.ok_bind]
      by_cases h0 : r.1 = Err.success
      · simp only [h0, ne_eq, not_true_eq_false, if_false]
        exact run_append xs ys r.2 (fun c hc => h c (by simp [hc]))
      · simp only [h0, ne_eq, not_false_eq_true, if_true, Out.ok_bind]
  | .enter p :: xs, ys, a, h => by
    simp only [List.cons_append, run]
    cases enterSub a p with
    | ub u => rfl
    | ok r =>
      simp only [Out.ok_bind]
      exact run_append xs ys r.2 (fun c hc => h c (by simp [hc]))
  | .fail c :: xs, ys, a, h => by
    have := h c (by simp)
    simp only [List.cons_append, run, Out.ok_bind, ne_eq, this, not_false_eq_true, if_true]
  | .noTable :: xs, ys, a, _ => by simp [run]

theorem run_shape {W : World} : ∀ (xs : List Act) {a : Argus} {r : Int × Argus},
    run W a xs = .ok r → r.2.shape = a.shape
  | [], a, r, h => by simp only [run, Out.ok.injEq] at h; subst h; rfl
  | .give p x :: xs, a, r, h => by
    unfold run at h
    obtain ⟨q, hq, h1⟩ := Out.bind_eq_ok h
    have hs := (execCallbacks_one hq).frame.shape
    split at h1
    · simp only [Out.ok.injEq] at h1; subst h1; exact hs
    · exact (run_shape xs h1).trans hs
  | .enter p :: xs, a, r, h => by
    unfold run at h
    obtain ⟨q, hq, h1⟩ := Out.bind_eq_ok h
    exact (run_shape xs h1).trans (enterSub_frame hq).1.shape
  | .fail c :: xs, a, r, h => by simp only [run, Out.ok.injEq] at h; subst h; rfl
  | .noTable :: xs, a, r, h => by simp [run] at h

/-! ### The parser -/

/-- The step after carrying out some acts. -/
def stepOf (pos : Nat) (only used : Bool) (r : Int × Argus) : Step :=
  if r.1 ≠ Err.success then .done r.1 r.2 else .next r.2 pos only used

theorem stepPositional_run {W : World} {a : Argus} {k : Nat} {os : List Opt}
    (ht : a.table (some k) = .ok os) (pos : Nat) (only : Bool) (arg : Str) :
    stepPositional W (some k) a pos only arg = (do
      let r ← run W a (posActs k os pos arg)
      .ok (stepOf (pos + 1) only false r)) := by
  unfold stepPositional
  rw [handlePositional_slot, ht, Out.ok_bind]
  unfold posActs
  cases slotAt os pos with
  | none => rfl
  | some x => simp only [run_give]; rfl

theorem longIdx_eq (os : List Opt) (n : Str) : findLname os n = longIdx os n := by
  unfold findLname longIdx
  congr 1; funext o
  rw [Bool.decide_and]; congr 1 <;> rw [Bool.eq_iff_iff] <;> simp

theorem shortIdx_eq (os : List Opt) (c : Byte) : findSname os c = shortIdx os c := by
  unfold findSname shortIdx
  congr 1; funext o
  rw [Bool.decide_and]; congr 1 <;> rw [Bool.eq_iff_iff] <;> simp

theorem handleLong_run {W : World} {a : Argus} {k : Nat} {os : List Opt}
    (ht : a.table (some k) = .ok os) (r : Str) (rest : List Str) (pos : Nat) :
    (do let q ← handleLong W a (some k) r rest
        .ok (q.step pos)) = (do
      let q ← run W a (longActs k os (longParts r).1 (longParts r).2 rest.head?).1
      .ok (stepOf pos false (longActs k os (longParts r).1 (longParts r).2 rest.head?).2 q)) := by
  unfold handleLong longActs
  rw [ht, Out.ok_bind, longIdx_eq]
  cases hl : longIdx os (longParts r).1 with
  | none => rfl
  | some i =>
    rw [← longIdx_eq] at hl
    obtain ⟨o, ho, -⟩ := findLname_some hl
    have hfl : isFlagAt os i = decide (o.valueType = .flag) := by simp [isFlagAt, ho]
    simp only [table_getOpt ht ho, Out.ok_bind, hfl]
    by_cases hf : o.valueType = .flag
    · simp only [hf, if_true, decide_true, run_give]
      cases execCallbacks W a ⟨k, i⟩ none <;> rfl
    · simp only [hf, if_false, decide_false, Bool.false_eq_true]
      cases hv : (longParts r).2 with
      | some v =>
        simp only [run_give]
        cases execCallbacks W a ⟨k, i⟩ (some v) <;> rfl
      | none =>
        cases rest with
        | nil => rfl
        | cons v rest =>
          simp only [run_give, List.head?_cons]
          cases execCallbacks W a ⟨k, i⟩ (some v) <;> rfl

theorem handleShort_run {W : World} {k : Nat} (rest : List Str) (pos : Nat) : ∀ (cs : Str) {a : Argus}
    {os : List Opt}, a.table (some k) = .ok os →
    (do let q ← handleShort W (some k) rest a cs
        .ok (q.step pos)) = (do
      let q ← run W a (shortActs k os rest.head? cs).1
      .ok (stepOf pos false (shortActs k os rest.head? cs).2 q))
  | [], a, os, _ => rfl
  | c :: cs, a, os, ht => by
    unfold handleShort shortActs
    rw [ht, Out.ok_bind, shortIdx_eq]
    cases hl : shortIdx os c with
    | none => rfl
    | some i =>
      rw [← shortIdx_eq] at hl
      obtain ⟨o, ho, -⟩ := findSname_some hl
      have hfl : isFlagAt os i = decide (o.valueType = .flag) := by simp [isFlagAt, ho]
      simp only [table_getOpt ht ho, Out.ok_bind, hfl]
      by_cases hf : o.valueType = .flag
      · simp only [hf, if_true, decide_true]
        unfold run
        cases hx : execCallbacks W a ⟨k, i⟩ none with
        | ub u => rfl
        | ok q =>
          simp only [Out.ok_bind]
          by_cases h0 : q.1 = Err.success
          · simp only [h0, ne_eq, not_true_eq_false, if_false]
            obtain ⟨os', ht', hm⟩ := shape_table (execCallbacks_one hx).frame.shape ht
            have := handleShort_run (W := W) rest pos cs ht'
            rw [← shortActs_meta, hm, shortActs_meta] at this
            exact this
          · simp only [h0, ne_eq, not_false_eq_true, if_true, Out.ok_bind]
            simp only [OptRes.step, stepOf, h0, ne_eq, not_false_eq_true, if_true]
      · simp only [hf, if_false, decide_false, Bool.false_eq_true]
        cases cs with
        | cons d ds =>
          simp only [run_give]
          cases execCallbacks W a ⟨k, i⟩ (some (d :: ds)) <;> rfl
        | nil =>
          cases rest with
          | nil => rfl
          | cons v rest =>
            simp only [run_give, List.head?_cons]
            cases execCallbacks W a ⟨k, i⟩ (some v) <;> rfl

theorem posActs_fail {t : Nat} {os : List Opt} {pos : Nat} {arg : Str} {c : Int}
    (h : Act.fail c ∈ posActs t os pos arg) : c ≠ Err.success := by
  unfold posActs at h
  split at h
  · simp at h
  · simp only [List.mem_cons, Act.fail.injEq, List.not_mem_nil, or_false] at h; rw [h]; decide

theorem longActs_fail {t : Nat} {os : List Opt} {name : Str} {v n : Option Str} {c : Int}
    (h : Act.fail c ∈ (longActs t os name v n).1) : c ≠ Err.success := by
  unfold longActs at h
  repeat' split at h
  all_goals simp at h
  all_goals (rw [h]; decide)

theorem shortActs_fail {t : Nat} {os : List Opt} {n : Option Str} {c : Int} : ∀ {cs : Str},
    Act.fail c ∈ (shortActs t os n cs).1 → c ≠ Err.success
  | [], h => by simp [shortActs] at h
  | d :: cs, h => by
    unfold shortActs at h
    split at h
    · simp at h; rw [h]; decide
    · split at h
      · simp only [List.mem_cons, reduceCtorEq, false_or] at h
        exact shortActs_fail h
      · split at h
        all_goals simp at h
        all_goals (rw [h]; decide)

theorem negNumber_eq {a : Argus} {t : Option Nat} {os : List Opt} (ht : a.table t = .ok os)
    (arg : Str) (pos : Nat) : isNegNumber a t arg pos = .ok (negNumber os pos arg) := by
  rw [isNegNumber_eq ht, slotOf_slotAt, Option.any_map]
  unfold negNumber
  congr 3
  funext x
  show x.1.valueType.isNumeric = _
  cases x.1.valueType <;> rfl

theorem table_ub {a : Argus} {t : Option Nat} {u : Ub} (h : a.table t = .ub u) :
    u = .nullDeref ∧ t.bind (fun k => a.tables[k]?) = none := by
  unfold Argus.table at h
  cases t with
  | none => simp only [Out.ub.injEq] at h; exact ⟨h.symm, rfl⟩
  | some k =>
    simp only at h
    cases hk : a.tables[k]? with
    | none => rw [hk] at h; simp only [Out.ub.injEq] at h; exact ⟨h.symm, by simp [hk]⟩
    | some os => rw [hk] at h; simp at h

/-- The loop of the parser carries out the meaning of the arguments. -/
theorem parseLoop_run {W : World} : ∀ (args : List Str) (t : Option Nat) (a : Argus) (pos : Nat)
    (only skip : Bool),
    parseLoop W t a pos only skip args = run W a (meaning a.tables t pos only skip args)
  | [], t, a, pos, only, skip => by cases skip <;> rfl
  | arg :: rest, t, a, pos, only, true => by
    unfold parseLoop meaning; exact parseLoop_run rest t a pos only false
  | arg :: rest, t, a, pos, only, false => by
    have ih := parseLoop_run (W := W) rest
    -- what remains once some acts are carried out
    have tail : ∀ (acts : List Act) (pos1 : Nat) (only1 used : Bool),
        (∀ c, Act.fail c ∈ acts → c ≠ Err.success) →
        (do match ← (do let r ← run W a acts
                        .ok (stepOf pos1 only1 used r) : Out Step) with
            | .done status a1 => .ok (status, a1)
            | .next a1 pos1 only1 used => parseLoop W t a1 pos1 only1 used rest
            | .enter t1 a1 => parseLoop W t1 a1 0 false false rest) =
          run W a (acts ++ meaning a.tables t pos1 only1 used rest) := by
      intro acts pos1 only1 used hf
      rw [run_append acts _ a hf]
      cases hr : run W a acts with
      | ub u => rfl
      | ok r =>
        simp only [Out.ok_bind]
        unfold stepOf
        by_cases h0 : r.1 = Err.success
        · simp only [h0, ne_eq, not_true_eq_false, if_false]
          rw [ih, meaning_congr (run_shape acts hr)]
        · simp only [h0, ne_eq, not_false_eq_true, if_true]
    unfold parseLoop meaning
    rcases argKind_cases arg with ⟨rfl, hk⟩ | ⟨hne, r, h1, hk⟩ | ⟨hne, h1, r, h2, hk⟩ | ⟨hne, h1, h2, hk⟩
    · have : parseStep W t a pos only [45, 45] rest = .ok (.next a pos true false) := by
        unfold parseStep; rw [if_pos rfl]
      rw [this, if_pos hk]
      exact ih t a pos true false
    -- a missing table
    all_goals have hnd : ¬ argKind arg = .dashes := by rw [hk]; simp
    all_goals rw [if_neg hnd]
    all_goals
      by_cases hlone : argKind arg = .short [] ∧ only = false
    · rw [hk] at hlone; simp at hlone
    · rw [if_neg hlone]
      cases htab : a.table t with
      | ub u =>
        obtain ⟨hu, hn⟩ := table_ub htab
        have hstep : parseStep W t a pos only arg rest = .ub .nullDeref := by
          unfold parseStep stepPositional handlePositional handleLong
          rw [if_neg hne, h1, htab, hu]
          cases only <;> rfl
        rw [hstep, hn]; cases t <;> rfl
      | ok os =>
        obtain ⟨k, rfl, hkt⟩ := table_eq_ok.1 htab
        simp only [Option.bind_some, hkt]
        unfold parseStep
        rw [if_neg hne, h1]
        cases only with
        | true =>
          simp only [if_true]
          rw [stepPositional_run htab]
          exact tail _ _ _ _ (fun c => posActs_fail)
        | false =>
          simp only [Bool.false_eq_true, if_false, hk]
          rw [handleLong_run htab]
          exact tail _ _ _ _ (fun c => longActs_fail)
    · rw [if_pos hlone]
      obtain ⟨hl, rfl⟩ := hlone
      rw [hk] at hl
      simp only [ArgKind.short.injEq] at hl
      subst hl
      have hstep : parseStep W t a pos false arg rest = .ok (.next a pos false false) := by
        unfold parseStep isNegNumber
        rw [if_neg hne, h1, h2]; rfl
      rw [hstep]
      exact ih t a pos false false
    · rw [if_neg hlone]
      cases htab : a.table t with
      | ub u =>
        obtain ⟨hu, hn⟩ := table_ub htab
        have hstep : parseStep W t a pos only arg rest = .ub .nullDeref := by
          unfold parseStep stepPositional handlePositional isNegNumber
          rw [if_neg hne, h1, h2, htab, hu]
          cases only with
          | true => rfl
          | false =>
            simp only [Bool.false_eq_true, if_false]
            split
            · rfl
            · simp only [Out.ok_bind, Bool.false_eq_true, if_false]
              cases r with
              | nil => exact absurd ⟨hk, rfl⟩ hlone
              | cons c cs => unfold handleShort; rw [htab, hu]; rfl
        rw [hstep, hn]; cases t <;> rfl
      | ok os =>
        obtain ⟨k, rfl, hkt⟩ := table_eq_ok.1 htab
        simp only [Option.bind_some, hkt]
        unfold parseStep
        rw [if_neg hne, h1, h2]
        cases only with
        | true =>
          simp only [if_true]
          rw [stepPositional_run htab]
          exact tail _ _ _ _ (fun c => posActs_fail)
        | false =>
          simp only [Bool.false_eq_true, if_false, hk, negNumber_eq htab, Out.ok_bind]
          by_cases hneg : negNumber os pos r = true
          · simp only [hneg, if_true]
            rw [stepPositional_run htab]
            exact tail _ _ _ _ (fun c => posActs_fail)
          · simp only [hneg, if_false, Bool.false_eq_true]
            rw [handleShort_run rest pos r htab]
            exact tail _ _ _ _ (fun c => shortActs_fail)
    · rw [hk] at hlone; simp at hlone
    · rw [if_neg hlone]
      cases htab : a.table t with
      | ub u =>
        obtain ⟨hu, hn⟩ := table_ub htab
        have hstep : parseStep W t a pos only arg rest = .ub .nullDeref := by
          unfold parseStep stepPositional handlePositional
          rw [if_neg hne, h1, h2, htab, hu]
          cases only <;> rfl
        rw [hstep, hn]; cases t <;> rfl
      | ok os =>
        obtain ⟨k, rfl, hkt⟩ := table_eq_ok.1 htab
        simp only [Option.bind_some, hkt]
        unfold parseStep
        rw [if_neg hne, h1, h2]
        cases only with
        | true =>
          simp only [if_true]
          rw [stepPositional_run htab]
          exact tail _ _ _ _ (fun c => posActs_fail)
        | false =>
          simp only [Bool.false_eq_true, if_false, hk, htab, Out.ok_bind, findSub_choice]
          cases hc : subChoice os arg with
          | none =>
            simp only [ne_eq, not_true_eq_false, if_false]
            rw [stepPositional_run htab]
            exact tail _ _ _ _ (fun c => posActs_fail)
          | some e =>
            cases e with
            | error c =>
              have hc' := subChoice_error hc
              subst hc'
              rfl
            | ok x =>
              obtain ⟨hx, -⟩ := subChoice_get hc
              simp only [ne_eq, not_true_eq_false, if_false, run]
              cases he : enterSub a ⟨k, x.2⟩ with
              | ub u => rfl
              | ok e =>
                simp only [Out.ok_bind]
                have hs := (enterSub_frame he).1.shape
                have he1 : e.1 = x.1.subOptions := by
                  unfold enterSub at he
                  rw [table_getOpt htab hx, Out.ok_bind] at he
                  split at he
                  · simp at he
                  · simp only [Out.ok.injEq] at he; rw [← he]
                rw [ih, he1, meaning_congr hs]

/-- `parse_args` carries out the meaning of the command line. -/
theorem parseArgs_run (W : World) (a : Argus) (args : List Str) :
    parseArgs W a (some a.root) args = run W a (a.asks args) :=
  parseLoop_run args (some a.root) a 0 false false

end Argus
