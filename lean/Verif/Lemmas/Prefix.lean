import Verif.Lemmas.FrameApi
import Verif.Lemmas.Strings
import Verif.Spec.Prefix

/-! Splitting a run of the parser at an argument. -/

set_option autoImplicit false

namespace Argus

/-- The handling of an option argument depends on the following arguments only through the first of
    them. -/
theorem handleLong_cons (W : World) (a : Argus) (t : Option Nat) (arg v : Str) (rs rs' : List Str) :
    handleLong W a t arg (v :: rs) = handleLong W a t arg (v :: rs') := by
  unfold handleLong
  congr 1; funext os
  split
  · congr 1; funext o
    split
    · rfl
    · cases (longParts arg).2 <;> rfl
  · rfl

theorem handleLong_nil {W : World} {a : Argus} {t : Option Nat} {arg : Str} {r : OptRes}
    (h : handleLong W a t arg [] = .ok r) (hr : r.status ≠ Err.missingValue) (more : List Str) :
    handleLong W a t arg more = .ok r := by
  unfold handleLong at h ⊢
  obtain ⟨os, hos, h1⟩ := Out.bind_eq_ok h
  rw [hos, Out.ok_bind]
  split
  · rename_i k i hf
    simp only [hf] at h1
    obtain ⟨o, ho, h2⟩ := Out.bind_eq_ok h1
    rw [ho, Out.ok_bind]
    split
    · rename_i hfl; rw [if_pos hfl] at h2; exact h2
    · rename_i hfl; rw [if_neg hfl] at h2
      cases hv : (longParts arg).2 with
      | some v => rw [hv] at h2; exact h2
      | none =>
        rw [hv] at h2
        simp only [Out.ok.injEq] at h2; subst h2; exact absurd rfl hr
  · rename_i hne
    split at h1
    · rename_i hf; exact absurd hf (hne _ _ rfl)
    · exact h1

theorem handleShort_cons (W : World) (t : Option Nat) (v : Str) (rs rs' : List Str) : ∀ (cs : Str)
    (a : Argus), handleShort W t (v :: rs) a cs = handleShort W t (v :: rs') a cs
  | [], a => rfl
  | c :: cs, a => by
    unfold handleShort
    congr 1; funext os
    split
    · congr 1; funext o
      split
      · congr 1; funext r
        split
        · rfl
        · exact handleShort_cons W _ v rs rs' cs r.2
      · cases cs <;> rfl
    · rfl

theorem handleShort_nil {W : World} {t : Option Nat} : ∀ (cs : Str) {a : Argus} {r : OptRes},
    handleShort W t [] a cs = .ok r → r.status ≠ Err.missingValue → ∀ more : List Str,
    handleShort W t more a cs = .ok r
  | [], a, r, h, _, more => h
  | c :: cs, a, r, h, hr, more => by
    unfold handleShort at h ⊢
    obtain ⟨os, hos, h1⟩ := Out.bind_eq_ok h
    rw [hos, Out.ok_bind]
    split
    · rename_i k i hf
      simp only [hf] at h1
      obtain ⟨o, ho, h2⟩ := Out.bind_eq_ok h1
      rw [ho, Out.ok_bind]
      split
      · rename_i hfl; rw [if_pos hfl] at h2
        obtain ⟨q, hq, h3⟩ := Out.bind_eq_ok h2
        rw [hq, Out.ok_bind]
        split
        · rename_i hq1; rw [if_pos hq1] at h3; exact h3
        · rename_i hq1; rw [if_neg hq1] at h3; exact handleShort_nil cs h3 hr more
      · rename_i hfl; rw [if_neg hfl] at h2
        cases cs with
        | cons d ds => exact h2
        | nil =>
          simp only [Out.ok.injEq] at h2; subst h2; exact absurd rfl hr
    · rename_i hne
      split at h1
      · rename_i hf; exact absurd hf (hne _ _ rfl)
      · exact h1

/-- A round that was not stopped for lack of a value is the same with more arguments behind. -/
def Step.notMissing : Step → Prop
  | .done st _ => st ≠ Err.missingValue
  | _ => True

theorem OptRes.notMissing {r : OptRes} {pos : Nat} (h : (r.step pos).notMissing) :
    r.status ≠ Err.missingValue := by
  unfold OptRes.step at h
  split at h
  · exact h
  · rename_i hs
    intro h'; rw [h'] at hs; exact hs (by decide)

theorem parseStep_append {W : World} {t : Option Nat} {a : Argus} {pos : Nat} {only : Bool} {arg : Str}
    {rest : List Str} {s : Step} (h : parseStep W t a pos only arg rest = .ok s)
    (hs : rest ≠ [] ∨ s.notMissing) (more : List Str) :
    parseStep W t a pos only arg (rest ++ more) = .ok s := by
  unfold parseStep at h ⊢
  split
  · rename_i h0; rw [if_pos h0] at h; exact h
  · rename_i h0; rw [if_neg h0] at h
    split
    · rename_i h1; rw [if_pos h1] at h; exact h
    · rename_i h1; rw [if_neg h1] at h
      cases hl : startsWith [45, 45] arg with
      | some la =>
        rw [hl] at h
        obtain ⟨r, hr, h2⟩ := Out.bind_eq_ok h
        have : handleLong W a t la (rest ++ more) = .ok r := by
          cases rest with
          | cons v rs => rw [List.cons_append, handleLong_cons W a t la v _ rs]; exact hr
          | nil =>
            simp only [Out.ok.injEq] at h2; subst h2
            exact handleLong_nil hr (OptRes.notMissing (hs.resolve_left (by simp))) more
        simp only [this, Out.ok_bind]; exact h2
      | none =>
        rw [hl] at h
        cases hsh : startsWith [45] arg with
        | some sa =>
          rw [hsh] at h
          simp only at h ⊢
          obtain ⟨neg, hneg, h2⟩ := Out.bind_eq_ok h
          rw [hneg, Out.ok_bind]
          split
          · rename_i hn; rw [if_pos hn] at h2; exact h2
          · rename_i hn; rw [if_neg hn] at h2
            obtain ⟨r, hr, h3⟩ := Out.bind_eq_ok h2
            have : handleShort W t (rest ++ more) a sa = .ok r := by
              cases rest with
              | cons v rs => rw [List.cons_append, handleShort_cons W t v _ rs]; exact hr
              | nil =>
                simp only [Out.ok.injEq] at h3; subst h3
                exact handleShort_nil _ hr (OptRes.notMissing (hs.resolve_left (by simp))) more
            rw [this, Out.ok_bind]; exact h3
        | none => rw [hsh] at h; exact h

/-- From a state reached by a prefix, the parse goes on as from the start. -/
theorem runPrefix_finish {W : World} : ∀ (pre : List Str) {s s' : PState},
    runPrefix W s pre = some s' → ∀ post, s.finish W (pre ++ post) = s'.finish W post
  | [], s, s', h, post => by
    simp only [runPrefix, Option.some.injEq] at h; rw [h]; rfl
  | arg :: rest, s, s', h, post => by
    unfold runPrefix at h
    obtain ⟨t, a, pos, only, skip⟩ := s
    cases skip with
    | true =>
      simp only [if_true] at h
      have := runPrefix_finish rest h post
      rw [← this]
      simp only [PState.finish, List.cons_append, parseLoop]
    | false =>
      simp only [Bool.false_eq_true, if_false] at h
      split at h
      · rename_i a1 pos1 only1 used hs
        have h2 := runPrefix_finish rest h post
        rw [← h2]
        simp only [PState.finish, List.cons_append, parseLoop]
        rw [parseStep_append hs (.inr trivial) post]; rfl
      · rename_i t1 a1 hs
        have h2 := runPrefix_finish rest h post
        rw [← h2]
        simp only [PState.finish, List.cons_append, parseLoop]
        rw [parseStep_append hs (.inr trivial) post]; rfl
      · simp at h

theorem Reach.parseArgs {W : World} {a : Argus} {pre : List Str} {s : PState} (h : Reach W a pre s)
    (post : List Str) : parseArgs W a (some a.root) (pre ++ post) = s.finish W post :=
  runPrefix_finish pre h post

/-- `used` is only reported when there is a next argument. -/
theorem handleLong_used {W : World} {a : Argus} {t : Option Nat} {arg : Str} {r : OptRes}
    (h : handleLong W a t arg [] = .ok r) : r.used = false := by
  unfold handleLong at h
  obtain ⟨os, _, h1⟩ := Out.bind_eq_ok h
  split at h1
  · obtain ⟨o, _, h2⟩ := Out.bind_eq_ok h1
    split at h2
    · obtain ⟨q, _, h3⟩ := Out.bind_eq_ok h2
      simp only [Out.ok.injEq] at h3; subst h3; rfl
    · split at h2
      · obtain ⟨q, _, h3⟩ := Out.bind_eq_ok h2
        simp only [Out.ok.injEq] at h3; subst h3; rfl
      · rename_i h0; simp at h0
      · simp only [Out.ok.injEq] at h2; subst h2; rfl
  · simp only [Out.ok.injEq] at h1; subst h1; rfl

theorem handleShort_used {W : World} {t : Option Nat} : ∀ (cs : Str) {a : Argus} {r : OptRes},
    handleShort W t [] a cs = .ok r → r.used = false
  | [], a, r, h => by simp only [handleShort, Out.ok.injEq] at h; subst h; rfl
  | c :: cs, a, r, h => by
    unfold handleShort at h
    obtain ⟨os, _, h1⟩ := Out.bind_eq_ok h
    split at h1
    · obtain ⟨o, _, h2⟩ := Out.bind_eq_ok h1
      split at h2
      · obtain ⟨q, _, h3⟩ := Out.bind_eq_ok h2
        split at h3
        · simp only [Out.ok.injEq] at h3; subst h3; rfl
        · exact handleShort_used cs h3
      · split at h2
        · obtain ⟨q, _, h3⟩ := Out.bind_eq_ok h2
          simp only [Out.ok.injEq] at h3; subst h3; rfl
        · simp at *
        · simp only [Out.ok.injEq] at h2; subst h2; rfl
    · simp only [Out.ok.injEq] at h1; subst h1; rfl

theorem stepPositional_used {W : World} {t : Option Nat} {a a' : Argus} {pos pos' : Nat}
    {only only' : Bool} {arg : Str} {used : Bool}
    (h : stepPositional W t a pos only arg = .ok (.next a' pos' only' used)) : used = false := by
  unfold stepPositional at h
  obtain ⟨r, _, h1⟩ := Out.bind_eq_ok h
  split at h1 <;> simp at h1
  exact h1.2.2.2

theorem parseStep_used {W : World} {t : Option Nat} {a a' : Argus} {pos pos' : Nat}
    {only only' used : Bool} {arg : Str}
    (h : parseStep W t a pos only arg [] = .ok (.next a' pos' only' used)) : used = false := by
  unfold parseStep at h
  split at h
  · simp at h; exact h.2.2.2
  · split at h
    · exact stepPositional_used h
    · split at h
      · obtain ⟨r, hr, h1⟩ := Out.bind_eq_ok h
        have := handleLong_used hr
        unfold OptRes.step at h1
        split at h1 <;> simp at h1
        rw [← h1.2.2.2]; exact this
      · split at h
        · obtain ⟨neg, _, h1⟩ := Out.bind_eq_ok h
          split at h1
          · exact stepPositional_used h1
          · obtain ⟨r, hr, h2⟩ := Out.bind_eq_ok h1
            have := handleShort_used _ hr
            unfold OptRes.step at h2
            split at h2 <;> simp at h2
            rw [← h2.2.2.2]; exact this
        · obtain ⟨os, _, h1⟩ := Out.bind_eq_ok h
          split at h1
          · simp at h1
          · split at h1
            · obtain ⟨e, _, h2⟩ := Out.bind_eq_ok h1
              simp at h2
            · exact stepPositional_used h1

theorem runPrefix_skip {W : World} : ∀ (pre : List Str) {s s' : PState},
    runPrefix W s pre = some s' → (pre = [] → s.skip = false) → s'.skip = false
  | [], s, s', h, hs => by
    simp only [runPrefix, Option.some.injEq] at h; rw [← h]; exact hs rfl
  | arg :: rest, s, s', h, _ => by
    unfold runPrefix at h
    split at h
    · exact runPrefix_skip rest h (fun _ => rfl)
    · split at h
      · rename_i hs
        refine runPrefix_skip rest h (fun hr => ?_)
        subst hr; exact parseStep_used hs
      · exact runPrefix_skip rest h (fun _ => rfl)
      · simp at h

/-- A prefix of the command line is never cut in the middle of an option and its value. -/
theorem Reach.skip {W : World} {a : Argus} {pre : List Str} {s : PState} (h : Reach W a pre s) :
    s.skip = false := runPrefix_skip pre h (fun _ => rfl)

/-- One round from a reached state. -/
theorem finish_cons {W : World} {s : PState} (hs : s.skip = false) (arg : Str) (rest : List Str) :
    s.finish W (arg :: rest) = (do
      match ← parseStep W s.t s.a s.pos s.only arg rest with
      | .done status a1 => .ok (status, a1)
      | .next a1 pos1 only1 used => parseLoop W s.t a1 pos1 only1 used rest
      | .enter t1 a1 => parseLoop W t1 a1 0 false false rest) := by
  unfold PState.finish
  rw [hs]; rfl

/-- Two command lines that agree after a common prefix. -/
theorem Reach.argusParse_congr {W : World} {env : Env} {a : Argus} {pre : List Str} {s : PState}
    (h : Reach W a pre s) {p q : List Str} (hpq : s.finish W p = s.finish W q) :
    argusParse W env a (pre ++ p) = argusParse W env a (pre ++ q) := by
  unfold argusParse
  rw [h.parseArgs, h.parseArgs, hpq]

/-! ### Lookups -/

theorem findLname_spec (os : List Opt) (n : Str) :
    (findLname os n).bind (fun i => os[i]?) = byLong os n := by
  unfold findLname byLong
  induction os with
  | nil => rfl
  | cons o os ih =>
    rw [List.findIdx?_cons, List.find?_cons]
    by_cases h : (o.type == OptType.option && o.lname == some n) = true
    · have h' : decide (o.type = OptType.option ∧ o.lname = some n) = true := by simpa using h
      rw [h, h']; rfl
    · have h' : decide (o.type = OptType.option ∧ o.lname = some n) = false := by
        rw [decide_eq_false_iff_not]; simpa using h
      rw [Bool.not_eq_true] at h
      rw [h, h', ← ih]
      cases List.findIdx? (fun o => o.type == OptType.option && o.lname == some n) os <;> rfl

theorem findSname_spec (os : List Opt) (c : Byte) :
    (findSname os c).bind (fun i => os[i]?) = byShort os c := by
  unfold findSname byShort
  induction os with
  | nil => rfl
  | cons o os ih =>
    rw [List.findIdx?_cons, List.find?_cons]
    by_cases h : (o.type == OptType.option && o.sname == c) = true
    · have h' : decide (o.type = OptType.option ∧ o.sname = c) = true := by simpa using h
      rw [h, h']; rfl
    · have h' : decide (o.type = OptType.option ∧ o.sname = c) = false := by
        rw [decide_eq_false_iff_not]; simpa using h
      rw [Bool.not_eq_true] at h
      rw [h, h', ← ih]
      cases List.findIdx? (fun o => o.type == OptType.option && o.sname == c) os <;> rfl

theorem findLname_lt {os : List Opt} {n : Str} {i : Nat} (h : findLname os n = some i) :
    i < os.length := by
  unfold findLname at h
  rw [List.findIdx?_eq_some_iff_getElem] at h; exact h.1

theorem findSname_lt {os : List Opt} {c : Byte} {i : Nat} (h : findSname os c = some i) :
    i < os.length := by
  unfold findSname at h
  rw [List.findIdx?_eq_some_iff_getElem] at h; exact h.1

theorem findLname_some {os : List Opt} {n : Str} {i : Nat} (h : findLname os n = some i) :
    ∃ o, os[i]? = some o ∧ byLong os n = some o := by
  have hlt := findLname_lt h
  refine ⟨os[i], List.getElem?_eq_getElem hlt, ?_⟩
  rw [← findLname_spec, h]; simp [hlt]

theorem findSname_some {os : List Opt} {c : Byte} {i : Nat} (h : findSname os c = some i) :
    ∃ o, os[i]? = some o ∧ byShort os c = some o := by
  have hlt := findSname_lt h
  refine ⟨os[i], List.getElem?_eq_getElem hlt, ?_⟩
  rw [← findSname_spec, h]; simp [hlt]

theorem findLname_none {os : List Opt} {n : Str} (h : byLong os n = none) : findLname os n = none := by
  cases hf : findLname os n with
  | none => rfl
  | some i => obtain ⟨o, _, h2⟩ := findLname_some hf; rw [h] at h2; simp at h2

theorem findSname_none {os : List Opt} {c : Byte} (h : byShort os c = none) : findSname os c = none := by
  cases hf : findSname os c with
  | none => rfl
  | some i => obtain ⟨o, _, h2⟩ := findSname_some hf; rw [h] at h2; simp at h2

theorem findLname_of_byLong {os : List Opt} {n : Str} {o : Opt} (h : byLong os n = some o) :
    ∃ i, findLname os n = some i ∧ os[i]? = some o := by
  rw [← findLname_spec] at h
  cases hf : findLname os n with
  | none => rw [hf] at h; simp at h
  | some i => rw [hf] at h; exact ⟨i, rfl, h⟩

theorem findSname_of_byShort {os : List Opt} {c : Byte} {o : Opt} (h : byShort os c = some o) :
    ∃ i, findSname os c = some i ∧ os[i]? = some o := by
  rw [← findSname_spec] at h
  cases hf : findSname os c with
  | none => rw [hf] at h; simp at h
  | some i => rw [hf] at h; exact ⟨i, rfl, h⟩

theorem slotBy_cons_variadic {α : Type} {v : α → Bool} {x : α} (h : v x = true) (xs : List α) (k : Nat) :
    slotBy v (x :: xs) k = some x := by simp [slotBy, h]

theorem slotBy_cons_zero {α : Type} {v : α → Bool} {x : α} (xs : List α) :
    slotBy v (x :: xs) 0 = some x := by
  unfold slotBy
  cases h : v x <;> simp [h]

theorem slotBy_cons_succ {α : Type} {v : α → Bool} {x : α} (h : v x = false) (xs : List α) (k : Nat) :
    slotBy v (x :: xs) (k + 1) = slotBy v xs k := by simp [slotBy, h]

theorem slotBy_map {α β : Type} (f : α → β) (v : β → Bool) (l : List α) (k : Nat) :
    slotBy v (l.map f) k = (slotBy (v ∘ f) l k).map f := by
  unfold slotBy
  rw [← List.map_take, List.find?_map]
  cases List.find? (v ∘ f) (List.take (k + 1) l) <;> simp

/-- The slot function in terms of the list of positionals. -/
theorem findPositionalFrom_spec (k : Nat) : ∀ (os : List Opt) (i pos : Nat), pos ≤ k →
    findPositionalFrom k i pos os = (slotBy (fun x : Opt × Nat => x.1.valueType.isVariadic)
      ((os.zipIdx i).filter (fun x => x.1.type = .positional)) (k - pos)).map (·.2)
  | [], i, pos, _ => by simp [slotBy, findPositionalFrom]
  | o :: os, i, pos, hpos => by
    unfold findPositionalFrom
    rw [List.zipIdx_cons]
    by_cases ht : o.type = .positional
    · simp only [ht, beq_self_eq_true, if_true]
      rw [List.filter_cons_of_pos (by simp [ht])]
      by_cases hv : o.valueType.isVariadic = true
      · rw [slotBy_cons_variadic (by simpa using hv)]; simp [hv]
      · rw [Bool.not_eq_true] at hv
        by_cases hk : pos = k
        · subst hk
          rw [Nat.sub_self, slotBy_cons_zero]; simp
        · have hk' : (pos == k) = false := by simp [hk]
          simp only [hv, hk', Bool.or_self, Bool.false_eq_true, if_false]
          have e : k - pos = (k - (pos + 1)) + 1 := by omega
          rw [e, slotBy_cons_succ (by simpa using hv)]
          exact findPositionalFrom_spec k os (i + 1) (pos + 1) (by omega)
    · have ht' : (o.type == OptType.positional) = false := by simp [ht]
      simp only [ht', Bool.false_eq_true, if_false]
      rw [List.filter_cons_of_neg (by simp [ht])]
      exact findPositionalFrom_spec k os (i + 1) pos hpos

theorem findPositional_at (os : List Opt) (k : Nat) : findPositional os k = (slotAt os k).map (·.2) := by
  unfold findPositional slotAt
  rw [findPositionalFrom_spec k os 0 0 (Nat.zero_le k)]; rfl

theorem slotBy_mem {α : Type} {v : α → Bool} {l : List α} {k : Nat} {x : α}
    (h : slotBy v l k = some x) : x ∈ l := by
  unfold slotBy at h
  split at h
  · rename_i y hy
    simp only [Option.some.injEq] at h; subst h
    exact List.mem_of_mem_take (List.mem_of_find?_eq_some hy)
  · exact List.mem_of_getElem? h

theorem slotAt_get {os : List Opt} {k i : Nat} {o : Opt} (h : slotAt os k = some (o, i)) :
    os[i]? = some o ∧ o.type = .positional := by
  have := slotBy_mem h
  rw [List.mem_filter] at this
  exact ⟨List.mk_mem_zipIdx_iff_getElem?.1 this.1, by simpa using this.2⟩

theorem slotOf_slotAt (os : List Opt) (k : Nat) :
    slotOf (positionals os) k = (slotAt os k).map (·.1) := by
  have e : positionals os = (os.zipIdx.filter (fun x => x.1.type = .positional)).map Prod.fst := by
    unfold positionals
    have h1 : os = os.zipIdx.map Prod.fst := by simp
    conv => lhs; rw [h1]
    rw [List.filter_map]; rfl
  unfold slotOf slotAt
  rw [e, slotBy_map]; rfl

theorem findPositional_spec (os : List Opt) (k : Nat) :
    (findPositional os k).bind (fun i => os[i]?) = slotOf (positionals os) k := by
  rw [findPositional_at, slotOf_slotAt]
  cases h : slotAt os k with
  | none => rfl
  | some x => obtain ⟨o, i⟩ := x; simp [(slotAt_get h).1]

theorem findPositional_lt {os : List Opt} {k i : Nat} (h : findPositional os k = some i) :
    i < os.length := by
  rw [findPositional_at] at h
  cases hs : slotAt os k with
  | none => rw [hs] at h; simp at h
  | some x =>
    obtain ⟨o, j⟩ := x
    rw [hs] at h
    simp only [Option.map_some, Option.some.injEq] at h; subst h
    exact (List.getElem?_eq_some_iff.1 (slotAt_get hs).1).1

/-- The numeric-slot test of the parser. -/
theorem isNegNumber_eq {a : Argus} {t : Option Nat} {os : List Opt} (ht : a.table t = .ok os)
    (arg : Str) (pos : Nat) : isNegNumber a t arg pos =
      .ok (looksNumeric arg && (slotOf (positionals os) pos).any (fun o => o.valueType.isNumeric)) := by
  unfold isNegNumber
  split
  · rename_i hl
    rw [ht, Out.ok_bind, hl, Bool.true_and, ← findPositional_spec]
    cases hf : findPositional os pos with
    | none => rfl
    | some i =>
      have hlt := findPositional_lt hf
      simp [hlt]
  · rename_i hl; simp [hl]

theorem table_getOpt {a : Argus} {k i : Nat} {os : List Opt} (ht : a.table (some k) = .ok os) {o : Opt}
    (ho : os[i]? = some o) : a.getOpt ⟨k, i⟩ = .ok o := by
  obtain ⟨k', hk, h⟩ := table_eq_ok.1 ht
  simp only [Option.some.injEq] at hk; subst hk
  exact getOpt_eq_ok.2 ⟨os, h, ho⟩

end Argus
