import Verif.Lemmas.Commands
import Verif.Lemmas.Positional

/-! Lemmas: how many positional arguments have been read. -/

set_option autoImplicit false

namespace Argus

theorem looksNumeric_iff (r : Str) : looksNumeric r = true ↔ DashNumber (45 :: r) := by
  unfold DashNumber
  cases r with
  | nil => simp [looksNumeric]
  | cons c r =>
    cases r with
    | nil => simp [looksNumeric]
    | cons d r =>
      simp only [looksNumeric, List.head?_cons, Option.any_some, Bool.or_eq_true, Bool.and_eq_true, beq_iff_eq, List.cons.injEq,
        true_and]
      constructor
      · rintro (h | ⟨rfl, h⟩)
        · exact ⟨c, d :: r, h, .inl ⟨rfl, rfl⟩⟩
        · exact ⟨d, r, h, .inr ⟨rfl, rfl, rfl⟩⟩
      · rintro ⟨e, q, h, ⟨rfl, _⟩ | ⟨rfl, rfl, _⟩⟩
        · exact .inl h
        · exact .inr ⟨rfl, h⟩

theorem numericSlot_iff (os : List Opt) (n : Nat) :
    (slotOf (positionals os) n).any (fun o => o.valueType.isNumeric) = true ↔ NumericSlot os n := by
  rw [slotOf_slotAt]
  unfold NumericSlot
  have key : ∀ v : ValueType, v.isNumeric = true ↔ v = .int ∨ v = .float := by
    intro v; cases v <;> simp [ValueType.isNumeric]
  cases slotAt os n with
  | none => simp
  | some x =>
    obtain ⟨o, i⟩ := x
    simp only [Option.map_some, Option.any_some, key, Option.some.injEq, Prod.mk.injEq]
    constructor
    · intro h; exact ⟨o, i, ⟨rfl, rfl⟩, h⟩
    · rintro ⟨_, _, ⟨rfl, rfl⟩, h⟩; exact h

theorem stepPositional_next {W : World} {t : Option Nat} {a a' : Argus} {pos pos' : Nat} {only only' : Bool} {arg : Str}
    {used : Bool} (h : stepPositional W t a pos only arg = .ok (.next a' pos' only' used)) :
    pos' = pos + 1 ∧ only' = only ∧ used = false := by
  unfold stepPositional at h
  obtain ⟨r, _, h1⟩ := Out.bind_eq_ok h
  split at h1 <;> simp at h1
  exact ⟨h1.2.1.symm, h1.2.2.1.symm, h1.2.2.2⟩

theorem OptRes.step_next {r : OptRes} {pos pos' : Nat} {a' : Argus} {only used : Bool}
    (h : r.step pos = .next a' pos' only used) : pos' = pos ∧ only = false ∧ used = r.used := by
  unfold OptRes.step at h
  split at h
  · cases h
  · simp only [Step.next.injEq] at h
    exact ⟨h.2.1.symm, h.2.2.1.symm, h.2.2.2.symm⟩

theorem OptRes.step_enter {r : OptRes} {pos : Nat} {t : Option Nat} {a' : Argus} : r.step pos ≠ .enter t a' := by
  unfold OptRes.step
  split <;> simp

theorem stepPositional_enter {W : World} {t t' : Option Nat} {a a' : Argus} {pos : Nat} {only : Bool} {arg : Str} :
    stepPositional W t a pos only arg ≠ .ok (.enter t' a') := by
  intro h
  unfold stepPositional at h
  obtain ⟨r, _, h1⟩ := Out.bind_eq_ok h
  split at h1 <;> simp at h1

theorem findSub_none_inv {os : List Opt} {v : Str} (h : findSub os v = (Err.success, none)) :
    ∀ o ∈ os, o.type = .subcommand → ∀ n, o.name = some n → ¬ v <+: n := by
  intro o ho ht n hn hp
  rw [findSub_choice] at h
  obtain ⟨i, hi⟩ := List.mem_iff_getElem?.1 ho
  have hm := mem_subMatches.2 (⟨hi, ht, n, hn, hp⟩ : os[(o, i).2]? = some (o, i).1 ∧ _)
  unfold subChoice at h
  match hl : subMatches os v with
  | [] => rw [hl] at hm; simp at hm
  | [x] => rw [hl] at h; simp at h
  | x :: y :: l =>
    rw [hl] at h
    simp only at h
    split at h
    · rename_i h0; split at h0 <;> simp at h0
    · simp at h
    · rename_i h0
      split at h0
      · simp at h0
      · simp only [Option.some.injEq, Except.error.injEq] at h0
        subst h0
        simp only [Prod.mk.injEq, and_true] at h
        exact absurd h (by decide)

theorem findSub_some_inv {os : List Opt} {v : Str} {st : Int} {i : Nat} (h : findSub os v = (st, some i)) :
    ∃ o ∈ os, o.type = .subcommand ∧ ∃ n, o.name = some n ∧ v <+: n := by
  have hne : subMatches os v ≠ [] := by
    intro h0
    rw [findSub_choice] at h
    unfold subChoice at h
    rw [h0] at h
    simp at h
  obtain ⟨x, hx⟩ := List.exists_mem_of_ne_nil _ hne
  obtain ⟨h1, h2, n, h3, h4⟩ := mem_subMatches.1 hx
  exact ⟨x.1, List.mem_of_getElem? h1, h2, n, h3, h4⟩

/-- The kinds of rounds that go on at the same level. -/
inductive NextKind (t : Option Nat) (a : Argus) (pos : Nat) (only : Bool) (x : Str) (pos' : Nat) (only' used : Bool) : Prop
  | dashes : x = c!"--" → pos' = pos → only' = true → used = false → NextKind t a pos only x pos' only' used
  | afterDashes : x ≠ c!"--" → only = true → pos' = pos + 1 → only' = true → used = false → NextKind t a pos only x pos' only' used
  | option : x ≠ c!"--" → only = false → x.head? = some 45 → (∀ os, a.table t = .ok os → DashNumber x → ¬ NumericSlot os pos) →
      pos' = pos → only' = false → NextKind t a pos only x pos' only' used
  | number (os : List Opt) : only = false → a.table t = .ok os → DashNumber x → NumericSlot os pos → pos' = pos + 1 → only' = false →
      used = false → NextKind t a pos only x pos' only' used
  | positional (os : List Opt) : only = false → x.head? ≠ some 45 → a.table t = .ok os →
      (∀ o ∈ os, o.type = .subcommand → ∀ m, o.name = some m → ¬ x <+: m) → pos' = pos + 1 → only' = false → used = false →
      NextKind t a pos only x pos' only' used

theorem head_of_startsWith {p x r : Str} (hp : p.head? = some 45) (h : startsWith p x = some r) : x.head? = some 45 := by
  by_cases hx : x.head? = some 45
  · exact hx
  · rw [startsWith_dash_none hp hx] at h; simp at h

theorem dashNumber_not_dd {x r : Str} (h : startsWith [45, 45] x = some r) : ¬ DashNumber x := by
  rintro ⟨d, q, hd, rfl | rfl⟩
  · rw [startsWith_dd_none (by rintro rfl; revert hd; decide)] at h; simp at h
  · rw [startsWith_dd_none (by decide)] at h; simp at h

theorem startsWith_d_eq {x r : Str} (h : startsWith [45] x = some r) : x = 45 :: r := by
  have h1 : x.head? = some 45 := head_of_startsWith rfl h
  cases x with
  | nil => simp at h1
  | cons c x =>
    simp only [List.head?_cons, Option.some.injEq] at h1
    subst h1
    rw [startsWith_d] at h
    simp only [Option.some.injEq] at h
    rw [h]

theorem startsWith_d_none {x : Str} (h : startsWith [45] x = none) : x.head? ≠ some 45 := by
  intro h1
  cases x with
  | nil => simp at h1
  | cons c x =>
    simp only [List.head?_cons, Option.some.injEq] at h1
    subst h1
    rw [startsWith_d] at h
    simp at h

theorem isNegNumber_of {a : Argus} {t : Option Nat} {r : Str} {pos : Nat} {b : Bool} (h : isNegNumber a t r pos = .ok b) :
    (b = true → ∃ os, a.table t = .ok os ∧ DashNumber (45 :: r) ∧ NumericSlot os pos) ∧
    (b = false → ∀ os, a.table t = .ok os → DashNumber (45 :: r) → ¬ NumericSlot os pos) := by
  cases ht : a.table t with
  | ok os =>
    rw [isNegNumber_eq ht] at h
    simp only [Out.ok.injEq] at h
    constructor
    · rintro rfl
      simp only [Bool.and_eq_true] at h
      exact ⟨os, rfl, (looksNumeric_iff r).1 h.1, (numericSlot_iff os pos).1 h.2⟩
    · rintro rfl os' h' hd hn
      simp only [Out.ok.injEq] at h'
      subst h'
      rw [(looksNumeric_iff r).2 hd, (numericSlot_iff os pos).2 hn] at h
      simp at h
  | ub u =>
    constructor
    · rintro rfl
      unfold isNegNumber at h
      split at h
      · rw [ht] at h; simp at h
      · simp at h
    · rintro _ os' h'; simp at h'

theorem parseStep_nextKind {W : World} {t : Option Nat} {a a' : Argus} {pos pos' : Nat} {only only' used : Bool} {x : Str}
    {rest : List Str} (h : parseStep W t a pos only x rest = .ok (.next a' pos' only' used)) :
    NextKind t a pos only x pos' only' used := by
  unfold parseStep at h
  by_cases h0 : x = [45, 45]
  · rw [if_pos h0] at h
    simp only [Out.ok.injEq, Step.next.injEq] at h
    exact .dashes h0 h.2.1.symm h.2.2.1.symm h.2.2.2.symm
  · rw [if_neg h0] at h
    cases only with
    | true =>
      rw [if_pos rfl] at h
      obtain ⟨h1, h2, h3⟩ := stepPositional_next h
      exact .afterDashes h0 rfl h1 h2 h3
    | false =>
      rw [if_neg (by simp)] at h
      cases hl : startsWith [45, 45] x with
      | some la =>
        rw [hl] at h
        obtain ⟨r, _, h1⟩ := Out.bind_eq_ok h
        simp only [Out.ok.injEq] at h1
        obtain ⟨g1, g2, _⟩ := OptRes.step_next h1
        exact .option h0 rfl (head_of_startsWith rfl hl) (fun _ _ hd => absurd hd (dashNumber_not_dd hl)) g1 g2
      | none =>
        rw [hl] at h
        cases hs : startsWith [45] x with
        | some sa =>
          rw [hs] at h
          simp only at h
          obtain ⟨neg, hn, h1⟩ := Out.bind_eq_ok h
          have hx := startsWith_d_eq hs
          obtain ⟨n1, n2⟩ := isNegNumber_of hn
          rw [← hx] at n1 n2
          split at h1
          · rename_i hneg
            obtain ⟨g1, g2, g3⟩ := stepPositional_next h1
            obtain ⟨os, m1, m2, m3⟩ := n1 hneg
            exact .number os rfl m1 m2 m3 g1 g2 g3
          · rename_i hneg
            obtain ⟨r, _, h2⟩ := Out.bind_eq_ok h1
            simp only [Out.ok.injEq] at h2
            obtain ⟨g1, g2, _⟩ := OptRes.step_next h2
            exact .option h0 rfl (head_of_startsWith rfl hs) (n2 (by simpa using hneg)) g1 g2
        | none =>
          rw [hs] at h
          simp only at h
          obtain ⟨os, ht, h1⟩ := Out.bind_eq_ok h
          split at h1
          · simp at h1
          · rename_i hst
            split at h1
            · obtain ⟨e, _, h2⟩ := Out.bind_eq_ok h1
              simp at h2
            · rename_i hno
              obtain ⟨g1, g2, g3⟩ := stepPositional_next h1
              obtain ⟨k, rfl, _⟩ := table_eq_ok.1 ht
              refine .positional os rfl (startsWith_d_none hs) ht ?_ g1 g2 g3
              refine findSub_none_inv ?_
              have e1 : (findSub os x).1 = Err.success := by simpa using hst
              have e2 : (findSub os x).2 = none := by
                cases h : (findSub os x).2 with
                | none => rfl
                | some i => exact absurd h (hno k i rfl)
              exact Prod.ext e1 e2

theorem parseStep_enterKind {W : World} {t t' : Option Nat} {a a' : Argus} {pos : Nat} {only : Bool} {x : Str}
    {rest : List Str} (h : parseStep W t a pos only x rest = .ok (.enter t' a')) :
    only = false ∧ x.head? ≠ some 45 ∧ ∃ os, a.table t = .ok os ∧ ∃ o ∈ os, o.type = .subcommand ∧ ∃ m, o.name = some m ∧
      x <+: m := by
  unfold parseStep at h
  by_cases h0 : x = [45, 45]
  · rw [if_pos h0] at h; simp at h
  · rw [if_neg h0] at h
    cases only with
    | true => rw [if_pos rfl] at h; exact absurd h stepPositional_enter
    | false =>
      rw [if_neg (by simp)] at h
      cases hl : startsWith [45, 45] x with
      | some la =>
        rw [hl] at h
        obtain ⟨r, _, h1⟩ := Out.bind_eq_ok h
        simp only [Out.ok.injEq] at h1
        exact absurd h1 OptRes.step_enter
      | none =>
        rw [hl] at h
        cases hs : startsWith [45] x with
        | some sa =>
          rw [hs] at h
          simp only at h
          obtain ⟨neg, hn, h1⟩ := Out.bind_eq_ok h
          split at h1
          · exact absurd h1 stepPositional_enter
          · obtain ⟨r, _, h2⟩ := Out.bind_eq_ok h1
            simp only [Out.ok.injEq] at h2
            exact absurd h2 OptRes.step_enter
        | none =>
          rw [hs] at h
          simp only at h
          obtain ⟨os, ht, h1⟩ := Out.bind_eq_ok h
          refine ⟨rfl, startsWith_d_none hs, os, ht, ?_⟩
          split at h1
          · simp at h1
          · split at h1
            · rename_i k i hf
              exact findSub_some_inv (Prod.ext rfl hf)
            · exact absurd h1 stepPositional_enter

/-! ### One round with and without further arguments -/

theorem handleLong_unused {W : World} {a : Argus} {t : Option Nat} {arg : Str} {rest : List Str} {r : OptRes}
    (h : handleLong W a t arg rest = .ok r) (hu : r.used = false) (hr : rest ≠ []) : handleLong W a t arg [] = .ok r := by
  unfold handleLong at h ⊢
  obtain ⟨os, hos, h1⟩ := Out.bind_eq_ok h
  rw [hos, Out.ok_bind]
  split
  · rename_i k i hf
    simp only [hf] at h1
    obtain ⟨o, ho, h2⟩ := Out.bind_eq_ok h1
    rw [ho, Out.ok_bind]
    split
    · rename_i hfl; rw [if_pos hfl] at h2; exact h2
    · rename_i hfl; rw [if_neg hfl] at h2
      cases hv : (longParts arg).2 with
      | some v => rw [hv] at h2; exact h2
      | none =>
        rw [hv] at h2
        cases rest with
        | nil => exact absurd rfl hr
        | cons v rs =>
          obtain ⟨q, _, h3⟩ := Out.bind_eq_ok h2
          simp only [Out.ok.injEq] at h3; subst h3; simp at hu
  · rename_i hne
    split at h1
    · rename_i hf; exact absurd hf (hne _ _ rfl)
    · exact h1

theorem handleShort_unused {W : World} {t : Option Nat} {rest : List Str} (hrest : rest ≠ []) : ∀ (cs : Str) {a : Argus} {r : OptRes},
    handleShort W t rest a cs = .ok r → r.used = false → handleShort W t [] a cs = .ok r
  | [], a, r, h, _ => h
  | c :: cs, a, r, h, hr => by
    unfold handleShort at h ⊢
    obtain ⟨os, hos, h1⟩ := Out.bind_eq_ok h
    rw [hos, Out.ok_bind]
    split
    · rename_i k i hf
      simp only [hf] at h1
      obtain ⟨o, ho, h2⟩ := Out.bind_eq_ok h1
      rw [ho, Out.ok_bind]
      split
      · rename_i hfl; rw [if_pos hfl] at h2
        obtain ⟨q, hq, h3⟩ := Out.bind_eq_ok h2
        rw [hq, Out.ok_bind]
        split
        · rename_i hq1; rw [if_pos hq1] at h3; exact h3
        · rename_i hq1; rw [if_neg hq1] at h3; exact handleShort_unused hrest cs h3 hr
      · rename_i hfl; rw [if_neg hfl] at h2
        cases cs with
        | cons d ds => exact h2
        | nil =>
          cases rest with
          | nil => exact absurd rfl hrest
          | cons v rs =>
            obtain ⟨q, _, h3⟩ := Out.bind_eq_ok h2
            simp only [Out.ok.injEq] at h3; subst h3; simp at hr
    · rename_i hne
      split at h1
      · rename_i hf; exact absurd hf (hne _ _ rfl)
      · exact h1

theorem parseStep_unused {W : World} {t : Option Nat} {a a' : Argus} {pos pos' : Nat} {only only' : Bool} {x : Str}
    {rest : List Str} (h : parseStep W t a pos only x rest = .ok (.next a' pos' only' false)) :
    parseStep W t a pos only x [] = .ok (.next a' pos' only' false) := by
  by_cases hr : rest = []
  · rw [hr] at h; exact h
  unfold parseStep at h ⊢
  split
  · rename_i h0; rw [if_pos h0] at h; exact h
  · rename_i h0; rw [if_neg h0] at h
    split
    · rename_i h1; rw [if_pos h1] at h; exact h
    · rename_i h1; rw [if_neg h1] at h
      cases hl : startsWith [45, 45] x with
      | some la =>
        rw [hl] at h
        obtain ⟨r, e, h2⟩ := Out.bind_eq_ok h
        simp only [Out.ok.injEq] at h2
        have hu := (OptRes.step_next h2).2.2
        simp only [handleLong_unused e hu.symm hr, Out.ok_bind, h2]
      | none =>
        rw [hl] at h
        cases hsh : startsWith [45] x with
        | some sa =>
          rw [hsh] at h
          simp only at h ⊢
          obtain ⟨neg, hneg, h2⟩ := Out.bind_eq_ok h
          rw [hneg, Out.ok_bind]
          split
          · rename_i hn; rw [if_pos hn] at h2; exact h2
          · rename_i hn; rw [if_neg hn] at h2
            obtain ⟨r, e, h3⟩ := Out.bind_eq_ok h2
            simp only [Out.ok.injEq] at h3
            have hu := (OptRes.step_next h3).2.2
            rw [handleShort_unused hr _ e hu.symm, Out.ok_bind, h3]
        | none => rw [hsh] at h; exact h

theorem parseStep_enter_nil {W : World} {t t' : Option Nat} {a a' : Argus} {pos : Nat} {only : Bool} {x : Str}
    {rest : List Str} (h : parseStep W t a pos only x rest = .ok (.enter t' a')) :
    parseStep W t a pos only x [] = .ok (.enter t' a') := by
  unfold parseStep at h ⊢
  split
  · rename_i h0; rw [if_pos h0] at h; exact h
  · rename_i h0; rw [if_neg h0] at h
    split
    · rename_i h1; rw [if_pos h1] at h; exact h
    · rename_i h1; rw [if_neg h1] at h
      cases hl : startsWith [45, 45] x with
      | some la =>
        rw [hl] at h
        obtain ⟨r, _, h2⟩ := Out.bind_eq_ok h
        simp only [Out.ok.injEq] at h2
        exact absurd h2 OptRes.step_enter
      | none =>
        rw [hl] at h
        cases hsh : startsWith [45] x with
        | some sa =>
          rw [hsh] at h
          simp only at h ⊢
          obtain ⟨neg, hneg, h2⟩ := Out.bind_eq_ok h
          rw [hneg, Out.ok_bind]
          split
          · rename_i hn; rw [if_pos hn] at h2; exact h2
          · rename_i hn; rw [if_neg hn] at h2
            obtain ⟨r, _, h3⟩ := Out.bind_eq_ok h2
            simp only [Out.ok.injEq] at h3
            exact absurd h3 OptRes.step_enter
        | none => rw [hsh] at h; exact h

theorem parseStep_value {W : World} {t : Option Nat} {a : Argus} {pos : Nat} {only : Bool} {x v : Str} (rs rs' : List Str) :
    parseStep W t a pos only x (v :: rs) = parseStep W t a pos only x (v :: rs') := by
  unfold parseStep
  split
  · rfl
  · split
    · rfl
    · split
      · rw [handleLong_cons W a t _ v rs rs']
      · split
        · rw [handleShort_cons W t v rs rs']
        · rfl

/-! ### Counting -/

theorem Reach.run {W : World} {a : Argus} {pre more : List Str} {s s' : PState} (h : Reach W a pre s)
    (h2 : Reach W a (pre ++ more) s') : runPrefix W s more = some s' := by
  unfold Reach at h h2
  have key : ∀ (pre : List Str) {s0 : PState}, runPrefix W s0 pre = some s → runPrefix W s0 (pre ++ more) = some s' →
      runPrefix W s more = some s' := by
    intro pre
    induction pre with
    | nil =>
      intro s0 e1 e2
      simp only [runPrefix, Option.some.injEq] at e1
      subst e1
      exact e2
    | cons arg rest ih =>
      intro s0 e1 e2
      simp only [List.cons_append] at e2
      unfold runPrefix at e1 e2
      split at e1
      · rename_i hs
        rw [if_pos hs] at e2
        exact ih e1 e2
      · rename_i hs
        rw [if_neg hs] at e2
        split at e1
        · rename_i hst
          rw [parseStep_append hst (.inr trivial) more] at e2
          exact ih e1 e2
        · rename_i hst
          rw [parseStep_append hst (.inr trivial) more] at e2
          exact ih e1 e2
        · simp at e1
  exact key pre h h2

/-- What a single argument does to a state. -/
theorem runPrefix_one {W : World} {s s' : PState} {x : Str} (hs : s.skip = false) (h : runPrefix W s [x] = some s') :
    (∃ a pos only used, parseStep W s.t s.a s.pos s.only x [] = .ok (.next a pos only used) ∧ s'.pos = pos) ∨
    (∃ t a, parseStep W s.t s.a s.pos s.only x [] = .ok (.enter t a) ∧ s'.pos = 0) := by
  unfold runPrefix at h
  rw [if_neg (by simp [hs])] at h
  split at h
  · rename_i a pos only used e
    simp only [runPrefix, Option.some.injEq] at h
    exact .inl ⟨a, pos, only, used, e, by rw [← h]⟩
  · rename_i t a e
    simp only [runPrefix, Option.some.injEq] at h
    exact .inr ⟨t, a, e, by rw [← h]⟩
  · simp at h

/-- The count of the specification is that of the parser. -/
theorem SlotCount.pos {W : World} {a : Argus} {pre : List Str} {n : Nat} (h : SlotCount W a pre n) :
    ∀ s, Reach W a pre s → s.pos = n := by
  have fixed : ∀ {pre : List Str} {s s' : PState} , Reach W a pre s → Reach W a pre s' → s' = s := by
    intro pre s s' h h'; unfold Reach at h h'; rw [h] at h'; exact (Option.some.inj h').symm
  induction h with
  | start =>
    intro s hs
    simp only [Reach, runPrefix, Option.some.injEq] at hs
    rw [← hs]; rfl
  | dashes _ hr ih =>
    intro s' hs'
    have hp := ih _ hr
    rcases runPrefix_one hr.skip (hr.run hs') with ⟨_, _, _, _, e, g⟩ | ⟨_, _, e, g⟩
    · cases parseStep_nextKind e with
      | dashes _ h _ _ => rw [g, h, hp]
      | afterDashes h => exact absurd rfl h
      | option h => exact absurd rfl h
      | number os _ _ hd => exact absurd hd (dashNumber_not_dd (r := []) (by decide))
      | positional os _ h => exact absurd rfl h
    · exact absurd rfl (parseStep_enterKind e).2.1
  | afterDashes _ hr ho hx ih =>
    intro s' hs'
    have hp := ih _ hr
    rcases runPrefix_one hr.skip (hr.run hs') with ⟨_, _, _, _, e, g⟩ | ⟨_, _, e, g⟩
    · cases parseStep_nextKind e with
      | dashes h => exact absurd h hx
      | afterDashes _ _ h => rw [g, h, hp]
      | option _ h => rw [ho] at h; cases h
      | number os h => rw [ho] at h; cases h
      | positional os h => rw [ho] at h; cases h
    · have := (parseStep_enterKind e).1
      rw [ho] at this; cases this
  | option _ hr ho hx hd hn _ ih =>
    intro s' hs'
    have hp := ih _ hr
    rcases runPrefix_one hr.skip (hr.run hs') with ⟨_, _, _, _, e, g⟩ | ⟨_, _, e, g⟩
    · cases parseStep_nextKind e with
      | dashes h => exact absurd h hx
      | afterDashes _ h => rw [ho] at h; cases h
      | option _ _ _ _ h => rw [g, h, hp]
      | number os _ h1 h2 h3 => rw [hp] at h3; exact absurd h3 (hn os h1 h2)
      | positional os _ h => exact absurd hd h
    · exact absurd hd (parseStep_enterKind e).2.1
  | optionWithValue _ hr ho hx hd hn hno _ ih =>
    rename_i pre n s s0 x v _ _
    intro s' hs'
    have hp := ih _ hr
    have hrun := hr.run hs'
    unfold runPrefix at hrun
    rw [if_neg (by simp [hr.skip])] at hrun
    split at hrun
    · rename_i a1 pos1 only1 used1 e
      cases used1 with
      | false =>
        have e2 := parseStep_unused e
        exfalso
        refine hno ⟨s.t, a1, pos1, only1, false⟩ (hr.append ?_)
        unfold runPrefix
        rw [if_neg (by simp [hr.skip]), e2]
        rfl
      | true =>
        simp only [runPrefix, if_pos, Option.some.injEq] at hrun
        cases parseStep_nextKind e with
        | dashes h => exact absurd h hx
        | afterDashes _ h => rw [ho] at h; cases h
        | option _ _ _ _ h => rw [← hrun]; show pos1 = n; rw [h, hp]
        | number os _ h1 h2 h3 => rw [hp] at h3; exact absurd h3 (hn os h1 h2)
        | positional os _ h => exact absurd hd h
    · rename_i e
      exact absurd hd (parseStep_enterKind e).2.1
    · simp at hrun
  | number _ hr ho ht hd hn ih =>
    intro s' hs'
    have hp := ih _ hr
    have hhead : ∀ {x : Str}, DashNumber x → x.head? = some 45 := by
      rintro x ⟨d, r, _, rfl | rfl⟩ <;> rfl
    rcases runPrefix_one hr.skip (hr.run hs') with ⟨_, _, _, _, e, g⟩ | ⟨_, _, e, g⟩
    · cases parseStep_nextKind e with
      | dashes h => rw [h] at hd; exact absurd hd (dashNumber_not_dd (r := []) (by decide))
      | afterDashes _ h => rw [ho] at h; cases h
      | option _ _ _ h => exact absurd (by rw [hp]; exact hn) (h _ ht hd)
      | number os _ _ _ _ h => rw [g, h, hp]
      | positional os _ h => exact absurd (hhead hd) h
    · exact absurd (hhead hd) (parseStep_enterKind e).2.1
  | subcommand _ hr ho hx ht hm hty hn hpre ih =>
    intro s' hs'
    have hp := ih _ hr
    rcases runPrefix_one hr.skip (hr.run hs') with ⟨_, _, _, _, e, g⟩ | ⟨_, _, e, g⟩
    · cases parseStep_nextKind e with
      | dashes h => rw [h] at hx; exact absurd rfl hx
      | afterDashes _ h => rw [ho] at h; cases h
      | option _ _ h => exact absurd h hx
      | number os _ _ h =>
        obtain ⟨d, r, _, rfl | rfl⟩ := h <;> exact absurd rfl hx
      | positional os _ _ h1 h2 =>
        rw [ht] at h1
        simp only [Out.ok.injEq] at h1
        subst h1
        exact absurd hpre (h2 _ hm hty _ hn)
    · exact g
  | positional _ hr ho hx ht hno ih =>
    intro s' hs'
    have hp := ih _ hr
    rcases runPrefix_one hr.skip (hr.run hs') with ⟨_, _, _, _, e, g⟩ | ⟨_, _, e, g⟩
    · cases parseStep_nextKind e with
      | dashes h => rw [h] at hx; exact absurd rfl hx
      | afterDashes _ h => rw [ho] at h; cases h
      | option _ _ h => exact absurd h hx
      | number os _ _ h =>
        obtain ⟨d, r, _, rfl | rfl⟩ := h <;> exact absurd rfl hx
      | positional os _ _ _ _ h => rw [g, h, hp]
    · obtain ⟨_, _, os, h1, o, h2, h3, m, h4, h5⟩ := parseStep_enterKind e
      rw [ht] at h1
      simp only [Out.ok.injEq] at h1
      subst h1
      exact absurd h5 (hno o h2 h3 m h4)

/-- Every command line read so far has a count. -/
theorem SlotCount.exists_from {W : World} {a : Argus} : ∀ (n : Nat) (l : List Str) (pre : List Str) (s s' : PState), l.length ≤ n →
    Reach W a pre s → SlotCount W a pre s.pos → runPrefix W s l = some s' → SlotCount W a (pre ++ l) s'.pos
  | _, [], pre, s, s', _, hr, hc, h => by
    simp only [runPrefix, Option.some.injEq] at h
    subst h
    simpa using hc
  | 0, _ :: _, _, _, _, hl, _, _, _ => by simp at hl
  | n + 1, x :: rest, pre, s, s', hl, hr, hc, h => by
    have hl' : rest.length ≤ n := by simpa using hl
    unfold runPrefix at h
    rw [if_neg (by simp [hr.skip])] at h
    split at h
    · rename_i a1 pos1 only1 used1 e
      cases used1 with
      | false =>
        have e2 := parseStep_unused e
        have hr1 : Reach W a (pre ++ [x]) ⟨s.t, a1, pos1, only1, false⟩ := by
          refine hr.append ?_
          unfold runPrefix
          rw [if_neg (by simp [hr.skip]), e2]
          rfl
        have hc1 : SlotCount W a (pre ++ [x]) pos1 := by
          cases parseStep_nextKind e with
          | dashes h1 h2 => rw [h1, h2]; exact .dashes hc hr
          | afterDashes h1 h2 h3 => rw [h3]; exact .afterDashes hc hr h2 h1
          | option h1 h2 h3 h4 h5 => rw [h5]; exact .option hc hr h2 h1 h3 h4 hr1
          | number os h1 h2 h3 h4 h5 => rw [h5]; exact .number hc hr h1 h2 h3 h4
          | positional os h1 h2 h3 h4 h5 => rw [h5]; exact .positional hc hr h1 h2 h3 h4
        have := SlotCount.exists_from n rest (pre ++ [x]) ⟨s.t, a1, pos1, only1, false⟩ s' hl' hr1 hc1 h
        simpa using this
      | true =>
        cases rest with
        | nil => have := parseStep_used e; cases this
        | cons v rest =>
          unfold runPrefix at h
          rw [if_pos rfl] at h
          have hr1 : Reach W a (pre ++ [x, v]) ⟨s.t, a1, pos1, only1, false⟩ := by
            refine hr.append ?_
            unfold runPrefix
            rw [if_neg (by simp [hr.skip]), parseStep_value [] rest, e]
            rfl
          have hno : ∀ s', ¬ Reach W a (pre ++ [x]) s' := by
            intro s2 h2
            have h3 := hr.run h2
            unfold runPrefix at h3
            rw [if_neg (by simp [hr.skip])] at h3
            split at h3
            · rename_i e3
              have h4 := parseStep_used e3
              have h5 := parseStep_append e3 (.inr trivial) (v :: rest)
              rw [List.nil_append, e] at h5
              simp only [Out.ok.injEq, Step.next.injEq] at h5
              rw [← h5.2.2.2] at h4
              cases h4
            · rename_i e3
              have h5 := parseStep_append e3 (.inr trivial) (v :: rest)
              rw [List.nil_append, e] at h5
              simp at h5
            · simp at h3
          have hc1 : SlotCount W a (pre ++ [x, v]) pos1 := by
            cases parseStep_nextKind e with
            | dashes _ _ _ h4 => cases h4
            | afterDashes _ _ _ _ h5 => cases h5
            | option h1 h2 h3 h4 h5 => rw [h5]; exact .optionWithValue hc hr h2 h1 h3 h4 hno hr1
            | number os _ _ _ _ _ _ h7 => cases h7
            | positional os _ _ _ _ _ _ h7 => cases h7
          have := SlotCount.exists_from n rest (pre ++ [x, v]) ⟨s.t, a1, pos1, only1, false⟩ s'
            (by simp only [List.length_cons] at hl'; omega) hr1 hc1 h
          simpa using this
    · rename_i t1 a1 e
      have e2 := parseStep_enter_nil e
      have hr1 : Reach W a (pre ++ [x]) ⟨t1, a1, 0, false, false⟩ := by
        refine hr.append ?_
        unfold runPrefix
        rw [if_neg (by simp [hr.skip]), e2]
        rfl
      have hc1 : SlotCount W a (pre ++ [x]) 0 := by
        obtain ⟨h1, h2, os, h3, o, h4, h5, m, h6, h7⟩ := parseStep_enterKind e
        exact .subcommand hc hr h1 h2 h3 h4 h5 h6 h7
      have := SlotCount.exists_from n rest (pre ++ [x]) ⟨t1, a1, 0, false, false⟩ s' hl' hr1 hc1 h
      simpa using this
    · simp at h

theorem Reach.slotCount {W : World} {a : Argus} {pre : List Str} {s : PState} (h : Reach W a pre s) :
    SlotCount W a pre s.pos := by
  have h0 : Reach W a [] (.start a) := rfl
  have := SlotCount.exists_from pre.length pre [] (.start a) s (Nat.le_refl _) h0 .start h
  simpa using this

end Argus
