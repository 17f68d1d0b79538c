import Verif.Spec.Meaning

/-! # Readings of lines put together -/

set_option autoImplicit false

namespace Argus

/-- Everything in it can be carried out. -/
def ReadableAlone (acts : List Act) : Prop := ∀ x ∈ acts, x ≠ .noTable ∧ ∀ c, x ≠ .fail c

theorem ReadableAlone.left {xs ys : List Act} (h : ReadableAlone (xs ++ ys)) : ReadableAlone xs := fun x hx => h x (List.mem_append_left _ hx)

theorem ReadableAlone.right {xs ys : List Act} (h : ReadableAlone (xs ++ ys)) : ReadableAlone ys := fun x hx => h x (List.mem_append_right _ hx)

theorem not_readableAlone_fail {c : Int} {xs : List Act} : ¬ ReadableAlone (.fail c :: xs) := fun h => (h _ (List.mem_cons_self ..)).2 c rfl

/-- A long option that is complete does not look at the next argument. -/
theorem longActs_complete {t : Nat} {os : List Opt} {name : Str} {value : Option Str} (h : ReadableAlone (longActs t os name value none).1)
    (next : Option Str) : longActs t os name value next = ((longActs t os name value none).1, false) := by
  unfold longActs at h ⊢
  cases hi : longIdx os name with
  | none => rfl
  | some i =>
    rw [hi] at h
    simp only at h ⊢
    by_cases hf : isFlagAt os i = true
    · simp only [if_pos hf]
    · simp only [if_neg hf] at h ⊢
      cases value with
      | some v => rfl
      | none => exact absurd h not_readableAlone_fail

theorem shortActs_complete {t : Nat} {os : List Opt} : ∀ {cs : Str}, ReadableAlone (shortActs t os none cs).1 →
    ∀ next : Option Str, shortActs t os next cs = ((shortActs t os none cs).1, false)
  | [], _, _ => rfl
  | c :: cs, h, next => by
    unfold shortActs at h ⊢
    cases hi : shortIdx os c with
    | none => rfl
    | some i =>
      rw [hi] at h
      simp only at h ⊢
      by_cases hf : isFlagAt os i = true
      · simp only [if_pos hf] at h ⊢
        have := shortActs_complete (cs := cs) (fun x hx => h x (List.mem_cons_of_mem _ hx)) next
        rw [this]
      · simp only [if_neg hf] at h ⊢
        cases cs with
        | cons d ds => rfl
        | nil => exact absurd h not_readableAlone_fail

theorem longActs_none_skip (t : Nat) (os : List Opt) (name : Str) (value : Option Str) : (longActs t os name value none).2 = false := by
  unfold longActs
  cases longIdx os name with
  | none => rfl
  | some i => by_cases hf : isFlagAt os i = true <;> simp only [hf, if_true] <;> cases value <;> rfl

theorem shortActs_none_skip (t : Nat) (os : List Opt) : ∀ cs : Str, (shortActs t os none cs).2 = false
  | [] => rfl
  | c :: cs => by
    unfold shortActs
    cases shortIdx os c with
    | none => rfl
    | some i =>
      simp only
      by_cases hf : isFlagAt os i = true
      · simp only [if_pos hf]; exact shortActs_none_skip t os cs
      · simp only [if_neg hf]; cases cs <;> rfl

/-- What follows a line that can be read by itself is read by itself too. -/
theorem meaning_append (tables : List (List Opt)) : ∀ (n : Nat) (pre : List Str), pre.length ≤ n →
    ∀ (t : Option Nat) (pos : Nat) (only skip : Bool), (skip = true → pre ≠ []) → ReadableAlone (meaning tables t pos only skip pre) →
    ∃ t' pos' only', ∀ post, meaning tables t pos only skip (pre ++ post) =
      meaning tables t pos only skip pre ++ meaning tables t' pos' only' false post
  | _, [], _, t, pos, only, skip, hs, _ => by
    cases skip with
    | true => exact absurd rfl (hs rfl)
    | false => exact ⟨t, pos, only, fun post => by rw [List.nil_append]; unfold meaning; rfl⟩
  | 0, _ :: _, hl, _, _, _, _, _, _ => absurd hl (by simp)
  | n + 1, arg :: pre, hl, t, pos, only, skip, _, hr => by
    have hl' : pre.length ≤ n := by simpa using hl
    have IH := meaning_append tables n pre hl'
    -- carrying a prefix of acts along
    have key : ∀ (acts : List Act) (t1 : Option Nat) (pos1 : Nat) (only1 skip1 : Bool), (skip1 = true → pre ≠ []) →
        meaning tables t pos only skip (arg :: pre) = acts ++ meaning tables t1 pos1 only1 skip1 pre →
        (∀ post, meaning tables t pos only skip (arg :: (pre ++ post)) = acts ++ meaning tables t1 pos1 only1 skip1 (pre ++ post)) →
        ∃ t' pos' only', ∀ post, meaning tables t pos only skip (arg :: pre ++ post) =
          meaning tables t pos only skip (arg :: pre) ++ meaning tables t' pos' only' false post := by
      intro acts t1 pos1 only1 skip1 h1 h2 h3
      rw [h2] at hr
      obtain ⟨t', pos', only', h4⟩ := IH t1 pos1 only1 skip1 h1 hr.right
      refine ⟨t', pos', only', fun post => ?_⟩
      rw [List.cons_append, h3, h4, h2, List.append_assoc]
    cases skip with
    | true => exact key [] t pos only false (fun h => (nomatch h)) (by conv => lhs; unfold meaning
                                                                       rfl) (fun post => by conv => lhs; unfold meaning
                                                                                            rfl)
    | false =>
      have e : ∀ rest, meaning tables t pos only false (arg :: rest) = _ := fun rest => by conv => lhs; unfold meaning
      by_cases h1 : argKind arg = .dashes
      · exact key [] t pos true false (fun h => (nomatch h)) (by rw [e, if_pos h1]; rfl) (fun post => by rw [e, if_pos h1]; rfl)
      by_cases h2 : argKind arg = .short [] ∧ only = false
      · exact key [] t pos only false (fun h => (nomatch h)) (by rw [e, if_neg h1, if_pos h2]; rfl)
          (fun post => by rw [e, if_neg h1, if_pos h2]; rfl)
      cases t with
      | none =>
        rw [e, if_neg h1, if_neg h2] at hr
        exact absurd rfl (hr _ (List.mem_singleton.2 rfl)).1
      | some k =>
      cases hk : tables[k]? with
      | none =>
        rw [e, if_neg h1, if_neg h2] at hr
        simp only [Option.bind_some, hk] at hr
        exact absurd rfl (hr _ (List.mem_singleton.2 rfl)).1
      | some os =>
      have e : ∀ rest, meaning tables (some k) pos only false (arg :: rest) =
          if only then posActs k os pos arg ++ meaning tables (some k) (pos + 1) true false rest
          else
            match argKind arg with
            | .dashes => []
            | .long name value =>
              (longActs k os name value rest.head?).1 ++ meaning tables (some k) pos false (longActs k os name value rest.head?).2 rest
            | .short cluster =>
              if negNumber os pos cluster then posActs k os pos arg ++ meaning tables (some k) (pos + 1) false false rest
              else (shortActs k os rest.head? cluster).1 ++ meaning tables (some k) pos false (shortActs k os rest.head? cluster).2 rest
            | .word =>
              match subChoice os arg with
              | some (.ok x) => .enter ⟨k, x.2⟩ :: meaning tables x.1.subOptions 0 false false rest
              | some (.error c) => [.fail c]
              | none => posActs k os pos arg ++ meaning tables (some k) (pos + 1) false false rest := fun rest => by
        rw [e, if_neg h1, if_neg h2]; simp only [Option.bind_some, hk]; rfl
      cases only with
      | true => exact key (posActs k os pos arg) (some k) (pos + 1) true false (fun h => (nomatch h)) (e _) (fun post => e _)
      | false =>
      simp only [Bool.false_eq_true, if_false] at e
      cases ha : argKind arg with
      | dashes => exact absurd ha h1
      | long name value =>
        simp only [ha] at e
        cases pre with
        | nil =>
          rw [e] at hr
          have hc := longActs_complete hr.left
          exact key (longActs k os name value none).1 (some k) pos false false (fun h => (nomatch h))
            (by rw [e]; simp only [List.head?_nil]; rw [longActs_none_skip]) (fun post => by rw [e, hc])
        | cons b pre =>
          exact key (longActs k os name value (some b)).1 (some k) pos false (longActs k os name value (some b)).2 (fun _ => by simp)
            (e _) (fun post => e _)
      | short cluster =>
        simp only [ha] at e
        by_cases hneg : negNumber os pos cluster = true
        · simp only [if_pos hneg] at e
          exact key (posActs k os pos arg) (some k) (pos + 1) false false (fun h => (nomatch h)) (e _) (fun post => e _)
        · simp only [if_neg hneg] at e
          cases pre with
          | nil =>
            rw [e] at hr
            have hc := shortActs_complete hr.left
            exact key (shortActs k os none cluster).1 (some k) pos false false (fun h => (nomatch h))
              (by rw [e]; simp only [List.head?_nil]; rw [shortActs_none_skip]) (fun post => by rw [e, hc])
          | cons b pre =>
            exact key (shortActs k os (some b) cluster).1 (some k) pos false (shortActs k os (some b) cluster).2 (fun _ => by simp)
              (e _) (fun post => e _)
      | word =>
        simp only [ha] at e
        cases hc : subChoice os arg with
        | none =>
          simp only [hc] at e
          exact key (posActs k os pos arg) (some k) (pos + 1) false false (fun h => (nomatch h)) (e _) (fun post => e _)
        | some r =>
          cases r with
          | ok x =>
            simp only [hc] at e
            exact key [.enter ⟨k, x.2⟩] x.1.subOptions 0 false false (fun h => (nomatch h)) (e _) (fun post => e _)
          | error c =>
            simp only [hc] at e
            rw [e] at hr
            exact absurd hr not_readableAlone_fail

end Argus
