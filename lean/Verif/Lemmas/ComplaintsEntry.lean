import Verif.Lemmas.Complaints

/-! The complaints about single entries. -/

set_option autoImplicit false

namespace Argus

theorem defaultMessages_ok {W : World} {M : Wording} {o : Opt} {v : Validator} {ms : List Message} :
    defaultMessages W M o v = .ok ms ↔ o.Says W M v ms := by
  unfold defaultMessages Opt.Says Opt.Runs
  by_cases hp : v.order = .pre ∧ o.valueType = .string
  · rw [if_pos hp, bind_ok_eq]
    simp [hp.1, hp.2]
  · rw [if_neg hp]
    by_cases hq : v.order = .post
    · rw [if_pos hq]
      simp [hq]
    · rw [if_neg hq]
      have h3 : ¬ (v.order = .pre ∧ o.valueType = .string) := hp
      constructor
      · intro h
        simp only [Out.ok.injEq] at h
        exact .inr (.inr ⟨by rintro (h1 | h1); exact hq h1; exact hp h1, h.symm⟩)
      · rintro (h | h | h)
        · exact absurd h.1 hq
        · exact absurd ⟨h.1, h.2.1⟩ hp
        · rw [h.2]

theorem Opt.Says.unique {W : World} {M : Wording} {o : Opt} {v : Validator} {m1 m2 : List Message} (h1 : o.Says W M v m1)
    (h2 : o.Says W M v m2) : m1 = m2 := by
  have := (defaultMessages_ok.2 h1).symm.trans (defaultMessages_ok.2 h2)
  simpa using this

theorem defaultCheck_eq {W : World} {o : Opt} {v : Validator} {r : Int} :
    defaultCheck W o v = .ok r ↔ (∃ q, o.Tries W v q ∧ r = q.1) ∨ (¬ o.Runs v ∧ r = Err.success) := by
  unfold defaultCheck Opt.Tries Opt.Runs
  by_cases hp : v.order = .pre ∧ o.valueType = .string
  · rw [if_pos hp, bind_ok_eq]
    constructor
    · rintro ⟨s, h1, h2⟩
      obtain ⟨q, h3, h4⟩ := bind_ok_eq.1 h2
      simp only [Out.ok.injEq] at h4
      exact .inl ⟨q, .inr ⟨hp.1, hp.2, s, h1, h3⟩, h4.symm⟩
    · rintro (⟨q, h1 | ⟨_, _, s, h1, h2⟩, h3⟩ | h)
      · rw [hp.1] at h1; simp at h1
      · exact ⟨s, h1, bind_ok_eq.2 ⟨q, h2, by rw [h3]⟩⟩
      · exact absurd (.inr hp) h.1
  · rw [if_neg hp]
    by_cases hq : v.order = .post
    · rw [if_pos hq, bind_ok_eq]
      constructor
      · rintro ⟨q, h1, h2⟩
        simp only [Out.ok.injEq] at h2
        exact .inl ⟨q, .inl ⟨hq, h1⟩, h2.symm⟩
      · rintro (⟨q, h1 | h1, h3⟩ | h)
        · exact ⟨q, h1.2, by rw [h3]⟩
        · rw [hq] at h1; simp at h1
        · exact absurd (.inl hq) h.1
    · rw [if_neg hq]
      constructor
      · intro h
        simp only [Out.ok.injEq] at h
        exact .inr ⟨by rintro (h1 | h1); exact hq h1; exact hp h1, h.symm⟩
      · rintro (⟨q, h1 | h1, h3⟩ | h)
        · exact absurd h1.1 hq
        · exact absurd ⟨h1.1, h1.2.1⟩ hp
        · rw [h.2]

theorem Opt.Tries.runs {W : World} {o : Opt} {v : Validator} {q : VRes} (h : o.Tries W v q) : o.Runs v := by
  rcases h with h | h
  · exact .inl h.1
  · exact .inr ⟨h.1, h.2.1⟩

theorem Opt.Tries.unique {W : World} {o : Opt} {v : Validator} {q r : VRes} (h : o.Tries W v q) (h2 : o.Tries W v r) : q = r := by
  rcases h with ⟨a, h⟩ | ⟨a, b, s, e, h⟩
  · rcases h2 with ⟨_, h2⟩ | h2
    · rw [h] at h2; simpa using h2
    · rw [a] at h2; exact (nomatch h2.1)
  · rcases h2 with h2 | ⟨_, _, s2, e2, h2⟩
    · rw [a] at h2; exact (nomatch h2.1)
    · rw [e] at e2; simp only [Out.ok.injEq] at e2; subst e2
      rw [h] at h2; simpa using h2

theorem defaultCheck_rejects {W : World} {o : Opt} {v : Validator} {r : Int} (h : defaultCheck W o v = .ok r) :
    r ≠ Err.success ↔ o.Rejects W v := by
  rcases defaultCheck_eq.1 h with ⟨q, h1, rfl⟩ | ⟨h1, rfl⟩
  · constructor
    · intro h2; exact ⟨q, h1, h2⟩
    · rintro ⟨q2, h2, h3⟩; rw [h1.unique h2]; exact h3
  · constructor
    · intro h2; exact absurd rfl h2
    · rintro ⟨q, h2, h3⟩; exact absurd h2.runs h1

/-- What `validators` print, one line for each message. -/
def printedText (prog : Str) (ms : List Message) : Str := (ms.map (Message.line prog)).flatten

theorem printedText_nil {prog : Str} {ms : List Message} : printedText prog ms = [] ↔ ms = [] := by
  cases ms with
  | nil => simp [printedText]
  | cons m ms => simp [printedText, Message.line]

theorem captured_ok {s t : Str} : captured s = .ok t ↔ s ≠ [] ∧ t = s := by
  unfold captured
  split
  · rename_i h; simp [h]
  · rename_i h
    simp only [Out.ok.injEq, ne_eq, h, not_false_eq_true, true_and]
    exact eq_comm

/-- The text about a default value. -/
def refusalText (prog : Str) (ms : List Message) : Str :=
  c!"Default value does not pass validations: \n\t    " ++ printedText prog ms

theorem check_ne {r st : Int} : check (r != Err.success) Err.invalidDefault st ≠ Err.success ↔ r ≠ Err.success ∨ st ≠ Err.success := by
  by_cases h : r = Err.success
  · simp [check, h]
  · simp only [check, bne_iff_ne, ne_eq, h, not_false_eq_true, if_true, true_or, iff_true]
    decide

theorem splits_cons {v : Validator} {vs : List Validator} {P : List Validator → Validator → List Validator → Prop} :
    (∃ vs1 x vs2, v :: vs = vs1 ++ x :: vs2 ∧ P vs1 x vs2) ↔
      P [] v vs ∨ ∃ vs1 x vs2, vs = vs1 ++ x :: vs2 ∧ P (v :: vs1) x vs2 := by
  constructor
  · rintro ⟨vs1, x, vs2, h1, h2⟩
    cases vs1 with
    | nil => simp only [List.nil_append, List.cons.injEq] at h1; obtain ⟨rfl, rfl⟩ := h1; exact .inl h2
    | cons y vs1 =>
      simp only [List.cons_append, List.cons.injEq] at h1; obtain ⟨rfl, rfl⟩ := h1; exact .inr ⟨vs1, x, vs2, rfl, h2⟩
  · rintro (h | ⟨vs1, x, vs2, h1, h2⟩)
    · exact ⟨[], v, vs, rfl, h⟩
    · exact ⟨v :: vs1, x, vs2, by rw [h1]; rfl, h2⟩

/-- Validator `x` is `v` or comes after it: some validator up to `x` does not accept. -/
theorem rejects_cons {W : World} {o : Opt} {v : Validator} {st : Int} {r : Int} (h : defaultCheck W o v = .ok r)
    {vs1 : List Validator} {x : Validator} :
    (check (r != Err.success) Err.invalidDefault st ≠ Err.success ∨ ∃ w ∈ vs1 ++ [x], o.Rejects W w) ↔
      (st ≠ Err.success ∨ ∃ w ∈ (v :: vs1) ++ [x], o.Rejects W w) := by
  rw [check_ne, defaultCheck_rejects h]
  simp only [List.cons_append, List.mem_cons, exists_eq_or_imp]
  constructor
  · rintro ((h1 | h1) | h1)
    · exact .inr (.inl h1)
    · exact .inl h1
    · exact .inr (.inr h1)
  · rintro (h1 | h1 | h1)
    · exact .inl (.inr h1)
    · exact .inl (.inl h1)
    · exact .inr h1

theorem defaultComplaintLoop_mem {W : World} {M : Wording} {prog : Str} {i : Nat} {o : Opt} :
    ∀ (vs : List Validator) {st : Int} {cs : List Complaint}, defaultComplaintLoop W M prog i o st vs = .ok cs →
    (∀ x, x ∈ cs ↔ ∃ vs1 v vs2, vs = vs1 ++ v :: vs2 ∧ (st ≠ Err.success ∨ ∃ w ∈ vs1 ++ [v], o.Rejects W w) ∧
      ∃ ms, o.Says W M v ms ∧ x = (i, refusalText prog ms)) ∧
    ∃ r, defaultLoop W o st vs = .ok r ∧ (r = Err.success ↔ st = Err.success ∧ cs = [])
  | [], st, cs, h => by
    simp only [defaultComplaintLoop, Out.ok.injEq] at h; subst h
    exact ⟨by simp, st, rfl, by simp⟩
  | v :: vs, st, cs, h => by
    unfold defaultComplaintLoop at h
    obtain ⟨r, hr, h1⟩ := Out.bind_eq_ok h
    obtain ⟨m, hm, h2⟩ := Out.bind_eq_ok h1
    have hs := defaultMessages_ok.1 hm
    simp only at h2
    by_cases hst : check (r != Err.success) Err.invalidDefault st ≠ Err.success
    · rw [if_pos hst] at h2
      obtain ⟨s, h3, h4⟩ := Out.bind_eq_ok h2
      obtain ⟨cs1, h5, h6⟩ := Out.bind_eq_ok h4
      simp only [Out.ok.injEq] at h6; subst h6
      obtain ⟨h7, r2, h8, h9⟩ := defaultComplaintLoop_mem vs h5
      refine ⟨fun x => ?_, r2, by unfold defaultLoop; rw [hr]; exact h8, ?_⟩
      · rw [splits_cons, List.mem_cons, h7]
        refine or_congr ?_ ?_
        · constructor
          · rintro rfl
            refine ⟨?_, m, hs, by rw [(captured_ok.1 h3).2]; rfl⟩
            have := (rejects_cons hr (st := st) (vs1 := []) (x := v)).1 (.inl hst)
            simpa using this
          · rintro ⟨_, ms, h10, rfl⟩
            rw [h10.unique hs, (captured_ok.1 h3).2]; rfl
        · constructor
          · rintro ⟨vs1, w, vs2, h10, h11, h12⟩
            exact ⟨vs1, w, vs2, h10, (rejects_cons hr).1 h11, h12⟩
          · rintro ⟨vs1, w, vs2, h10, h11, h12⟩
            exact ⟨vs1, w, vs2, h10, (rejects_cons hr).2 h11, h12⟩
      · rw [h9]
        constructor
        · rintro ⟨h10, _⟩; exact absurd h10 hst
        · rintro ⟨_, h10⟩; simp at h10
    · rw [if_neg hst] at h2
      obtain ⟨h7, r2, h8, h9⟩ := defaultComplaintLoop_mem vs h2
      have hst2 := hst
      rw [check_ne] at hst2
      refine ⟨fun x => ?_, r2, by unfold defaultLoop; rw [hr]; exact h8, ?_⟩
      · rw [splits_cons, h7]
        constructor
        · rintro ⟨vs1, w, vs2, h10, h11, h12⟩
          exact .inr ⟨vs1, w, vs2, h10, (rejects_cons hr).1 h11, h12⟩
        · rintro (⟨h10, _⟩ | ⟨vs1, w, vs2, h10, h11, h12⟩)
          · refine absurd ?_ hst2
            simp only [List.nil_append, List.mem_singleton, exists_eq_left] at h10
            rcases h10 with h10 | h10
            · exact .inr h10
            · exact .inl ((defaultCheck_rejects hr).2 h10)
          · exact ⟨vs1, w, vs2, h10, (rejects_cons hr).2 h11, h12⟩
      · rw [h9]
        simp only [ne_eq, Decidable.not_not] at hst
        have h10 : st = Err.success := Decidable.byContradiction fun h => hst2 (.inr h)
        rw [h10] at hst ⊢
        simp [hst]

theorem defaultComplaintLoop_ok {W : World} {M : Wording} {prog : Str} {i : Nat} {o : Opt} :
    ∀ (vs : List Validator) {st : Int}, (∃ cs, defaultComplaintLoop W M prog i o st vs = .ok cs) ↔
    ∀ vs1 v vs2, vs = vs1 ++ v :: vs2 → (o.Runs v → ∃ r, o.Tries W v r) ∧
      ∃ ms, o.Says W M v ms ∧ ((st ≠ Err.success ∨ ∃ w ∈ vs1 ++ [v], o.Rejects W w) → ms ≠ [])
  | [], st => by simp [defaultComplaintLoop]
  | v :: vs, st => by
    have hsplit : ∀ {P : List Validator → Validator → List Validator → Prop},
        (∀ vs1 x vs2, v :: vs = vs1 ++ x :: vs2 → P vs1 x vs2) ↔
          P [] v vs ∧ ∀ vs1 x vs2, vs = vs1 ++ x :: vs2 → P (v :: vs1) x vs2 := by
      intro P
      constructor
      · intro h
        exact ⟨h [] v vs rfl, fun vs1 x vs2 h1 => h (v :: vs1) x vs2 (by rw [h1]; rfl)⟩
      · rintro ⟨h1, h2⟩ vs1 x vs2 h3
        cases vs1 with
        | nil => simp only [List.nil_append, List.cons.injEq] at h3; obtain ⟨rfl, rfl⟩ := h3; exact h1
        | cons y vs1 =>
          simp only [List.cons_append, List.cons.injEq] at h3; obtain ⟨rfl, rfl⟩ := h3; exact h2 vs1 x vs2 rfl
    rw [hsplit]
    have hself : ∀ {r : Int}, defaultCheck W o v = .ok r →
        (check (r != Err.success) Err.invalidDefault st ≠ Err.success ↔
          (st ≠ Err.success ∨ ∃ w ∈ ([] : List Validator) ++ [v], o.Rejects W w)) := by
      intro r hr
      rw [check_ne, defaultCheck_rejects hr]
      simp [or_comm]
    constructor
    · rintro ⟨cs, h⟩
      unfold defaultComplaintLoop at h
      obtain ⟨r, hr, h1⟩ := Out.bind_eq_ok h
      obtain ⟨m, hm, h2⟩ := Out.bind_eq_ok h1
      have hs := defaultMessages_ok.1 hm
      simp only at h2
      have hrest : (∃ cs1, defaultComplaintLoop W M prog i o (check (r != Err.success) Err.invalidDefault st) vs = .ok cs1) ∧
          (check (r != Err.success) Err.invalidDefault st ≠ Err.success → m ≠ []) := by
        by_cases hst : check (r != Err.success) Err.invalidDefault st ≠ Err.success
        · rw [if_pos hst] at h2
          obtain ⟨s, h3, h4⟩ := Out.bind_eq_ok h2
          obtain ⟨cs1, h5, h6⟩ := Out.bind_eq_ok h4
          refine ⟨⟨cs1, h5⟩, fun _ he => ?_⟩
          subst he
          exact (captured_ok.1 h3).1 rfl
        · rw [if_neg hst] at h2
          exact ⟨⟨cs, h2⟩, fun h => absurd h hst⟩
      refine ⟨⟨fun hruns => ?_, m, hs, fun h3 => hrest.2 ((hself hr).2 h3)⟩, ?_⟩
      · rcases defaultCheck_eq.1 hr with ⟨q, h3, _⟩ | ⟨h3, _⟩
        · exact ⟨q, h3⟩
        · exact absurd hruns h3
      · intro vs1 x vs2 he
        obtain ⟨h3, ms, h4, h5⟩ := (defaultComplaintLoop_ok vs).1 hrest.1 vs1 x vs2 he
        exact ⟨h3, ms, h4, fun h6 => h5 ((rejects_cons hr).2 h6)⟩
    · rintro ⟨⟨h1, m, hs, h2⟩, h3⟩
      have hr : ∃ r, defaultCheck W o v = .ok r := by
        by_cases hruns : o.Runs v
        · obtain ⟨q, hq⟩ := h1 hruns
          exact ⟨q.1, defaultCheck_eq.2 (.inl ⟨q, hq, rfl⟩)⟩
        · exact ⟨_, defaultCheck_eq.2 (.inr ⟨hruns, rfl⟩)⟩
      obtain ⟨r, hr⟩ := hr
      obtain ⟨cs1, h4⟩ := (defaultComplaintLoop_ok (i := i) (prog := prog) vs
        (st := check (r != Err.success) Err.invalidDefault st)).2 (by
          intro vs1 x vs2 he
          obtain ⟨g3, ms, g4, g5⟩ := h3 vs1 x vs2 he
          exact ⟨g3, ms, g4, fun h6 => g5 ((rejects_cons hr).1 h6)⟩)
      unfold defaultComplaintLoop
      rw [hr, Out.ok_bind, defaultMessages_ok.2 hs, Out.ok_bind]
      simp only
      by_cases hst : check (r != Err.success) Err.invalidDefault st ≠ Err.success
      · rw [if_pos hst, show captured (m.map (Message.line prog)).flatten = .ok _ from captured_ok.2
          ⟨fun he => h2 ((hself hr).1 hst) (printedText_nil.1 he), rfl⟩, Out.ok_bind, h4]
        exact ⟨_, rfl⟩
      · rw [if_neg hst]; exact ⟨cs1, h4⟩

/-- The complaints about the default value, its status, and when they are defined. -/
theorem defaultComplaints_mem {W : World} {M : Wording} {prog : Str} {i : Nat} {o : Opt} {cs : List Complaint}
    (h : defaultComplaints W M prog i o = .ok cs) :
    (∀ x, x ∈ cs ↔ ∃ t, Defective W M prog o t ∧ x = (i, t)) ∧
    ∃ r, validateDefault W o = .ok r ∧ (r = Err.success ↔ cs = []) := by
  unfold defaultComplaints at h
  unfold validateDefault
  by_cases hd : o.haveDefault = true
  · by_cases hf : o.valueType = .flag
    · rw [if_pos ⟨hd, hf⟩] at h ⊢
      simp only [Out.ok.injEq] at h; subst h
      refine ⟨fun x => ?_, _, rfl, by simp only [reduceCtorEq, iff_false]; decide⟩
      rw [List.mem_singleton]
      constructor
      · rintro rfl; exact ⟨_, .flagDefault hd hf, rfl⟩
      · rintro ⟨t, h1, rfl⟩
        cases h1 with
        | flagDefault _ _ => rfl
        | badDefault _ h2 _ _ _ _ => exact absurd hf h2
    · rw [if_neg (by simp [hf]), if_pos hd] at h ⊢
      cases hv : o.validators with
      | none =>
        rw [hv] at h
        simp only [Out.ok.injEq] at h; subst h
        refine ⟨fun x => ?_, _, rfl, by simp⟩
        simp only [List.not_mem_nil, false_iff]
        rintro ⟨t, h1, _⟩
        cases h1 with
        | flagDefault _ h2 => exact hf h2
        | badDefault _ _ h2 _ _ _ => rw [hv] at h2; simp at h2
      | some vs =>
        rw [hv] at h
        obtain ⟨h1, r, h2, h3⟩ := defaultComplaintLoop_mem vs h
        refine ⟨fun x => ?_, r, h2, by rw [h3]; simp⟩
        rw [h1]
        constructor
        · rintro ⟨vs1, v, vs2, rfl, h4 | ⟨w, hw, h4⟩, ms, h5, rfl⟩
          · exact absurd rfl h4
          · exact ⟨_, .badDefault hd hf hv hw h4 h5, rfl⟩
        · rintro ⟨t, h4, rfl⟩
          cases h4 with
          | flagDefault _ h5 => exact absurd h5 hf
          | badDefault _ _ h5 h6 h7 h8 =>
            rw [hv] at h5; simp only [Option.some.injEq] at h5
            exact ⟨_, _, _, h5, .inr ⟨_, h6, h7⟩, _, h8, rfl⟩
  · rw [if_neg (by simp [hd]), if_neg hd] at h ⊢
    simp only [Out.ok.injEq] at h; subst h
    refine ⟨fun x => ?_, _, rfl, by simp⟩
    simp only [List.not_mem_nil, false_iff]
    rintro ⟨t, h1, _⟩
    cases h1 with
    | flagDefault h2 _ => exact hd h2
    | badDefault h2 _ _ _ _ _ => exact hd h2

theorem defaultComplaints_ok {W : World} {M : Wording} {prog : Str} {i : Nat} {o : Opt} :
    (∃ cs, defaultComplaints W M prog i o = .ok cs) ↔ o.Explained W M := by
  unfold defaultComplaints Opt.Explained
  by_cases hd : o.haveDefault = true
  · by_cases hf : o.valueType = .flag
    · rw [if_pos ⟨hd, hf⟩]
      exact ⟨fun _ _ h => absurd hf h, fun _ => ⟨_, rfl⟩⟩
    · rw [if_neg (by simp [hf]), if_pos hd]
      cases hv : o.validators with
      | none => simp
      | some vs =>
        simp only
        rw [defaultComplaintLoop_ok]
        constructor
        · intro h _ _ vs1 v vs2 he
          simp only [Option.some.injEq] at he
          obtain ⟨h1, ms, h2, h3⟩ := h vs1 v vs2 he
          exact ⟨h1, ms, h2, fun h4 => h3 (.inr h4)⟩
        · intro h vs1 v vs2 he
          obtain ⟨h1, ms, h2, h3⟩ := h hd hf vs1 v vs2 (by rw [he])
          exact ⟨h1, ms, h2, fun h4 => h3 (h4.resolve_left fun h5 => h5 rfl)⟩
  · rw [if_neg (by simp [hd]), if_neg hd]
    exact ⟨fun _ h => absurd h hd, fun _ => ⟨_, rfl⟩⟩

/-! ### Entries -/

theorem findName_isNone {os : List Opt} {n : Str} : (findName os n).isNone = true ↔ ∀ p ∈ os, p.name ≠ some n := by
  cases h : findName os n with
  | none => simpa using findName_none.1 h
  | some i =>
    obtain ⟨pre, p, post, h1, _, h2, _⟩ := findName_some.1 h
    simp only [Option.isNone_some, Bool.false_eq_true, false_iff]
    intro h3
    exact h3 p (by rw [h1]; simp) h2

theorem mem_dependencyComplaints {os : List Opt} {i : Nat} {o : Opt} {x : Complaint} :
    x ∈ dependencyComplaints os i o ↔
      (∃ n, n ∈ o.require.getD [] ∧ n ∈ o.conflict.getD [] ∧
        x = (i, c!"Option cannot require and conflict with the same option: '" ++ n ++ c!"'")) ∨
      (∃ n ∈ o.require.getD [], (∀ p ∈ os, p.name ≠ some n) ∧ x = (i, c!"Required option not found '" ++ n ++ c!"' in options")) ∨
      (∃ n ∈ o.conflict.getD [], (∀ p ∈ os, p.name ≠ some n) ∧
        x = (i, c!"Conflicting option not found '" ++ n ++ c!"' in options")) := by
  unfold dependencyComplaints
  simp only [List.mem_append, List.mem_flatMap, mem_complain, findName_isNone, beq_iff_eq, strcmp_eq_zero, or_assoc]
  refine or_congr ?_ (or_congr ?_ ?_)
  · constructor
    · rintro ⟨r, h1, c, h2, rfl, h3⟩; exact ⟨r, h1, h2, h3⟩
    · rintro ⟨n, h1, h2, h3⟩; exact ⟨n, h1, n, h2, rfl, h3⟩
  · constructor
    · rintro ⟨n, h1, h2, h3⟩; exact ⟨n, h1, h2, by rw [h3]; simp [quoted]⟩
    · rintro ⟨n, h1, h2, h3⟩; exact ⟨n, h1, h2, by rw [h3]; simp [quoted]⟩
  · constructor
    · rintro ⟨n, h1, h2, h3⟩; exact ⟨n, h1, h2, by rw [h3]; simp [quoted]⟩
    · rintro ⟨n, h1, h2, h3⟩; exact ⟨n, h1, h2, by rw [h3]; simp [quoted]⟩

theorem mem_getD_nil {x : Option (List Str)} {n : Str} : n ∈ x.getD [] ↔ ∃ l, x = some l ∧ n ∈ l := by
  cases x <;> simp

theorem outside_true {fs : Flags} {l : List Flag} : fs.outside (Flags.ofList l) = true ↔ ¬ fs.Within l := by
  rw [← outside_ofList, Bool.not_eq_false]

theorem entryComplaints_mem {W : World} {M : Wording} {prog : Str} {os : List Opt} {i : Nat} {o : Opt} {cs : List Complaint}
    (h : entryComplaints W M prog os i o = .ok cs) (x : Complaint) :
    x ∈ cs ↔ ∃ t, Malformed W M prog os o t ∧ x = (i, t) := by
  unfold entryComplaints at h
  cases ht : o.type with
  | option =>
    simp only [ht] at h
    unfold optionComplaints at h
    obtain ⟨d, h1, h2⟩ := Out.bind_eq_ok h
    simp only [Out.ok.injEq] at h2; subst h2
    have hd := (defaultComplaints_mem h1).1
    simp only [flagCheck_dead, List.mem_append, mem_complain, mem_dependencyComplaints, hd, Bool.false_eq_true, false_and,
      or_false, Option.isNone_iff_eq_none, Bool.and_eq_true, beq_iff_eq, or_assoc]
    constructor
    · rintro (⟨h3, rfl⟩ | ⟨h3, rfl⟩ | ⟨h3, rfl⟩ | ⟨t, h3, rfl⟩ | ⟨n, h3, h4, rfl⟩ | ⟨n, h3, h4, rfl⟩ | ⟨n, h3, h4, rfl⟩)
      · exact ⟨_, .optName ht h3.1 h3.2, rfl⟩
      · exact ⟨_, .optHelp ht h3, rfl⟩
      · exact ⟨_, .optHandler ht h3, rfl⟩
      · exact ⟨_, .optDefault ht h3, rfl⟩
      · obtain ⟨l, e1, e2⟩ := mem_getD_nil.1 h3
        obtain ⟨m, e3, e4⟩ := mem_getD_nil.1 h4
        exact ⟨_, .both ht e1 e3 e2 e4, rfl⟩
      · obtain ⟨l, e1, e2⟩ := mem_getD_nil.1 h3
        exact ⟨_, .unknownRequire ht e1 e2 h4, rfl⟩
      · obtain ⟨l, e1, e2⟩ := mem_getD_nil.1 h3
        exact ⟨_, .unknownConflict ht e1 e2 h4, rfl⟩
    · rintro ⟨t, h3, rfl⟩
      cases h3 with
      | optName _ a b => exact .inl ⟨⟨a, b⟩, rfl⟩
      | optHelp _ a => exact .inr (.inl ⟨a, rfl⟩)
      | optHandler _ a => exact .inr (.inr (.inl ⟨a, rfl⟩))
      | optDefault _ a => exact .inr (.inr (.inr (.inl ⟨_, a, rfl⟩)))
      | both _ a b c d =>
        exact .inr (.inr (.inr (.inr (.inl ⟨_, mem_getD_nil.2 ⟨_, a, c⟩, mem_getD_nil.2 ⟨_, b, d⟩, rfl⟩))))
      | unknownRequire _ a b c => exact .inr (.inr (.inr (.inr (.inr (.inl ⟨_, mem_getD_nil.2 ⟨_, a, b⟩, c, rfl⟩)))))
      | unknownConflict _ a b c => exact .inr (.inr (.inr (.inr (.inr (.inr ⟨_, mem_getD_nil.2 ⟨_, a, b⟩, c, rfl⟩)))))
      | posName a | posHelp a | posManyFlags a | posFlags a | posHandler a | posRequired a | posDefault a | posDepends a
      | groupFlags a | subName a | subHelp a | subTable a | subFlags a | subHandler a | subDepends a | subDefault a
      | subValidators a => rw [ht] at a; exact (nomatch a)
  | positional =>
    simp only [ht] at h
    unfold positionalComplaints at h
    obtain ⟨d, h1, h2⟩ := Out.bind_eq_ok h
    simp only [Out.ok.injEq] at h2; subst h2
    have hd := (defaultComplaints_mem h1).1
    have hmask : positionalManyFlagMask = Flags.ofList [.sorted, .unique, .deprecated, .experimental, .required] := by decide
    simp only [List.mem_append, mem_complain, hd, hmask, positionalFlagMask, outside_true, Bool.and_eq_true, Bool.or_eq_true,
      Option.isNone_iff_eq_none, Option.isSome_iff_ne_none, or_assoc]
    constructor
    · rintro (⟨h3, rfl⟩ | ⟨h3, rfl⟩ | ⟨h3, rfl⟩ | ⟨h3, rfl⟩ | ⟨h3, rfl⟩ | ⟨h3, rfl⟩ | ⟨t, h3, rfl⟩ | ⟨h3, rfl⟩)
      · exact ⟨_, .posName ht h3, rfl⟩
      · exact ⟨_, .posHelp ht h3, rfl⟩
      · exact ⟨_, .posManyFlags ht h3.1 h3.2, rfl⟩
      · exact ⟨_, .posFlags ht h3, rfl⟩
      · exact ⟨_, .posHandler ht h3, rfl⟩
      · exact ⟨_, .posRequired ht h3.1 h3.2, rfl⟩
      · exact ⟨_, .posDefault ht h3, rfl⟩
      · exact ⟨_, .posDepends ht h3, rfl⟩
    · rintro ⟨t, h3, rfl⟩
      cases h3 with
      | posName _ a => exact .inl ⟨a, rfl⟩
      | posHelp _ a => exact .inr (.inl ⟨a, rfl⟩)
      | posManyFlags _ a b => exact .inr (.inr (.inl ⟨⟨a, b⟩, rfl⟩))
      | posFlags _ a => exact .inr (.inr (.inr (.inl ⟨a, rfl⟩)))
      | posHandler _ a => exact .inr (.inr (.inr (.inr (.inl ⟨a, rfl⟩))))
      | posRequired _ a b => exact .inr (.inr (.inr (.inr (.inr (.inl ⟨⟨a, b⟩, rfl⟩)))))
      | posDefault _ a => exact .inr (.inr (.inr (.inr (.inr (.inr (.inl ⟨_, a, rfl⟩))))))
      | posDepends _ a => exact .inr (.inr (.inr (.inr (.inr (.inr (.inr ⟨a, rfl⟩))))))
      | optName a | optHelp a | optHandler a | optDefault a | both a | unknownRequire a | unknownConflict a
      | groupFlags a | subName a | subHelp a | subTable a | subFlags a | subHandler a | subDepends a | subDefault a
      | subValidators a => rw [ht] at a; exact (nomatch a)
  | group =>
    simp only [ht, Out.ok.injEq] at h; subst h
    unfold groupComplaints
    simp only [mem_complain, groupFlagMask, outside_true]
    constructor
    · rintro ⟨h3, rfl⟩; exact ⟨_, .groupFlags ht h3, rfl⟩
    · rintro ⟨t, h3, rfl⟩
      cases h3 with
      | groupFlags _ a => exact ⟨a, rfl⟩
      | optName a | optHelp a | optHandler a | optDefault a | both a | unknownRequire a | unknownConflict a
      | posName a | posHelp a | posManyFlags a | posFlags a | posHandler a | posRequired a | posDefault a | posDepends a
      | subName a | subHelp a | subTable a | subFlags a | subHandler a | subDepends a | subDefault a
      | subValidators a => rw [ht] at a; exact (nomatch a)
  | subcommand =>
    simp only [ht, Out.ok.injEq] at h; subst h
    unfold subcommandComplaints
    simp only [List.mem_append, mem_complain, subcommandFlagMask, outside_true, Bool.or_eq_true,
      Option.isNone_iff_eq_none, Option.isSome_iff_ne_none, or_assoc]
    constructor
    · rintro (⟨h3, rfl⟩ | ⟨h3, rfl⟩ | ⟨h3, rfl⟩ | ⟨h3, rfl⟩ | ⟨h3, rfl⟩ | ⟨h3, rfl⟩ | ⟨h3, rfl⟩ | ⟨h3, rfl⟩)
      · exact ⟨_, .subName ht h3, rfl⟩
      · exact ⟨_, .subHelp ht h3, rfl⟩
      · exact ⟨_, .subTable ht h3, rfl⟩
      · exact ⟨_, .subFlags ht h3, rfl⟩
      · exact ⟨_, .subHandler ht h3, rfl⟩
      · exact ⟨_, .subDepends ht h3, rfl⟩
      · exact ⟨_, .subDefault ht h3, rfl⟩
      · exact ⟨_, .subValidators ht h3, rfl⟩
    · rintro ⟨t, h3, rfl⟩
      cases h3 with
      | subName _ a => exact .inl ⟨a, rfl⟩
      | subHelp _ a => exact .inr (.inl ⟨a, rfl⟩)
      | subTable _ a => exact .inr (.inr (.inl ⟨a, rfl⟩))
      | subFlags _ a => exact .inr (.inr (.inr (.inl ⟨a, rfl⟩)))
      | subHandler _ a => exact .inr (.inr (.inr (.inr (.inl ⟨a, rfl⟩))))
      | subDepends _ a => exact .inr (.inr (.inr (.inr (.inr (.inl ⟨a, rfl⟩)))))
      | subDefault _ a => exact .inr (.inr (.inr (.inr (.inr (.inr (.inl ⟨a, rfl⟩))))))
      | subValidators _ a => exact .inr (.inr (.inr (.inr (.inr (.inr (.inr ⟨a, rfl⟩))))))
      | optName a | optHelp a | optHandler a | optDefault a | both a | unknownRequire a | unknownConflict a
      | posName a | posHelp a | posManyFlags a | posFlags a | posHandler a | posRequired a | posDefault a | posDepends a
      | groupFlags a => rw [ht] at a; exact (nomatch a)

theorem dependencyComplaints_status {os : List Opt} {i : Nat} {o : Opt} :
    validateDependencies os o = Err.success ↔ dependencyComplaints os i o = [] := by
  unfold validateDependencies dependencyComplaints
  simp only [check_ok (show Err.invalidDependency ≠ Err.success by decide), List.append_eq_nil_iff, List.flatMap_eq_nil_iff,
    complain_nil, List.any_eq_false, Bool.not_eq_true, and_true]
  constructor
  · rintro ⟨h1, h2, h3⟩; exact ⟨⟨h3, h2⟩, h1⟩
  · rintro ⟨⟨h3, h2⟩, h1⟩; exact ⟨h1, h2, h3⟩

theorem entryComplaints_status {W : World} {M : Wording} {prog : Str} {os : List Opt} {i : Nat} {o : Opt} {cs : List Complaint}
    (h : entryComplaints W M prog os i o = .ok cs) :
    ∃ r, validateEntry W os o = .ok r ∧ (r = Err.success ↔ cs = []) := by
  unfold entryComplaints at h
  unfold validateEntry
  have e1 : Err.malformedOption ≠ Err.success := by decide
  have e2 : Err.invalidHandler ≠ Err.success := by decide
  have e3 : Err.invalidFlag ≠ Err.success := by decide
  have e4 : Err.invalidDependency ≠ Err.success := by decide
  have e5 : Err.invalidDefault ≠ Err.success := by decide
  have e6 : Err.invalidGroup ≠ Err.success := by decide
  cases ht : o.type with
  | option =>
    simp only [ht] at h ⊢
    unfold optionComplaints at h
    obtain ⟨d, h1, h2⟩ := Out.bind_eq_ok h
    simp only [Out.ok.injEq] at h2; subst h2
    obtain ⟨r, h3, h4⟩ := (defaultComplaints_mem h1).2
    unfold validateOption
    rw [h3, Out.ok_bind]
    refine ⟨_, rfl, ?_⟩
    simp only [check_ok e1, check_ok e2, check_ok e3, bne_eq_false_iff_eq, h4, dependencyComplaints_status (i := i),
      List.append_eq_nil_iff, complain_nil, and_true]
    constructor
    · rintro ⟨a, b, c, d, e, f⟩; exact ⟨⟨⟨⟨⟨f, e⟩, d⟩, c⟩, b⟩, a⟩
    · rintro ⟨⟨⟨⟨⟨f, e⟩, d⟩, c⟩, b⟩, a⟩; exact ⟨a, b, c, d, e, f⟩
  | positional =>
    simp only [ht] at h ⊢
    unfold positionalComplaints at h
    obtain ⟨d, h1, h2⟩ := Out.bind_eq_ok h
    simp only [Out.ok.injEq] at h2; subst h2
    obtain ⟨r, h3, h4⟩ := (defaultComplaints_mem h1).2
    unfold validatePositional
    rw [h3, Out.ok_bind]
    refine ⟨_, rfl, ?_⟩
    simp only [check_ok e1, check_ok e2, check_ok e3, check_ok e4, bne_eq_false_iff_eq, h4, List.append_eq_nil_iff, complain_nil,
      and_true]
    constructor
    · rintro ⟨a, b, c, d, e, f, g, h⟩; exact ⟨⟨⟨⟨⟨⟨⟨h, g⟩, f⟩, e⟩, d⟩, c⟩, b⟩, a⟩
    · rintro ⟨⟨⟨⟨⟨⟨⟨h, g⟩, f⟩, e⟩, d⟩, c⟩, b⟩, a⟩; exact ⟨a, b, c, d, e, f, g, h⟩
  | group =>
    simp only [ht, Out.ok.injEq] at h ⊢; subst h
    refine ⟨_, rfl, ?_⟩
    unfold validateGroup groupComplaints
    rw [check_ok e6, complain_nil]
    simp
  | subcommand =>
    simp only [ht, Out.ok.injEq] at h ⊢; subst h
    refine ⟨_, rfl, ?_⟩
    unfold validateSubcommand subcommandComplaints
    simp only [check_ok e1, check_ok e2, check_ok e3, check_ok e4, check_ok e5, List.append_eq_nil_iff, complain_nil, and_true]
    constructor
    · rintro ⟨a, b, c, d, e, f, g, h⟩; exact ⟨⟨⟨⟨⟨⟨⟨h, g⟩, f⟩, e⟩, d⟩, c⟩, b⟩, a⟩
    · rintro ⟨⟨⟨⟨⟨⟨⟨h, g⟩, f⟩, e⟩, d⟩, c⟩, b⟩, a⟩; exact ⟨a, b, c, d, e, f, g, h⟩

theorem entryComplaints_ok {W : World} {M : Wording} {prog : Str} {os : List Opt} {i : Nat} {o : Opt} :
    (∃ cs, entryComplaints W M prog os i o = .ok cs) ↔ (o.type = .option ∨ o.type = .positional → o.Explained W M) := by
  unfold entryComplaints
  rw [← defaultComplaints_ok (prog := prog) (i := i)]
  cases ht : o.type with
  | option =>
    simp only [true_or, forall_const]
    constructor
    · rintro ⟨cs, h⟩
      obtain ⟨d, h1, _⟩ := Out.bind_eq_ok h
      exact ⟨d, h1⟩
    · rintro ⟨d, h1⟩
      unfold optionComplaints
      rw [h1]; exact ⟨_, rfl⟩
  | positional =>
    simp only [or_true, forall_const]
    constructor
    · rintro ⟨cs, h⟩
      obtain ⟨d, h1, _⟩ := Out.bind_eq_ok h
      exact ⟨d, h1⟩
    · rintro ⟨d, h1⟩
      unfold positionalComplaints
      rw [h1]; exact ⟨_, rfl⟩
  | group => simp
  | subcommand => simp

end Argus
