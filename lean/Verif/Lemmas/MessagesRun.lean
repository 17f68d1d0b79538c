import Verif.Lemmas.Messages
import Verif.Lemmas.Meaning

/-! The messages of the stages of a parse. -/

set_option autoImplicit false

namespace Argus

theorem Argus.Named.congr {a b : Argus} (hn : a.Named) (h : b.shape = a.shape) : b.Named := by
  have key : ∀ os ∈ b.tables, ∀ o ∈ os, ∃ os' ∈ a.tables, ∃ o' ∈ os', o'.meta = o.meta := by
    intro os hos o ho
    have h1 : os.map Opt.meta ∈ b.shape := List.mem_map_of_mem hos
    rw [h] at h1
    obtain ⟨os', h2, h3⟩ := List.mem_map.1 h1
    have h4 : o.meta ∈ os'.map Opt.meta := by rw [h3]; exact List.mem_map_of_mem ho
    obtain ⟨o', h5, h6⟩ := List.mem_map.1 h4
    exact ⟨os', h2, o', h5, h6⟩
  constructor
  · intro os hos o ho hc
    obtain ⟨os', h1, o', h2, h3⟩ := key os hos o ho
    have e1 : o'.type = o.type := by have := congrArg (fun x : Opt => x.type) h3; exact this
    have e2 : o'.flags = o.flags := by have := congrArg (fun x : Opt => x.flags) h3; exact this
    have e3 : o'.name = o.name := by have := congrArg (fun x : Opt => x.name) h3; exact this
    rw [← e3]; rw [← e1, ← e2] at hc
    exact hn.names os' h1 o' h2 hc
  · intro os hos o ho hc
    obtain ⟨os', h1, o', h2, h3⟩ := key os hos o ho
    have e1 : o'.type = o.type := by have := congrArg (fun x : Opt => x.type) h3; exact this
    have e3 : o'.help = o.help := by have := congrArg (fun x : Opt => x.help) h3; exact this
    rw [← e3]; rw [← e1] at hc
    exact hn.helps os' h1 o' h2 hc

theorem Argus.StackNamed.congr {a b : Argus} (hn : a.StackNamed) (h : b.shape = a.shape) (hs : b.stack = a.stack) :
    b.StackNamed := by
  intro p hp
  rw [hs] at hp
  obtain ⟨o, h1, h2⟩ := hn p hp
  obtain ⟨o', h3, h4⟩ := shape_getOpt h h1
  exact ⟨o', h3, by rw [show o'.name = o.name from by have := congrArg (fun x : Opt => x.name) h4; exact this]; exact h2⟩

theorem Argus.Named.get {a : Argus} (hn : a.Named) {p : Ptr} {o : Opt} (ho : a.getOpt p = .ok o) (ht : o.type ≠ .group) :
    o.name ≠ none := by
  obtain ⟨os, h1, h2⟩ := getOpt_eq_ok.1 ho
  exact hn.names os (List.mem_of_getElem? h1) o (List.mem_of_getElem? h2) (.inl ht)

/-- Names and texts that make all messages defined. -/
def Sayable (W : World) (a : Argus) : Prop := a.Named ∧ W.NullRefused

theorem Sayable.congr {W : World} {a b : Argus} (hn : Sayable W a) (h : b.shape = a.shape) : Sayable W b :=
  ⟨hn.1.congr h, hn.2⟩

/-- From `a` to `b` the messages `x` are printed. -/
def Prints (W : World) (a b : Argus) (x : Out (List Message)) : Prop :=
  ∃ es, b.out = a.out ++ es ∧ Worded (Sayable W a) (errorCodes es) x

theorem Prints.nil (W : World) (a : Argus) : Prints W a a (.ok []) := ⟨[], by simp, .nil⟩

theorem Prints.report {W : World} {a : Argus} {c : Int} {s : Str} : Prints W a (a.report c) (.ok [(c, s)]) :=
  ⟨[.error c], rfl, .ok rfl⟩

theorem Prints.append {W : World} {a b c : Argus} {x y : Out (List Message)} (h1 : Prints W a b x) (h2 : Prints W b c y)
    (hs : b.shape = a.shape) : Prints W a c (do let m ← x; let m2 ← y; .ok (m ++ m2)) := by
  obtain ⟨e1, g1, w1⟩ := h1
  obtain ⟨e2, g2, w2⟩ := h2
  refine ⟨e1 ++ e2, by rw [g2, g1, List.append_assoc], ?_⟩
  rw [errorCodes_append]
  exact w1.append (w2.imp fun h => h.congr hs)

theorem Prints.of_out {W : World} {a b b' : Argus} {x : Out (List Message)} (h : Prints W a b x) (ho : b'.out = b.out) :
    Prints W a b' x := by
  obtain ⟨es, h1, h2⟩ := h
  exact ⟨es, by rw [ho, h1], h2⟩

/-! ### Callbacks -/

theorem runPreAll_prints {W : World} {M : Wording} {arg : Option Str} : ∀ (vs : List Validator) {a : Argus}
    {r : Int × Argus}, runPreAll W a arg vs = .ok r →
    ∃ es, r.2 = a.emits es ∧ Worded W.NullRefused (errorCodes es) (preAllMessages W M arg vs)
  | [], a, r, h => by simp only [runPreAll, Out.ok.injEq] at h; subst h; exact ⟨[], rfl, .nil⟩
  | v :: vs, a, r, h => by
    unfold runPreAll at h
    unfold preAllMessages
    split at h
    · rename_i hv
      rw [if_pos hv]
      obtain ⟨q, hq, h2⟩ := Out.bind_eq_ok h
      have hw := runPre_worded (M := M) hq
      simp only [hq, Out.ok_bind]
      split at h2
      · rename_i hc
        simp only [Out.ok.injEq] at h2; subst h2
        refine ⟨_, rfl, ?_⟩
        rw [errorCodes_errors]
        refine ⟨fun m hm => ?_, fun hp => ?_⟩
        · obtain ⟨m1, h1, h2⟩ := Out.bind_eq_ok hm
          rw [if_pos hc] at h2
          simp only [Out.ok.injEq] at h2; subst h2
          exact hw.codes _ h1
        · obtain ⟨m, hm⟩ := hw.defined hp
          exact ⟨m, by rw [hm, Out.ok_bind, if_pos hc]⟩
      · rename_i hc
        obtain ⟨es, hes, hw2⟩ := runPreAll_prints (M := M) vs h2
        refine ⟨q.2.toList.map .error ++ es, ?_, ?_⟩
        · rw [hes]; simp [Argus.emits, List.foldl_append]
        · rw [errorCodes_append, errorCodes_errors]
          simp only [if_neg hc]
          exact hw.append hw2
    · rename_i hv
      rw [if_neg hv]
      exact runPreAll_prints vs h

theorem execCallbacks_prints {W : World} {M : Wording} {a : Argus} {p : Ptr} {arg : Option Str} {r : Int × Argus}
    (hn : ∀ o, a.getOpt p = .ok o → o.type ≠ .group) (h : execCallbacks W a p arg = .ok r) :
    Prints W a r.2 (execMessages W M a p arg) := by
  unfold execCallbacks at h
  unfold execMessages
  obtain ⟨o, ho, h1⟩ := Out.bind_eq_ok h
  rw [ho, Out.ok_bind]
  have hname : Sayable W a → o.name ≠ none := fun hs => hs.1.get ho (hn o ho)
  split at h1
  · rename_i hh
    simp only [Out.ok.injEq] at h1; subst h1
    simp only [hh]
    exact ⟨[.error Err.invalidHandler], rfl, .named hname (fun _ => rfl)⟩
  · rename_i hd hh
    simp only [hh]
    obtain ⟨pre, hpre, h2⟩ := Out.bind_eq_ok h1
    obtain ⟨es, hes, hw⟩ := runPreAll_prints (M := M) _ hpre
    rw [hpre, Out.ok_bind]
    have hw' : Worded (Sayable W a) (errorCodes es) (preAllMessages W M arg (o.validators.getD [])) :=
      hw.imp fun h => h.2
    split at h2
    · rename_i hc
      simp only [Out.ok.injEq] at h2; subst h2
      refine ⟨es, by rw [hes]; simp, ?_⟩
      simp only [if_pos hc]
      refine ⟨fun m hm => ?_, fun hp => ?_⟩
      · obtain ⟨m1, h1, h2⟩ := Out.bind_eq_ok hm
        simp only [Out.ok.injEq] at h2; subst h2
        exact hw'.codes _ h1
      · obtain ⟨m, hm⟩ := hw'.defined hp
        exact ⟨m, by rw [hm]; rfl⟩
    · rename_i hc
      obtain ⟨q, hq, h3⟩ := Out.bind_eq_ok h2
      have hw2 := runHandler_worded (M := M) hname hq
      simp only [if_neg hc]
      have hout : r.2.out = a.out ++ (es ++ q.2.2) := by
        split at h3 <;>
        · simp only [Out.ok.injEq] at h3; subst h3
          show (pre.2.emits q.2.2).out = _
          rw [hes]; simp
      refine ⟨_, hout, ?_⟩
      rw [errorCodes_append]
      exact hw'.append hw2

theorem findPositional_type {os : List Opt} {k i : Nat} {o : Opt} (h : findPositional os k = some i)
    (ho : os[i]? = some o) : o.type = .positional := by
  have key : ∀ (os : List Opt) (j pos : Nat), findPositionalFrom k j pos os = some i →
      ∃ l, i = j + l ∧ ∃ x, os[l]? = some x ∧ x.type = .positional := by
    intro os
    induction os with
    | nil => intro j pos h; simp [findPositionalFrom] at h
    | cons x xs ih =>
      intro j pos h
      unfold findPositionalFrom at h
      split at h
      · rename_i ht
        split at h
        · simp only [Option.some.injEq] at h; subst h
          exact ⟨0, rfl, x, rfl, by simpa using ht⟩
        · obtain ⟨l, h1, y, h2, h3⟩ := ih _ _ h
          exact ⟨l + 1, by omega, y, by simpa using h2, h3⟩
      · obtain ⟨l, h1, y, h2, h3⟩ := ih _ _ h
        exact ⟨l + 1, by omega, y, by simpa using h2, h3⟩
  obtain ⟨l, h1, x, h2, h3⟩ := key os 0 0 h
  rw [Nat.zero_add] at h1; subst h1
  rw [ho] at h2; cases h2; exact h3

theorem findIdx_option {os : List Opt} {f : Opt → Bool} {i : Nat} {o : Opt}
    (h : os.findIdx? (fun o => o.type == .option && f o) = some i) (ho : os[i]? = some o) : o.type = .option := by
  rw [List.findIdx?_eq_some_iff_getElem] at h
  obtain ⟨hlt, h1, _⟩ := h
  rw [List.getElem?_eq_getElem hlt, Option.some.injEq] at ho
  subst ho
  simp only [Bool.and_eq_true, beq_iff_eq] at h1
  exact h1.1

theorem getOpt_of_table {a : Argus} {k i : Nat} {os : List Opt} {o : Opt} (ht : a.table (some k) = .ok os)
    (ho : a.getOpt ⟨k, i⟩ = .ok o) : os[i]? = some o := by
  obtain ⟨os', h1, h2⟩ := getOpt_eq_ok.1 ho
  obtain ⟨k', hk, h3⟩ := table_eq_ok.1 ht
  cases hk
  rw [h1] at h3; cases h3; exact h2

theorem handlePositional_prints {W : World} {M : Wording} {a : Argus} {t : Option Nat} {value : Str} {pos : Nat}
    {r : Int × Argus} (h : handlePositional W a t value pos = .ok r) :
    Prints W a r.2 (positionalMessages W M a t value pos) := by
  unfold handlePositional at h
  unfold positionalMessages
  obtain ⟨os, hos, h1⟩ := Out.bind_eq_ok h
  rw [hos, Out.ok_bind]
  split at h1
  · rename_i k i hk
    simp only [hk]
    refine execCallbacks_prints (fun o ho => ?_) h1
    rw [findPositional_type hk (getOpt_of_table hos ho)]; decide
  · rename_i hno
    simp only [Out.ok.injEq] at h1; subst h1
    split
    · rename_i k i hk; exact absurd hk (hno k i rfl)
    · exact .report

theorem handleLong_prints {W : World} {M : Wording} {a : Argus} {t : Option Nat} {arg : Str} {rest : List Str}
    {r : OptRes} (h : handleLong W a t arg rest = .ok r) : Prints W a r.argus (longMessages W M a t arg rest) := by
  unfold handleLong at h
  unfold longMessages
  obtain ⟨os, hos, h1⟩ := Out.bind_eq_ok h
  rw [hos, Out.ok_bind]
  split at h1
  · rename_i k i hk
    simp only [hk]
    obtain ⟨o, ho, h2⟩ := Out.bind_eq_ok h1
    have hn : ∀ o, a.getOpt ⟨k, i⟩ = .ok o → o.type ≠ .group := by
      intro o ho
      rw [findIdx_option hk (getOpt_of_table hos ho)]; decide
    rw [ho, Out.ok_bind]
    split at h2
    · rename_i hf
      rw [if_pos hf]
      obtain ⟨q, hq, h3⟩ := Out.bind_eq_ok h2
      simp only [Out.ok.injEq] at h3; subst h3
      exact execCallbacks_prints hn hq
    · rename_i hf
      rw [if_neg hf]
      split at h2
      · rename_i v hv
        simp only [hv]
        obtain ⟨q, hq, h3⟩ := Out.bind_eq_ok h2
        simp only [Out.ok.injEq] at h3; subst h3
        exact execCallbacks_prints hn hq
      · rename_i v hv
        simp only [hv]
        obtain ⟨q, hq, h3⟩ := Out.bind_eq_ok h2
        simp only [Out.ok.injEq] at h3; subst h3
        exact execCallbacks_prints hn hq
      · rename_i hv
        simp only [hv]
        simp only [Out.ok.injEq] at h2; subst h2
        exact .report
  · rename_i hno
    simp only [Out.ok.injEq] at h1; subst h1
    split
    · rename_i k i hk; exact absurd hk (hno k i rfl)
    · exact .report

theorem handleShort_prints {W : World} {M : Wording} {t : Option Nat} {rest : List Str} : ∀ (cs : Str) {a : Argus}
    {r : OptRes}, handleShort W t rest a cs = .ok r → Prints W a r.argus (shortMessages W M t rest a cs)
  | [], a, r, h => by simp only [handleShort, Out.ok.injEq] at h; subst h; exact .nil W a
  | c :: cs, a, r, h => by
    unfold handleShort at h
    unfold shortMessages
    obtain ⟨os, hos, h1⟩ := Out.bind_eq_ok h
    rw [hos, Out.ok_bind]
    split at h1
    · rename_i k i hk
      simp only [hk]
      obtain ⟨o, ho, h2⟩ := Out.bind_eq_ok h1
      have hn : ∀ o, a.getOpt ⟨k, i⟩ = .ok o → o.type ≠ .group := by
        intro o ho
        rw [findIdx_option hk (getOpt_of_table hos ho)]; decide
      rw [ho, Out.ok_bind]
      split at h2
      · rename_i hf
        rw [if_pos hf]
        obtain ⟨q, hq, h3⟩ := Out.bind_eq_ok h2
        have hp := execCallbacks_prints (M := M) hn hq
        rw [hq, Out.ok_bind]
        split at h3
        · rename_i hc
          simp only [Out.ok.injEq] at h3; subst h3
          simp only [if_pos hc]
          refine ⟨_, hp.choose_spec.1, ?_⟩
          have hw := hp.choose_spec.2
          refine ⟨fun m hm => ?_, fun hp => ?_⟩
          · obtain ⟨m1, h1, h2⟩ := Out.bind_eq_ok hm
            simp only [Out.ok.injEq] at h2; subst h2
            exact hw.codes _ h1
          · obtain ⟨m, hm⟩ := hw.defined hp
            exact ⟨m, by rw [hm]; rfl⟩
        · rename_i hc
          simp only [if_neg hc]
          exact hp.append (handleShort_prints cs h3) (execCallbacks_one hq).frame.shape
      · rename_i hf
        rw [if_neg hf]
        split at h2
        · obtain ⟨q, hq, h3⟩ := Out.bind_eq_ok h2
          simp only [Out.ok.injEq] at h3; subst h3
          exact execCallbacks_prints hn hq
        · obtain ⟨q, hq, h3⟩ := Out.bind_eq_ok h2
          simp only [Out.ok.injEq] at h3; subst h3
          exact execCallbacks_prints hn hq
        · simp only [Out.ok.injEq] at h2; subst h2
          exact .report
    · rename_i hno
      simp only [Out.ok.injEq] at h1; subst h1
      split
      · rename_i k i hk; exact absurd hk (hno k i rfl)
      · exact .report

/-! ### Subcommands -/

theorem ambiguous_worded {P : Prop} {name : Str} {x y : Opt} (hx : P → x.name ≠ none ∧ x.help ≠ none)
    (hy : P → y.name ≠ none ∧ y.help ≠ none) : Worded P [Err.ambiguousSubcommand] (ambiguousMessage name x y) := by
  unfold ambiguousMessage
  constructor
  · intro m hm
    obtain ⟨n1, _, hm⟩ := Out.bind_eq_ok hm
    obtain ⟨n2, _, hm⟩ := Out.bind_eq_ok hm
    obtain ⟨n3, _, hm⟩ := Out.bind_eq_ok hm
    obtain ⟨n4, _, hm⟩ := Out.bind_eq_ok hm
    simp only [Out.ok.injEq] at hm; subst hm; rfl
  · intro p
    obtain ⟨n1, h1⟩ := Option.ne_none_iff_exists'.1 (hx p).1
    obtain ⟨n2, h2⟩ := Option.ne_none_iff_exists'.1 (hx p).2
    obtain ⟨n3, h3⟩ := Option.ne_none_iff_exists'.1 (hy p).1
    obtain ⟨n4, h4⟩ := Option.ne_none_iff_exists'.1 (hy p).2
    rw [h1, h2, h3, h4]
    exact ⟨_, rfl⟩

theorem subFrom_worded {P : Prop} {name : Str} : ∀ (os : List Opt) (i : Nat) (sub : Option Nat) (first : Option Opt),
    sub.isSome = first.isSome → (∀ o ∈ os, P → o.type = .subcommand → o.help ≠ none) →
    (∀ x, first = some x → P → x.name ≠ none ∧ x.help ≠ none) →
    Worded P (if (findSubFrom name i sub os).1 ≠ Err.success then [(findSubFrom name i sub os).1] else [])
      (subMessagesFrom name first os)
  | [], i, sub, first, _, _, _ => by
    unfold findSubFrom subMessagesFrom
    rw [if_neg (by simp)]; exact .nil
  | o :: os, i, sub, first, hs, hh, hf => by
    have hh' : ∀ o ∈ os, P → o.type = .subcommand → o.help ≠ none := fun x hx => hh x (by simp [hx])
    have skip : (∀ n, ¬ (o.type = .subcommand ∧ o.name = some n)) →
        Worded P (if (findSubFrom name i sub (o :: os)).1 ≠ Err.success then [(findSubFrom name i sub (o :: os)).1] else [])
          (subMessagesFrom name first (o :: os)) := by
      intro hno
      have e1 : findSubFrom name i sub (o :: os) = findSubFrom name (i + 1) sub os := by
        rw [findSubFrom]
        split
        · rename_i n ht hn; exact absurd ⟨ht, hn⟩ (hno n)
        · rfl
      have e2 : subMessagesFrom name first (o :: os) = subMessagesFrom name first os := by
        rw [subMessagesFrom]
        split
        · rename_i n ht hn; exact absurd ⟨ht, hn⟩ (hno n)
        · rfl
      rw [e1, e2]; exact subFrom_worded os (i + 1) sub first hs hh' hf
    by_cases ht : o.type = .subcommand
    · cases hn : o.name with
      | none => exact skip (fun n h => by rw [hn] at h; simp at h)
      | some n =>
        unfold findSubFrom subMessagesFrom
        simp only [ht, hn]
        by_cases hp : (startsWith name n).isSome = true
        · simp only [hp, if_true]
          cases first with
          | some x =>
            cases sub with
            | none => simp at hs
            | some j =>
              simp only [Option.isSome_some, if_true]
              rw [if_pos (by decide)]
              exact ambiguous_worded (hf x rfl) (fun p => ⟨by rw [hn]; simp, hh o (by simp) p ht⟩)
          | none =>
            cases sub with
            | some j => simp at hs
            | none =>
              simp only [Option.isSome_none, Bool.false_eq_true, if_false]
              by_cases he : strcmp name n = 0
              · simp only [he, if_true]; rw [if_neg (by simp)]; exact .nil
              · simp only [he, if_false]
                refine subFrom_worded os (i + 1) (some i) (some o) rfl hh' ?_
                intro x hx p; cases hx
                exact ⟨by rw [hn]; simp, hh o (by simp) p ht⟩
        · simp only [hp]
          exact subFrom_worded os (i + 1) sub first hs hh' hf
    · exact skip (fun n h => ht h.1)

/-- The state after a round. -/
def Step.state : Step → Argus
  | .done _ a => a
  | .next a _ _ _ => a
  | .enter _ a => a

theorem stepPositional_prints {W : World} {M : Wording} {t : Option Nat} {a : Argus} {pos : Nat} {only : Bool}
    {arg : Str} {s : Step} (h : stepPositional W t a pos only arg = .ok s) :
    Prints W a s.state (positionalMessages W M a t arg pos) := by
  unfold stepPositional at h
  obtain ⟨r, hr, h1⟩ := Out.bind_eq_ok h
  simp only [Out.ok.injEq] at h1; subst h1
  have := handlePositional_prints (M := M) hr
  split <;> exact this

theorem OptRes.step_state (r : OptRes) (pos : Nat) : (r.step pos).state = r.argus := by
  unfold OptRes.step; split <;> rfl

theorem parseStep_prints {W : World} {M : Wording} {t : Option Nat} {a : Argus} {pos : Nat} {only : Bool} {arg : Str}
    {rest : List Str} {s : Step} (h : parseStep W t a pos only arg rest = .ok s) :
    Prints W a s.state (stepMessages W M t a pos only arg rest) := by
  unfold parseStep at h
  unfold stepMessages
  split at h
  · rename_i hc; rw [if_pos hc]
    simp only [Out.ok.injEq] at h; subst h; exact .nil W a
  · rename_i hc; rw [if_neg hc]
    split at h
    · rename_i hc; rw [if_pos hc]; exact stepPositional_prints h
    · rename_i hc; rw [if_neg hc]
      cases hl : startsWith [45, 45] arg with
      | some longArg =>
        simp only [hl] at h ⊢
        obtain ⟨r, hr, h1⟩ := Out.bind_eq_ok h
        simp only [Out.ok.injEq] at h1; subst h1
        rw [OptRes.step_state]; exact handleLong_prints hr
      | none =>
        simp only [hl] at h ⊢
        cases hd : startsWith [45] arg with
        | some shortArg =>
          simp only [hd] at h ⊢
          obtain ⟨neg, hneg, h1⟩ := Out.bind_eq_ok h
          simp only [hneg, Out.ok_bind]
          split at h1
          · rename_i hc; rw [if_pos hc]; exact stepPositional_prints h1
          · rename_i hc; rw [if_neg hc]
            obtain ⟨r, hr, h2⟩ := Out.bind_eq_ok h1
            simp only [Out.ok.injEq] at h2; subst h2
            rw [OptRes.step_state]; exact handleShort_prints _ hr
        | none =>
          simp only [hd] at h ⊢
          obtain ⟨os, hos, h1⟩ := Out.bind_eq_ok h
          simp only [hos, Out.ok_bind]
          have hw : Worded (Sayable W a) (if (findSub os arg).1 ≠ Err.success then [(findSub os arg).1] else [])
              (subMessages os arg) := by
            refine subFrom_worded os 0 none none rfl (fun o ho hs ht => ?_) (by simp)
            obtain ⟨k, _, hk⟩ := table_eq_ok.1 hos
            exact hs.1.helps os (List.mem_of_getElem? hk) o ho ht
          by_cases hc : (findSub os arg).1 ≠ Err.success
          · rw [if_pos hc] at h1 hw
            simp only [if_pos hc]
            simp only [Out.ok.injEq] at h1; subst h1
            refine ⟨[.error (findSub os arg).1], rfl, ?_⟩
            refine ⟨fun m hm => ?_, fun hp => ?_⟩
            · obtain ⟨m1, h1, h2⟩ := Out.bind_eq_ok hm
              simp only [Out.ok.injEq] at h2; subst h2
              exact hw.codes _ h1
            · obtain ⟨m, hm⟩ := hw.defined hp
              exact ⟨m, by rw [hm]; rfl⟩
          · rw [if_neg hc] at h1 hw
            simp only [if_neg hc]
            have hpos : ∀ {s : Step}, stepPositional W t a pos false arg = .ok s →
                Prints W a s.state (do let _ ← subMessages os arg; positionalMessages W M a t arg pos) := by
              intro s h1
              obtain ⟨es, g1, g2⟩ := stepPositional_prints (M := M) h1
              refine ⟨es, g1, fun m hm => ?_, fun hp => ?_⟩
              · obtain ⟨m1, _, h2⟩ := Out.bind_eq_ok hm
                exact g2.codes _ h2
              · obtain ⟨m, hm⟩ := hw.defined hp
                rw [hm]; exact g2.defined hp
            cases t with
            | none => exact hpos h1
            | some k =>
              cases hi : (findSub os arg).2 with
              | none => simp only [hi] at h1 ⊢; exact hpos h1
              | some i =>
                simp only [hi] at h1 ⊢
                obtain ⟨e, he, h2⟩ := Out.bind_eq_ok h1
                simp only [Out.ok.injEq] at h2; subst h2
                refine ⟨[], ?_, ?_⟩
                · unfold enterSub at he
                  obtain ⟨o, ho, he⟩ := Out.bind_eq_ok he
                  split at he
                  · simp at he
                  · simp only [Out.ok.injEq] at he; subst he
                    simp [Step.state, Argus.setOpt]
                · refine ⟨fun m hm => ?_, fun hp => ?_⟩
                  · obtain ⟨m1, h1, h2⟩ := Out.bind_eq_ok hm
                    simp only [Out.ok.injEq] at h2; subst h2
                    exact hw.codes _ h1
                  · obtain ⟨m, hm⟩ := hw.defined hp
                    exact ⟨m, by rw [hm]; rfl⟩

/-! ### The loop -/

theorem StepFrame.shape {t : Option Nat} {a : Argus} {s : Step} (h : StepFrame t a s) : s.state.shape = a.shape := by
  cases s with
  | done st b => exact InTable.frame h |>.shape
  | next b pos only used => exact InTable.frame h |>.shape
  | enter t1 b => exact h.1.shape

theorem parseLoop_prints {W : World} {M : Wording} : ∀ (args : List Str) {t : Option Nat} {a : Argus} {pos : Nat}
    {only skip : Bool} {r : Int × Argus}, parseLoop W t a pos only skip args = .ok r →
    Prints W a r.2 (loopMessages W M t a pos only skip args)
  | [], t, a, pos, only, skip, r, h => by
    simp only [parseLoop, Out.ok.injEq] at h; subst h
    simp only [loopMessages]; exact .nil W a
  | arg :: rest, t, a, pos, only, true, r, h => by
    simp only [parseLoop] at h
    simp only [loopMessages]; exact parseLoop_prints rest h
  | arg :: rest, t, a, pos, only, false, r, h => by
    simp only [parseLoop] at h
    simp only [loopMessages]
    obtain ⟨s, hs, h1⟩ := Out.bind_eq_ok h
    have hp := parseStep_prints (M := M) hs
    have hf := (parseStep_frame hs).shape
    rw [hs]
    simp only [Out.ok_bind]
    cases s with
    | done st b =>
      simp only [Out.ok.injEq] at h1; subst h1
      obtain ⟨es, g1, g2⟩ := hp
      refine ⟨es, g1, fun m hm => ?_, fun hp => ?_⟩
      · obtain ⟨m1, h1, h2⟩ := Out.bind_eq_ok hm
        simp only [Out.ok.injEq] at h2; subst h2
        exact g2.codes _ h1
      · obtain ⟨m, hm⟩ := g2.defined hp
        exact ⟨m, by rw [hm]; rfl⟩
    | next b pos1 only1 used => exact hp.append (parseLoop_prints rest h1) hf
    | enter t1 b => exact hp.append (parseLoop_prints rest h1) hf

/-! ### Environment -/

theorem loadEnvStep_prints {W : World} {M : Wording} {env : Env} {a : Argus} {p : Ptr} {r : Int × Argus}
    (h : loadEnvStep W env a p = .ok r) : Prints W a r.2 (envStepMessages W M env a p) := by
  unfold loadEnvStep at h
  unfold envStepMessages
  obtain ⟨o, ho, h1⟩ := Out.bind_eq_ok h
  rw [ho, Out.ok_bind]
  by_cases hc : o.type = .group ∨ o.type = .subcommand
  · rw [if_pos hc] at h1 ⊢; simp only [Out.ok.injEq] at h1; subst h1; exact .nil W a
  · rw [if_neg hc] at h1 ⊢
    by_cases hc2 : o.isSet ∧ o.flags.has .envOverride = false
    · rw [if_pos hc2] at h1 ⊢; simp only [Out.ok.injEq] at h1; subst h1; exact .nil W a
    · rw [if_neg hc2] at h1 ⊢
      cases hn : envVarName a.envPrefix o with
      | none => simp only [hn, Out.ok.injEq] at h1 ⊢; subst h1; exact .nil W a
      | some n =>
        simp only [hn] at h1 ⊢
        cases hv : env n with
        | none => simp only [hv, Out.ok.injEq] at h1 ⊢; subst h1; exact .nil W a
        | some v =>
          simp only [hv] at h1 ⊢
          obtain ⟨q, hq, h2⟩ := Out.bind_eq_ok h1
          have hp := execCallbacks_prints (M := M)
            (fun o' ho' ht => hc (.inl (by rw [ho] at ho'; cases ho'; exact ht))) hq
          split at h2
          · split at h2
            · obtain ⟨o1, ho1, h3⟩ := Out.bind_eq_ok h2
              simp only [Out.ok.injEq] at h3; subst h3
              exact hp.of_out rfl
            · simp only [Out.ok.injEq] at h2; subst h2; exact hp
          · simp only [Out.ok.injEq] at h2; subst h2; exact hp

/-- A stage that ends after its messages. -/
theorem Prints.ret {W : World} {a b : Argus} {x : Out (List Message)} (h : Prints W a b x) :
    Prints W a b (do let m ← x; .ok m) := by
  obtain ⟨es, g1, g2⟩ := h
  refine ⟨es, g1, fun m hm => ?_, fun hp => ?_⟩
  · obtain ⟨m1, h1, h2⟩ := Out.bind_eq_ok hm
    simp only [Out.ok.injEq] at h2; subst h2
    exact g2.codes _ h1
  · obtain ⟨m, hm⟩ := g2.defined hp
    exact ⟨m, by rw [hm]; rfl⟩

theorem loadEnvLoop_prints {W : World} {M : Wording} {env : Env} {k : Nat} : ∀ (n i : Nat) {a : Argus}
    {r : Int × Argus}, loadEnvLoop W env k n i a = .ok r → Prints W a r.2 (envLoopMessages W M env k n i a)
  | 0, i, a, r, h => by simp only [loadEnvLoop, Out.ok.injEq] at h; subst h; exact .nil W a
  | n + 1, i, a, r, h => by
    unfold loadEnvLoop at h
    unfold envLoopMessages
    obtain ⟨q, hq, h1⟩ := Out.bind_eq_ok h
    have hp := loadEnvStep_prints (M := M) hq
    rw [hq, Out.ok_bind]
    by_cases hc : q.1 ≠ Err.success
    · rw [if_pos hc] at h1
      simp only [if_pos hc]
      simp only [Out.ok.injEq] at h1; subst h1
      exact hp.ret
    · rw [if_neg hc] at h1
      simp only [if_neg hc]
      exact hp.append (loadEnvLoop_prints n (i + 1) h1) (loadEnvStep_one hq).frame.shape

theorem loadEnvTable_prints {W : World} {M : Wording} {env : Env} {a : Argus} {k : Nat} {r : Int × Argus}
    (h : loadEnvTable W env a k = .ok r) : Prints W a r.2 (envTableMessages W M env a k) := by
  unfold loadEnvTable at h
  unfold envTableMessages
  obtain ⟨os, hos, h1⟩ := Out.bind_eq_ok h
  rw [hos, Out.ok_bind]
  exact loadEnvLoop_prints _ _ h1

theorem loadEnvStack_prints {W : World} {M : Wording} {env : Env} : ∀ (ps : List Ptr) {a : Argus}
    {r : Int × Argus}, loadEnvStack W env a ps = .ok r → Prints W a r.2 (envStackMessages W M env a ps)
  | [], a, r, h => by simp only [loadEnvStack, Out.ok.injEq] at h; subst h; exact .nil W a
  | p :: ps, a, r, h => by
    unfold loadEnvStack at h
    unfold envStackMessages
    obtain ⟨cmd, hcmd, h1⟩ := Out.bind_eq_ok h
    rw [hcmd, Out.ok_bind]
    cases hk : cmd.subOptions with
    | none => simp only [hk] at h1 ⊢; exact loadEnvStack_prints ps h1
    | some k =>
      simp only [hk] at h1 ⊢
      obtain ⟨q, hq, h2⟩ := Out.bind_eq_ok h1
      have hp := loadEnvTable_prints (M := M) hq
      rw [hq, Out.ok_bind]
      by_cases hc : q.1 ≠ Err.success
      · rw [if_pos hc] at h2
        simp only [if_pos hc]
        simp only [Out.ok.injEq] at h2; subst h2
        exact hp.ret
      · rw [if_neg hc] at h2
        simp only [if_neg hc]
        exact hp.append (loadEnvStack_prints ps h2) (loadEnvTable_frame hq).frame.shape

theorem loadEnvVars_prints {W : World} {M : Wording} {env : Env} {a : Argus} {r : Int × Argus}
    (h : loadEnvVars W env a = .ok r) : Prints W a r.2 (envMessages W M env a) := by
  unfold loadEnvVars at h
  unfold envMessages
  obtain ⟨q, hq, h1⟩ := Out.bind_eq_ok h
  have hp := loadEnvTable_prints (M := M) hq
  rw [hq, Out.ok_bind]
  by_cases hc : q.1 ≠ Err.success
  · rw [if_pos hc] at h1
    simp only [if_pos hc]
    simp only [Out.ok.injEq] at h1; subst h1
    exact hp.ret
  · rw [if_neg hc] at h1
    simp only [if_neg hc]
    exact hp.append (loadEnvStack_prints _ h1) (loadEnvTable_frame hq).frame.shape

/-! ### Validation -/

theorem validators_worded {P : Prop} {W : World} {M : Wording} {o : Opt} : ∀ (vs : List Validator) {r : Int × List Int},
    callValidators W o vs = .ok r → Worded P r.2 (validatorMessages W M o vs)
  | [], r, h => by simp only [callValidators, Out.ok.injEq] at h; subst h; exact .nil
  | v :: vs, r, h => by
    unfold callValidators at h
    unfold validatorMessages
    by_cases hv : v.order = .post
    · rw [if_pos hv] at h ⊢
      obtain ⟨q, hq, h1⟩ := Out.bind_eq_ok h
      have hw := runPost_worded (P := P) (M := M) hq
      rw [hq, Out.ok_bind]
      by_cases hc : q.1 ≠ Err.success
      · rw [if_pos hc] at h1
        simp only [if_pos hc]
        simp only [Out.ok.injEq] at h1; subst h1
        refine ⟨fun m hm => ?_, fun hp => ?_⟩
        · obtain ⟨m1, h1, h2⟩ := Out.bind_eq_ok hm
          simp only [Out.ok.injEq] at h2; subst h2
          exact hw.codes _ h1
        · obtain ⟨m, hm⟩ := hw.defined hp
          exact ⟨m, by rw [hm]; rfl⟩
      · rw [if_neg hc] at h1
        simp only [if_neg hc]
        obtain ⟨r2, h2, h3⟩ := Out.bind_eq_ok h1
        simp only [Out.ok.injEq] at h3; subst h3
        exact hw.append (validators_worded vs h2)
    · rw [if_neg hv] at h ⊢; exact validators_worded vs h

theorem required_worded {P : Prop} {os : List Opt} {o : Opt} (hp : P → o.name ≠ none) : ∀ (ns : List Str),
    Worded P (validateRequired os ns).2.toList (requiredMessages os o ns)
  | [] => .nil
  | n :: ns => by
    unfold validateRequired requiredMessages
    cases (findName os n).bind (fun i => os[i]?) with
    | none => exact required_worded hp ns
    | some r =>
      simp only
      by_cases hs : r.isSet = true
      · rw [if_pos hs, if_pos hs]; exact required_worded hp ns
      · rw [if_neg hs, if_neg hs]; exact .named hp (fun _ => rfl)

theorem findName_named {os : List Opt} {n : Str} {r : Opt} (h : (findName os n).bind (fun i => os[i]?) = some r) :
    r.name = some n := by
  cases hf : findName os n with
  | none => rw [hf] at h; simp at h
  | some i =>
    rw [hf] at h
    simp only [Option.bind_some] at h
    unfold findName at hf
    rw [List.findIdx?_eq_some_iff_getElem] at hf
    obtain ⟨hlt, h1, _⟩ := hf
    rw [List.getElem?_eq_getElem hlt, Option.some.injEq] at h
    subst h
    simpa using h1

theorem conflicts_worded {P : Prop} {os : List Opt} {o : Opt} (hp : P → o.name ≠ none) : ∀ (ns : List Str),
    Worded P (validateConflicts os ns).2.toList (conflictMessages os o ns)
  | [] => .nil
  | n :: ns => by
    unfold validateConflicts conflictMessages
    cases hf : (findName os n).bind (fun i => os[i]?) with
    | none => exact conflicts_worded hp ns
    | some r =>
      simp only
      by_cases hs : r.isSet = true
      · rw [if_pos hs, if_pos hs, findName_named hf]; exact .named hp (fun _ => rfl)
      · rw [if_neg hs, if_neg hs]; exact conflicts_worded hp ns

theorem required_told (os : List Opt) : ∀ (ns : List Str), (validateRequired os ns).1 = Err.success →
    (validateRequired os ns).2 = none
  | [], _ => rfl
  | n :: ns, h => by
    unfold validateRequired at h ⊢
    split
    · rename_i r hr
      simp only [hr] at h
      split
      · rename_i hs; rw [if_pos hs] at h; exact required_told os ns h
      · rename_i hs; rw [if_neg hs] at h; exact absurd h (by decide)
    · rename_i hr
      simp only [hr] at h; exact required_told os ns h

theorem conflicts_told (os : List Opt) : ∀ (ns : List Str), (validateConflicts os ns).1 = Err.success →
    (validateConflicts os ns).2 = none
  | [], _ => rfl
  | n :: ns, h => by
    unfold validateConflicts at h ⊢
    split
    · rename_i r hr
      simp only [hr] at h
      split
      · rename_i hs; rw [if_pos hs] at h; exact absurd h (by decide)
      · rename_i hs; rw [if_neg hs] at h; exact conflicts_told os ns h
    · rename_i hr
      simp only [hr] at h; exact conflicts_told os ns h

theorem set_worded {P : Prop} {W : World} {M : Wording} {os : List Opt} : ∀ (rest : List Opt) {group : Option Str}
    {excl : Bool} {first : Option Str} {r : Int × List Int},
    (P → ∀ o ∈ rest, o.type ≠ .group ∨ o.flags.has .exclusive = true → o.name ≠ none) →
    (P → excl = true → group ≠ none) →
    validateSet W os excl first rest = .ok r → Worded P r.2 (setMessages W M os group excl first rest)
  | [], group, excl, first, r, _, _, h => by simp only [validateSet, Out.ok.injEq] at h; subst h; exact .nil
  | o :: rest, group, excl, first, r, hn, hg, h => by
    have hn' : P → ∀ o ∈ rest, o.type ≠ .group ∨ o.flags.has .exclusive = true → o.name ≠ none :=
      fun p x hx => hn p x (by simp [hx])
    unfold validateSet at h
    unfold setMessages
    by_cases ht : o.type = .group
    · rw [if_pos ht] at h ⊢
      exact set_worded rest hn' (fun p hx => hn p o (by simp) (.inr hx)) h
    · have ho : P → o.name ≠ none := fun p => hn p o (by simp) (.inl ht)
      rw [if_neg ht] at h ⊢
      by_cases hr : o.type = .positional ∧ o.flags.has .required ∧ o.isSet = false
      · rw [if_pos hr] at h ⊢
        simp only [Out.ok.injEq] at h; subst h
        exact .named ho (fun _ => rfl)
      · rw [if_neg hr] at h ⊢
        by_cases hs : o.isSet = true
        · rw [if_pos hs] at h ⊢
          by_cases he : excl = true ∧ first.isSome = true
          · rw [if_pos he] at h ⊢
            simp only [Out.ok.injEq] at h; subst h
            cases first with
            | none => simp at he
            | some f =>
              refine ⟨fun m hm => ?_, fun p => ?_⟩
              · obtain ⟨g, _, hm⟩ := Out.bind_eq_ok hm
                obtain ⟨n1, _, hm⟩ := Out.bind_eq_ok hm
                obtain ⟨n2, _, hm⟩ := Out.bind_eq_ok hm
                simp only [Out.ok.injEq] at hm; subst hm; rfl
              · obtain ⟨g, h1⟩ := Option.ne_none_iff_exists'.1 (hg p he.1)
                obtain ⟨n, h2⟩ := Option.ne_none_iff_exists'.1 (ho p)
                rw [h1, h2]; exact ⟨_, rfl⟩
          · rw [if_neg he] at h ⊢
            obtain ⟨q, hq, h1⟩ := Out.bind_eq_ok h
            have hw := validators_worded (P := P) (M := M) _ hq
            rw [hq, Out.ok_bind]
            by_cases hc : q.1 ≠ Err.success
            · rw [if_pos hc] at h1
              simp only [if_pos hc]
              simp only [Out.ok.injEq] at h1; subst h1
              refine ⟨fun m hm => ?_, fun hp => ?_⟩
              · obtain ⟨m1, h1, h2⟩ := Out.bind_eq_ok hm
                simp only [Out.ok.injEq] at h2; subst h2
                exact hw.codes _ h1
              · obtain ⟨m, hm⟩ := hw.defined hp
                exact ⟨m, by rw [hm]; rfl⟩
            · rw [if_neg hc] at h1
              simp only [if_neg hc]
              have hw2 := required_worded (os := os) ho (o.require.getD [])
              have hw3 := conflicts_worded (os := os) ho (o.conflict.getD [])
              simp only at h1
              by_cases hq2 : (validateRequired os (o.require.getD [])).1 ≠ Err.success
              · rw [if_pos hq2] at h1
                simp only [if_pos hq2]
                simp only [Out.ok.injEq] at h1; subst h1
                exact hw.append hw2
              · rw [if_neg hq2] at h1
                simp only [if_neg hq2]
                have e2 := required_told os _ (Decidable.not_not.1 hq2)
                rw [e2] at hw2
                by_cases hq3 : (validateConflicts os (o.conflict.getD [])).1 ≠ Err.success
                · rw [if_pos hq3] at h1
                  simp only [if_pos hq3]
                  simp only [Out.ok.injEq] at h1; subst h1
                  refine ⟨fun m hm => ?_, fun p => ?_⟩
                  · obtain ⟨m1, g1, hm⟩ := Out.bind_eq_ok hm
                    obtain ⟨m2, g2, hm⟩ := Out.bind_eq_ok hm
                    obtain ⟨m3, g3, hm⟩ := Out.bind_eq_ok hm
                    simp only [Out.ok.injEq] at hm; subst hm
                    simp [hw.codes _ g1, hw2.codes _ g2, hw3.codes _ g3]
                  · obtain ⟨m1, g1⟩ := hw.defined p
                    obtain ⟨m2, g2⟩ := hw2.defined p
                    obtain ⟨m3, g3⟩ := hw3.defined p
                    rw [g1, g2, g3]; exact ⟨_, rfl⟩
                · rw [if_neg hq3] at h1
                  simp only [if_neg hq3]
                  have e3 := conflicts_told os _ (Decidable.not_not.1 hq3)
                  rw [e3] at hw3
                  obtain ⟨r2, h2, h3⟩ := Out.bind_eq_ok h1
                  simp only [Out.ok.injEq] at h3; subst h3
                  have hw4 := set_worded (M := M) (group := group) rest hn' hg h2
                  refine ⟨fun m hm => ?_, fun p => ?_⟩
                  · obtain ⟨m1, g1, hm⟩ := Out.bind_eq_ok hm
                    obtain ⟨m2, g2, hm⟩ := Out.bind_eq_ok hm
                    obtain ⟨m3, g3, hm⟩ := Out.bind_eq_ok hm
                    obtain ⟨m4, g4, hm⟩ := Out.bind_eq_ok hm
                    simp only [Out.ok.injEq] at hm; subst hm
                    simp [hw.codes _ g1, hw2.codes _ g2, hw3.codes _ g3, hw4.codes _ g4]
                  · obtain ⟨m1, g1⟩ := hw.defined p
                    obtain ⟨m2, g2⟩ := hw2.defined p
                    obtain ⟨m3, g3⟩ := hw3.defined p
                    obtain ⟨m4, g4⟩ := hw4.defined p
                    rw [g1, g2, g3, g4]; exact ⟨_, rfl⟩
        · rw [if_neg hs] at h ⊢
          exact set_worded rest hn' hg h

theorem validateTable_prints {W : World} {M : Wording} {a : Argus} {t : Option Nat} {r : Int × Argus}
    (h : validateTable W a t = .ok r) : Prints W a r.2 (tableMessages W M a t) := by
  unfold validateTable at h
  unfold tableMessages
  obtain ⟨os, hos, h1⟩ := Out.bind_eq_ok h
  obtain ⟨q, hq, h2⟩ := Out.bind_eq_ok h1
  simp only [Out.ok.injEq] at h2; subst h2
  rw [hos, Out.ok_bind]
  refine ⟨_, emits_out _ _, ?_⟩
  rw [errorCodes_errors]
  refine set_worded os (fun hs o ho hc => ?_) (fun _ h => by simp at h) hq
  obtain ⟨k, _, hk⟩ := table_eq_ok.1 hos
  exact hs.1.names os (List.mem_of_getElem? hk) o ho hc

theorem validateTable_shape {W : World} {a : Argus} {t : Option Nat} {r : Int × Argus}
    (h : validateTable W a t = .ok r) : r.2.shape = a.shape := by
  obtain ⟨es, hes⟩ := validateTable_eq h
  rw [hes]; simp

theorem validateStack_prints {W : World} {M : Wording} : ∀ (ps : List Ptr) {a : Argus} {r : Int × Argus},
    validateStack W a ps = .ok r → Prints W a r.2 (stackMessages W M a ps)
  | [], a, r, h => by simp only [validateStack, Out.ok.injEq] at h; subst h; exact .nil W a
  | p :: ps, a, r, h => by
    unfold validateStack at h
    unfold stackMessages
    obtain ⟨cmd, hcmd, h1⟩ := Out.bind_eq_ok h
    obtain ⟨q, hq, h2⟩ := Out.bind_eq_ok h1
    have hp := validateTable_prints (M := M) hq
    rw [hcmd, Out.ok_bind, hq, Out.ok_bind]
    by_cases hc : q.1 ≠ Err.success
    · rw [if_pos hc] at h2
      simp only [if_pos hc]
      simp only [Out.ok.injEq] at h2; subst h2
      exact hp.ret
    · rw [if_neg hc] at h2
      simp only [if_neg hc]
      exact hp.append (validateStack_prints ps h2) (validateTable_shape hq)

theorem postValidation_prints {W : World} {M : Wording} {a : Argus} {r : Int × Argus}
    (h : postValidation W a = .ok r) : Prints W a r.2 (checkMessages W M a) := by
  unfold postValidation at h
  unfold checkMessages
  obtain ⟨q, hq, h2⟩ := Out.bind_eq_ok h
  have hp := validateTable_prints (M := M) hq
  rw [hq, Out.ok_bind]
  by_cases hc : q.1 ≠ Err.success
  · rw [if_pos hc] at h2
    simp only [if_pos hc]
    simp only [Out.ok.injEq] at h2; subst h2
    exact hp.ret
  · rw [if_neg hc] at h2
    simp only [if_neg hc]
    exact hp.append (validateStack_prints _ h2) (validateTable_shape hq)

/-! ### The whole parse -/

theorem freeOpts_out {a a' : Argus} (h : argusFree a = .ok a') : a'.out = a.out := by
  have table : ∀ {a a' : Argus} {t : Option Nat}, freeTable a t = .ok a' → a'.out = a.out := by
    intro a a' t h
    unfold freeTable at h
    obtain ⟨os, _, h⟩ := Out.bind_eq_ok h
    obtain ⟨os1, _, h⟩ := Out.bind_eq_ok h
    split at h <;> (simp only [Out.ok.injEq] at h; subst h; rfl)
  have stack : ∀ (ps : List Ptr) {a a' : Argus}, freeStack a ps = .ok a' → a'.out = a.out := by
    intro ps
    induction ps with
    | nil => intro a a' h; simp only [freeStack, Out.ok.injEq] at h; subst h; rfl
    | cons p ps ih =>
      intro a a' h
      unfold freeStack at h
      obtain ⟨cmd, _, h⟩ := Out.bind_eq_ok h
      obtain ⟨a1, h1, h⟩ := Out.bind_eq_ok h
      rw [ih h, table h1]
  unfold argusFree at h
  obtain ⟨a1, h1, h⟩ := Out.bind_eq_ok h
  rw [stack _ h, table h1]

theorem findSubFrom_named {name : Str} : ∀ (os : List Opt) (i j : Nat) (sub : Option Nat),
    (findSubFrom name i sub os).2 = some j → sub = some j ∨ ∃ l o, j = i + l ∧ os[l]? = some o ∧ o.name ≠ none
  | [], i, j, sub, h => .inl h
  | o :: os, i, j, sub, h => by
    have next : ∀ {sub}, (findSubFrom name (i + 1) sub os).2 = some j →
        sub = some j ∨ ∃ l x, j = i + l ∧ (o :: os)[l]? = some x ∧ x.name ≠ none := by
      intro sub h
      rcases findSubFrom_named os (i + 1) j sub h with h | ⟨l, x, h1, h2, h3⟩
      · exact .inl h
      · exact .inr ⟨l + 1, x, by omega, by simpa using h2, h3⟩
    unfold findSubFrom at h
    split at h
    · rename_i n ht hn
      have here : i = j → ∃ l x, j = i + l ∧ (o :: os)[l]? = some x ∧ x.name ≠ none :=
        fun e => ⟨0, o, by omega, rfl, by rw [hn]; simp⟩
      split at h
      · split at h
        · simp at h
        · split at h
          · simp only [Option.some.injEq] at h; exact .inr (here h)
          · rcases next h with h | h
            · simp only [Option.some.injEq] at h; exact .inr (here h)
            · exact .inr h
      · exact next h
    · exact next h

/-- Entered subcommands have names. -/
theorem parseStep_stackNamed {W : World} {t : Option Nat} {a : Argus} {pos : Nat} {only : Bool} {arg : Str}
    {rest : List Str} {s : Step} (hn : a.StackNamed) (h : parseStep W t a pos only arg rest = .ok s) :
    s.state.StackNamed := by
  have hf := parseStep_frame h
  cases s with
  | done st b => exact hn.congr (InTable.frame hf).shape (InTable.stack hf)
  | next b pos1 only1 used => exact hn.congr (InTable.frame hf).shape (InTable.stack hf)
  | enter t1 b =>
    obtain ⟨hfr, p, htp, hst, hsub, _⟩ := hf
    have hp : ∃ o, a.getOpt p = .ok o ∧ o.name ≠ none := by
      unfold parseStep at h
      split at h
      · simp at h
      · split at h
        · unfold stepPositional at h
          obtain ⟨r, _, h⟩ := Out.bind_eq_ok h
          simp only [Out.ok.injEq] at h; split at h <;> simp at h
        · split at h
          · obtain ⟨r, _, h⟩ := Out.bind_eq_ok h
            simp only [Out.ok.injEq, OptRes.step] at h; split at h <;> simp at h
          · split at h
            · obtain ⟨neg, _, h⟩ := Out.bind_eq_ok h
              split at h
              · unfold stepPositional at h
                obtain ⟨r, _, h⟩ := Out.bind_eq_ok h
                simp only [Out.ok.injEq] at h; split at h <;> simp at h
              · obtain ⟨r, _, h⟩ := Out.bind_eq_ok h
                simp only [Out.ok.injEq, OptRes.step] at h; split at h <;> simp at h
            · obtain ⟨os, hos, h⟩ := Out.bind_eq_ok h
              split at h
              · simp at h
              · split at h
                · rename_i i hi _
                  obtain ⟨e, he, h⟩ := Out.bind_eq_ok h
                  simp only [Out.ok.injEq, Step.enter.injEq] at h
                  unfold enterSub at he
                  obtain ⟨o, ho, he⟩ := Out.bind_eq_ok he
                  split at he
                  · simp at he
                  · simp only [Out.ok.injEq] at he; subst he
                    have hb := h.2
                    subst hb
                    simp only [setOpt_stack, List.append_cancel_left_eq, List.cons.injEq, and_true] at hst
                    subst hst
                    refine ⟨o, ho, ?_⟩
                    rcases findSubFrom_named os 0 i none hi with h | ⟨l, x, h1, h2, h3⟩
                    · simp at h
                    · rw [Nat.zero_add] at h1; subst h1
                      rw [getOpt_of_table hos ho] at h2; cases h2; exact h3
                · unfold stepPositional at h
                  obtain ⟨r, _, h⟩ := Out.bind_eq_ok h
                  simp only [Out.ok.injEq] at h; split at h <;> simp at h
    intro q hq
    have hq' : q ∈ a.stack ++ [p] := hst ▸ hq
    have : ∃ o, a.getOpt q = .ok o ∧ o.name ≠ none := by
      rcases List.mem_append.1 hq' with hq | hq
      · exact hn q hq
      · simp only [List.mem_singleton] at hq; subst hq; exact hp
    obtain ⟨o, h1, h2⟩ := this
    obtain ⟨o', h3, h4⟩ := shape_getOpt hfr.shape h1
    exact ⟨o', h3, by
      rw [show o'.name = o.name from by have := congrArg (fun x : Opt => x.name) h4; exact this]; exact h2⟩

theorem parseLoop_stackNamed {W : World} : ∀ (args : List Str) {t : Option Nat} {a : Argus} {pos : Nat}
    {only skip : Bool} {r : Int × Argus}, a.StackNamed → parseLoop W t a pos only skip args = .ok r → r.2.StackNamed
  | [], t, a, pos, only, skip, r, hn, h => by
    simp only [parseLoop, Out.ok.injEq] at h; subst h; exact hn
  | arg :: rest, t, a, pos, only, true, r, hn, h => by
    simp only [parseLoop] at h; exact parseLoop_stackNamed rest hn h
  | arg :: rest, t, a, pos, only, false, r, hn, h => by
    simp only [parseLoop] at h
    obtain ⟨s, hs, h1⟩ := Out.bind_eq_ok h
    have := parseStep_stackNamed hn hs
    cases s with
    | done st b => simp only [Out.ok.injEq] at h1; subst h1; exact this
    | next b pos1 only1 used => exact parseLoop_stackNamed rest this h1
    | enter t1 b => exact parseLoop_stackNamed rest this h1

theorem stackNames_ok {a : Argus} : ∀ (ps : List Ptr), (∀ p ∈ ps, ∃ o, a.getOpt p = .ok o ∧ o.name ≠ none) →
    ∃ s, stackNames a ps = .ok s
  | [], _ => ⟨_, rfl⟩
  | p :: ps, h => by
    obtain ⟨o, ho, hn⟩ := h p (by simp)
    obtain ⟨s, hs⟩ := stackNames_ok ps (fun q hq => h q (by simp [hq]))
    obtain ⟨n, hn⟩ := Option.ne_none_iff_exists'.1 hn
    exact ⟨32 :: n ++ s, by unfold stackNames; rw [ho, Out.ok_bind, hn, hs]; rfl⟩

end Argus
