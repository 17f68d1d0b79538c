import Verif.Lemmas.History
import Verif.Lemmas.Strings
import Verif.Spec.Constraints

/-! The checks after parsing decide exactly the declared constraints. -/

set_option autoImplicit false

namespace Argus

theorem asInt_iff {o : Opt} {n : Int} : o.asInt = .ok n ↔ o.ReadsInt n := by
  unfold Opt.asInt Opt.ReadsInt
  cases o.value <;> simp

theorem asFloat_iff {o : Opt} {n : F64} : o.asFloat = .ok n ↔ o.ReadsFloat n := by
  unfold Opt.asFloat Opt.ReadsFloat
  cases o.value <;> simp

theorem asString_iff {o : Opt} {s : Str} : o.asString = .ok (some s) ↔ o.ReadsString s := by
  unfold Opt.asString Opt.ReadsString
  cases o.value with
  | word w =>
    cases w with
    | bits w => simp only [Word.asString]; split <;> simp
    | _ => simp [Word.asString]
  | _ => simp

theorem fail_ne_success {c : Int} (h : c ≠ Err.success) {m : Option Int} :
    (Out.ok (VRes.fail c) : Out VRes) ≠ .ok (Err.success, m) := by
  intro he
  simp only [VRes.fail, Out.ok.injEq, Prod.mk.injEq] at he
  exact h he.1

/-- A validator for parsed values succeeds exactly when its condition holds. -/
theorem runPost_success_iff {W : World} {o : Opt} {k : VKind} :
    (∃ m, runPost W k o = .ok (Err.success, m)) ↔ Meets W o k := by
  cases k with
  | range mn mx =>
    constructor
    · rintro ⟨m, h⟩
      simp only [runPost, rangeValidator] at h
      split at h
      · exact absurd h (fail_ne_success (by decide))
      · obtain ⟨v, hv, h1⟩ := Out.bind_eq_ok h
        split at h1
        · exact absurd h1 (fail_ne_success (by decide))
        · rename_i hn
          exact ⟨v, asInt_iff.1 hv, by omega, by omega⟩
    · rintro ⟨n, hn, h1, h2⟩
      refine ⟨none, ?_⟩
      simp only [runPost, rangeValidator]
      rw [if_neg (by omega), asInt_iff.2 hn, Out.ok_bind, if_neg (by omega)]; rfl
  | length mn mx =>
    constructor
    · rintro ⟨m, h⟩
      simp only [runPost, lengthValidator] at h
      obtain ⟨v, hv, h1⟩ := Out.bind_eq_ok h
      cases v with
      | none => exact absurd h1 (fail_ne_success (by decide))
      | some s =>
        simp only at h1
        split at h1
        · exact absurd h1 (fail_ne_success (by decide))
        · split at h1
          · exact absurd h1 (fail_ne_success (by decide))
          · split at h1
            · exact absurd h1 (fail_ne_success (by decide))
            · exact ⟨s, asString_iff.1 hv, by omega, by omega, by omega⟩
    · rintro ⟨s, hs, h0, h1, h2⟩
      refine ⟨none, ?_⟩
      simp only [runPost, lengthValidator]
      rw [asString_iff.2 hs, Out.ok_bind]
      simp only
      rw [if_neg (by omega), if_neg (by omega), if_neg (by omega)]; rfl
  | count mn mx =>
    constructor
    · rintro ⟨m, h⟩
      simp only [runPost, countValidator] at h
      split at h
      · exact absurd h (fail_ne_success (by decide))
      · split at h
        · exact absurd h (fail_ne_success (by decide))
        · split at h
          · exact absurd h (fail_ne_success (by decide))
          · exact ⟨by omega, by omega, by omega⟩
    · rintro ⟨h0, h1, h2⟩
      refine ⟨none, ?_⟩
      simp only [runPost, countValidator]
      rw [if_neg (by omega), if_neg (by omega), if_neg (by omega)]; rfl
  | choiceStr cs =>
    constructor
    · rintro ⟨m, h⟩
      simp only [runPost, choicesString] at h
      obtain ⟨v, hv, h1⟩ := Out.bind_eq_ok h
      cases v with
      | none => cases h1
      | some s =>
        simp only at h1
        split at h1
        · rename_i ha
          rw [List.any_eq_true] at ha
          obtain ⟨c, hc, he⟩ := ha
          rw [beq_iff_eq, strcmp_eq_zero_iff] at he
          subst he
          exact ⟨s, asString_iff.1 hv, hc⟩
        · exact absurd h1 (fail_ne_success (by decide))
    · rintro ⟨s, hs, hc⟩
      refine ⟨none, ?_⟩
      simp only [runPost, choicesString]
      rw [asString_iff.2 hs, Out.ok_bind]
      simp only
      rw [if_pos (List.any_eq_true.2 ⟨s, hc, by rw [strcmp_self]; rfl⟩)]; rfl
  | choiceInt cs =>
    constructor
    · rintro ⟨m, h⟩
      simp only [runPost, choicesInt] at h
      obtain ⟨v, hv, h1⟩ := Out.bind_eq_ok h
      split at h1
      · rename_i ha
        rw [List.any_eq_true] at ha
        obtain ⟨c, hc, he⟩ := ha
        rw [beq_iff_eq] at he
        subst he
        exact ⟨v, asInt_iff.1 hv, hc⟩
      · exact absurd h1 (fail_ne_success (by decide))
    · rintro ⟨n, hn, hc⟩
      refine ⟨none, ?_⟩
      simp only [runPost, choicesInt]
      rw [asInt_iff.2 hn, Out.ok_bind, if_pos (List.any_eq_true.2 ⟨n, hc, by simp⟩)]; rfl
  | choiceFloat cs =>
    constructor
    · rintro ⟨m, h⟩
      simp only [runPost, choicesFloat] at h
      obtain ⟨v, hv, h1⟩ := Out.bind_eq_ok h
      split at h1
      · rename_i ha
        rw [List.any_eq_true] at ha
        obtain ⟨c, hc, he⟩ := ha
        exact ⟨v, asFloat_iff.1 hv, c, hc, he⟩
      · exact absurd h1 (fail_ne_success (by decide))
    · rintro ⟨n, hn, c, hc, he⟩
      refine ⟨none, ?_⟩
      simp only [runPost, choicesFloat]
      rw [asFloat_iff.2 hn, Out.ok_bind, if_pos (List.any_eq_true.2 ⟨c, hc, he⟩)]; rfl
  | regex p h => simp [runPost, Meets]
  | custom id =>
    simp only [runPost, Meets, Out.ok.injEq]
    constructor
    · rintro ⟨m, h⟩; rw [h]
    · intro h; exact ⟨(W.postValidator id o).2, by rw [← h]⟩

/-- A validator for texts succeeds exactly when its condition holds. -/
theorem runPre_success_iff {W : World} {x : Option Str} {k : VKind} :
    (∃ m, runPre W k x = .ok (Err.success, m)) ↔ MeetsText W x k := by
  cases k with
  | regex p hint =>
    simp only [runPre, MeetsText, regexValidator]
    constructor
    · rintro ⟨m, h⟩
      split at h
      · exact absurd h (fail_ne_success (by decide))
      · rename_i hr
        refine ⟨by simpa using hr, ?_⟩
        split at h
        · exact absurd h (fail_ne_success (by decide))
        · split at h
          · rename_i q _ hq; exact ⟨q, rfl, hq⟩
          all_goals exact absurd h (fail_ne_success (by decide))
    · rintro ⟨h1, q, rfl, h2⟩
      refine ⟨none, ?_⟩
      rw [if_neg (by simp [h1])]
      simp only [h2]; rfl
  | custom id =>
    simp only [runPre, MeetsText, Out.ok.injEq]
    constructor
    · rintro ⟨m, h⟩; rw [h]
    · intro h; exact ⟨(W.preValidator id x).2, by rw [← h]⟩
  | _ => simp [runPre, MeetsText]

theorem callValidators_success_iff {W : World} {o : Opt} : ∀ (vs : List Validator),
    (∃ ms, callValidators W o vs = .ok (Err.success, ms)) ↔
      ∀ v ∈ vs, v.order = .post → Meets W o v.kind
  | [] => by simp [callValidators]
  | v :: vs => by
    have ih := callValidators_success_iff (W := W) (o := o) vs
    simp only [List.forall_mem_cons]
    by_cases hv : v.order = .post
    · simp only [callValidators, hv, if_true, forall_const]
      rw [← runPost_success_iff, ← ih]
      constructor
      · rintro ⟨ms, h⟩
        obtain ⟨r, hr, h1⟩ := Out.bind_eq_ok h
        split at h1
        · rename_i hne
          simp only [Out.ok.injEq, Prod.mk.injEq] at h1; exact absurd h1.1 hne
        · rename_i hs
          obtain ⟨r2, hr2, h2⟩ := Out.bind_eq_ok h1
          simp only [Out.ok.injEq, Prod.mk.injEq] at h2
          refine ⟨⟨r.2, ?_⟩, r2.2, ?_⟩
          · rw [hr, ← Classical.not_not.1 hs]
          · rw [hr2, ← h2.1]
      · rintro ⟨⟨m, h1⟩, ms, h2⟩
        refine ⟨m.toList ++ ms, ?_⟩
        rw [h1, Out.ok_bind]; simp only [ne_eq, not_true_eq_false, if_false]
        rw [h2, Out.ok_bind]
    · simp only [callValidators, hv, if_false, false_implies, true_and]
      exact ih

/-- A name is found exactly where it refers to. -/
theorem findName_refers {os : List Opt} {n : Str} {r : Opt} :
    (findName os n).bind (fun i => os[i]?) = some r ↔ Refers os n r := by
  unfold findName Refers
  induction os with
  | nil => simp
  | cons x xs ih =>
    rw [List.findIdx?_cons]
    by_cases hx : x.name = some n
    · have hb : (x.name == some n) = true := by simp [hx]
      rw [if_pos hb]
      simp only [Option.bind_some, List.getElem?_cons_zero, Option.some.injEq]
      constructor
      · rintro rfl; exact ⟨[], xs, rfl, hx, by simp⟩
      · rintro ⟨pre, post, h1, h2, h3⟩
        cases pre with
        | nil => simp only [List.nil_append, List.cons.injEq] at h1; exact h1.1
        | cons y ys =>
          simp only [List.cons_append, List.cons.injEq] at h1
          exact absurd hx (h1.1 ▸ h3 y (by simp))
    · have hb : (x.name == some n) = false := by simp [hx]
      rw [hb]
      simp only [Bool.false_eq_true, if_false]
      have e : (Option.map (fun i => i + 1) (List.findIdx? (fun o : Opt => o.name == some n) xs)).bind
          (fun i => (x :: xs)[i]?) =
          (List.findIdx? (fun o : Opt => o.name == some n) xs).bind (fun i => xs[i]?) := by
        cases List.findIdx? (fun o : Opt => o.name == some n) xs <;> simp
      rw [e, ih]
      constructor
      · rintro ⟨pre, post, rfl, h2, h3⟩
        refine ⟨x :: pre, post, rfl, h2, ?_⟩
        intro y hy
        rcases List.mem_cons.1 hy with rfl | hy
        · exact hx
        · exact h3 y hy
      · rintro ⟨pre, post, h1, h2, h3⟩
        cases pre with
        | nil =>
          simp only [List.nil_append, List.cons.injEq] at h1
          exact absurd (h1.1 ▸ h2) hx
        | cons y ys =>
          simp only [List.cons_append, List.cons.injEq] at h1
          exact ⟨ys, post, h1.2, h2, fun z hz => h3 z (by simp [hz])⟩

theorem validateRequired_success_iff {os : List Opt} : ∀ (ns : List Str),
    (validateRequired os ns).1 = Err.success ↔
      ∀ n ∈ ns, ∀ r, Refers os n r → r.isSet = true
  | [] => by simp [validateRequired, VRes.pass]
  | n :: ns => by
    have ih := validateRequired_success_iff (os := os) ns
    rw [List.forall_mem_cons, ← ih]
    rw [validateRequired.eq_2]
    cases hf : (findName os n).bind (fun i => os[i]?) with
    | none =>
      simp only
      refine ⟨fun h => ⟨fun r hr => ?_, h⟩, fun h => h.2⟩
      rw [findName_refers.2 hr] at hf; cases hf
    | some r =>
      simp only
      by_cases hs : r.isSet = true
      · rw [if_pos hs]
        refine ⟨fun h => ⟨fun r' hr => ?_, h⟩, fun h => h.2⟩
        rw [findName_refers.2 hr] at hf; cases hf; exact hs
      · rw [if_neg hs]
        refine ⟨fun h => absurd (show Err.missingRequired = Err.success from h) (by decide), fun h => absurd (h.1 r (findName_refers.1 hf)) hs⟩

theorem validateConflicts_success_iff {os : List Opt} : ∀ (ns : List Str),
    (validateConflicts os ns).1 = Err.success ↔
      ∀ n ∈ ns, ∀ r, Refers os n r → r.isSet = false
  | [] => by simp [validateConflicts, VRes.pass]
  | n :: ns => by
    have ih := validateConflicts_success_iff (os := os) ns
    rw [List.forall_mem_cons, ← ih]
    rw [validateConflicts.eq_2]
    cases hf : (findName os n).bind (fun i => os[i]?) with
    | none =>
      simp only
      refine ⟨fun h => ⟨fun r hr => ?_, h⟩, fun h => h.2⟩
      rw [findName_refers.2 hr] at hf; cases hf
    | some r =>
      simp only
      by_cases hs : r.isSet = true
      · rw [if_pos hs]
        refine ⟨fun h => absurd (show Err.conflictingOptions = Err.success from h) (by decide), fun h => ?_⟩
        have := h.1 r (findName_refers.1 hf); rw [hs] at this; cases this
      · rw [if_neg hs]
        refine ⟨fun h => ⟨fun r' hr => ?_, h⟩, fun h => h.2⟩
        rw [findName_refers.2 hr] at hf; cases hf; simpa using hs

/-- What the loop asks of one entry by itself. -/
structure EntryOk (W : World) (os : List Opt) (o : Opt) : Prop where
  pos : o.type = .positional → o.flags.has .required = true → o.isSet = true
  val : o.type ≠ .group → o.isSet = true → ∀ v ∈ o.validators.getD [], v.order = .post →
    Meets W o v.kind
  req : o.type ≠ .group → o.isSet = true → ∀ n ∈ o.require.getD [], ∀ r, Refers os n r → r.isSet = true
  con : o.type ≠ .group → o.isSet = true → ∀ n ∈ o.conflict.getD [], ∀ r, Refers os n r → r.isSet = false

/-- What the loop asks of groups. -/
def ExclOk : Bool → Option Str → List Opt → Prop
  | _, _, [] => True
  | excl, first, o :: rest =>
    if o.type = .group then ExclOk (o.flags.has .exclusive) none rest
    else if o.isSet then
      ¬ (excl = true ∧ first.isSome = true) ∧ ExclOk excl (if excl then o.name else first) rest
    else ExclOk excl first rest

theorem validateSet_success_iff {W : World} {os : List Opt} : ∀ (rest : List Opt) (excl : Bool)
    (first : Option Str), (∃ ms, validateSet W os excl first rest = .ok (Err.success, ms)) ↔
      (∀ o ∈ rest, EntryOk W os o) ∧ ExclOk excl first rest
  | [], excl, first => by simp [validateSet, ExclOk]
  | o :: rest, excl, first => by
    unfold validateSet ExclOk
    rw [List.forall_mem_cons]
    by_cases hg : o.type = .group
    · rw [if_pos hg, if_pos hg, validateSet_success_iff rest]
      have he : EntryOk W os o :=
        ⟨fun h => absurd (hg.symm.trans h) (by decide), fun h => absurd hg h, fun h => absurd hg h,
          fun h => absurd hg h⟩
      simp only [he, true_and]
    · rw [if_neg hg, if_neg hg]
      by_cases hp : o.type = .positional ∧ o.flags.has .required = true ∧ o.isSet = false
      · rw [if_pos hp]
        constructor
        · rintro ⟨ms, h⟩; simp only [Out.ok.injEq, Prod.mk.injEq] at h; exact absurd h.1 (by decide)
        · rintro ⟨⟨he, _⟩, _⟩
          have := he.pos hp.1 hp.2.1; rw [hp.2.2] at this; cases this
      · rw [if_neg hp]
        by_cases hs : o.isSet = true
        · rw [if_pos hs, if_pos hs]
          by_cases hx : excl = true ∧ first.isSome = true
          · rw [if_pos hx]
            constructor
            · rintro ⟨ms, h⟩; simp only [Out.ok.injEq, Prod.mk.injEq] at h; exact absurd h.1 (by decide)
            · rintro ⟨_, h, _⟩; exact absurd hx h
          · rw [if_neg hx]
            have ih := validateSet_success_iff (W := W) (os := os) rest excl (if excl then o.name else first)
            constructor
            · rintro ⟨ms, h⟩
              obtain ⟨r, hr, h1⟩ := Out.bind_eq_ok h
              split at h1
              · rename_i hne
                simp only [Out.ok.injEq] at h1; subst h1; exact absurd rfl hne
              · rename_i h1s
                simp only at h1
                split at h1
                · rename_i hne
                  simp only [Out.ok.injEq, Prod.mk.injEq] at h1; exact absurd h1.1 hne
                · rename_i hq
                  split at h1
                  · rename_i hne
                    simp only [Out.ok.injEq, Prod.mk.injEq] at h1; exact absurd h1.1 hne
                  · rename_i hc
                    obtain ⟨r2, hr2, h2⟩ := Out.bind_eq_ok h1
                    simp only [Out.ok.injEq, Prod.mk.injEq] at h2
                    have i2 := ih.1 ⟨r2.2, by rw [hr2, ← h2.1]⟩
                    refine ⟨⟨⟨fun _ _ => hs, fun _ _ => ?_, fun _ _ => ?_, fun _ _ => ?_⟩, i2.1⟩, hx, i2.2⟩
                    · exact (callValidators_success_iff _).1
                        ⟨r.2, by rw [hr, ← Classical.not_not.1 h1s]⟩
                    · exact (validateRequired_success_iff _).1 (Classical.not_not.1 hq)
                    · exact (validateConflicts_success_iff _).1 (Classical.not_not.1 hc)
            · rintro ⟨⟨he, hr⟩, _, hex⟩
              obtain ⟨ms2, h2⟩ := ih.2 ⟨hr, hex⟩
              obtain ⟨ms1, h1⟩ := (callValidators_success_iff _).2 (he.val hg hs)
              have hq := (validateRequired_success_iff _).2 (he.req hg hs)
              have hc := (validateConflicts_success_iff _).2 (he.con hg hs)
              refine ⟨ms1 ++ ms2, ?_⟩
              rw [h1, Out.ok_bind]
              simp only [ne_eq, not_true_eq_false, if_false, hq, hc]
              rw [h2, Out.ok_bind]
        · rw [if_neg hs, if_neg hs, validateSet_success_iff rest]
          have he : EntryOk W os o :=
            ⟨fun h1 h2 => (Classical.byContradiction fun h3 => hp ⟨h1, h2, by simpa using h3⟩),
              fun _ h => absurd h hs, fun _ h => absurd h hs, fun _ h => absurd h hs⟩
          simp only [he, true_and]

theorem groupAt_cons {o g : Opt} {rest mid : List Opt} : GroupAt (o :: rest) g mid ↔
    (g = o ∧ g.type = .group ∧ (∀ x ∈ mid, x.type ≠ .group) ∧ ∃ post, rest = mid ++ post) ∨
      GroupAt rest g mid := by
  unfold GroupAt
  constructor
  · rintro ⟨h1, h2, pre, post, h3⟩
    cases pre with
    | nil =>
      simp only [List.nil_append, List.cons.injEq] at h3
      exact .inl ⟨h3.1.symm, h1, h2, post, h3.2⟩
    | cons y ys =>
      simp only [List.cons_append, List.cons.injEq] at h3
      exact .inr ⟨h1, h2, ys, post, h3.2⟩
  · rintro (⟨rfl, h1, h2, post, rfl⟩ | ⟨h1, h2, pre, post, rfl⟩)
    · exact ⟨h1, h2, [], post, rfl⟩
    · exact ⟨h1, h2, o :: pre, post, rfl⟩

/-- The entries up to the next group. -/
def segment (os : List Opt) : List Opt := os.takeWhile (fun o => decide (o.type ≠ .group))

theorem segment_max : ∀ (mid post : List Opt), (∀ x ∈ mid, x.type ≠ .group) →
    (mid.filter (·.isSet)).length ≤ ((segment (mid ++ post)).filter (·.isSet)).length
  | [], _, _ => by simp
  | x :: xs, post, h => by
    have ih := segment_max xs post (fun y hy => h y (by simp [hy]))
    have hx := h x (by simp)
    have e : segment (x :: xs ++ post) = x :: segment (xs ++ post) := by
      simp [segment, hx]
    rw [e]
    by_cases hs : x.isSet = true
    · simp [hs]; exact ih
    · simp [hs]; exact ih

theorem segment_split (os : List Opt) : (∀ x ∈ segment os, x.type ≠ .group) ∧ ∃ post, os = segment os ++ post := by
  refine ⟨fun x hx => ?_, os.dropWhile (fun o => decide (o.type ≠ .group)), ?_⟩
  · have := List.all_takeWhile (p := fun o : Opt => decide (o.type ≠ .group)) (l := os)
    rw [List.all_eq_true] at this
    exact of_decide_eq_true (this x hx)
  · exact (List.takeWhile_append_dropWhile).symm

theorem exclOk_iff : ∀ (rest : List Opt) (excl : Bool) (first : Option Str), AllNamed rest →
    (ExclOk excl first rest ↔
      (excl = true → first.toList.length + ((segment rest).filter (·.isSet)).length ≤ 1) ∧
      ∀ g mid, GroupAt rest g mid → g.flags.has .exclusive = true → (mid.filter (·.isSet)).length ≤ 1)
  | [], excl, first, _ => by
    simp only [ExclOk, segment, true_iff]
    refine ⟨fun _ => by cases first <;> simp, fun g mid hg => ?_⟩
    obtain ⟨_, _, pre, post, h⟩ := hg
    simp at h
  | o :: rest, excl, first, hn => by
    have hn' : AllNamed rest := fun x hx => hn x (by simp [hx])
    unfold ExclOk
    by_cases hg : o.type = .group
    · rw [if_pos hg, exclOk_iff rest _ _ hn']
      have e : segment (o :: rest) = [] := by simp [segment, hg]
      rw [e]
      constructor
      · rintro ⟨h1, h2⟩
        refine ⟨fun _ => by cases first <;> simp, fun g mid hgm hx => ?_⟩
        rcases groupAt_cons.1 hgm with ⟨rfl, _, h3, post, rfl⟩ | h
        · have := h1 hx
          have := segment_max mid post h3
          simp only [Option.toList_none, List.length_nil] at *
          omega
        · exact h2 g mid h hx
      · rintro ⟨_, h2⟩
        refine ⟨fun hx => ?_, fun g mid h => h2 g mid (groupAt_cons.2 (.inr h))⟩
        have := h2 o (segment rest)
          (groupAt_cons.2 (.inl ⟨rfl, hg, (segment_split rest).1, (segment_split rest).2⟩)) hx
        simpa using this
    · rw [if_neg hg]
      have e : segment (o :: rest) = o :: segment rest := by simp [segment, hg]
      have hgr : ∀ g mid, GroupAt (o :: rest) g mid ↔ GroupAt rest g mid := by
        intro g mid
        rw [groupAt_cons]
        exact ⟨fun h => h.elim (fun h => absurd (h.1 ▸ h.2.1) hg) id, .inr⟩
      simp only [hgr, e]
      by_cases hs : o.isSet = true
      · rw [if_pos hs, exclOk_iff rest _ _ hn']
        obtain ⟨nm, hnm⟩ := Option.ne_none_iff_exists'.1 (hn o (by simp) hg)
        have ef : (o :: segment rest).filter (·.isSet) = o :: (segment rest).filter (·.isSet) := by
          simp [hs]
        rw [ef]
        cases excl with
        | false => simp
        | true =>
          simp only [true_and, if_true, hnm, Option.toList_some, List.length_cons, List.length_nil,
            forall_const]
          cases first with
          | none =>
            have hi : ¬ ((none : Option Str).isSome = true) := by simp
            simp only [hi, Option.toList_none, List.length_nil]
            refine ⟨fun h => ⟨?_, h.2.2⟩, fun h => ⟨fun h' => absurd h' (by decide), ?_, h.2⟩⟩
            · have := h.2.1; omega
            · have := h.1; omega
          | some f =>
            refine ⟨fun h => absurd rfl h.1, fun h => ?_⟩
            have := h.1
            simp only [Option.toList_some, List.length_cons, List.length_nil] at this
            omega
      · rw [if_neg hs, exclOk_iff rest _ _ hn']
        have ef : (o :: segment rest).filter (·.isSet) = (segment rest).filter (·.isSet) := by
          simp [hs]
        rw [ef]

/-- The checks of one table succeed exactly when what it declares holds. -/
theorem validateSet_levelOk {W : World} {os : List Opt} (hn : AllNamed os) :
    (∃ ms, validateSet W os false none os = .ok (Err.success, ms)) ↔ LevelOk W os := by
  rw [validateSet_success_iff, exclOk_iff _ _ _ hn]
  simp only [Bool.false_eq_true, false_implies, true_and]
  constructor
  · rintro ⟨h1, h2⟩
    exact ⟨fun o ho => (h1 o ho).pos, fun o ho => (h1 o ho).val, fun o ho => (h1 o ho).req,
      fun o ho => (h1 o ho).con, h2⟩
  · intro h
    exact ⟨fun o ho => ⟨h.positionals o ho, h.validators o ho, h.requires o ho, h.conflicts o ho⟩,
      h.exclusive⟩

/-- The checks of the table succeed. -/
def Checked (W : World) (os : List Opt) : Prop :=
  ∃ ms, validateSet W os false none os = .ok (Err.success, ms)

theorem validateTable_checked {W : World} {a : Argus} {k : Nat} {os : List Opt} {st : Int} {a' : Argus}
    (h : validateTable W a (some k) = .ok (st, a')) (hst : st = Err.success)
    (hk : a.tables[k]? = some os) : Checked W os := by
  unfold validateTable at h
  rw [table_eq_ok.2 ⟨k, rfl, hk⟩, Out.ok_bind] at h
  obtain ⟨r, hr, h1⟩ := Out.bind_eq_ok h
  simp only [Out.ok.injEq, Prod.mk.injEq] at h1
  exact ⟨r.2, by rw [hr, ← hst, ← h1.1]⟩

theorem validateTable_of_checked {W : World} {a : Argus} {k : Nat} {os : List Opt}
    (hk : a.tables[k]? = some os) (hl : Checked W os) :
    ∃ es, validateTable W a (some k) = .ok (Err.success, a.emits es) := by
  obtain ⟨ms, h⟩ := hl
  refine ⟨ms.map .error, ?_⟩
  unfold validateTable
  rw [table_eq_ok.2 ⟨k, rfl, hk⟩, Out.ok_bind, h, Out.ok_bind]

theorem validateStack_checked {W : World} : ∀ (ps : List Ptr) {a a' : Argus},
    validateStack W a ps = .ok (Err.success, a') → ∀ q ∈ ps, ∀ cmd k os, a.getOpt q = .ok cmd →
      cmd.subOptions = some k → a.tables[k]? = some os → Checked W os
  | [], a, a', h, q, hq => by cases hq
  | p :: ps, a, a', h, q, hq => by
    intro cmd k os ho hs hk
    unfold validateStack at h
    obtain ⟨c, hc, h1⟩ := Out.bind_eq_ok h
    obtain ⟨r, hr, h2⟩ := Out.bind_eq_ok h1
    split at h2
    · rename_i hne
      simp only [Out.ok.injEq] at h2; subst h2; exact absurd rfl hne
    · rename_i hs1
      rcases List.mem_cons.1 hq with rfl | hq
      · rw [ho] at hc; cases hc
        rw [hs] at hr
        exact validateTable_checked hr (Classical.not_not.1 hs1) hk
      · obtain ⟨es, hes⟩ := validateTable_eq hr
        refine validateStack_checked ps h2 q hq cmd k os ?_ hs ?_
        · rw [hes]; simpa using ho
        · rw [hes]; simpa using hk

/-- After a successful validation the checks succeed at every level of the path. -/
theorem postValidation_checked {W : World} {a a' : Argus} (h : postValidation W a = .ok (Err.success, a'))
    {k : Nat} (hp : a.OnPath k) {os : List Opt} (hk : a.tables[k]? = some os) :
    Checked W os := by
  unfold postValidation at h
  obtain ⟨r, hr, h2⟩ := Out.bind_eq_ok h
  split at h2
  · rename_i hne
    simp only [Out.ok.injEq] at h2; subst h2; exact absurd rfl hne
  · rename_i hs1
    rcases hp with rfl | ⟨q, hq, cmd, ho, hs⟩
    · exact validateTable_checked hr (Classical.not_not.1 hs1) hk
    · obtain ⟨es, hes⟩ := validateTable_eq hr
      refine validateStack_checked _ h2 q ?_ cmd k os ?_ hs ?_
      · rw [hes]; simpa using hq
      · rw [hes]; simpa using ho
      · rw [hes]; simpa using hk

theorem validateStack_of_checked {W : World} : ∀ (ps : List Ptr) {a : Argus},
    (∀ q ∈ ps, ∃ cmd k os, a.getOpt q = .ok cmd ∧ cmd.subOptions = some k ∧ a.tables[k]? = some os ∧
      Checked W os) →
    ∃ es, validateStack W a ps = .ok (Err.success, a.emits es)
  | [], a, _ => ⟨[], by simp [validateStack]⟩
  | p :: ps, a, h => by
    obtain ⟨cmd, k, os, ho, hs, hk, hl⟩ := h p (by simp)
    obtain ⟨es, he⟩ := validateTable_of_checked hk hl
    obtain ⟨es2, he2⟩ := validateStack_of_checked (W := W) ps (a := a.emits es)
      (fun q hq => by simpa using h q (by simp [hq]))
    refine ⟨es ++ es2, ?_⟩
    unfold validateStack
    rw [ho, Out.ok_bind, hs, he, Out.ok_bind]
    simp only [ne_eq, not_true_eq_false, if_false]
    rw [he2]; simp [Argus.emits]

theorem postValidation_of_checked {W : World} {a : Argus} {os : List Opt}
    (hr : a.tables[a.root]? = some os) (hl : Checked W os)
    (h : ∀ q ∈ a.stack, ∃ cmd k os, a.getOpt q = .ok cmd ∧ cmd.subOptions = some k ∧
      a.tables[k]? = some os ∧ Checked W os) :
    ∃ es, postValidation W a = .ok (Err.success, a.emits es) := by
  obtain ⟨es, he⟩ := validateTable_of_checked hr hl
  obtain ⟨es2, he2⟩ := validateStack_of_checked (W := W) a.stack (a := a.emits es)
    (fun q hq => by simpa using h q hq)
  refine ⟨es ++ es2, ?_⟩
  unfold postValidation
  rw [he, Out.ok_bind]
  simp only [ne_eq, not_true_eq_false, if_false]
  rw [emits_stack, he2]; simp [Argus.emits]

/-- After a successful parse the checks succeed at every level of the path. -/
theorem argusParse_checked {W : World} {env : Env} {a a' : Argus} {args : List Str}
    (h : argusParse W env a args = .ok (.returned Err.success, a'))
    {k : Nat} (hp : a'.OnPath k) {os : List Opt} (hk : a'.tables[k]? = some os) :
    Checked W os := by
  obtain ⟨a1, a2, _, _, h3⟩ := argusParse_success h
  obtain ⟨es, hes⟩ := postValidation_eq h3
  simp only at hes; subst hes
  simp only [Argus.OnPath, emits_root, emits_stack, getOpt_emits, emits_tables] at hp hk
  exact postValidation_checked h3 hp hk

theorem Checked.entry {W : World} {os : List Opt} (h : Checked W os) {o : Opt} (ho : o ∈ os) :
    EntryOk W os o := ((validateSet_success_iff _ _ _).1 h).1 o ho

/-- A validator that does not succeed rejects with its status, because its condition does not hold. -/
theorem runPost_reject {W : World} {o : Opt} {k : VKind} {r : VRes} (h : runPost W k o = .ok r)
    (hne : r.1 ≠ Err.success) : ¬ Meets W o k ∧ RejectStatus W o k r.1 := by
  refine ⟨fun hm => ?_, ?_⟩
  · obtain ⟨m, hm⟩ := runPost_success_iff.2 hm
    rw [h] at hm; simp only [Out.ok.injEq] at hm; rw [hm] at hne; exact hne rfl
  · cases k with
    | range mn mx =>
      simp only [runPost, rangeValidator] at h
      split at h
      · simp only [Out.ok.injEq] at h; subst h; rfl
      · obtain ⟨v, hv, h1⟩ := Out.bind_eq_ok h
        split at h1 <;> (simp only [Out.ok.injEq] at h1; subst h1)
        · rfl
        · exact absurd rfl hne
    | length mn mx =>
      simp only [runPost, lengthValidator] at h
      obtain ⟨v, hv, h1⟩ := Out.bind_eq_ok h
      cases v with
      | none =>
        simp only [Out.ok.injEq] at h1; subst h1
        refine .inr ⟨rfl, ?_⟩
        unfold Opt.asString at hv
        split at hv
        · rename_i w hw
          rw [hw]
          cases w with
          | bits w =>
            simp only [Word.asString] at hv
            split at hv
            · rename_i h0; rw [h0]; rfl
            · cases hv
          | _ => simp [Word.asString] at hv
        · cases hv
      | some s =>
        simp only at h1
        refine .inl ?_
        split at h1
        · simp only [Out.ok.injEq] at h1; subst h1; rfl
        · split at h1
          · simp only [Out.ok.injEq] at h1; subst h1; rfl
          · split at h1 <;> (simp only [Out.ok.injEq] at h1; subst h1)
            · rfl
            · exact absurd rfl hne
    | count mn mx =>
      simp only [runPost, countValidator, Out.ok.injEq] at h
      subst h
      split at hne
      · rename_i h1; rw [if_pos h1]; rfl
      · rename_i h1
        split at hne
        · rename_i h2; rw [if_neg h1, if_pos h2]; rfl
        · rename_i h2
          split at hne
          · rename_i h3; rw [if_neg h1, if_neg h2, if_pos h3]; rfl
          · exact absurd rfl hne
    | choiceStr cs =>
      simp only [runPost, choicesString] at h
      obtain ⟨v, hv, h1⟩ := Out.bind_eq_ok h
      cases v with
      | none => cases h1
      | some s =>
        simp only at h1
        split at h1 <;> (simp only [Out.ok.injEq] at h1; subst h1)
        · exact absurd rfl hne
        · rfl
    | choiceInt cs =>
      simp only [runPost, choicesInt] at h
      obtain ⟨v, hv, h1⟩ := Out.bind_eq_ok h
      split at h1 <;> (simp only [Out.ok.injEq] at h1; subst h1)
      · exact absurd rfl hne
      · rfl
    | choiceFloat cs =>
      simp only [runPost, choicesFloat] at h
      obtain ⟨v, hv, h1⟩ := Out.bind_eq_ok h
      split at h1 <;> (simp only [Out.ok.injEq] at h1; subst h1)
      · exact absurd rfl hne
      · rfl
    | regex p hh => simp [runPost] at h
    | custom id => simp only [runPost, Out.ok.injEq] at h; subst h; rfl

theorem callValidators_reject {W : World} {o : Opt} : ∀ (vs : List Validator) {r : Int × List Int},
    callValidators W o vs = .ok r → r.1 ≠ Err.success →
    ∃ v ∈ vs, v.order = .post ∧ ¬ Meets W o v.kind ∧ RejectStatus W o v.kind r.1
  | [], r, h, hne => by simp only [callValidators, Out.ok.injEq] at h; subst h; exact absurd rfl hne
  | v :: vs, r, h, hne => by
    unfold callValidators at h
    split at h
    · rename_i hv
      obtain ⟨q, hq, h1⟩ := Out.bind_eq_ok h
      split at h1
      · rename_i hq1
        simp only [Out.ok.injEq] at h1; subst h1
        obtain ⟨h2, h3⟩ := runPost_reject hq hq1
        exact ⟨v, by simp, hv, h2, h3⟩
      · obtain ⟨r2, hr2, h2⟩ := Out.bind_eq_ok h1
        simp only [Out.ok.injEq] at h2; subst h2
        obtain ⟨w, hw, h3⟩ := callValidators_reject vs hr2 hne
        exact ⟨w, by simp [hw], h3⟩
    · obtain ⟨w, hw, h3⟩ := callValidators_reject vs h hne
      exact ⟨w, by simp [hw], h3⟩

theorem validateRequired_reject {os : List Opt} : ∀ (ns : List Str), (validateRequired os ns).1 ≠ Err.success →
    (validateRequired os ns).1 = Err.missingRequired ∧ ∃ n ∈ ns, ∃ r, Refers os n r ∧ r.isSet = false
  | [], h => absurd rfl h
  | n :: ns, h => by
    rw [validateRequired.eq_2] at h ⊢
    cases hf : (findName os n).bind (fun i => os[i]?) with
    | none =>
      rw [hf] at h
      simp only at h ⊢
      obtain ⟨h1, m, hm, h2⟩ := validateRequired_reject ns h
      exact ⟨h1, m, by simp [hm], h2⟩
    | some r =>
      rw [hf] at h
      simp only at h ⊢
      by_cases hs : r.isSet = true
      · rw [if_pos hs] at h ⊢
        obtain ⟨h1, m, hm, h2⟩ := validateRequired_reject ns h
        exact ⟨h1, m, by simp [hm], h2⟩
      · rw [if_neg hs]
        exact ⟨rfl, n, by simp, r, findName_refers.1 hf, by simpa using hs⟩

theorem validateConflicts_reject {os : List Opt} : ∀ (ns : List Str), (validateConflicts os ns).1 ≠ Err.success →
    (validateConflicts os ns).1 = Err.conflictingOptions ∧ ∃ n ∈ ns, ∃ r, Refers os n r ∧ r.isSet = true
  | [], h => absurd rfl h
  | n :: ns, h => by
    rw [validateConflicts.eq_2] at h ⊢
    cases hf : (findName os n).bind (fun i => os[i]?) with
    | none =>
      rw [hf] at h
      simp only at h ⊢
      obtain ⟨h1, m, hm, h2⟩ := validateConflicts_reject ns h
      exact ⟨h1, m, by simp [hm], h2⟩
    | some r =>
      rw [hf] at h
      simp only at h ⊢
      by_cases hs : r.isSet = true
      · rw [if_pos hs]
        exact ⟨rfl, n, by simp, r, findName_refers.1 hf, hs⟩
      · rw [if_neg hs] at h ⊢
        obtain ⟨h1, m, hm, h2⟩ := validateConflicts_reject ns h
        exact ⟨h1, m, by simp [hm], h2⟩

/-- Where the loop stands in its table: the entries before `rest`, since the last group entry, if that
    group is exclusive; `first` is then the name of a set one among them. -/
def GroupSoFar (os rest : List Opt) (excl : Bool) (first : Option Str) : Prop :=
  excl = true → ∃ g mid pre, os = pre ++ g :: (mid ++ rest) ∧ g.type = .group ∧
    g.flags.has .exclusive = true ∧ (∀ x ∈ mid, x.type ≠ .group) ∧
    (first.isSome = true → ∃ x ∈ mid, x.isSet = true)

theorem validateSet_reject {W : World} {os : List Opt} : ∀ (rest : List Opt) (excl : Bool)
    (first : Option Str) {r : Int × List Int}, validateSet W os excl first rest = .ok r →
    r.1 ≠ Err.success → (∃ pre, os = pre ++ rest) → GroupSoFar os rest excl first → Refusal W os r.1
  | [], excl, first, r, h, hne, _, _ => by
    simp only [validateSet, Out.ok.injEq] at h; subst h; exact absurd rfl hne
  | o :: rest, excl, first, r, h, hne, ⟨pre, hpre⟩, hg => by
    have hmem : o ∈ os := by rw [hpre]; simp
    have hpre' : ∃ pre, os = pre ++ rest := ⟨pre ++ [o], by rw [hpre]; simp⟩
    unfold validateSet at h
    split at h
    · rename_i hgr
      refine validateSet_reject rest _ _ h hne hpre' fun hx => ?_
      exact ⟨o, [], pre, by simpa using hpre, hgr, hx, by simp, by simp⟩
    · rename_i hng
      have step : ∀ (f : Option Str), (f.isSome = true → f = first ∨ o.isSet = true) →
          GroupSoFar os rest excl f := by
        intro f hf hx
        obtain ⟨g, mid, pre', h1, h2, h3, h4, h5⟩ := hg hx
        refine ⟨g, mid ++ [o], pre', by rw [h1]; simp, h2, h3, ?_, fun hi => ?_⟩
        · intro x hx
          rcases List.mem_append.1 hx with hx | hx
          · exact h4 x hx
          · simp only [List.mem_singleton] at hx; subst hx; exact hng
        · rcases hf hi with rfl | hs
          · obtain ⟨x, hx, hxs⟩ := h5 hi; exact ⟨x, by simp [hx], hxs⟩
          · exact ⟨o, by simp, hs⟩
      split at h
      · rename_i hp
        simp only [Out.ok.injEq] at h; subst h
        exact .missingPositional o hmem hp.1 hp.2.1 hp.2.2
      · split at h
        · rename_i hs
          split at h
          · rename_i hx
            simp only [Out.ok.injEq] at h; subst h
            obtain ⟨g, mid, pre', h1, h2, h3, h4, h5⟩ := hg hx.1
            obtain ⟨x, hxm, hxs⟩ := h5 hx.2
            refine .exclusive g (mid ++ [o]) ⟨h2, ?_, pre', rest, by rw [h1]; simp⟩ h3 ?_
            · intro y hy
              rcases List.mem_append.1 hy with hy | hy
              · exact h4 y hy
              · simp only [List.mem_singleton] at hy; subst hy; exact hng
            · rw [List.filter_append, List.length_append]
              have h6 : 0 < (mid.filter (·.isSet)).length :=
                List.length_pos_of_mem (List.mem_filter.2 ⟨hxm, hxs⟩)
              have h7 : ([o].filter (·.isSet)).length = 1 := by simp [hs]
              omega
          · obtain ⟨q, hq, h1⟩ := Out.bind_eq_ok h
            split at h1
            · rename_i hq1
              simp only [Out.ok.injEq] at h1; subst h1
              obtain ⟨v, hv, h2, h3, h4⟩ := callValidators_reject _ hq hq1
              exact .validator o v _ hmem hng hs hv h2 h3 h4
            · simp only at h1
              split at h1
              · rename_i hq1
                simp only [Out.ok.injEq] at h1; subst h1
                obtain ⟨h2, n, hn, r, hr, hrs⟩ := validateRequired_reject _ hq1
                simp only; rw [h2]; exact .requirement o r n hmem hng hs hn hr hrs
              · split at h1
                · rename_i hq1
                  simp only [Out.ok.injEq] at h1; subst h1
                  obtain ⟨h2, n, hn, r, hr, hrs⟩ := validateConflicts_reject _ hq1
                  simp only; rw [h2]; exact .conflict o r n hmem hng hs hn hr hrs
                · obtain ⟨r2, hr2, h2⟩ := Out.bind_eq_ok h1
                  simp only [Out.ok.injEq] at h2; subst h2
                  exact validateSet_reject rest _ _ (r := r2) hr2 hne hpre' (step _ fun _ => .inr hs)
        · exact validateSet_reject rest _ _ h hne hpre' (step _ fun _ => .inl rfl)

theorem validateTable_reject {W : World} {a : Argus} {t : Option Nat} {r : Int × Argus}
    (h : validateTable W a t = .ok r) (hne : r.1 ≠ Err.success) :
    ∃ k os, t = some k ∧ a.tables[k]? = some os ∧ Refusal W os r.1 := by
  unfold validateTable at h
  obtain ⟨os, hos, h1⟩ := Out.bind_eq_ok h
  obtain ⟨q, hq, h2⟩ := Out.bind_eq_ok h1
  simp only [Out.ok.injEq] at h2; subst h2
  obtain ⟨k, hk, hk2⟩ := table_eq_ok.1 hos
  exact ⟨k, os, hk, hk2, validateSet_reject _ _ _ hq hne ⟨[], rfl⟩ (fun h => by cases h)⟩

theorem validateStack_reject {W : World} : ∀ (ps : List Ptr) {a : Argus} {r : Int × Argus},
    validateStack W a ps = .ok r → r.1 ≠ Err.success →
    ∃ q ∈ ps, ∃ cmd k os, a.getOpt q = .ok cmd ∧ cmd.subOptions = some k ∧ a.tables[k]? = some os ∧
      Refusal W os r.1
  | [], a, r, h, hne => by simp only [validateStack, Out.ok.injEq] at h; subst h; exact absurd rfl hne
  | p :: ps, a, r, h, hne => by
    unfold validateStack at h
    obtain ⟨c, hc, h1⟩ := Out.bind_eq_ok h
    obtain ⟨q, hq, h2⟩ := Out.bind_eq_ok h1
    split at h2
    · simp only [Out.ok.injEq] at h2; subst h2
      obtain ⟨k, os, h3, h4, h5⟩ := validateTable_reject hq hne
      exact ⟨p, by simp, c, k, os, hc, h3, h4, h5⟩
    · obtain ⟨es, hes⟩ := validateTable_eq hq
      rw [hes] at h2
      obtain ⟨p', hp', h3⟩ := validateStack_reject ps h2 hne
      exact ⟨p', by simp [hp'], by simpa using h3⟩

/-- A failing validation has a reason at some level of the path, and the status says which. -/
theorem postValidation_reject {W : World} {a : Argus} {r : Int × Argus} (h : postValidation W a = .ok r)
    (hne : r.1 ≠ Err.success) : ∃ k os, a.OnPath k ∧ a.tables[k]? = some os ∧ Refusal W os r.1 := by
  unfold postValidation at h
  obtain ⟨q, hq, h2⟩ := Out.bind_eq_ok h
  split at h2
  · simp only [Out.ok.injEq] at h2; subst h2
    obtain ⟨k, os, h3, h4, h5⟩ := validateTable_reject hq hne
    simp only [Option.some.injEq] at h3
    exact ⟨k, os, .inl h3.symm, h4, h5⟩
  · obtain ⟨es, hes⟩ := validateTable_eq hq
    rw [hes] at h2
    obtain ⟨p', hp', c, k, os, h3, h4, h5, h6⟩ := validateStack_reject _ h2 hne
    simp only [emits_stack, getOpt_emits, emits_tables] at hp' h3 h5
    exact ⟨k, os, .inr ⟨p', hp', c, h3, h4⟩, h5, h6⟩

/-! ### Validators of texts -/

theorem runPreAll_success {W : World} {x : Option Str} : ∀ (vs : List Validator) {a a' : Argus},
    runPreAll W a x vs = .ok (Err.success, a') → ∀ v ∈ vs, v.order = .pre → MeetsText W x v.kind
  | [], _, _, _, v, hv, _ => by cases hv
  | w :: vs, a, a', h, v, hv, ho => by
    unfold runPreAll at h
    split at h
    · obtain ⟨q, hq, h1⟩ := Out.bind_eq_ok h
      split at h1
      · rename_i hne
        simp only [Out.ok.injEq, Prod.mk.injEq] at h1; exact absurd h1.1 hne
      · rename_i hs
        rcases List.mem_cons.1 hv with rfl | hv
        · exact runPre_success_iff.1 ⟨q.2, by rw [hq, ← Classical.not_not.1 hs]⟩
        · exact runPreAll_success vs h1 v hv ho
    · rename_i hn
      rcases List.mem_cons.1 hv with rfl | hv
      · exact absurd ho hn
      · exact runPreAll_success vs h v hv ho

theorem execCallbacks_pre {W : World} {a a' : Argus} {p : Ptr} {x : Option Str} {o : Opt}
    (h : execCallbacks W a p x = .ok (Err.success, a')) (ho : a.getOpt p = .ok o) :
    ∀ v ∈ o.validators.getD [], v.order = .pre → MeetsText W x v.kind := by
  unfold execCallbacks at h
  rw [ho, Out.ok_bind] at h
  split at h
  · simp only [Out.ok.injEq, Prod.mk.injEq] at h; exact absurd h.1 (by decide)
  · obtain ⟨pre, hpre, h2⟩ := Out.bind_eq_ok h
    split at h2
    · rename_i hne; simp only [Out.ok.injEq] at h2; rw [h2] at hne; exact absurd rfl hne
    · rename_i hs
      exact runPreAll_success _ (a' := pre.2) (by rw [hpre, ← Classical.not_not.1 hs])

theorem run_pre {W : World} {p : Ptr} {x : Option Str} : ∀ (acts : List Act) {a a' : Argus} {o : Opt},
    run W a acts = .ok (Err.success, a') → a.getOpt p = .ok o → Act.give p x ∈ acts →
    Act.fail Err.success ∉ acts →
    ∀ v ∈ o.validators.getD [], v.order = .pre → MeetsText W x v.kind
  | [], a, a', o, h, ho, hm, _ => by cases hm
  | .give q y :: acts, a, a', o, h, ho, hm, hf => by
    have hf' : Act.fail Err.success ∉ acts := fun hm => hf (by simp [hm])
    unfold run at h
    obtain ⟨r, hr, h1⟩ := Out.bind_eq_ok h
    split at h1
    · rename_i hne; simp only [Out.ok.injEq] at h1; rw [h1] at hne; exact absurd rfl hne
    · rename_i hne
      rcases List.mem_cons.1 hm with he | hm
      · cases he
        exact execCallbacks_pre (a' := r.2) (by rw [hr, ← Classical.not_not.1 hne]) ho
      · obtain ⟨o1, ho1, hm1⟩ := shape_getOpt (execCallbacks_one hr).frame.shape ho
        have := run_pre acts h1 ho1 hm hf'
        rw [show o1.validators = o.validators from (congrArg Opt.validators hm1 : o1.meta.validators = o.meta.validators)] at this
        exact this
  | .enter q :: acts, a, a', o, h, ho, hm, hf => by
    have hf' : Act.fail Err.success ∉ acts := fun hm => hf (by simp [hm])
    unfold run at h
    obtain ⟨e, he, h1⟩ := Out.bind_eq_ok h
    obtain ⟨o1, ho1, hm1⟩ := shape_getOpt (enterSub_frame he).1.shape ho
    have := run_pre acts h1 ho1 (by simpa using hm) hf'
    rw [show o1.validators = o.validators from (congrArg Opt.validators hm1 : o1.meta.validators = o.meta.validators)] at this
    exact this
  | .fail c :: acts, a, a', o, h, ho, _, hf => by
    simp only [run, Out.ok.injEq, Prod.mk.injEq] at h
    exact absurd (by rw [h.1]; simp) hf
  | .noTable :: acts, a, a', o, h, ho, _, _ => by simp [run] at h

end Argus
