import Verif.Lemmas.Agree

/-! The statuses that the stages of a parse can return. -/

set_option autoImplicit false

namespace Argus

/-- The statuses `argus_parse` can return with the handlers and validators of the library. -/
def parseCodes : List Int :=
  [Err.success, Err.shouldExit, Err.invalidHandler, Err.invalidArgument, Err.missingValue, Err.missingRequired,
   Err.conflictingOptions, Err.invalidFormat, Err.exclusiveGroup, Err.invalidChoice, Err.invalidRange,
   Err.ambiguousSubcommand, Err.invalidValue]

/-- The codes a handler or validator of the library returns. -/
def callCodes : List Int := parseCodes.filter (· ≠ Err.shouldExit)

theorem callCodes_sub {c : Int} (h : c ∈ callCodes) : c ∈ parseCodes := (List.mem_filter.1 h).1

theorem callCodes_exit {c : Int} (h : c ∈ callCodes) : c ≠ Err.shouldExit := of_decide_eq_true (List.mem_filter.1 h).2

/-- A storing step returns one of them. -/
def StoreCodes (f : Opt → Str → Out HRes) : Prop := ∀ o s r, f o s = .ok r → r.1 ∈ callCodes

theorem setAll_codes {f : Opt → Str → Out HRes} (hf : StoreCodes f) : ∀ (vs : List Str) {o : Opt}
    {r : HRes}, setAll f o vs = .ok r → r.1 ∈ callCodes
  | [], o, r, h => by simp only [setAll, Out.ok.injEq] at h; subst h; simp only; decide
  | v :: vs, o, r, h => by
    unfold setAll at h
    obtain ⟨r1, h1, h2⟩ := Out.bind_eq_ok h
    have hm := hf _ _ _ h1
    split at h2
    · simp only [Out.ok.injEq] at h2; subst h2; exact hm
    · obtain ⟨r2, h3, h4⟩ := Out.bind_eq_ok h2
      simp only [Out.ok.injEq] at h4; subst h4
      have := setAll_codes hf vs h3
      exact this

theorem collect_codes {f : Opt → Str → Out HRes} {fl : Opt → Out Opt} (hf : StoreCodes f) {o : Opt}
    {arg : Option Str} {r : HRes} (h : collect f fl o arg = .ok r) : r.1 ∈ callCodes := by
  unfold collect at h
  split at h
  · simp at h
  · obtain ⟨r1, h1, h2⟩ := Out.bind_eq_ok h
    have hm : r1.1 ∈ callCodes := by
      unfold storeParts at h1
      split at h1
      · exact setAll_codes hf _ h1
      · exact hf _ _ _ h1
    split at h2
    · simp only [Out.ok.injEq] at h2; subst h2; exact hm
    · obtain ⟨o2, h3, h4⟩ := Out.bind_eq_ok h2
      simp only [Out.ok.injEq] at h4; subst h4
      simp only; decide

theorem setValueInt_codes : StoreCodes setValueInt := by
  intro o s r h
  unfold setValueInt at h
  split at h
  · simp only [Out.ok.injEq] at h; subst h; simp only; decide
  · obtain ⟨o1, h1, h2⟩ := Out.bind_eq_ok h
    simp only [Out.ok.injEq] at h2; subst h2; simp only; decide

theorem setValueString_codes : StoreCodes setValueString := by
  intro o s r h
  obtain ⟨o1, h1, h2⟩ := Out.bind_eq_ok h
  simp only [Out.ok.injEq] at h2; subst h2; simp only; decide

theorem setValueFloat_codes (W : World) : StoreCodes (setValueFloat W) := by
  intro o s r h
  obtain ⟨o1, h1, h2⟩ := Out.bind_eq_ok h
  simp only [Out.ok.injEq] at h2; subst h2; simp only; decide

theorem setKvPair_codes (conv : Str → Option MapStore) : StoreCodes (setKvPair conv) := by
  intro o s r h
  unfold setKvPair at h
  split at h
  · simp only [Out.ok.injEq] at h; subst h; simp only; decide
  · split at h
    · simp only [Out.ok.injEq] at h; subst h; simp only; decide
    · obtain ⟨o1, h1, h2⟩ := Out.bind_eq_ok h
      simp only [Out.ok.injEq] at h2; subst h2; simp only; decide

theorem variadicNum_codes {W : World} {conv : Str → Option Word} {o : Opt} {arg : Option Str}
    {r : HRes} (h : variadicNum W conv o arg = .ok r) : r.1 ∈ callCodes := by
  unfold variadicNum at h
  obtain ⟨o1, h1, h2⟩ := Out.bind_eq_ok h
  split at h2
  · simp at h2
  · split at h2
    · simp only [Out.ok.injEq] at h2; subst h2; simp only; decide
    · obtain ⟨o2, h3, h4⟩ := Out.bind_eq_ok h2
      obtain ⟨o3, h5, h6⟩ := Out.bind_eq_ok h4
      simp only [Out.ok.injEq] at h6; subst h6; simp only; decide

theorem runHandler_codes {W : World} {a : Argus} {h : Handler} {o : Opt} {arg : Option Str}
    {r : HRes} (hb : ∀ id, h ≠ .custom id) (hr : runHandler W a h o arg = .ok r) : r.1 ∈ callCodes := by
  cases h with
  | flag => simp only [runHandler, Out.ok.injEq] at hr; subst hr; simp only; decide
  | bool =>
    simp only [runHandler, boolHandler] at hr
    repeat' split at hr
    all_goals (simp only [Out.ok.injEq] at hr; subst hr)
    all_goals (simp only; decide)
  | string => simp only [runHandler, Out.ok.injEq] at hr; subst hr; simp only; decide
  | int =>
    simp only [runHandler] at hr; split at hr
    · simp at hr
    · simp only [Out.ok.injEq] at hr; subst hr; simp only; decide
  | float =>
    simp only [runHandler] at hr; split at hr
    · simp at hr
    · simp only [Out.ok.injEq] at hr; subst hr; simp only; decide
  | help =>
    simp only [runHandler] at hr
    obtain ⟨t, _, h2⟩ := Out.bind_eq_ok hr
    simp only [Out.ok.injEq] at h2; subst h2; simp only; decide
  | version => simp only [runHandler, Out.ok.injEq] at hr; subst hr; simp only; decide
  | arrayString => exact collect_codes setValueString_codes hr
  | arrayInt => exact collect_codes setValueInt_codes hr
  | arrayFloat => exact collect_codes (setValueFloat_codes W) hr
  | mapString => exact collect_codes (setKvPair_codes _) hr
  | mapInt => exact collect_codes (setKvPair_codes _) hr
  | mapFloat => exact collect_codes (setKvPair_codes _) hr
  | mapBool => exact collect_codes (setKvPair_codes _) hr
  | variadicString => simp only [runHandler] at hr; exact variadicNum_codes hr
  | variadicInt => simp only [runHandler] at hr; exact variadicNum_codes hr
  | variadicFloat => simp only [runHandler] at hr; exact variadicNum_codes hr
  | custom id => exact absurd rfl (hb id)

theorem VRes.fail_codes {c : Int} (h : c ∈ callCodes) : (VRes.fail c).1 ∈ callCodes := h
theorem VRes.pass_codes : VRes.pass.1 ∈ callCodes := by unfold VRes.pass; simp only; decide

theorem runPre_codes {W : World} {k : VKind} {arg : Option Str} {r : VRes} (hb : ∀ id, k ≠ .custom id)
    (h : runPre W k arg = .ok r) : r.1 ∈ callCodes := by
  cases k with
  | regex p hint =>
    simp only [runPre, Out.ok.injEq] at h; subst h
    unfold regexValidator
    repeat' split
    all_goals first
      | exact VRes.pass_codes
      | exact VRes.fail_codes (by decide)
  | custom id => exact absurd rfl (hb id)
  | _ => simp [runPre] at h

theorem runPost_codes {W : World} {k : VKind} {o : Opt} {r : VRes} (hb : ∀ id, k ≠ .custom id)
    (h : runPost W k o = .ok r) : r.1 ∈ callCodes := by
  have fin : ∀ {p : Prop} [Decidable p] {c : Int} {x : VRes}, c ∈ callCodes →
      (if p then Out.ok VRes.pass else Out.ok (VRes.fail c)) = Out.ok x → x.1 ∈ callCodes := by
    intro p _ c x hc hx
    split at hx <;> (simp only [Out.ok.injEq] at hx; subst hx)
    · exact VRes.pass_codes
    · exact VRes.fail_codes hc
  cases k with
  | custom id => exact absurd rfl (hb id)
  | regex p hint => simp [runPost] at h
  | range mn mx =>
    simp only [runPost, rangeValidator] at h
    split at h
    · simp only [Out.ok.injEq] at h; subst h; exact VRes.fail_codes (by decide)
    · obtain ⟨v, _, h1⟩ := Out.bind_eq_ok h
      split at h1 <;> (simp only [Out.ok.injEq] at h1; subst h1)
      · exact VRes.fail_codes (by decide)
      · exact VRes.pass_codes
  | length mn mx =>
    simp only [runPost, lengthValidator] at h
    obtain ⟨v, _, h1⟩ := Out.bind_eq_ok h
    repeat' split at h1
    all_goals (simp only [Out.ok.injEq] at h1; subst h1)
    all_goals first
      | exact VRes.pass_codes
      | exact VRes.fail_codes (by decide)
  | count mn mx =>
    simp only [runPost, countValidator, Out.ok.injEq] at h; subst h
    repeat' split
    all_goals first
      | exact VRes.pass_codes
      | exact VRes.fail_codes (by decide)
  | choiceStr cs =>
    simp only [runPost, choicesString] at h
    obtain ⟨v, _, h1⟩ := Out.bind_eq_ok h
    split at h1
    · simp at h1
    · exact fin (by decide) h1
  | choiceInt cs =>
    simp only [runPost, choicesInt] at h
    obtain ⟨v, _, h1⟩ := Out.bind_eq_ok h
    exact fin (by decide) h1
  | choiceFloat cs =>
    simp only [runPost, choicesFloat] at h
    obtain ⟨v, _, h1⟩ := Out.bind_eq_ok h
    exact fin (by decide) h1

theorem runPreAll_codes {W : World} {arg : Option Str} : ∀ (vs : List Validator) {a : Argus} {r : Int × Argus},
    (∀ v ∈ vs, ∀ id, v.kind ≠ .custom id) → runPreAll W a arg vs = .ok r → r.1 ∈ callCodes
  | [], a, r, _, h => by simp only [runPreAll, Out.ok.injEq] at h; subst h; simp only; decide
  | v :: vs, a, r, hb, h => by
    have ih := fun {b : Argus} {q : Int × Argus} (h : runPreAll W b arg vs = .ok q) =>
      runPreAll_codes vs (fun x hx => hb x (by simp [hx])) h
    unfold runPreAll at h
    split at h
    · obtain ⟨q, hq, h1⟩ := Out.bind_eq_ok h
      simp only at h1
      split at h1
      · simp only [Out.ok.injEq] at h1; subst h1; exact runPre_codes (hb v (by simp)) hq
      · exact ih h1
    · exact ih h

theorem execCallbacks_codes {W : World} {a : Argus} {p : Ptr} {arg : Option Str} {r : Int × Argus}
    (hb : Everywhere Opt.BuiltIn a) (h : execCallbacks W a p arg = .ok r) : r.1 ∈ parseCodes := by
  unfold execCallbacks at h
  obtain ⟨o, ho, h⟩ := Out.bind_eq_ok h
  have hb := hb p o ho
  split at h
  · simp only [Out.ok.injEq] at h; subst h; simp only; decide
  · rename_i hd hh
    obtain ⟨pre, hp, h1⟩ := Out.bind_eq_ok h
    split at h1
    · simp only [Out.ok.injEq] at h1; subst h1; exact callCodes_sub (runPreAll_codes _ hb.validators hp)
    · simp only at h1
      obtain ⟨q, hq, h2⟩ := Out.bind_eq_ok h1
      have ht := callCodes_sub (runHandler_codes (fun id hid => hb.handler id (hid ▸ hh)) hq)
      split at h2
      · simp only [Out.ok.injEq] at h2; subst h2; exact ht
      · simp only [Out.ok.injEq] at h2; subst h2
        simp only; split <;> decide

theorem handlePositional_codes {W : World} {a : Argus} {t : Option Nat} {v : Str} {pos : Nat} {r : Int × Argus}
    (hb : Everywhere Opt.BuiltIn a) (h : handlePositional W a t v pos = .ok r) : r.1 ∈ parseCodes := by
  unfold handlePositional at h
  obtain ⟨os, _, h1⟩ := Out.bind_eq_ok h
  split at h1
  · exact execCallbacks_codes hb h1
  · simp only [Out.ok.injEq] at h1; subst h1; simp only; decide

theorem handleLong_codes {W : World} {a : Argus} {t : Option Nat} {arg : Str} {rest : List Str} {r : OptRes}
    (hb : Everywhere Opt.BuiltIn a) (h : handleLong W a t arg rest = .ok r) : r.status ∈ parseCodes := by
  unfold handleLong at h
  obtain ⟨os, _, h1⟩ := Out.bind_eq_ok h
  split at h1
  · obtain ⟨o, _, h2⟩ := Out.bind_eq_ok h1
    split at h2
    · obtain ⟨q, hq, h3⟩ := Out.bind_eq_ok h2
      simp only [Out.ok.injEq] at h3; subst h3; exact execCallbacks_codes hb hq
    · split at h2
      · obtain ⟨q, hq, h3⟩ := Out.bind_eq_ok h2
        simp only [Out.ok.injEq] at h3; subst h3; exact execCallbacks_codes hb hq
      · obtain ⟨q, hq, h3⟩ := Out.bind_eq_ok h2
        simp only [Out.ok.injEq] at h3; subst h3; exact execCallbacks_codes hb hq
      · simp only [Out.ok.injEq] at h2; subst h2; simp only; decide
  · simp only [Out.ok.injEq] at h1; subst h1; simp only; decide

theorem handleShort_codes {W : World} {t : Option Nat} {rest : List Str} : ∀ (cs : Str) {a : Argus} {r : OptRes},
    Everywhere Opt.BuiltIn a → handleShort W t rest a cs = .ok r → r.status ∈ parseCodes
  | [], a, r, _, h => by simp only [handleShort, Out.ok.injEq] at h; subst h; simp only; decide
  | c :: cs, a, r, hb, h => by
    unfold handleShort at h
    obtain ⟨os, _, h1⟩ := Out.bind_eq_ok h
    split at h1
    · obtain ⟨o, _, h2⟩ := Out.bind_eq_ok h1
      split at h2
      · obtain ⟨q, hq, h3⟩ := Out.bind_eq_ok h2
        split at h3
        · simp only [Out.ok.injEq] at h3; subst h3; exact execCallbacks_codes hb hq
        · exact handleShort_codes cs (hb.of_shape (execCallbacks_one hq).frame.shape) h3
      · split at h2
        · obtain ⟨q, hq, h3⟩ := Out.bind_eq_ok h2
          simp only [Out.ok.injEq] at h3; subst h3; exact execCallbacks_codes hb hq
        · obtain ⟨q, hq, h3⟩ := Out.bind_eq_ok h2
          simp only [Out.ok.injEq] at h3; subst h3; exact execCallbacks_codes hb hq
        · simp only [Out.ok.injEq] at h2; subst h2; simp only; decide
    · simp only [Out.ok.injEq] at h1; subst h1; simp only; decide

theorem findSubFrom_codes (name : Str) : ∀ (os : List Opt) (i : Nat) (sub : Option Nat),
    (findSubFrom name i sub os).1 ∈ parseCodes
  | [], i, sub => by unfold findSubFrom; simp only; decide
  | o :: os, i, sub => by
    unfold findSubFrom
    repeat' split
    all_goals first
      | exact findSubFrom_codes name os _ _
      | (simp only; decide)

theorem findSub_codes (os : List Opt) (n : Str) : (findSub os n).1 ∈ parseCodes := findSubFrom_codes n os 0 none

/-- The status, if a round ends the parse. -/
def Step.Codes : Step → Prop
  | .done st _ => st ∈ parseCodes
  | _ => True

theorem stepPositional_codes {W : World} {t : Option Nat} {a : Argus} {pos : Nat} {only : Bool} {arg : Str}
    {s : Step} (hb : Everywhere Opt.BuiltIn a) (h : stepPositional W t a pos only arg = .ok s) : s.Codes := by
  unfold stepPositional at h
  obtain ⟨r, hr, h1⟩ := Out.bind_eq_ok h
  simp only [Out.ok.injEq] at h1; subst h1
  split
  · exact handlePositional_codes hb hr
  · exact trivial

theorem OptRes.step_codes {r : OptRes} (h : r.status ∈ parseCodes) (pos : Nat) : (r.step pos).Codes := by
  unfold OptRes.step; split
  · exact h
  · exact trivial

theorem parseStep_codes {W : World} {t : Option Nat} {a : Argus} {pos : Nat} {only : Bool} {arg : Str}
    {rest : List Str} {s : Step} (hb : Everywhere Opt.BuiltIn a)
    (h : parseStep W t a pos only arg rest = .ok s) : s.Codes := by
  unfold parseStep at h
  split at h
  · simp only [Out.ok.injEq] at h; subst h; exact trivial
  · split at h
    · exact stepPositional_codes hb h
    · split at h
      · obtain ⟨r, hr, h1⟩ := Out.bind_eq_ok h
        simp only [Out.ok.injEq] at h1; subst h1; exact OptRes.step_codes (handleLong_codes hb hr) pos
      · split at h
        · obtain ⟨neg, _, h1⟩ := Out.bind_eq_ok h
          split at h1
          · exact stepPositional_codes hb h1
          · obtain ⟨r, hr, h2⟩ := Out.bind_eq_ok h1
            simp only [Out.ok.injEq] at h2; subst h2
            exact OptRes.step_codes (handleShort_codes _ hb hr) pos
        · obtain ⟨os, _, h1⟩ := Out.bind_eq_ok h
          split at h1
          · simp only [Out.ok.injEq] at h1; subst h1; exact findSub_codes os arg
          · split at h1
            · obtain ⟨e, he, h2⟩ := Out.bind_eq_ok h1
              simp only [Out.ok.injEq] at h2; subst h2; exact trivial
            · exact stepPositional_codes hb h1

theorem parseLoop_codes {W : World} : ∀ (args : List Str) {t : Option Nat} {a : Argus} {pos : Nat}
    {only skip : Bool} {r : Int × Argus}, Everywhere Opt.BuiltIn a →
    parseLoop W t a pos only skip args = .ok r → r.1 ∈ parseCodes
  | [], t, a, pos, only, skip, r, _, h => by
    simp only [parseLoop, Out.ok.injEq] at h; subst h; simp only; decide
  | arg :: rest, t, a, pos, only, true, r, hb, h => by
    simp only [parseLoop] at h; exact parseLoop_codes rest hb h
  | arg :: rest, t, a, pos, only, false, r, hb, h => by
    simp only [parseLoop] at h
    obtain ⟨s, hs, h1⟩ := Out.bind_eq_ok h
    have hf := parseStep_frame hs
    have hc := parseStep_codes hb hs
    split at h1
    · simp only [Out.ok.injEq] at h1; subst h1; exact hc
    · exact parseLoop_codes rest (hb.of_shape hf.frame.shape) h1
    · exact parseLoop_codes rest (hb.of_shape hf.1.shape) h1

theorem loadEnvStep_codes {W : World} {env : Env} {a : Argus} {p : Ptr} {r : Int × Argus}
    (hb : Everywhere Opt.BuiltIn a) (h : loadEnvStep W env a p = .ok r) : r.1 ∈ parseCodes := by
  unfold loadEnvStep at h
  obtain ⟨o, ho, h1⟩ := Out.bind_eq_ok h
  have triv : ∀ {b : Argus} {x : Int × Argus}, Out.ok (Err.success, b) = .ok x → x.1 ∈ parseCodes := by
    intro b x hx; simp only [Out.ok.injEq] at hx; subst hx; simp only; decide
  split at h1
  · exact triv h1
  · split at h1
    · exact triv h1
    · split at h1
      · exact triv h1
      · split at h1
        · exact triv h1
        · obtain ⟨q, hq, h2⟩ := Out.bind_eq_ok h1
          have hc := execCallbacks_codes hb hq
          split at h2
          · split at h2
            · obtain ⟨o1, ho1, h3⟩ := Out.bind_eq_ok h2
              simp only [Out.ok.injEq] at h3; subst h3; exact hc
            · simp only [Out.ok.injEq] at h2; subst h2; exact hc
          · simp only [Out.ok.injEq] at h2; subst h2; exact hc

theorem loadEnvLoop_codes {W : World} {env : Env} {k : Nat} : ∀ (n i : Nat) {a : Argus}
    {r : Int × Argus}, Everywhere Opt.BuiltIn a → loadEnvLoop W env k n i a = .ok r → r.1 ∈ parseCodes
  | 0, _, a, r, _, h => by simp only [loadEnvLoop, Out.ok.injEq] at h; subst h; simp only; decide
  | n + 1, i, a, r, hb, h => by
    unfold loadEnvLoop at h
    obtain ⟨q, hq, h1⟩ := Out.bind_eq_ok h
    split at h1
    · simp only [Out.ok.injEq] at h1; subst h1; exact loadEnvStep_codes hb hq
    · exact loadEnvLoop_codes n (i + 1) (hb.of_shape (loadEnvStep_one hq).frame.shape) h1

theorem loadEnvTable_codes {W : World} {env : Env} {a : Argus} {k : Nat} {r : Int × Argus}
    (hb : Everywhere Opt.BuiltIn a) (h : loadEnvTable W env a k = .ok r) : r.1 ∈ parseCodes := by
  unfold loadEnvTable at h
  obtain ⟨os, _, h1⟩ := Out.bind_eq_ok h
  exact loadEnvLoop_codes _ _ hb h1

theorem loadEnvStack_codes {W : World} {env : Env} : ∀ (ps : List Ptr) {a : Argus} {r : Int × Argus},
    Everywhere Opt.BuiltIn a → loadEnvStack W env a ps = .ok r → r.1 ∈ parseCodes
  | [], a, r, _, h => by simp only [loadEnvStack, Out.ok.injEq] at h; subst h; simp only; decide
  | p :: ps, a, r, hb, h => by
    unfold loadEnvStack at h
    obtain ⟨cmd, hcmd, h1⟩ := Out.bind_eq_ok h
    split at h1
    · exact loadEnvStack_codes ps hb h1
    · obtain ⟨q, hq, h2⟩ := Out.bind_eq_ok h1
      split at h2
      · simp only [Out.ok.injEq] at h2; subst h2; exact loadEnvTable_codes hb hq
      · exact loadEnvStack_codes ps (hb.of_shape (loadEnvTable_frame hq).frame.shape) h2

theorem loadEnvVars_codes {W : World} {env : Env} {a : Argus} {r : Int × Argus}
    (hb : Everywhere Opt.BuiltIn a) (h : loadEnvVars W env a = .ok r) : r.1 ∈ parseCodes := by
  unfold loadEnvVars at h
  obtain ⟨q, hq, h1⟩ := Out.bind_eq_ok h
  split at h1
  · simp only [Out.ok.injEq] at h1; subst h1; exact loadEnvTable_codes hb hq
  · exact loadEnvStack_codes _ (hb.of_shape (loadEnvTable_frame hq).frame.shape) h1

theorem callValidators_codes {W : World} {o : Opt} : ∀ (vs : List Validator) {r : Int × List Int},
    (∀ v ∈ vs, ∀ id, v.kind ≠ .custom id) → callValidators W o vs = .ok r → r.1 ∈ parseCodes
  | [], r, _, h => by simp only [callValidators, Out.ok.injEq] at h; subst h; simp only; decide
  | v :: vs, r, hb, h => by
    have ih := fun {q : Int × List Int} (h : callValidators W o vs = .ok q) =>
      callValidators_codes vs (fun x hx => hb x (by simp [hx])) h
    unfold callValidators at h
    split at h
    · obtain ⟨q, hq, h1⟩ := Out.bind_eq_ok h
      split at h1
      · simp only [Out.ok.injEq] at h1; subst h1; exact callCodes_sub (runPost_codes (hb v (by simp)) hq)
      · obtain ⟨q2, hq2, h2⟩ := Out.bind_eq_ok h1
        simp only [Out.ok.injEq] at h2; subst h2
        have := ih hq2
        exact this
    · exact ih h

theorem validateRequired_codes (os : List Opt) : ∀ (ns : List Str), (validateRequired os ns).1 ∈ parseCodes
  | [] => callCodes_sub VRes.pass_codes
  | n :: ns => by
    unfold validateRequired
    repeat' split
    · exact validateRequired_codes os ns
    · exact callCodes_sub (VRes.fail_codes (by decide))
    · exact validateRequired_codes os ns

theorem validateConflicts_codes (os : List Opt) : ∀ (ns : List Str), (validateConflicts os ns).1 ∈ parseCodes
  | [] => callCodes_sub VRes.pass_codes
  | n :: ns => by
    unfold validateConflicts
    repeat' split
    · exact callCodes_sub (VRes.fail_codes (by decide))
    · exact validateConflicts_codes os ns
    · exact validateConflicts_codes os ns

theorem validateSet_codes {W : World} {all : List Opt} : ∀ (os : List Opt) {excl : Bool} {first : Option Str}
    {r : Int × List Int}, (∀ o ∈ os, o.BuiltIn) → validateSet W all excl first os = .ok r → r.1 ∈ parseCodes
  | [], _, _, r, _, h => by simp only [validateSet, Out.ok.injEq] at h; subst h; simp only; decide
  | o :: os, excl, first, r, hb, h => by
    have ih := fun {e : Bool} {f : Option Str} {q : Int × List Int} (h : validateSet W all e f os = .ok q) =>
      validateSet_codes os (fun x hx => hb x (by simp [hx])) h
    unfold validateSet at h
    split at h
    · exact ih h
    · split at h
      · simp only [Out.ok.injEq] at h; subst h; simp only; decide
      · split at h
        · split at h
          · simp only [Out.ok.injEq] at h; subst h; simp only; decide
          · obtain ⟨q, hq, h1⟩ := Out.bind_eq_ok h
            simp only at h1
            split at h1
            · simp only [Out.ok.injEq] at h1; subst h1
              exact callValidators_codes _ (hb o (by simp)).validators hq
            · split at h1
              · simp only [Out.ok.injEq] at h1; subst h1
                exact validateRequired_codes all _
              · split at h1
                · simp only [Out.ok.injEq] at h1; subst h1
                  exact validateConflicts_codes all _
                · obtain ⟨q2, hq2, h2⟩ := Out.bind_eq_ok h1
                  simp only [Out.ok.injEq] at h2; subst h2
                  have := ih hq2
                  exact this
        · exact ih h

theorem validateTable_codes {W : World} {a : Argus} {t : Option Nat} {r : Int × Argus}
    (h : Everywhere Opt.BuiltIn a) (hr : validateTable W a t = .ok r) : r.1 ∈ parseCodes := by
  unfold validateTable at hr
  obtain ⟨os, hos, h1⟩ := Out.bind_eq_ok hr
  obtain ⟨q, hq, h2⟩ := Out.bind_eq_ok h1
  simp only [Out.ok.injEq] at h2; subst h2
  obtain ⟨k, rfl, hk⟩ := table_eq_ok.1 hos
  refine validateSet_codes os (fun o ho => ?_) hq
  obtain ⟨i, hi, rfl⟩ := List.getElem_of_mem ho
  have := h ⟨k, i⟩ os[i] (getOpt_eq_ok.2 ⟨os, hk, by simp [hi]⟩)
  exact ⟨this.handler, this.validators⟩

theorem validateStack_codes {W : World} : ∀ (ps : List Ptr) {a : Argus} {r : Int × Argus},
    Everywhere Opt.BuiltIn a → validateStack W a ps = .ok r → r.1 ∈ parseCodes
  | [], a, r, _, hr => by simp only [validateStack, Out.ok.injEq] at hr; subst hr; simp only; decide
  | p :: ps, a, r, h, hr => by
    unfold validateStack at hr
    obtain ⟨cmd, _, h1⟩ := Out.bind_eq_ok hr
    obtain ⟨q, hq, h2⟩ := Out.bind_eq_ok h1
    split at h2
    · simp only [Out.ok.injEq] at h2; subst h2; exact validateTable_codes h hq
    · obtain ⟨es, hes⟩ := validateTable_eq hq
      exact validateStack_codes ps (by rw [hes]; exact h.emits es) h2

theorem postValidation_codes {W : World} {a : Argus} {r : Int × Argus}
    (h : Everywhere Opt.BuiltIn a) (hr : postValidation W a = .ok r) : r.1 ∈ parseCodes := by
  unfold postValidation at hr
  obtain ⟨q, hq, h2⟩ := Out.bind_eq_ok hr
  split at h2
  · simp only [Out.ok.injEq] at h2; subst h2; exact validateTable_codes h hq
  · obtain ⟨es, hes⟩ := validateTable_eq hq
    exact validateStack_codes _ (by rw [hes]; exact h.emits es) h2

theorem argusParse_codes {W : World} {env : Env} {a a1 : Argus} {args : List Str} {st : Int}
    (hb : Everywhere Opt.BuiltIn a) (h : argusParse W env a args = .ok (.returned st, a1)) : st ∈ parseCodes := by
  unfold argusParse at h
  obtain ⟨r, hr, h1⟩ := Out.bind_eq_ok h
  obtain ⟨_, _, _, hfr⟩ := parseLoop_frame _ hr
  simp only at h1
  have key : ∀ (b : Argus) (s : Int), s ∈ parseCodes →
      (argusFree b >>= fun a2 => Out.ok (ParseEnd.returned s, a2)) = .ok (.returned st, a1) → st ∈ parseCodes := by
    intro b s hs hb
    obtain ⟨a2, _, h3⟩ := Out.bind_eq_ok hb
    simp only [Out.ok.injEq, Prod.mk.injEq, ParseEnd.returned.injEq] at h3
    rw [← h3.1]; exact hs
  have hE1 : Everywhere Opt.BuiltIn { r.2 with errorCode := r.1 } := hb.of_shape hfr.shape
  split at h1
  · obtain ⟨a2, _, h3⟩ := Out.bind_eq_ok h1
    simp at h3
  · split at h1
    · exact key _ _ (parseLoop_codes _ hb hr) h1
    · obtain ⟨e, he, h2⟩ := Out.bind_eq_ok h1
      split at h2
      · exact key _ _ (loadEnvVars_codes hE1 he) h2
      · obtain ⟨v, hv, h3⟩ := Out.bind_eq_ok h2
        have hE2 := hE1.of_shape (loadEnvVars_frame he).frame.shape
        have hc := postValidation_codes hE2 hv
        split at h3
        · exact key _ _ hc h3
        · simp only [Out.ok.injEq, Prod.mk.injEq, ParseEnd.returned.injEq] at h3
          rw [← h3.1]; exact hc

end Argus
