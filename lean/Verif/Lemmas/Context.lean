import Verif.Spec.Context
import Verif.Lemmas.Outcome
import Verif.Lemmas.History

/-!
# Validators that look at other options act like validators that know the final state
-/

set_option autoImplicit false

namespace Argus

variable {W : World} (f : Nat → Opt → VRes)

theorem runPre_withPost (k : VKind) (arg : Option Str) : runPre (W.withPost f) k arg = runPre W k arg := by
  cases k <;> rfl

theorem runPreAll_withPost (arg : Option Str) : ∀ (vs : List Validator) (a : Argus),
    runPreAll (W.withPost f) a arg vs = runPreAll W a arg vs
  | [], a => rfl
  | v :: vs, a => by
    unfold runPreAll
    simp only [runPre_withPost, runPreAll_withPost arg vs]

theorem runHandler_withPost (a : Argus) (h : Handler) (o : Opt) (arg : Option Str) :
    runHandler (W.withPost f) a h o arg = runHandler W a h o arg := by
  cases h <;> rfl

theorem execCallbacks_withPost (a : Argus) (p : Ptr) (arg : Option Str) :
    execCallbacks (W.withPost f) a p arg = execCallbacks W a p arg := by
  unfold execCallbacks
  simp only [runPreAll_withPost, runHandler_withPost]

theorem stepPositional_withPost (t : Option Nat) (a : Argus) (pos : Nat) (only : Bool) (arg : Str) :
    stepPositional (W.withPost f) t a pos only arg = stepPositional W t a pos only arg := by
  unfold stepPositional handlePositional
  simp only [execCallbacks_withPost]

theorem handleLong_withPost (a : Argus) (t : Option Nat) (arg : Str) (rest : List Str) :
    handleLong (W.withPost f) a t arg rest = handleLong W a t arg rest := by
  unfold handleLong
  simp only [execCallbacks_withPost]

theorem handleShort_withPost (t : Option Nat) (rest : List Str) : ∀ (s : Str) (a : Argus),
    handleShort (W.withPost f) t rest a s = handleShort W t rest a s
  | [], a => rfl
  | c :: s, a => by
    unfold handleShort
    simp only [execCallbacks_withPost, handleShort_withPost t rest s]

theorem parseStep_withPost (t : Option Nat) (a : Argus) (pos : Nat) (only : Bool) (arg : Str) (rest : List Str) :
    parseStep (W.withPost f) t a pos only arg rest = parseStep W t a pos only arg rest := by
  unfold parseStep
  simp only [stepPositional_withPost, handleLong_withPost, handleShort_withPost]

theorem parseLoop_withPost : ∀ (args : List Str) (t : Option Nat) (a : Argus) (pos : Nat) (only skip : Bool),
    parseLoop (W.withPost f) t a pos only skip args = parseLoop W t a pos only skip args
  | [], t, a, pos, only, skip => by cases skip <;> rfl
  | arg :: rest, t, a, pos, only, true => by
    unfold parseLoop
    exact parseLoop_withPost rest t a pos only false
  | arg :: rest, t, a, pos, only, false => by
    unfold parseLoop
    simp only [parseStep_withPost, parseLoop_withPost rest]

theorem parseArgs_withPost (a : Argus) (t : Option Nat) (args : List Str) :
    parseArgs (W.withPost f) a t args = parseArgs W a t args := parseLoop_withPost f args t a 0 false false

theorem loadEnvStep_withPost (env : Env) (a : Argus) (p : Ptr) :
    loadEnvStep (W.withPost f) env a p = loadEnvStep W env a p := by
  unfold loadEnvStep
  simp only [execCallbacks_withPost]

theorem loadEnvLoop_withPost (env : Env) (k : Nat) : ∀ (n i : Nat) (a : Argus),
    loadEnvLoop (W.withPost f) env k n i a = loadEnvLoop W env k n i a
  | 0, _, _ => rfl
  | n + 1, i, a => by
    unfold loadEnvLoop
    simp only [loadEnvStep_withPost, loadEnvLoop_withPost env k n]

theorem loadEnvTable_withPost (env : Env) (a : Argus) (k : Nat) :
    loadEnvTable (W.withPost f) env a k = loadEnvTable W env a k := by
  unfold loadEnvTable
  simp only [loadEnvLoop_withPost]

theorem loadEnvStack_withPost (env : Env) : ∀ (ps : List Ptr) (a : Argus),
    loadEnvStack (W.withPost f) env a ps = loadEnvStack W env a ps
  | [], _ => rfl
  | p :: ps, a => by
    unfold loadEnvStack
    simp only [loadEnvTable_withPost, loadEnvStack_withPost env ps]

theorem loadEnvVars_withPost (env : Env) (a : Argus) : loadEnvVars (W.withPost f) env a = loadEnvVars W env a := by
  unfold loadEnvVars
  simp only [loadEnvTable_withPost, loadEnvStack_withPost]

/-! ## The validation -/

theorem runPostIn_eq {V : Overview} {a : Argus} (hf : ∀ id o, f id o = V id a.silent o) (k : VKind) (o : Opt) :
    runPostIn V a k o = runPost (W.withPost f) k o := by
  cases k <;> first | rfl | (unfold runPostIn runPost; exact congrArg Out.ok (hf _ o).symm)

theorem callValidatorsIn_eq {V : Overview} {a : Argus} (hf : ∀ id o, f id o = V id a.silent o) (o : Opt) :
    ∀ vs : List Validator, callValidatorsIn V a o vs = callValidators (W.withPost f) o vs
  | [] => rfl
  | v :: vs => by
    unfold callValidatorsIn callValidators
    simp only [runPostIn_eq (W := W) f hf, callValidatorsIn_eq hf o vs]

theorem validateSetIn_eq {V : Overview} {a : Argus} (hf : ∀ id o, f id o = V id a.silent o) (os : List Opt) :
    ∀ (rest : List Opt) (excl : Bool) (first : Option Str),
      validateSetIn V a os excl first rest = validateSet (W.withPost f) os excl first rest
  | [], _, _ => rfl
  | o :: rest, excl, first => by
    unfold validateSetIn validateSet
    simp only [callValidatorsIn_eq (W := W) f hf, validateSetIn_eq hf os rest]

theorem emits_silent (a : Argus) (es : List Event) : (a.emits es).silent = a.silent := by
  unfold Argus.emits
  induction es generalizing a with
  | nil => rfl
  | cons e es ih => exact (ih (a.emit e)).trans rfl

theorem validateTableIn_eq {V : Overview} {a : Argus} (hf : ∀ id o, f id o = V id a.silent o) (t : Option Nat) :
    validateTableIn V a t = validateTable (W.withPost f) a t := by
  unfold validateTableIn validateTable
  simp only [validateSetIn_eq (W := W) f hf]

theorem validateTable_silent {W : World} {a : Argus} {t : Option Nat} {r : Int × Argus}
    (h : validateTable W a t = .ok r) : r.2.silent = a.silent := by
  obtain ⟨os, _, h2⟩ := Out.bind_eq_ok h
  obtain ⟨q, _, h3⟩ := Out.bind_eq_ok h2
  simp only [Out.ok.injEq] at h3
  subst h3
  exact emits_silent _ _

theorem validateStackIn_eq {V : Overview} : ∀ (ps : List Ptr) {a : Argus}, (∀ id o, f id o = V id a.silent o) →
    validateStackIn V a ps = validateStack (W.withPost f) a ps
  | [], _, _ => rfl
  | p :: ps, a, hf => by
    unfold validateStackIn validateStack
    refine congrArg _ (funext fun cmd => ?_)
    rw [validateTableIn_eq (W := W) f hf]
    cases hr : validateTable (W.withPost f) a cmd.subOptions with
    | ub u => rfl
    | ok r =>
      simp only [Out.ok_bind]
      rw [validateStackIn_eq ps (fun id o => by rw [validateTable_silent hr]; exact hf id o)]

theorem postValidationIn_eq {V : Overview} {a : Argus} (hf : ∀ id o, f id o = V id a.silent o) :
    postValidationIn V a = postValidation (W.withPost f) a := by
  unfold postValidationIn postValidation
  rw [validateTableIn_eq (W := W) f hf]
  cases hr : validateTable (W.withPost f) a (some a.root) with
  | ub u => rfl
  | ok r =>
    simp only [Out.ok_bind]
    rw [validateStackIn_eq (W := W) f _ (fun id o => by rw [validateTable_silent hr]; exact hf id o)]

theorem postValidation_silent {W : World} {a : Argus} {r : Int × Argus} (h : postValidation W a = .ok r) :
    r.2.silent = a.silent := by
  have key : ∀ (ps : List Ptr) (a : Argus) (r : Int × Argus), validateStack W a ps = .ok r → r.2.silent = a.silent := by
    intro ps
    induction ps with
    | nil => intro a r h; simp only [validateStack, Out.ok.injEq] at h; subst h; rfl
    | cons p ps ih =>
      intro a r h
      unfold validateStack at h
      obtain ⟨cmd, _, h2⟩ := Out.bind_eq_ok h
      obtain ⟨q, h3, h4⟩ := Out.bind_eq_ok h2
      have e := validateTable_silent h3
      split at h4
      · simp only [Out.ok.injEq] at h4; subst h4; exact e
      · exact (ih _ _ h4).trans e
  obtain ⟨q, h3, h4⟩ := Out.bind_eq_ok h
  have e := validateTable_silent h3
  split at h4
  · simp only [Out.ok.injEq] at h4; subst h4; exact e
  · exact (key _ _ _ h4).trans e

/-- The state in which the validation starts. -/
def atValidation (W : World) (env : Env) (a : Argus) (args : List Str) : Out (Int × Argus) := do
  let r ← parseArgs W a (some a.root) args
  if r.1 ≠ Err.success then .ok r else loadEnvVars W env { r.2 with errorCode := r.1 }

/-- A parse with validators that see everything is one with validators that know what there is to be seen. -/
theorem argusParseIn_eq {V : Overview} (env : Env) (a : Argus) (args : List Str) (e : Int × Argus)
    (h : atValidation W env a args = .ok e) (hf : ∀ id o, f id o = V id e.2.silent o) :
    argusParseIn W V env a args = argusParse (W.withPost f) env a args := by
  unfold argusParseIn argusParse
  rw [parseArgs_withPost]
  unfold atValidation at h
  cases hr : parseArgs W a (some a.root) args with
  | ub u => rfl
  | ok r =>
    rw [hr] at h
    simp only [Out.ok_bind] at h ⊢
    split
    · rfl
    · split
      · rfl
      · rename_i h1
        rw [if_neg h1] at h
        rw [loadEnvVars_withPost, h]
        simp only [Out.ok_bind]
        rw [postValidationIn_eq (W := W) f hf]

theorem argusParseIn_ub {V : Overview} (env : Env) (a : Argus) (args : List Str) (u : Ub)
    (h : atValidation W env a args = .ub u) :
    argusParseIn W V env a args = argusParse (W.withPost f) env a args := by
  unfold argusParseIn argusParse
  rw [parseArgs_withPost]
  unfold atValidation at h
  cases hr : parseArgs W a (some a.root) args with
  | ub u => rfl
  | ok r =>
    rw [hr] at h
    simp only [Out.ok_bind] at h ⊢
    split
    · rfl
    · split
      · rfl
      · rename_i h1
        rw [if_neg h1] at h
        rw [loadEnvVars_withPost, h]
        rfl

/-- Success with validators that see everything is success with validators that know the outcome. -/
theorem argusParseIn_success {V : Overview} {env : Env} {a a' : Argus} {args : List Str} :
    argusParseIn W V env a args = .ok (.returned Err.success, a') ↔
      argusParse (W.seeing V a'.silent) env a args = .ok (.returned Err.success, a') := by
  constructor
  · intro h
    have h0 := h
    unfold argusParseIn at h
    obtain ⟨r, hr, h1⟩ := Out.bind_eq_ok h
    simp only at h1
    split at h1
    · obtain ⟨a2, _, h2⟩ := Out.bind_eq_ok h1
      simp at h2
    · split at h1
      · rename_i hne
        obtain ⟨a2, _, h2⟩ := Out.bind_eq_ok h1
        simp only [Out.ok.injEq, Prod.mk.injEq, ParseEnd.returned.injEq] at h2
        exact absurd h2.1 hne
      · rename_i hs
        obtain ⟨e, he, h2⟩ := Out.bind_eq_ok h1
        split at h2
        · rename_i hne
          obtain ⟨a2, _, h3⟩ := Out.bind_eq_ok h2
          simp only [Out.ok.injEq, Prod.mk.injEq, ParseEnd.returned.injEq] at h3
          exact absurd h3.1 hne
        · obtain ⟨v, hv, h3⟩ := Out.bind_eq_ok h2
          have hat : atValidation W env a args = .ok e := by
            unfold atValidation
            rw [hr]
            simp only [Out.ok_bind]
            rw [if_neg hs]
            exact he
          rw [postValidationIn_eq (W := W) (fun id o => V id e.2.silent o) (fun _ _ => rfl)] at hv
          split at h3
          · rename_i hne
            obtain ⟨a2, _, h4⟩ := Out.bind_eq_ok h3
            simp only [Out.ok.injEq, Prod.mk.injEq, ParseEnd.returned.injEq] at h4
            exact absurd h4.1 hne
          · simp only [Out.ok.injEq, Prod.mk.injEq] at h3
            have hsil : a'.silent = e.2.silent := by rw [← h3.2]; exact postValidation_silent hv
            rw [← h0]
            exact (argusParseIn_eq (fun id o => V id a'.silent o) env a args e hat
              (fun id o => by rw [hsil])).symm
  · intro h
    obtain ⟨a1, a2, h1, h2, h3⟩ := argusParse_success h
    have hsil := postValidation_silent h3
    unfold World.seeing at h1 h2
    rw [parseArgs_withPost] at h1
    rw [loadEnvVars_withPost] at h2
    have hat : atValidation W env a args = .ok (Err.success, a2) := by
      unfold atValidation
      rw [h1]
      exact h2
    rw [← h]
    exact argusParseIn_eq (fun id o => V id a'.silent o) env a args _ hat (fun id o => by rw [hsil])

/-- The state after a parse, but for messages, is told by the tables and the command path. -/
theorem argusParse_holding {W : World} {env : Env} {a a' : Argus} {args : List Str} {r : ParseEnd}
    (h : argusParse W env a args = .ok (r, a')) : a'.silent = (a.holding a'.tables a'.stack).silent := by
  obtain ⟨_, _, _, hf⟩ := argusParse_frame h
  have hc := hf.cfg
  unfold Argus.cfg at hc
  simp only [Prod.mk.injEq] at hc
  obtain ⟨c1, c2, c3, c4, c5, c6⟩ := hc
  cases a'
  cases a
  simp only at c1 c2 c3 c4 c5 c6
  subst c1 c2 c3 c4 c5 c6
  rfl

theorem findRelative_silent (a : Argus) (n : Str) : ∀ ps : List Ptr, a.silent.findRelative n ps = a.findRelative n ps
  | [] => rfl
  | p :: ps => by
    unfold Argus.findRelative
    simp only [findRelative_silent a n ps]
    rfl

theorem findComponents_silent (a : Argus) : ∀ (n : Nat) (c : Str) (t : Option Nat) (ps : List Ptr),
    a.silent.findComponents n c t ps = a.findComponents n c t ps
  | 0, _, _, _ => rfl
  | n + 1, c, t, ps => by
    unfold Argus.findComponents
    simp only [findComponents_silent a n]
    rfl

theorem lookup_silent (a : Argus) (path : Str) : a.silent.lookup path = a.lookup path := by
  unfold Argus.lookup Argus.findPath
  rw [findRelative_silent, findComponents_silent]
  rfl

end Argus
