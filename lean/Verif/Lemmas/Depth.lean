import Verif.Spec.Depth
import Verif.Lemmas.Commands

/-! The command stack. -/

set_option autoImplicit false

namespace Argus

/-- Not a write past the command stack. -/
def NoSO {α : Type} (x : Out α) : Prop := x ≠ .ub .stackOverflow

theorem NoSO.bind {α β : Type} {x : Out α} {f : α → Out β} (h : NoSO x) (hf : ∀ a, x = .ok a → NoSO (f a)) :
    NoSO (x >>= f) := by
  cases x with
  | ok a => exact hf a rfl
  | ub u => exact fun he => h (by simpa using he)

theorem NoSO.ok {α : Type} (a : α) : NoSO (.ok a) := by simp [NoSO]

theorem NoSO.table (a : Argus) (t : Option Nat) : NoSO (a.table t) := by
  unfold Argus.table NoSO; repeat' split
  all_goals simp

theorem NoSO.getOpt (a : Argus) (p : Ptr) : NoSO (a.getOpt p) := by
  unfold Argus.getOpt NoSO; repeat' split
  all_goals simp

theorem NoSO.asInt (w : Word) : NoSO w.asInt := by
  unfold Word.asInt NoSO; repeat' split
  all_goals simp

theorem NoSO.asFloat (w : Word) : NoSO w.asFloat := by
  unfold Word.asFloat NoSO; repeat' split
  all_goals simp

theorem NoSO.asString (w : Word) : NoSO w.asString := by
  unfold Word.asString NoSO; repeat' split
  all_goals simp

theorem NoSO.arrayCells (o : Opt) (k : CellKind) : NoSO (o.arrayCells k) := by
  unfold Opt.arrayCells NoSO; repeat' split
  all_goals simp

theorem NoSO.mapCells (o : Opt) : NoSO o.mapCells := by
  unfold Opt.mapCells NoSO; repeat' split
  all_goals simp

theorem NoSO.applySorted (W : World) (k : CellKind) (o : Opt) : NoSO (applySorted W k o) := by
  unfold Argus.applySorted; split
  · exact (NoSO.arrayCells o k).bind (fun _ _ => .ok _)
  · exact .ok _

theorem NoSO.applyUnique (k : CellKind) (o : Opt) : NoSO (applyUnique k o) := by
  unfold Argus.applyUnique; split
  · exact (NoSO.arrayCells o k).bind (fun _ _ => .ok _)
  · exact .ok _

theorem NoSO.applyArrayFlags (W : World) (o : Opt) : NoSO (applyArrayFlags W o) := by
  unfold Argus.applyArrayFlags; split
  · exact .ok _
  · split
    · exact .ok _
    · exact (NoSO.applySorted _ _ _).bind (fun _ _ => .applyUnique _ _)

theorem NoSO.applyUniqueValue (o : Opt) : NoSO (applyUniqueValue o) := by
  unfold Argus.applyUniqueValue; split
  · refine (NoSO.mapCells o).bind (fun _ _ => ?_)
    repeat' split
    all_goals simp [NoSO]
  · exact .ok _

theorem NoSO.applyMapSort (W : World) (o : Opt) : NoSO (applyMapSort W o) := by
  unfold Argus.applyMapSort; split
  · exact (NoSO.mapCells o).bind (fun _ _ => .ok _)
  · split
    · split
      · exact .ok _
      · refine (NoSO.mapCells o).bind (fun _ _ => ?_)
        split
        all_goals simp [NoSO]
    · exact .ok _

theorem NoSO.applyMapFlags (W : World) (o : Opt) : NoSO (applyMapFlags W o) := by
  unfold Argus.applyMapFlags; split
  · exact .ok _
  · exact (NoSO.applyUniqueValue o).bind (fun _ _ => .applyMapSort _ _)

theorem NoSO.adjustArray (o : Opt) : NoSO (adjustArray o) := by
  unfold Argus.adjustArray NoSO; repeat' split
  all_goals simp

theorem NoSO.adjustMap (o : Opt) : NoSO (adjustMap o) := by
  unfold Argus.adjustMap NoSO; repeat' split
  all_goals simp

theorem NoSO.storeCell (o : Opt) (w : Word) : NoSO (storeCell o w) := by
  unfold Argus.storeCell; split
  · refine NoSO.bind ?_ (fun _ _ => .ok _)
    unfold writeCell NoSO; repeat' split
    all_goals simp
  · simp [NoSO]

theorem NoSO.pushCell (o : Opt) (w : Word) : NoSO (pushCell o w) :=
  (NoSO.adjustArray o).bind (fun _ _ => .storeCell _ _)

theorem NoSO.addRangeLoop : ∀ (n : Nat) (i : Int) (o : Opt), NoSO (addRangeLoop n i o)
  | 0, _, o => .ok _
  | n + 1, i, o => (NoSO.pushCell o _).bind (fun _ _ => NoSO.addRangeLoop n _ _)

theorem NoSO.setPair (o : Opt) (k : Str) (f : Word → Word) (w : Word) : NoSO (setPair o k f w) := by
  unfold Argus.setPair
  refine NoSO.bind ?_ (fun _ _ => ?_)
  · unfold mapFindKey; split
    · exact .ok _
    · exact (NoSO.mapCells o).bind (fun _ _ => .ok _)
  · split
    · split
      · exact .ok _
      · simp [NoSO]
    · refine (NoSO.adjustMap o).bind (fun _ _ => ?_)
      repeat' split
      all_goals simp [NoSO]

theorem NoSO.setValueInt (o : Opt) (v : Str) : NoSO (setValueInt o v) := by
  unfold Argus.setValueInt; split
  · exact .ok _
  · refine NoSO.bind ?_ (fun _ _ => .ok _)
    unfold addRange
    refine (NoSO.addRangeLoop _ _ _).bind (fun _ _ => ?_)
    split
    · simp [NoSO]
    · exact .ok _

theorem NoSO.setValueString (o : Opt) (v : Str) : NoSO (setValueString o v) :=
  (NoSO.pushCell o _).bind (fun _ _ => .ok _)

theorem NoSO.setValueFloat (W : World) (o : Opt) (v : Str) : NoSO (setValueFloat W o v) :=
  (NoSO.pushCell o _).bind (fun _ _ => .ok _)

theorem NoSO.setKvPair (conv : Str → Option MapStore) (o : Opt) (v : Str) : NoSO (setKvPair conv o v) := by
  unfold Argus.setKvPair
  split
  · exact .ok _
  · split
    · exact .ok _
    · exact (NoSO.setPair _ _ _ _).bind (fun _ _ => .ok _)

theorem NoSO.setAll {f : Opt → Str → Out HRes} (hf : ∀ o v, NoSO (f o v)) : ∀ (vs : List Str) (o : Opt),
    NoSO (setAll f o vs)
  | [], o => .ok _
  | v :: vs, o => by
    unfold Argus.setAll
    refine (hf o v).bind (fun _ _ => ?_)
    split
    · exact .ok _
    · exact (NoSO.setAll hf vs _).bind (fun _ _ => .ok _)

theorem NoSO.collect {f : Opt → Str → Out HRes} {fl : Opt → Out Opt} (hf : ∀ o v, NoSO (f o v))
    (hfl : ∀ o, NoSO (fl o)) (o : Opt) (arg : Option Str) : NoSO (collect f fl o arg) := by
  unfold Argus.collect
  split
  · simp [NoSO]
  · refine NoSO.bind ?_ (fun _ _ => ?_)
    · unfold storeParts; split
      · exact .setAll hf _ _
      · exact hf _ _
    · split
      · exact .ok _
      · exact (hfl _).bind (fun _ _ => .ok _)

theorem NoSO.variadicNum (W : World) (conv : Str → Option Word) (o : Opt) (arg : Option Str) :
    NoSO (variadicNum W conv o arg) := by
  unfold Argus.variadicNum
  refine (NoSO.adjustArray o).bind (fun _ _ => ?_)
  split
  · simp [NoSO]
  · split
    · exact .ok _
    · exact (NoSO.storeCell _ _).bind (fun _ _ => (NoSO.applyArrayFlags _ _).bind (fun _ _ => .ok _))

theorem NoSO.activeOptions (a : Argus) : NoSO a.activeOptions := by
  unfold Argus.activeOptions; split
  · exact (NoSO.getOpt _ _).bind (fun _ _ => .ok _)
  · exact .ok _

theorem NoSO.runHandler (W : World) (a : Argus) (h : Handler) (o : Opt) (arg : Option Str) :
    NoSO (runHandler W a h o arg) := by
  unfold Argus.runHandler
  split
  · exact .ok _
  · unfold boolHandler; repeat' split
    all_goals exact .ok _
  · exact .ok _
  · split
    · simp [NoSO]
    · exact .ok _
  · split
    · simp [NoSO]
    · exact .ok _
  · exact (NoSO.activeOptions a).bind (fun _ _ => .ok _)
  · exact .ok _
  · exact .collect .setValueString (.applyArrayFlags W) _ _
  · exact .collect .setValueInt (.applyArrayFlags W) _ _
  · exact .collect (.setValueFloat W) (.applyArrayFlags W) _ _
  · exact .collect (.setKvPair _) (.applyMapFlags W) _ _
  · exact .collect (.setKvPair _) (.applyMapFlags W) _ _
  · exact .collect (.setKvPair _) (.applyMapFlags W) _ _
  · exact .collect (.setKvPair _) (.applyMapFlags W) _ _
  · exact .variadicNum _ _ _ _
  · exact .variadicNum _ _ _ _
  · exact .variadicNum _ _ _ _
  · exact .ok _

theorem NoSO.runPreAll (W : World) (arg : Option Str) : ∀ (vs : List Validator) (a : Argus),
    NoSO (runPreAll W a arg vs)
  | [], a => .ok _
  | v :: vs, a => by
    unfold Argus.runPreAll
    split
    · refine NoSO.bind ?_ (fun _ _ => ?_)
      · unfold runPre; split
        all_goals simp [NoSO]
      · simp only
        split
        · exact .ok _
        · exact NoSO.runPreAll W arg vs _
    · exact NoSO.runPreAll W arg vs _

theorem NoSO.execCallbacks (W : World) (a : Argus) (p : Ptr) (arg : Option Str) :
    NoSO (execCallbacks W a p arg) := by
  unfold Argus.execCallbacks
  refine (NoSO.getOpt a p).bind (fun _ _ => ?_)
  split
  · exact .ok _
  · refine (NoSO.runPreAll _ _ _ _).bind (fun _ _ => ?_)
    split
    · exact .ok _
    · refine (NoSO.runHandler _ _ _ _ _).bind (fun _ _ => ?_)
      simp only
      split <;> exact .ok _

theorem NoSO.loadEnvStep (W : World) (env : Env) (a : Argus) (p : Ptr) : NoSO (loadEnvStep W env a p) := by
  unfold Argus.loadEnvStep
  refine (NoSO.getOpt a p).bind (fun _ _ => ?_)
  split
  · exact .ok _
  · split
    · exact .ok _
    · split
      · exact .ok _
      · split
        · exact .ok _
        · refine (NoSO.execCallbacks _ _ _ _).bind (fun _ _ => ?_)
          split
          · split
            · exact (NoSO.getOpt _ _).bind (fun _ _ => .ok _)
            · exact .ok _
          · exact .ok _

theorem NoSO.loadEnvLoop (W : World) (env : Env) (k : Nat) : ∀ (n i : Nat) (a : Argus),
    NoSO (loadEnvLoop W env k n i a)
  | 0, _, _ => .ok _
  | n + 1, i, a => by
    unfold Argus.loadEnvLoop
    refine (NoSO.loadEnvStep _ _ _ _).bind (fun _ _ => ?_)
    split
    · exact .ok _
    · exact NoSO.loadEnvLoop W env k n _ _

theorem NoSO.loadEnvTable (W : World) (env : Env) (a : Argus) (k : Nat) : NoSO (loadEnvTable W env a k) :=
  (NoSO.table _ _).bind (fun _ _ => .loadEnvLoop _ _ _ _ _ _)

theorem NoSO.loadEnvStack (W : World) (env : Env) : ∀ (ps : List Ptr) (a : Argus),
    NoSO (loadEnvStack W env a ps)
  | [], a => .ok _
  | p :: ps, a => by
    unfold Argus.loadEnvStack
    refine (NoSO.getOpt a p).bind (fun _ _ => ?_)
    split
    · exact NoSO.loadEnvStack W env ps _
    · refine (NoSO.loadEnvTable _ _ _ _).bind (fun _ _ => ?_)
      split
      · exact .ok _
      · exact NoSO.loadEnvStack W env ps _

theorem NoSO.loadEnvVars (W : World) (env : Env) (a : Argus) : NoSO (loadEnvVars W env a) := by
  unfold Argus.loadEnvVars
  refine (NoSO.loadEnvTable _ _ _ _).bind (fun _ _ => ?_)
  split
  · exact .ok _
  · exact .loadEnvStack _ _ _ _

theorem NoSO.runPost (W : World) (k : VKind) (o : Opt) : NoSO (runPost W k o) := by
  have hi : NoSO o.asInt := by
    unfold Opt.asInt; split
    · exact .asInt _
    · simp [NoSO]
  have hf : NoSO o.asFloat := by
    unfold Opt.asFloat; split
    · exact .asFloat _
    · simp [NoSO]
  have hs : NoSO o.asString := by
    unfold Opt.asString; split
    · exact .asString _
    · simp [NoSO]
  unfold Argus.runPost
  split
  · unfold rangeValidator; split
    · exact .ok _
    · refine hi.bind (fun _ _ => ?_); split <;> exact .ok _
  · unfold lengthValidator
    refine hs.bind (fun _ _ => ?_); repeat' split
    all_goals exact .ok _
  · exact .ok _
  · unfold choicesString
    refine hs.bind (fun _ _ => ?_); repeat' split
    all_goals simp [NoSO]
  · unfold choicesInt
    refine hi.bind (fun _ _ => ?_); split <;> exact .ok _
  · unfold choicesFloat
    refine hf.bind (fun _ _ => ?_); split <;> exact .ok _
  · simp [NoSO]
  · exact .ok _

theorem NoSO.callValidators (W : World) (o : Opt) : ∀ (vs : List Validator), NoSO (callValidators W o vs)
  | [] => .ok _
  | v :: vs => by
    unfold Argus.callValidators
    split
    · refine (NoSO.runPost _ _ _).bind (fun _ _ => ?_)
      split
      · exact .ok _
      · exact (NoSO.callValidators W o vs).bind (fun _ _ => .ok _)
    · exact NoSO.callValidators W o vs

theorem NoSO.validateSet (W : World) (os : List Opt) : ∀ (rest : List Opt) (excl : Bool)
    (first : Option Str), NoSO (validateSet W os excl first rest)
  | [], _, _ => .ok _
  | o :: rest, excl, first => by
    unfold Argus.validateSet
    split
    · exact NoSO.validateSet W os rest _ _
    · split
      · exact .ok _
      · split
        · split
          · exact .ok _
          · refine (NoSO.callValidators _ _ _).bind (fun _ _ => ?_)
            split
            · exact .ok _
            · simp only
              split
              · exact .ok _
              · split
                · exact .ok _
                · exact (NoSO.validateSet W os rest _ _).bind (fun _ _ => .ok _)
        · exact NoSO.validateSet W os rest _ _

theorem NoSO.validateTable (W : World) (a : Argus) (t : Option Nat) : NoSO (validateTable W a t) :=
  (NoSO.table _ _).bind (fun _ _ => (NoSO.validateSet _ _ _ _ _).bind (fun _ _ => .ok _))

theorem NoSO.validateStack (W : World) : ∀ (ps : List Ptr) (a : Argus), NoSO (validateStack W a ps)
  | [], a => .ok _
  | p :: ps, a => by
    unfold Argus.validateStack
    refine (NoSO.getOpt a p).bind (fun _ _ => (NoSO.validateTable _ _ _).bind (fun _ _ => ?_))
    split
    · exact .ok _
    · exact NoSO.validateStack W ps _

theorem NoSO.postValidation (W : World) (a : Argus) : NoSO (postValidation W a) := by
  unfold Argus.postValidation
  refine (NoSO.validateTable _ _ _).bind (fun _ _ => ?_)
  split
  · exact .ok _
  · exact .validateStack _ _ _

theorem NoSO.freeOpts : ∀ (os : List Opt), NoSO (freeOpts os)
  | [] => .ok _
  | o :: os => by
    unfold Argus.freeOpts
    refine NoSO.bind ?_ (fun _ _ => (NoSO.freeOpts os).bind (fun _ _ => .ok _))
    unfold freeOptionValue
    split
    · exact .ok _
    · refine NoSO.bind ?_ (fun _ _ => .ok _)
      unfold runFree freeStrings NoSO
      repeat' split
      all_goals simp

theorem NoSO.freeTable (a : Argus) (t : Option Nat) : NoSO (freeTable a t) := by
  unfold Argus.freeTable
  refine (NoSO.table a t).bind (fun _ _ => (NoSO.freeOpts _).bind (fun _ _ => ?_))
  split <;> exact .ok _

theorem NoSO.freeStack : ∀ (ps : List Ptr) (a : Argus), NoSO (freeStack a ps)
  | [], a => .ok _
  | p :: ps, a => (NoSO.getOpt a p).bind (fun _ _ => (NoSO.freeTable _ _).bind
      (fun _ _ => NoSO.freeStack ps _))

theorem NoSO.argusFree (a : Argus) : NoSO (argusFree a) :=
  (NoSO.freeTable _ _).bind (fun _ _ => .freeStack _ _)

/-! ### The stack holds what was entered -/

theorem run_stack {W : World} : ∀ (acts : List Act) {a a' : Argus},
    run W a acts = .ok (Err.success, a') → Act.fail Err.success ∉ acts →
    a'.stack = a.stack ++ entered acts
  | [], a, a', h, _ => by
    simp only [run, Out.ok.injEq, Prod.mk.injEq] at h; rw [← h.2]; simp [entered]
  | .give q x :: acts, a, a', h, hf => by
    unfold run at h
    obtain ⟨r, hr, h1⟩ := Out.bind_eq_ok h
    split at h1
    · rename_i hne; simp only [Out.ok.injEq] at h1; rw [h1] at hne; exact absurd rfl hne
    · rw [run_stack acts h1 (fun hm => hf (by simp [hm])), (execCallbacks_one hr).stack]
      simp [entered]
  | .enter q :: acts, a, a', h, hf => by
    unfold run at h
    obtain ⟨e, he, h1⟩ := Out.bind_eq_ok h
    rw [run_stack acts h1 (fun hm => hf (by simp [hm]))]
    obtain ⟨_, p, hp, hst, _⟩ := enterSub_frame he
    have : e.2.stack = a.stack ++ [q] := by
      unfold enterSub at he
      obtain ⟨o, _, h2⟩ := Out.bind_eq_ok he
      split at h2
      · simp at h2
      · simp only [Out.ok.injEq] at h2; rw [← h2]; rfl
    rw [this]; simp [entered]
  | .fail c :: acts, a, a', h, hf => by
    simp only [run, Out.ok.injEq, Prod.mk.injEq] at h
    exact absurd (by rw [h.1]; simp) hf
  | .noTable :: acts, a, a', h, _ => by simp [run] at h

theorem run_noSO {W : World} : ∀ (acts : List Act) (a : Argus),
    a.stack.length + (entered acts).length ≤ 8 → NoSO (run W a acts)
  | [], a, _ => .ok _
  | .give q x :: acts, a, h => by
    unfold run
    refine (NoSO.execCallbacks _ _ _ _).bind (fun r hr => ?_)
    split
    · exact .ok _
    · refine run_noSO acts _ ?_
      rw [(execCallbacks_one hr).stack]
      simpa [entered] using h
  | .enter q :: acts, a, h => by
    unfold run
    have hl : (entered (.enter q :: acts)).length = (entered acts).length + 1 := by simp [entered]
    rw [hl] at h
    refine NoSO.bind ?_ (fun e he => ?_)
    · unfold enterSub
      refine (NoSO.getOpt _ _).bind (fun o _ => ?_)
      rw [if_neg (by unfold maxDepth; omega)]
      exact .ok _
    · refine run_noSO acts _ ?_
      unfold enterSub at he
      obtain ⟨o, _, h2⟩ := Out.bind_eq_ok he
      split at h2
      · simp at h2
      · simp only [Out.ok.injEq] at h2; rw [← h2]
        simp; omega
  | .fail c :: acts, a, _ => by unfold run; exact .ok _
  | .noTable :: acts, a, _ => by simp [run, NoSO]

theorem entered_append (xs ys : List Act) : entered (xs ++ ys) = entered xs ++ entered ys :=
  List.filterMap_append

theorem entered_posActs (t : Nat) (os : List Opt) (pos : Nat) (arg : Str) :
    entered (posActs t os pos arg) = [] := by
  unfold posActs; split <;> rfl

theorem entered_longActs (t : Nat) (os : List Opt) (n : Str) (v w : Option Str) :
    entered (longActs t os n v w).1 = [] := by
  unfold longActs; repeat' split
  all_goals rfl

theorem entered_shortActs (t : Nat) (os : List Opt) (n : Option Str) : ∀ cs : Str,
    entered (shortActs t os n cs).1 = []
  | [] => rfl
  | c :: cs => by
    unfold shortActs
    split
    · rfl
    · split
      · exact entered_shortActs t os n cs
      · split <;> rfl

/-- The subcommands a command line selects are nested. -/
theorem meaning_chain (tables : List (List Opt)) : ∀ (args : List Str) (t : Option Nat) (pos : Nat)
    (only skip : Bool), SubChain tables t (entered (meaning tables t pos only skip args))
  | [], t, pos, only, skip => by simp [meaning, entered, SubChain]
  | arg :: rest, t, pos, only, true => by
    simp only [meaning]; exact meaning_chain tables rest _ _ _ _
  | arg :: rest, t, pos, only, false => by
    unfold meaning
    split
    · exact meaning_chain tables rest _ _ _ _
    · split
      · exact meaning_chain tables rest _ _ _ _
      · split
        · rename_i k os hk
          simp only [Option.bind_some] at hk
          split
          · rw [entered_append, entered_posActs, List.nil_append]
            exact meaning_chain tables rest _ _ _ _
          · split
            · exact trivial
            · rw [entered_append, entered_longActs, List.nil_append]
              exact meaning_chain tables rest _ _ _ _
            · split
              · rw [entered_append, entered_posActs, List.nil_append]
                exact meaning_chain tables rest _ _ _ _
              · rw [entered_append, entered_shortActs, List.nil_append]
                exact meaning_chain tables rest _ _ _ _
            · split
              · rename_i y hy
                obtain ⟨h1, h2⟩ := subChoice_get hy
                exact ⟨rfl, os, y.1, hk, h1, h2, meaning_chain tables rest _ _ _ _⟩
              · exact trivial
              · rw [entered_append, entered_posActs, List.nil_append]
                exact meaning_chain tables rest _ _ _ _
        · exact trivial

/-- Names of nested subcommands select them. -/
theorem meaning_names {tables : List (List Opt)} : ∀ {ps : List Ptr} {ns : List Str} {t : Option Nat},
    NamesChain tables t ps ns → ∀ (pos : Nat),
    meaning tables t pos false false ns = ps.map Act.enter
  | [], [], t, _, pos => rfl
  | [], _ :: _, t, h, _ => absurd h (by simp [NamesChain])
  | _ :: _, [], t, h, _ => absurd h (by simp [NamesChain])
  | p :: ps, n :: ns, t, h, pos => by
    obtain ⟨rfl, os, o, h1, h2, h3, h4, h5, h6, h7⟩ := h
    have hk : argKind n = .word := by
      rcases argKind_cases n with ⟨rfl, _⟩ | ⟨_, r, h, _⟩ | ⟨_, _, r, h, _⟩ | ⟨_, _, _, h⟩
      · exact absurd rfl h5
      · rw [(head_word h5).2.1] at h; simp at h
      · rw [(head_word h5).2.2] at h; simp at h
      · exact h
    have hc := subChoice_exact h2 h3 h4 h6
    unfold meaning
    rw [hk]
    simp only [reduceCtorEq, false_and, if_false, Option.bind_some, h1, Bool.false_eq_true, hc, List.map_cons]
    rw [meaning_names h7]

theorem run_enters_overflow {W : World} : ∀ (ps : List Ptr) (a : Argus),
    (∀ p ∈ ps, ∃ o, a.getOpt p = .ok o) → 8 < a.stack.length + ps.length → a.stack.length ≤ 8 →
    run W a (ps.map Act.enter) = .ub .stackOverflow
  | [], a, _, h, h2 => by simp at h; omega
  | p :: ps, a, hp, h, h2 => by
    obtain ⟨o, ho⟩ := hp p (by simp)
    simp only [List.map_cons, run, enterSub, ho, Out.ok_bind]
    by_cases h8 : maxDepth ≤ a.stack.length
    · rw [if_pos h8]; rfl
    · rw [if_neg h8]
      simp only [Out.ok_bind]
      unfold maxDepth at h8
      refine run_enters_overflow ps _ (fun q hq => ?_) (by simp at h ⊢; omega) (by simp; omega)
      obtain ⟨oq, hoq⟩ := hp q (by simp [hq])
      by_cases hqp : q = p
      · subst hqp; exact ⟨_, getOpt_setOpt_self ho⟩
      · exact ⟨oq, by
          show (a.setOpt p _).getOpt q = _
          rw [getOpt_setOpt_ne hqp]; exact hoq⟩

theorem NamesChain.getOpt {a : Argus} : ∀ {ps : List Ptr} {ns : List Str} {t : Option Nat},
    NamesChain a.tables t ps ns → ∀ p ∈ ps, ∃ o, a.getOpt p = .ok o
  | [], _, t, _, p, hp => by simp at hp
  | _ :: _, [], t, h, _, _ => absurd h (by simp [NamesChain])
  | q :: ps, n :: ns, t, h, p, hp => by
    obtain ⟨_, os, o, h1, h2, _, _, _, _, h7⟩ := h
    rcases List.mem_cons.1 hp with rfl | hp
    · exact ⟨o, getOpt_eq_ok.2 ⟨os, h1, h2⟩⟩
    · exact NamesChain.getOpt h7 p hp

end Argus
