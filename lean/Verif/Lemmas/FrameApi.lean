import Verif.Lemmas.Frame

/-! What loading the environment, validation, freeing and `argus_parse` leave unchanged. -/

set_option autoImplicit false

namespace Argus

theorem OneOpt.refl (p : Ptr) (a : Argus) : OneOpt p a a := ⟨.refl _ a, rfl, fun _ _ => rfl⟩

theorem OneOpt.trans {p : Ptr} {a b c : Argus} (h1 : OneOpt p a b) (h2 : OneOpt p b c) :
    OneOpt p a c :=
  ⟨h1.frame.trans h2.frame, h2.stack.trans h1.stack,
   fun q hq => (h2.others q hq).trans (h1.others q hq)⟩

theorem OneOpt.setOpt {p : Ptr} {a : Argus} {o o' : Opt} (h : a.getOpt p = .ok o)
    (hm : o'.meta = o.meta) : OneOpt p a (a.setOpt p o') :=
  ⟨Frame.setOpt h hm rfl, rfl, fun _ hq => getOpt_setOpt_ne hq⟩

theorem loadEnvStep_one {W : World} {env : Env} {a : Argus} {p : Ptr} {r : Int × Argus}
    (h : loadEnvStep W env a p = .ok r) : OneOpt p a r.2 := by
  unfold loadEnvStep at h
  obtain ⟨o, ho, h1⟩ := Out.bind_eq_ok h
  split at h1
  · simp only [Out.ok.injEq] at h1; subst h1; exact .refl _ _
  · split at h1
    · simp only [Out.ok.injEq] at h1; subst h1; exact .refl _ _
    · split at h1
      · simp only [Out.ok.injEq] at h1; subst h1; exact .refl _ _
      · split at h1
        · simp only [Out.ok.injEq] at h1; subst h1; exact .refl _ _
        · obtain ⟨q, hq, h2⟩ := Out.bind_eq_ok h1
          have hone := execCallbacks_one hq
          split at h2
          · split at h2
            · obtain ⟨o1, ho1, h3⟩ := Out.bind_eq_ok h2
              simp only [Out.ok.injEq] at h3; subst h3
              exact hone.trans (OneOpt.setOpt ho1 rfl)
            · simp only [Out.ok.injEq] at h2; subst h2; exact hone
          · simp only [Out.ok.injEq] at h2; subst h2; exact hone

theorem loadEnvLoop_frame {W : World} {env : Env} {k : Nat} : ∀ (n i : Nat) {a : Argus}
    {r : Int × Argus}, loadEnvLoop W env k n i a = .ok r → InTable (some k) a r.2
  | 0, _, a, r, h => by simp only [loadEnvLoop, Out.ok.injEq] at h; subst h; exact .refl _ _
  | n + 1, i, a, r, h => by
    unfold loadEnvLoop at h
    obtain ⟨q, hq, h1⟩ := Out.bind_eq_ok h
    have h2 := (loadEnvStep_one hq).inTable
    split at h1
    · simp only [Out.ok.injEq] at h1; subst h1; exact h2
    · exact h2.trans (loadEnvLoop_frame n (i + 1) h1)

theorem loadEnvTable_frame {W : World} {env : Env} {a : Argus} {k : Nat} {r : Int × Argus}
    (h : loadEnvTable W env a k = .ok r) : InTable (some k) a r.2 := by
  unfold loadEnvTable at h
  obtain ⟨os, _, h1⟩ := Out.bind_eq_ok h
  exact loadEnvLoop_frame _ _ h1

/-- Only value fields in the tables of the given subcommands changed. -/
structure InTables (K : Nat → Prop) (a a' : Argus) : Prop where
  frame : Frame K a a'
  stack : a'.stack = a.stack

namespace InTables
variable {K K' : Nat → Prop} {a b c : Argus}
theorem refl (K : Nat → Prop) (a : Argus) : InTables K a a := ⟨.refl _ a, rfl⟩
theorem trans (h1 : InTables K a b) (h2 : InTables K b c) : InTables K a c :=
  ⟨h1.frame.trans h2.frame, h2.stack.trans h1.stack⟩
theorem mono (h : InTables K a b) (hK : ∀ k, K k → K' k) : InTables K' a b :=
  ⟨h.frame.mono hK, h.stack⟩
end InTables

theorem InTable.toTables {t : Option Nat} {K : Nat → Prop} {a b : Argus} (h : InTable t a b)
    (hK : ∀ k, t = some k → K k) : InTables K a b := ⟨h.frame.mono hK, h.stack⟩

theorem loadEnvStack_frame {W : World} {env : Env} : ∀ (ps : List Ptr) {a : Argus}
    {r : Int × Argus}, loadEnvStack W env a ps = .ok r →
    InTables (fun k => ∃ p ∈ ps, a.subOf p = some k) a r.2
  | [], a, r, h => by simp only [loadEnvStack, Out.ok.injEq] at h; subst h; exact .refl _ _
  | p :: ps, a, r, h => by
    unfold loadEnvStack at h
    obtain ⟨cmd, hcmd, h1⟩ := Out.bind_eq_ok h
    split at h1
    · exact (loadEnvStack_frame ps h1).mono fun k ⟨q, hq, hk⟩ => ⟨q, by simp [hq], hk⟩
    · rename_i k hk
      obtain ⟨q, hq, h2⟩ := Out.bind_eq_ok h1
      have h3 : InTables (fun k => ∃ q ∈ p :: ps, a.subOf q = some k) a q.2 :=
        (loadEnvTable_frame hq).toTables fun k' hk' =>
          ⟨p, by simp, by rw [subOf_eq hcmd, hk]; exact hk'⟩
      split at h2
      · simp only [Out.ok.injEq] at h2; subst h2; exact h3
      · exact h3.trans ((loadEnvStack_frame ps h2).mono fun k ⟨q', hq', hk'⟩ =>
          ⟨q', by simp [hq'], by rw [subOf_shape h3.frame.shape] at hk'; exact hk'⟩)

theorem loadEnvVars_frame {W : World} {env : Env} {a : Argus} {r : Int × Argus}
    (h : loadEnvVars W env a = .ok r) :
    InTables (fun k => k = a.root ∨ ∃ p ∈ a.stack, a.subOf p = some k) a r.2 := by
  unfold loadEnvVars at h
  obtain ⟨q, hq, h1⟩ := Out.bind_eq_ok h
  have h2 : InTables (fun k => k = a.root ∨ ∃ p ∈ a.stack, a.subOf p = some k) a q.2 :=
    (loadEnvTable_frame hq).toTables fun k hk => .inl (by simpa using hk.symm)
  split at h1
  · simp only [Out.ok.injEq] at h1; subst h1; exact h2
  · refine h2.trans ((loadEnvStack_frame _ h1).mono fun k ⟨p, hp, hk⟩ => .inr ⟨p, ?_, ?_⟩)
    · rw [h2.stack] at hp; exact hp
    · rw [subOf_shape h2.frame.shape] at hk; exact hk

theorem validateTable_eq {W : World} {a : Argus} {t : Option Nat} {r : Int × Argus}
    (h : validateTable W a t = .ok r) : ∃ es, r.2 = a.emits es := by
  unfold validateTable at h
  obtain ⟨os, _, h1⟩ := Out.bind_eq_ok h
  obtain ⟨q, _, h2⟩ := Out.bind_eq_ok h1
  simp only [Out.ok.injEq] at h2; subst h2
  exact ⟨_, rfl⟩

theorem validateStack_eq {W : World} : ∀ (ps : List Ptr) {a : Argus} {r : Int × Argus},
    validateStack W a ps = .ok r → ∃ es, r.2 = a.emits es
  | [], a, r, h => by simp only [validateStack, Out.ok.injEq] at h; subst h; exact ⟨[], rfl⟩
  | p :: ps, a, r, h => by
    unfold validateStack at h
    obtain ⟨cmd, _, h1⟩ := Out.bind_eq_ok h
    obtain ⟨q, hq, h2⟩ := Out.bind_eq_ok h1
    obtain ⟨es, hes⟩ := validateTable_eq hq
    split at h2
    · simp only [Out.ok.injEq] at h2; subst h2; exact ⟨es, hes⟩
    · obtain ⟨es2, hes2⟩ := validateStack_eq ps h2
      exact ⟨es ++ es2, by rw [hes2, hes]; simp [Argus.emits, List.foldl_append]⟩

theorem postValidation_eq {W : World} {a : Argus} {r : Int × Argus}
    (h : postValidation W a = .ok r) : ∃ es, r.2 = a.emits es := by
  unfold postValidation at h
  obtain ⟨q, hq, h1⟩ := Out.bind_eq_ok h
  obtain ⟨es, hes⟩ := validateTable_eq hq
  split at h1
  · simp only [Out.ok.injEq] at h1; subst h1; exact ⟨es, hes⟩
  · obtain ⟨es2, hes2⟩ := validateStack_eq _ h1
    exact ⟨es ++ es2, by rw [hes2, hes]; simp [Argus.emits, List.foldl_append]⟩

theorem freeOptionValue_meta {o o' : Opt} (h : freeOptionValue o = .ok o') : o'.meta = o.meta := by
  unfold freeOptionValue at h
  split at h
  · simp only [Out.ok.injEq] at h; rw [h]
  · obtain ⟨_, _, h1⟩ := Out.bind_eq_ok h
    simp only [Out.ok.injEq] at h1; subst h1; rfl

theorem freeOpts_meta : ∀ (os : List Opt) {os' : List Opt}, freeOpts os = .ok os' →
    os'.map Opt.meta = os.map Opt.meta
  | [], os', h => by simp only [freeOpts, Out.ok.injEq] at h; subst h; rfl
  | o :: os, os', h => by
    unfold freeOpts at h
    obtain ⟨o1, h1, h2⟩ := Out.bind_eq_ok h
    obtain ⟨os1, h3, h4⟩ := Out.bind_eq_ok h2
    simp only [Out.ok.injEq] at h4; subst h4
    simp only [List.map_cons, freeOptionValue_meta h1, freeOpts_meta os h3]

theorem freeTable_frame {a a' : Argus} {t : Option Nat} (h : freeTable a t = .ok a') :
    InTable t a a' := by
  unfold freeTable at h
  obtain ⟨os, hos, h1⟩ := Out.bind_eq_ok h
  obtain ⟨os1, hos1, h2⟩ := Out.bind_eq_ok h1
  split at h2
  · simp only [Out.ok.injEq] at h2; subst h2; exact .refl _ _
  · rename_i k
    simp only [Out.ok.injEq] at h2; subst h2
    obtain ⟨k', hk', hos⟩ := table_eq_ok.1 hos
    simp only [Option.some.injEq] at hk'; subst hk'
    refine ⟨⟨?_, rfl, ?_, List.prefix_rfl⟩, rfl⟩
    · unfold Argus.shape
      apply List.ext_getElem?
      intro i
      simp only [List.getElem?_map, List.getElem?_set]
      by_cases hi : k = i
      · subst hi
        have hlt : k < a.tables.length := by
          rw [List.getElem?_eq_some_iff] at hos; exact hos.1
        simp only [if_true, hlt, hos, Option.map_some, freeOpts_meta _ hos1]
      · simp only [hi, if_false]
    · intro i hi
      have hne : k ≠ i := fun h' => hi (by rw [h'])
      simp [List.getElem?_set, hne]

theorem freeStack_frame : ∀ (ps : List Ptr) {a a' : Argus}, freeStack a ps = .ok a' →
    InTables (fun k => ∃ p ∈ ps, a.subOf p = some k) a a'
  | [], a, a', h => by simp only [freeStack, Out.ok.injEq] at h; subst h; exact .refl _ _
  | p :: ps, a, a', h => by
    unfold freeStack at h
    obtain ⟨cmd, hcmd, h1⟩ := Out.bind_eq_ok h
    obtain ⟨a1, ha1, h2⟩ := Out.bind_eq_ok h1
    have h3 : InTables (fun k => ∃ q ∈ p :: ps, a.subOf q = some k) a a1 :=
      (freeTable_frame ha1).toTables fun k hk => ⟨p, by simp, by rw [subOf_eq hcmd]; exact hk⟩
    exact h3.trans ((freeStack_frame ps h2).mono fun k ⟨q, hq, hk⟩ =>
      ⟨q, by simp [hq], by rw [subOf_shape h3.frame.shape] at hk; exact hk⟩)

theorem argusFree_frame {a a' : Argus} (h : argusFree a = .ok a') :
    InTables (fun k => k = a.root ∨ ∃ p ∈ a.stack, a.subOf p = some k) a a' := by
  unfold argusFree at h
  obtain ⟨a1, ha1, h1⟩ := Out.bind_eq_ok h
  have h2 : InTables (fun k => k = a.root ∨ ∃ p ∈ a.stack, a.subOf p = some k) a a1 :=
    (freeTable_frame ha1).toTables fun k hk => .inl (by simpa using hk.symm)
  refine h2.trans ((freeStack_frame _ h1).mono fun k ⟨p, hp, hk⟩ => .inr ⟨p, ?_, ?_⟩)
  · rw [h2.stack] at hp; exact hp
  · rw [subOf_shape h2.frame.shape] at hk; exact hk

/-- The tables of the selected path: the root and those of the subcommands on the stack. -/
def Argus.onPath (a : Argus) (k : Nat) : Prop := k = a.root ∨ ∃ p ∈ a.stack, a.subOf p = some k

theorem InTables.onPath {a b : Argus} {K : Nat → Prop} (h : InTables K a b) (k : Nat) :
    b.onPath k ↔ a.onPath k := by
  unfold Argus.onPath
  rw [h.frame.root, h.stack]
  simp only [subOf_shape h.frame.shape]

theorem emits_inTables (K : Nat → Prop) (a : Argus) (es : List Event) : InTables K a (a.emits es) :=
  ⟨.emits K a es, by simp⟩

theorem errorCode_inTables (K : Nat → Prop) (a : Argus) (c : Int) :
    InTables K a { a with errorCode := c } :=
  ⟨⟨rfl, rfl, fun _ _ => rfl, List.prefix_rfl⟩, rfl⟩

/-- What `argus_parse` leaves unchanged. -/
theorem argusParse_frame {W : World} {env : Env} {a : Argus} {args : List Str}
    {r : ParseEnd × Argus} (h : argusParse W env a args = .ok r) :
    ∃ ext, r.2.stack = a.stack ++ ext ∧ (ext ≠ [] → r.2.stack.length ≤ maxDepth) ∧
      Frame (fun k => r.2.onPath k) a r.2 := by
  unfold argusParse at h
  obtain ⟨q, hq, h1⟩ := Out.bind_eq_ok h
  obtain ⟨ext, hst, hd, hf⟩ := parseLoop_frame _ hq
  have key : ∀ b : Argus, InTables q.2.onPath q.2 b →
      ∃ ext, b.stack = a.stack ++ ext ∧ (ext ≠ [] → b.stack.length ≤ maxDepth) ∧
        Frame (fun k => b.onPath k) a b := by
    intro b hb
    refine ⟨ext, by rw [hb.stack, hst], by rw [hb.stack]; exact hd, ?_⟩
    refine (hf.mono fun k hk => ?_).trans (hb.frame.mono fun k hk => ?_)
    · rw [hb.onPath]
      rcases hk with hk | ⟨p, hp, hk⟩
      · exact .inl (by simp only [Option.some.injEq] at hk; rw [hf.root, hk])
      · exact .inr ⟨p, by rw [hst]; simp [hp], by rw [subOf_shape hf.shape]; exact hk⟩
    · rw [hb.onPath]; exact hk
  have hc : InTables q.2.onPath q.2 { q.2 with errorCode := q.1 } := errorCode_inTables _ _ _
  have lift : ∀ {b c : Argus}, InTables q.2.onPath q.2 b → InTables b.onPath b c →
      InTables q.2.onPath q.2 c := fun hb hbc => hb.trans (hbc.mono fun k hk => (hb.onPath k).1 hk)
  split at h1
  · obtain ⟨a2, ha2, h2⟩ := Out.bind_eq_ok h1
    simp only [Out.ok.injEq] at h2; subst h2
    exact key _ (lift hc (argusFree_frame ha2))
  · split at h1
    · obtain ⟨a2, ha2, h2⟩ := Out.bind_eq_ok h1
      simp only [Out.ok.injEq] at h2; subst h2
      exact key _ (lift (lift hc (emits_inTables _ _ [.usage none, .tryHelp])) (argusFree_frame ha2))
    · obtain ⟨e, he, h2⟩ := Out.bind_eq_ok h1
      have hce := lift hc (loadEnvVars_frame he)
      split at h2
      · obtain ⟨a2, ha2, h3⟩ := Out.bind_eq_ok h2
        simp only [Out.ok.injEq] at h3; subst h3
        exact key _ (lift hce (argusFree_frame ha2))
      · obtain ⟨v, hv, h3⟩ := Out.bind_eq_ok h2
        obtain ⟨es, hes⟩ := postValidation_eq hv
        have hcv : InTables q.2.onPath q.2 v.2 := by
          rw [hes]; exact lift hce (emits_inTables _ _ _)
        split at h3
        · obtain ⟨a2, ha2, h4⟩ := Out.bind_eq_ok h3
          simp only [Out.ok.injEq] at h4; subst h4
          exact key _ (lift hcv (argusFree_frame ha2))
        · simp only [Out.ok.injEq] at h3; subst h3
          exact key _ hcv

end Argus
