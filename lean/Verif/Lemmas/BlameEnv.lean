import Verif.Lemmas.BlameRun

/-! The messages about the environment are true. -/

set_option autoImplicit false

namespace Argus

/-- A variable of the environment that an option of table `k` cannot take. -/
def EnvFault (W : World) (M : Wording) (env : Env) (a : Argus) (k : Nat) (m : Message) : Prop :=
  ∃ p o n v, p.tbl = k ∧ a.getOpt p = .ok o ∧ o.type ≠ .group ∧ o.type ≠ .subcommand ∧
    envVarName a.envPrefix o = some n ∧ env n = some v ∧ TextFault W M o (some v) m

/-- `b` holds the declarations of `a`. -/
structure SameDecl (a b : Argus) : Prop where
  shape : b.shape = a.shape
  envPrefix : b.envPrefix = a.envPrefix

theorem SameDecl.trans {a b c : Argus} (h1 : SameDecl a b) (h2 : SameDecl b c) : SameDecl a c :=
  ⟨h2.1.trans h1.1, h2.2.trans h1.2⟩

theorem Frame.same {K : Nat → Prop} {a b : Argus} (h : Frame K a b) : SameDecl a b := ⟨h.shape, h.envPrefix⟩

theorem envVarName_same {p : Option Str} {o o' : Opt} (h : o'.meta = o.meta) : envVarName p o' = envVarName p o := by
  have e1 : o'.envName = o.envName := by have := congrArg (fun x : Opt => x.envName) h; exact this
  have e2 : o'.flags = o.flags := by have := congrArg (fun x : Opt => x.flags) h; exact this
  have e3 : o'.lname = o.lname := by have := congrArg (fun x : Opt => x.lname) h; exact this
  have e4 : o'.name = o.name := by have := congrArg (fun x : Opt => x.name) h; exact this
  unfold envVarName
  simp only [e1, e2, e3, e4]

theorem EnvFault.congr {W : World} {M : Wording} {env : Env} {a b : Argus} {k : Nat} {m : Message}
    (h : EnvFault W M env b k m) (hs : SameDecl a b) : EnvFault W M env a k m := by
  obtain ⟨p, o, n, v, h1, h2, h3, h4, h5, h6, h7⟩ := h
  obtain ⟨o', h8, h9⟩ := shape_getOpt hs.shape.symm h2
  have e : o'.type = o.type := by have := congrArg (fun x : Opt => x.type) h9; exact this
  refine ⟨p, o', n, v, h1, h8, by rw [e]; exact h3, by rw [e]; exact h4, ?_, h6, h7.congr h9⟩
  rw [envVarName_same h9, ← hs.envPrefix]; exact h5

theorem loadEnvStep_explained {W : World} {M : Wording} {env : Env} {a : Argus} {p : Ptr} {r : Int × Argus}
    (hb : Everywhere Opt.BuiltIn a) (h : loadEnvStep W env a p = .ok r) :
    Explained (EnvFault W M env a p.tbl) r.1 (envStepMessages W M env a p) := by
  unfold loadEnvStep at h
  unfold envStepMessages
  obtain ⟨o, ho, h1⟩ := Out.bind_eq_ok h
  rw [ho, Out.ok_bind]
  by_cases hc : o.type = .group ∨ o.type = .subcommand
  · rw [if_pos hc] at h1 ⊢; simp only [Out.ok.injEq] at h1; subst h1; exact .nil
  · rw [if_neg hc] at h1 ⊢
    by_cases hc2 : o.isSet ∧ o.flags.has .envOverride = false
    · rw [if_pos hc2] at h1 ⊢; simp only [Out.ok.injEq] at h1; subst h1; exact .nil
    · rw [if_neg hc2] at h1 ⊢
      cases hn : envVarName a.envPrefix o with
      | none => simp only [hn, Out.ok.injEq] at h1 ⊢; subst h1; exact .nil
      | some n =>
        simp only [hn] at h1 ⊢
        cases hv : env n with
        | none => simp only [hv, Out.ok.injEq] at h1 ⊢; subst h1; exact .nil
        | some v =>
          simp only [hv] at h1 ⊢
          obtain ⟨q, hq, h2⟩ := Out.bind_eq_ok h1
          have e : r.1 = q.1 := by
            split at h2
            · split at h2
              · obtain ⟨o1, ho1, h3⟩ := Out.bind_eq_ok h2
                simp only [Out.ok.injEq] at h3; subst h3; rfl
              · simp only [Out.ok.injEq] at h2; subst h2; rfl
            · simp only [Out.ok.injEq] at h2; subst h2; rfl
          rw [e]
          refine (execCallbacks_explained ho (hb.builtIn ho) hq).imp (fun m hm => ?_)
          exact ⟨p, o, n, v, rfl, ho, fun h => hc (.inl h), fun h => hc (.inr h), hn, hv, hm⟩

theorem loadEnvLoop_explained {W : World} {M : Wording} {env : Env} {k : Nat} : ∀ (n i : Nat) {a : Argus}
    {r : Int × Argus}, Everywhere Opt.BuiltIn a → loadEnvLoop W env k n i a = .ok r →
    Explained (EnvFault W M env a k) r.1 (envLoopMessages W M env k n i a)
  | 0, i, a, r, _, h => by simp only [loadEnvLoop, Out.ok.injEq] at h; subst h; exact .nil
  | n + 1, i, a, r, hb, h => by
    unfold loadEnvLoop at h
    unfold envLoopMessages
    obtain ⟨q, hq, h1⟩ := Out.bind_eq_ok h
    have hp := loadEnvStep_explained (M := M) hb hq
    rw [hq, Out.ok_bind]
    by_cases hc : q.1 ≠ Err.success
    · rw [if_pos hc] at h1
      simp only [if_pos hc]
      simp only [Out.ok.injEq] at h1; subst h1
      exact hp.ret
    · rw [if_neg hc] at h1
      simp only [if_neg hc]
      have hf := (loadEnvStep_one hq).frame
      have hc : q.1 = Err.success := by simpa using hc
      rw [hc] at hp
      exact hp.after ((loadEnvLoop_explained n (i + 1) (hb.of_shape hf.shape) h1).imp (fun m hm => hm.congr hf.same))

theorem loadEnvTable_explained {W : World} {M : Wording} {env : Env} {a : Argus} {k : Nat} {r : Int × Argus}
    (hb : Everywhere Opt.BuiltIn a) (h : loadEnvTable W env a k = .ok r) :
    Explained (EnvFault W M env a k) r.1 (envTableMessages W M env a k) := by
  unfold loadEnvTable at h
  unfold envTableMessages
  obtain ⟨os, hos, h1⟩ := Out.bind_eq_ok h
  rw [hos, Out.ok_bind]
  exact loadEnvLoop_explained _ _ hb h1

theorem loadEnvStack_explained {W : World} {M : Wording} {env : Env} : ∀ (ps : List Ptr) {a : Argus}
    {r : Int × Argus}, Everywhere Opt.BuiltIn a → loadEnvStack W env a ps = .ok r →
    Explained (fun m => ∃ p ∈ ps, ∃ cmd k, a.getOpt p = .ok cmd ∧ cmd.subOptions = some k ∧ EnvFault W M env a k m) r.1
      (envStackMessages W M env a ps)
  | [], a, r, _, h => by simp only [loadEnvStack, Out.ok.injEq] at h; subst h; exact .nil
  | p :: ps, a, r, hb, h => by
    unfold loadEnvStack at h
    unfold envStackMessages
    obtain ⟨cmd, hcmd, h1⟩ := Out.bind_eq_ok h
    rw [hcmd, Out.ok_bind]
    cases hk : cmd.subOptions with
    | none =>
      simp only [hk] at h1 ⊢
      exact (loadEnvStack_explained ps hb h1).imp (fun m ⟨q, hq, h⟩ => ⟨q, List.mem_cons_of_mem _ hq, h⟩)
    | some k =>
      simp only [hk] at h1 ⊢
      obtain ⟨q, hq, h2⟩ := Out.bind_eq_ok h1
      have hp : Explained (fun m => ∃ q ∈ p :: ps, ∃ cmd k, a.getOpt q = .ok cmd ∧ cmd.subOptions = some k ∧
          EnvFault W M env a k m) q.1 (envTableMessages W M env a k) :=
        (loadEnvTable_explained hb hq).imp (fun m hm => ⟨p, List.mem_cons_self, cmd, k, hcmd, hk, hm⟩)
      rw [hq, Out.ok_bind]
      by_cases hc : q.1 ≠ Err.success
      · rw [if_pos hc] at h2
        simp only [if_pos hc]
        simp only [Out.ok.injEq] at h2; subst h2
        exact hp.ret
      · rw [if_neg hc] at h2
        simp only [if_neg hc]
        have hf := (loadEnvTable_frame hq).frame
        have hc : q.1 = Err.success := by simpa using hc
        rw [hc] at hp
        refine hp.after ((loadEnvStack_explained ps (hb.of_shape hf.shape) h2).imp ?_)
        rintro m ⟨p', hp', cmd', k', g1, g2, g3⟩
        obtain ⟨cmd2, g4, g5⟩ := shape_getOpt hf.shape.symm g1
        have e : cmd2.subOptions = cmd'.subOptions := by have := congrArg (fun x : Opt => x.subOptions) g5; exact this
        exact ⟨p', List.mem_cons_of_mem _ hp', cmd2, k', g4, e.trans g2, g3.congr hf.same⟩

theorem loadEnvVars_explained {W : World} {M : Wording} {env : Env} {a : Argus} {r : Int × Argus}
    (hb : Everywhere Opt.BuiltIn a) (h : loadEnvVars W env a = .ok r) :
    Explained (fun m => ∃ k, a.OnPath k ∧ EnvFault W M env a k m) r.1 (envMessages W M env a) := by
  unfold loadEnvVars at h
  unfold envMessages
  obtain ⟨q, hq, h1⟩ := Out.bind_eq_ok h
  have hp : Explained (fun m => ∃ k, a.OnPath k ∧ EnvFault W M env a k m) q.1 (envTableMessages W M env a a.root) :=
    (loadEnvTable_explained hb hq).imp (fun m hm => ⟨a.root, .inl rfl, hm⟩)
  rw [hq, Out.ok_bind]
  by_cases hc : q.1 ≠ Err.success
  · rw [if_pos hc] at h1
    simp only [if_pos hc]
    simp only [Out.ok.injEq] at h1; subst h1
    exact hp.ret
  · rw [if_neg hc] at h1
    simp only [if_neg hc]
    have hf := loadEnvTable_frame hq
    have hc : q.1 = Err.success := by simpa using hc
    rw [hc] at hp
    refine hp.after ((loadEnvStack_explained _ (hb.of_shape hf.frame.shape) h1).imp ?_)
    rintro m ⟨p', hp', cmd', k', g1, g2, g3⟩
    obtain ⟨cmd2, g4, g5⟩ := shape_getOpt hf.frame.shape.symm g1
    have e : cmd2.subOptions = cmd'.subOptions := by have := congrArg (fun x : Opt => x.subOptions) g5; exact this
    rw [hf.stack] at hp'
    exact ⟨k', .inr ⟨p', hp', cmd2, g4, e.trans g2⟩, g3.congr hf.frame.same⟩

end Argus
