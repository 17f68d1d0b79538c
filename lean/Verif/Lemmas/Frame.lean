import Verif.Lemmas.HandlerMeta
import Verif.Model.Access

/-! What each step of `argus_parse` leaves unchanged. -/

set_option autoImplicit false

namespace Argus

/-- The parts of the context that no parsing step writes. -/
def Argus.cfg (a : Argus) : Nat × Option Str × Str × Option Str × Option Str × HelperConfig :=
  (a.root, a.envPrefix, a.programName, a.version, a.description, a.helper)

/-- From `a` to `a'` only value fields of options in tables `K` changed, and output was appended. -/
structure Frame (K : Nat → Prop) (a a' : Argus) : Prop where
  shape : a'.shape = a.shape
  cfg : a'.cfg = a.cfg
  other : ∀ k, ¬ K k → a'.tables[k]? = a.tables[k]?
  out : a.out <+: a'.out

namespace Frame

variable {K K' : Nat → Prop} {a b c : Argus}

theorem refl (K : Nat → Prop) (a : Argus) : Frame K a a := ⟨rfl, rfl, fun _ _ => rfl, List.prefix_rfl⟩

theorem trans (h1 : Frame K a b) (h2 : Frame K b c) : Frame K a c :=
  ⟨h2.shape.trans h1.shape, h2.cfg.trans h1.cfg,
   fun k hk => (h2.other k hk).trans (h1.other k hk), h1.out.trans h2.out⟩

theorem mono (h : Frame K a b) (hK : ∀ k, K k → K' k) : Frame K' a b :=
  ⟨h.shape, h.cfg, fun k hk => h.other k (fun h' => hk (hK k h')), h.out⟩

theorem root (h : Frame K a b) : b.root = a.root := congrArg (·.1) h.cfg

theorem envPrefix (h : Frame K a b) : b.envPrefix = a.envPrefix := congrArg (·.2.1) h.cfg

theorem emits (K : Nat → Prop) (a : Argus) (es : List Event) : Frame K a (a.emits es) := by
  refine ⟨shape_emits a es, ?_, ?_, ?_⟩
  · obtain ⟨c, h⟩ := emits_eq a es; rw [h]; rfl
  · intro k _; rw [emits_tables]
  · rw [emits_out]; exact List.prefix_append _ _

theorem emit (K : Nat → Prop) (a : Argus) (e : Event) : Frame K a (a.emit e) := emits K a [e]

theorem report (K : Nat → Prop) (a : Argus) (c : Int) : Frame K a (a.report c) := emits K a [.error c]

theorem setOpt {p : Ptr} {o o' : Opt} (h : a.getOpt p = .ok o) (hm : o'.meta = o.meta)
    (hK : K p.tbl) : Frame K a (a.setOpt p o') := by
  refine ⟨shape_setOpt h hm, rfl, ?_, List.prefix_rfl⟩
  intro k hk
  have hne : p.tbl ≠ k := fun h' => hk (h' ▸ hK)
  simp [setOpt_tables, List.getElem?_modify, hne]

end Frame

theorem runPreAll_eq {W : World} {arg : Option Str} : ∀ (vs : List Validator) {a : Argus}
    {r : Int × Argus}, runPreAll W a arg vs = .ok r → ∃ es, r.2 = a.emits es
  | [], a, r, h => by simp only [runPreAll, Out.ok.injEq] at h; subst h; exact ⟨[], rfl⟩
  | v :: vs, a, r, h => by
    unfold runPreAll at h
    split at h
    · obtain ⟨q, _, h2⟩ := Out.bind_eq_ok h
      split at h2
      · simp only [Out.ok.injEq] at h2; subst h2; exact ⟨_, rfl⟩
      · obtain ⟨es, hes⟩ := runPreAll_eq vs h2
        refine ⟨q.2.toList.map .error ++ es, ?_⟩
        rw [hes]; simp [Argus.emits, List.foldl_append]
    · exact runPreAll_eq vs h

/-- What a call of `execute_callbacks` does: it shows messages and rewrites one option. -/
theorem execCallbacks_eq {W : World} {a : Argus} {p : Ptr} {arg : Option Str} {r : Int × Argus}
    (h : execCallbacks W a p arg = .ok r) :
    ∃ o o' es, a.getOpt p = .ok o ∧ o'.meta = o.meta ∧
      (r.2 = a.emits es ∧ r.1 ≠ Err.success ∧ o' = o ∨ r.2 = (a.emits es).setOpt p o') := by
  unfold execCallbacks at h
  obtain ⟨o, ho, h1⟩ := Out.bind_eq_ok h
  split at h1
  · simp only [Out.ok.injEq] at h1; subst h1
    exact ⟨o, o, [.error Err.invalidHandler], ho, rfl, .inl ⟨rfl, (by decide : Err.invalidHandler ≠ Err.success), rfl⟩⟩
  · obtain ⟨pre, hpre, h2⟩ := Out.bind_eq_ok h1
    obtain ⟨es, hes⟩ := runPreAll_eq _ hpre
    split at h2
    · rename_i hne
      simp only [Out.ok.injEq] at h2; subst h2; exact ⟨o, o, es, ho, rfl, .inl ⟨hes, hne, rfl⟩⟩
    · obtain ⟨q, hq, h3⟩ := Out.bind_eq_ok h2
      have hm := runHandler_meta hq
      have hes2 : pre.2.emits q.2.2 = a.emits (es ++ q.2.2) := by
        rw [hes]; simp [Argus.emits, List.foldl_append]
      split at h3
      · simp only [Out.ok.injEq] at h3; subst h3
        exact ⟨o, q.2.1, es ++ q.2.2, ho, hm, .inr (by rw [hes2])⟩
      · simp only [Out.ok.injEq] at h3; subst h3
        exact ⟨o, q.2.1.markSet, es ++ q.2.2, ho, hm, .inr (by rw [hes2])⟩

/-- One option changed, the rest of the context (but for messages) did not. -/
structure OneOpt (p : Ptr) (a a' : Argus) : Prop where
  frame : Frame (· = p.tbl) a a'
  stack : a'.stack = a.stack
  others : ∀ q, q ≠ p → a'.getOpt q = a.getOpt q

theorem execCallbacks_one {W : World} {a : Argus} {p : Ptr} {arg : Option Str} {r : Int × Argus}
    (h : execCallbacks W a p arg = .ok r) : OneOpt p a r.2 := by
  obtain ⟨o, o', es, ho, hm, h1⟩ := execCallbacks_eq h
  rcases h1 with ⟨h1, -, -⟩ | h1
  · rw [h1]; exact ⟨.emits _ a es, by simp, fun q _ => by simp⟩
  · rw [h1]
    have ho' : (a.emits es).getOpt p = .ok o := by simpa using ho
    refine ⟨(Frame.emits _ a es).trans (Frame.setOpt ho' hm rfl), by simp, fun q hq => ?_⟩
    rw [getOpt_setOpt_ne hq]; simp

/-- The table a selected subcommand's options live in. -/
def Argus.subOf (a : Argus) (p : Ptr) : Option Nat :=
  match a.getOpt p with
  | .ok o => o.subOptions
  | .ub _ => none

theorem subOf_shape {a b : Argus} (h : b.shape = a.shape) (p : Ptr) : b.subOf p = a.subOf p := by
  unfold Argus.subOf
  cases ha : a.getOpt p with
  | ok o =>
    obtain ⟨o', h1, h2⟩ := shape_getOpt h ha
    rw [h1]; have := congrArg Opt.subOptions h2; exact this
  | ub u =>
    cases hb : b.getOpt p with
    | ok o =>
      obtain ⟨o', h1, _⟩ := shape_getOpt h.symm hb
      rw [h1] at ha; exact absurd ha (by simp)
    | ub v => rfl

theorem subOf_eq {a : Argus} {p : Ptr} {o : Opt} (h : a.getOpt p = .ok o) :
    a.subOf p = o.subOptions := by
  unfold Argus.subOf; rw [h]

/-- Only value fields in table `t` changed, and messages. -/
structure InTable (t : Option Nat) (a a' : Argus) : Prop where
  frame : Frame (fun k => t = some k) a a'
  stack : a'.stack = a.stack

namespace InTable
variable {t : Option Nat} {a b c : Argus}
theorem refl (t : Option Nat) (a : Argus) : InTable t a a := ⟨.refl _ a, rfl⟩
theorem trans (h1 : InTable t a b) (h2 : InTable t b c) : InTable t a c :=
  ⟨h1.frame.trans h2.frame, h2.stack.trans h1.stack⟩
theorem report (t : Option Nat) (a : Argus) (c : Int) : InTable t a (a.report c) :=
  ⟨.report _ a c, rfl⟩
theorem emits (t : Option Nat) (a : Argus) (es : List Event) : InTable t a (a.emits es) :=
  ⟨.emits _ a es, by simp⟩
end InTable

theorem OneOpt.inTable {p : Ptr} {a b : Argus} (h : OneOpt p a b) : InTable (some p.tbl) a b :=
  ⟨h.frame.mono (fun k hk => by rw [hk]), h.stack⟩

theorem handlePositional_frame {W : World} {a : Argus} {t : Option Nat} {value : Str} {pos : Nat}
    {r : Int × Argus} (h : handlePositional W a t value pos = .ok r) : InTable t a r.2 := by
  unfold handlePositional at h
  obtain ⟨os, _, h1⟩ := Out.bind_eq_ok h
  split at h1
  · exact (execCallbacks_one h1).inTable
  · simp only [Out.ok.injEq] at h1; subst h1; exact .report _ _ _

theorem handleLong_frame {W : World} {a : Argus} {t : Option Nat} {arg : Str} {rest : List Str}
    {r : OptRes} (h : handleLong W a t arg rest = .ok r) : InTable t a r.argus := by
  unfold handleLong at h
  obtain ⟨os, _, h1⟩ := Out.bind_eq_ok h
  split at h1
  · obtain ⟨o, _, h2⟩ := Out.bind_eq_ok h1
    split at h2
    · obtain ⟨q, hq, h3⟩ := Out.bind_eq_ok h2
      simp only [Out.ok.injEq] at h3; subst h3; exact (execCallbacks_one hq).inTable
    · split at h2
      · obtain ⟨q, hq, h3⟩ := Out.bind_eq_ok h2
        simp only [Out.ok.injEq] at h3; subst h3; exact (execCallbacks_one hq).inTable
      · obtain ⟨q, hq, h3⟩ := Out.bind_eq_ok h2
        simp only [Out.ok.injEq] at h3; subst h3; exact (execCallbacks_one hq).inTable
      · simp only [Out.ok.injEq] at h2; subst h2; exact .report _ _ _
  · simp only [Out.ok.injEq] at h1; subst h1; exact .report _ _ _

theorem handleShort_frame {W : World} {t : Option Nat} {rest : List Str} : ∀ (cs : Str) {a : Argus}
    {r : OptRes}, handleShort W t rest a cs = .ok r → InTable t a r.argus
  | [], a, r, h => by simp only [handleShort, Out.ok.injEq] at h; subst h; exact .refl _ _
  | c :: cs, a, r, h => by
    unfold handleShort at h
    obtain ⟨os, _, h1⟩ := Out.bind_eq_ok h
    split at h1
    · obtain ⟨o, _, h2⟩ := Out.bind_eq_ok h1
      split at h2
      · obtain ⟨q, hq, h3⟩ := Out.bind_eq_ok h2
        split at h3
        · simp only [Out.ok.injEq] at h3; subst h3; exact (execCallbacks_one hq).inTable
        · exact (execCallbacks_one hq).inTable.trans (handleShort_frame cs h3)
      · split at h2
        · obtain ⟨q, hq, h3⟩ := Out.bind_eq_ok h2
          simp only [Out.ok.injEq] at h3; subst h3; exact (execCallbacks_one hq).inTable
        · obtain ⟨q, hq, h3⟩ := Out.bind_eq_ok h2
          simp only [Out.ok.injEq] at h3; subst h3; exact (execCallbacks_one hq).inTable
        · simp only [Out.ok.injEq] at h2; subst h2; exact .report _ _ _
    · simp only [Out.ok.injEq] at h1; subst h1; exact .report _ _ _

/-- Outcome of a round: only table `t` was written; entering a subcommand pushes it. -/
def StepFrame (t : Option Nat) (a : Argus) : Step → Prop
  | .done _ a' => InTable t a a'
  | .next a' _ _ _ => InTable t a a'
  | .enter t' a' => Frame (fun k => t = some k) a a' ∧
      ∃ p, t = some p.tbl ∧ a'.stack = a.stack ++ [p] ∧ a.subOf p = t' ∧ a.stack.length < maxDepth

theorem stepPositional_frame {W : World} {t : Option Nat} {a : Argus} {pos : Nat} {only : Bool}
    {arg : Str} {s : Step} (h : stepPositional W t a pos only arg = .ok s) : StepFrame t a s := by
  unfold stepPositional at h
  obtain ⟨r, hr, h1⟩ := Out.bind_eq_ok h
  simp only [Out.ok.injEq] at h1; subst h1
  have := handlePositional_frame hr
  split <;> exact this

theorem OptRes.step_frame {t : Option Nat} {a : Argus} {r : OptRes} (h : InTable t a r.argus)
    (pos : Nat) : StepFrame t a (r.step pos) := by
  unfold OptRes.step; split <;> exact h

theorem enterSub_frame {a : Argus} {p : Ptr} {e : Option Nat × Argus} (h : enterSub a p = .ok e) :
    StepFrame (some p.tbl) a (.enter e.1 e.2) := by
  unfold enterSub at h
  obtain ⟨o, ho, h1⟩ := Out.bind_eq_ok h
  split at h1
  · simp at h1
  · rename_i hd
    simp only [Out.ok.injEq] at h1; subst h1
    refine ⟨?_, p, rfl, rfl, subOf_eq ho, Nat.lt_of_not_le hd⟩
    have := Frame.setOpt (K := fun k => some p.tbl = some k) (o' := { o with isSet := true }) ho rfl rfl
    exact ⟨this.shape, this.cfg, this.other, this.out⟩

theorem parseStep_frame {W : World} {t : Option Nat} {a : Argus} {pos : Nat} {only : Bool} {arg : Str}
    {rest : List Str} {s : Step} (h : parseStep W t a pos only arg rest = .ok s) :
    StepFrame t a s := by
  unfold parseStep at h
  split at h
  · simp only [Out.ok.injEq] at h; subst h; exact InTable.refl t a
  · split at h
    · exact stepPositional_frame h
    · split at h
      · obtain ⟨r, hr, h1⟩ := Out.bind_eq_ok h
        simp only [Out.ok.injEq] at h1; subst h1; exact OptRes.step_frame (handleLong_frame hr) pos
      · split at h
        · obtain ⟨neg, _, h1⟩ := Out.bind_eq_ok h
          split at h1
          · exact stepPositional_frame h1
          · obtain ⟨r, hr, h2⟩ := Out.bind_eq_ok h1
            simp only [Out.ok.injEq] at h2; subst h2
            exact OptRes.step_frame (handleShort_frame _ hr) pos
        · obtain ⟨os, _, h1⟩ := Out.bind_eq_ok h
          split at h1
          · simp only [Out.ok.injEq] at h1; subst h1; exact InTable.report t a _
          · split at h1
            · obtain ⟨e, he, h2⟩ := Out.bind_eq_ok h1
              simp only [Out.ok.injEq] at h2; subst h2; exact enterSub_frame he
            · exact stepPositional_frame h1

/-- The tables written by the loop: the current one and those of the subcommands it enters. -/
theorem parseLoop_frame {W : World} : ∀ (args : List Str) {t : Option Nat} {a : Argus} {pos : Nat}
    {only skip : Bool} {r : Int × Argus}, parseLoop W t a pos only skip args = .ok r →
    ∃ ext, r.2.stack = a.stack ++ ext ∧ (ext ≠ [] → r.2.stack.length ≤ maxDepth) ∧
      Frame (fun k => t = some k ∨ ∃ p ∈ ext, a.subOf p = some k) a r.2
  | [], t, a, pos, only, skip, r, h => by
    simp only [parseLoop, Out.ok.injEq] at h; subst h
    exact ⟨[], by simp, by simp, .refl _ _⟩
  | arg :: rest, t, a, pos, only, true, r, h => by
    simp only [parseLoop] at h; exact parseLoop_frame rest h
  | arg :: rest, t, a, pos, only, false, r, h => by
    simp only [parseLoop] at h
    obtain ⟨s, hs, h1⟩ := Out.bind_eq_ok h
    have hf := parseStep_frame hs
    split at h1
    · simp only [Out.ok.injEq] at h1; subst h1
      exact ⟨[], by rw [hf.stack]; simp, by simp, hf.frame.mono fun k hk => .inl hk⟩
    · obtain ⟨ext, h2, hd, h3⟩ := parseLoop_frame rest h1
      refine ⟨ext, by rw [h2, hf.stack], hd, ?_⟩
      refine (hf.frame.mono fun k hk => .inl hk).trans (h3.mono fun k hk => ?_)
      rcases hk with hk | ⟨p, hp, hk⟩
      · exact .inl hk
      · exact .inr ⟨p, hp, by rw [subOf_shape hf.frame.shape] at hk; exact hk⟩
    · obtain ⟨hfr, p, _, hst, hsub, hlt⟩ := hf
      obtain ⟨ext, h2, hd, h3⟩ := parseLoop_frame rest h1
      refine ⟨p :: ext, by rw [h2, hst]; simp, ?_, ?_⟩
      · intro _
        by_cases he : ext = []
        · subst he; rw [h2, hst]; simp; omega
        · exact hd he
      · refine (hfr.mono fun k hk => .inl hk).trans (h3.mono fun k hk => ?_)
        rcases hk with hk | ⟨q, hq, hk⟩
        · exact .inr ⟨p, by simp, by rw [hsub]; exact hk⟩
        · exact .inr ⟨q, by simp [hq], by rw [subOf_shape hfr.shape] at hk; exact hk⟩

end Argus
