import Verif.Lemmas.HeapShare
import Verif.Lemmas.Codes
import Verif.Lemmas.ReadBack

/-!
# Lemmas: a whole parse in memory
-/

set_option autoImplicit false

namespace Argus

theorem opt_of {c : MemArgus} {p : Ptr} {o : Opt} (h : c.a.getOpt p = .ok o) : c.opt p = .ok ⟨o, c.ptr p⟩ := by
  unfold MemArgus.opt; rw [h, Out.ok_bind]

theorem opt_ok {c : MemArgus} {p : Ptr} {ho : HOpt} (h : c.opt p = .ok ho) : c.a.getOpt p = .ok ho.o ∧ ho.ptr = c.ptr p := by
  unfold MemArgus.opt at h
  obtain ⟨o, h1, h2⟩ := Out.bind_eq_ok h
  simp only [Out.ok.injEq] at h2
  subst h2
  exact ⟨h1, rfl⟩

theorem opt_put_self {c : MemArgus} {p : Ptr} {ho ho' : HOpt} {h : Heap} (e : c.opt p = .ok ho) :
    (c.put p ho' h).opt p = .ok ho' := by
  have h1 : (c.put p ho' h).a.getOpt p = .ok ho'.o := getOpt_setOpt_self (opt_ok e).1
  rw [opt_of h1]
  simp [MemArgus.put]

theorem opt_put_ne {c : MemArgus} {p q : Ptr} {ho' : HOpt} {h : Heap} (hq : q ≠ p) :
    (c.put p ho' h).opt q = c.opt q := by
  unfold MemArgus.opt
  have h1 : (c.put p ho' h).a.getOpt q = c.a.getOpt q := getOpt_setOpt_ne hq
  rw [h1]
  simp [MemArgus.put, hq]

theorem opt_same {c d : MemArgus} {q : Ptr} (ht : d.a.tables = c.a.tables) (hp : d.ptr q = c.ptr q) : d.opt q = c.opt q := by
  unfold MemArgus.opt
  rw [getOpt_congr ht, hp]

/-- A program in memory and the same without. `sel` are the tables in use, `lk` the options whose blocks `argus_free` does
    not know of. -/
structure Held (base : Ptr → Nat → Option Blk) (B : Nat → Option Blk) (sel : List Nat) (lk : Ptr → Prop) (c : MemArgus) (a : Argus) :
    Prop where
  shape : c.a.shape = a.shape
  stack : c.a.stack = a.stack
  root : c.a.root = a.root
  pre : c.a.envPrefix = a.envPrefix
  each : ∀ p o, a.getOpt p = .ok o → ∃ ho, c.opt p = .ok ho ∧ Entry (base p) c.heap ho o ∧
    (ho.ptr ≠ none → ho.o.isAllocated = true ∨ lk p) ∧ (ho.ptr ≠ none → p.tbl ∈ sel)
  absent : ∀ p, (∀ o, a.getOpt p ≠ .ok o) → base p = c.heap.live
  shares : Shares base B c.heap

theorem Held.congr {base : Ptr → Nat → Option Blk} {B : Nat → Option Blk} {sel : List Nat} {lk : Ptr → Prop} {c : MemArgus} {a b : Argus}
    (H : Held base B sel lk c a) (ht : b.tables = a.tables) (hst : b.stack = a.stack) (hr : b.root = a.root)
    (he : b.envPrefix = a.envPrefix) : Held base B sel lk c b :=
  ⟨H.shape.trans (shape_congr ht).symm, H.stack.trans hst.symm, H.root.trans hr.symm, H.pre.trans he.symm,
    fun p o ho => H.each p o (by rw [← getOpt_congr ht]; exact ho),
    fun p hp => H.absent p (fun o ho => hp o (by rw [getOpt_congr ht]; exact ho)), H.shares⟩

theorem Held.mono {base : Ptr → Nat → Option Blk} {B : Nat → Option Blk} {sel : List Nat} {lk lk' : Ptr → Prop} {c : MemArgus} {a : Argus}
    (H : Held base B sel lk c a) (hl : ∀ p, lk p → lk' p) : Held base B sel lk' c a :=
  ⟨H.shape, H.stack, H.root, H.pre, fun p o ho => by
    obtain ⟨x, h1, h2, h3, h4⟩ := H.each p o ho
    exact ⟨x, h1, h2, fun hp => (h3 hp).imp id (hl p), h4⟩, H.absent, H.shares⟩

/-- One option changes. -/
theorem Held.step {base : Ptr → Nat → Option Blk} {B : Nat → Option Blk} {sel : List Nat} {lk lk' : Ptr → Prop} {c : MemArgus} {a : Argus}
    (H : Held base B sel lk c a) {p : Ptr} {o o' : Opt} (ho : a.getOpt p = .ok o) (hm : o'.meta = o.meta) {ho' : HOpt} {h' : Heap}
    {b' : Nat → Option Blk} {ks : List Str} (e : Entry b' h' ho' o') (l : Left ks (base p) b') (hl : ∀ q, lk q → lk' q)
    (hal : ho'.ptr ≠ none → ho'.o.isAllocated = true ∨ lk' p) (hsel : ho'.ptr ≠ none → p.tbl ∈ sel) :
    ∃ base' B', Left ks B B' ∧ Held base' B' sel lk' (c.put p ho' h') (a.setOpt p o') := by
  obtain ⟨B', l1, s1, keep⟩ := H.shares.step p e.part l
  obtain ⟨x, g1, g2, g3, g4⟩ := H.each p o ho
  refine ⟨_, B', l1, ⟨?_, H.stack, H.root, H.pre, fun q y hy => ?_, fun q hq => ?_, s1⟩⟩
  · rw [shape_setOpt ho hm]
    exact (shape_setOpt (opt_ok g1).1 (e.meta.trans (hm.trans g2.meta.symm))).trans H.shape
  · by_cases hqp : q = p
    · subst hqp
      rw [getOpt_setOpt_self ho] at hy
      simp only [Out.ok.injEq] at hy; subst hy
      exact ⟨ho', opt_put_self g1, by simp only [if_true]; exact e, hal, hsel⟩
    · rw [getOpt_setOpt_ne hqp] at hy
      obtain ⟨z, f1, f2, f3, f4⟩ := H.each q y hy
      exact ⟨z, (opt_put_ne hqp).trans f1, by simp only [if_neg hqp]; exact f2.move s1.fresh (keep q hqp), fun hp => (f3 hp).imp id (hl q), f4⟩
  · by_cases hqp : q = p
    · subst hqp
      exact absurd (getOpt_setOpt_self ho) (hq o')
    · have := H.absent q (fun y hy => hq y (by rw [getOpt_setOpt_ne hqp]; exact hy))
      simp only [if_neg hqp]
      funext x
      unfold others
      rw [if_pos (by rw [this])]
      rfl

theorem runPreAll_elsewhere {W : World} {arg : Option Str} : ∀ (vs : List Validator) {a b : Argus} {r : Int × Argus},
    runPreAll W a arg vs = .ok r → ∃ b', runPreAll W b arg vs = .ok (r.1, b')
  | [], a, b, r, h => by
    simp only [runPreAll, Out.ok.injEq] at h
    subst h
    exact ⟨b, rfl⟩
  | v :: vs, a, b, r, h => by
    unfold runPreAll at h ⊢
    split at h
    · rename_i hv
      rw [if_pos hv]
      obtain ⟨x, h1, h2⟩ := Out.bind_eq_ok h
      rw [h1, Out.ok_bind]
      simp only at h2 ⊢
      split at h2
      · rename_i hx
        simp only [Out.ok.injEq] at h2
        subst h2
        rw [if_pos hx]
        exact ⟨_, rfl⟩
      · rename_i hx
        rw [if_neg hx]
        exact runPreAll_elsewhere vs h2
    · rename_i hv
      rw [if_neg hv]
      exact runPreAll_elsewhere vs h

theorem Held.active {base : Ptr → Nat → Option Blk} {B : Nat → Option Blk} {sel : List Nat} {lk : Ptr → Prop} {c : MemArgus} {a : Argus}
    (H : Held base B sel lk c a) (hact : ∃ t, a.activeOptions = .ok t) : ∃ t, c.a.activeOptions = .ok t := by
  unfold Argus.activeOptions at hact ⊢
  rw [H.stack, H.root]
  cases hl : a.stack.getLast? with
  | none => exact ⟨_, rfl⟩
  | some p =>
    rw [hl] at hact
    obtain ⟨t, ht⟩ := hact
    obtain ⟨o, h1, h2⟩ := Out.bind_eq_ok ht
    obtain ⟨x, g1, _⟩ := H.each p o h1
    simp only [(opt_ok g1).1, Out.ok_bind]
    exact ⟨_, rfl⟩

/-- `execute_callbacks` in memory. -/
theorem Held.exec (W : World) {A : Allocator} (hA : A.Never) {S : List (List Opt)} {root : Nat} {base : Ptr → Nat → Option Blk}
    {B : Nat → Option Blk} {sel : List Nat} {lk : Ptr → Prop} {c : MemArgus} {a : Argus} (H : Held base B sel lk c a) (hG : Good S root a)
    {p : Ptr} {o : Opt} (ho : a.getOpt p = .ok o) {arg : Option Str} (harg : arg = none → o.valueType = .flag)
    (hT : ∀ v x, arg = some v → o.handler = some x → HarmlessTo o x v) (hsel : p.tbl ∈ sel) {r : Int × Argus}
    (hr : execCallbacks W a p arg = .ok r) :
    ∃ c' base' B' ks, execCallbacksH W A c p arg = .ok (r.1, c') ∧ Left ks B B' ∧ Losing W o arg ks ∧
      Held base' B' sel (fun q => lk q ∨ (r.1 ≠ Err.success ∧ r.1 ≠ Err.shouldExit ∧ q = p)) c' r.2 := by
  obtain ⟨ho0, g1, g2, g3, g4⟩ := H.each p o ho
  have hhd : ho0.o.handler = o.handler := (congrArg Opt.handler g2.meta : ho0.o.meta.handler = o.meta.handler)
  have hva : ho0.o.validators = o.validators := (congrArg Opt.validators g2.meta : ho0.o.meta.validators = o.meta.validators)
  unfold execCallbacks at hr
  unfold execCallbacksH
  rw [ho, Out.ok_bind] at hr
  rw [g1, Out.ok_bind]
  simp only [hhd, hva]
  cases hh : o.handler with
  | none =>
    rw [hh] at hr
    simp only [Out.ok.injEq] at hr
    subst hr
    exact ⟨c, base, B, [], rfl, Left.refl _, .inl rfl, Held.mono (H.congr rfl rfl rfl rfl) (fun _ h => Or.inl h)⟩
  | some hd =>
    rw [hh] at hr
    simp only at hr ⊢
    obtain ⟨pre, h1, h2⟩ := Out.bind_eq_ok hr
    obtain ⟨b', h3⟩ := runPreAll_elsewhere (b := c.a) _ h1
    obtain ⟨es, hes⟩ := runPreAll_eq _ h1
    rw [h3, Out.ok_bind]
    simp only
    split at h2
    · rename_i hne
      rw [if_pos hne]
      simp only [Out.ok.injEq] at h2
      subst h2
      exact ⟨c, base, B, [], rfl, Left.refl _, .inl rfl,
        Held.mono (H.congr (by rw [hes]; simp) (by rw [hes]; simp) (by rw [hes]; simp) (by rw [hes]; simp)) (fun _ h => Or.inl h)⟩
    · rename_i hne
      rw [if_neg hne]
      have hs := hG.all p o ho
      have hG1 : Good S root pre.2 := by rw [hes]; exact hG.emits es
      obtain ⟨st, o', ev, ho', h', base', ks, f1, f2, f3, f4, f5, f6, f7, f8⟩ := g2.handle W hA hs hh harg
        (fun v hv => hT v hd hv hh) hG1.active (H.active hG.active)
      obtain ⟨x, h4, h5⟩ := Out.bind_eq_ok h2
      rw [f1] at h4
      simp only [Out.ok.injEq] at h4
      subst h4
      rw [f2, Out.ok_bind]
      simp only at h5 ⊢
      have hcg : ∀ y : Opt, ((pre.2.emits ev).setOpt p y).tables = (a.setOpt p y).tables ∧
          ((pre.2.emits ev).setOpt p y).stack = (a.setOpt p y).stack ∧ ((pre.2.emits ev).setOpt p y).root = (a.setOpt p y).root ∧
          ((pre.2.emits ev).setOpt p y).envPrefix = (a.setOpt p y).envPrefix := by
        intro y; rw [hes]; simp [setOpt_tables]
      have hm := runHandler_meta f1
      split at h5
      · rename_i hst
        rw [if_pos hst]
        simp only [Out.ok.injEq] at h5
        subst h5
        have hex : st ≠ Err.shouldExit := callCodes_exit (runHandler_codes (fun id hid => by
          subst hid
          have := hs.holds _ hh
          exact this) f1)
        obtain ⟨base1, B1, l1, H1⟩ := H.step (lk' := fun q => lk q ∨ (st ≠ Err.success ∧ st ≠ Err.shouldExit ∧ q = p)) ho hm f5 f3
          (fun _ h => Or.inl h) (fun _ => .inr (.inr ⟨hst, hex, rfl⟩)) (fun _ => hsel)
        obtain ⟨c1, c2, c3, c4⟩ := hcg o'
        exact ⟨_, base1, B1, ks, rfl, l1, f4, H1.congr c1 c2 c3 c4⟩
      · rename_i hst
        rw [if_neg hst]
        have hst' : st = Err.success := Decidable.not_not.1 hst
        simp only [Out.ok.injEq] at h5
        subst h5
        obtain ⟨base1, B1, l1, H1⟩ := H.step (lk' := lk) ho (show o'.markSet.meta = o.meta from hm) (f6 hst') f3
          (fun _ h => h) (fun hp => .inl (f7 hst' hp)) (fun _ => hsel)
        obtain ⟨c1, c2, c3, c4⟩ := hcg o'.markSet
        have hfl : ho'.o.markSet.flags = o'.markSet.flags :=
          (congrArg Opt.flags (f6 hst').meta : ho'.mark.o.meta.flags = o'.markSet.meta.flags)
        rw [hfl]
        exact ⟨_, base1, B1, ks, rfl, l1, f4, Held.mono (H1.congr c1 c2 c3 c4) (fun _ h => Or.inl h)⟩

/-! ### The command line -/

theorem give_good (W : World) (env : Env) {S : List (List Opt)} {root : Nat} {xs : List Act} {a : Argus} (h : Good S root a) {p : Ptr}
    {t : Option Str} {o : Opt} (ho : a.getOpt p = .ok o) (harg : t = none → o.valueType = .flag) (hF : Fits env a (.give p t :: xs)) :
    (∀ v x, t = some v → o.handler = some x → HarmlessTo o x v) ∧
      ∀ r, execCallbacks W a p t = .ok r → Good S root r.2 ∧ (r.1 = Err.success → Fits env r.2 xs) := by
  have hT : ∀ v x, t = some v → o.handler = some x → HarmlessTo o x v := fun v x hv hx => by
    subst hv
    obtain ⟨g1, g2⟩ := hF p o x ho hx
    rw [textsOf_give_self] at g1 g2
    exact ⟨fun hs hf => g1 hs hf v rfl, fun hi => g2 hi v (by simp)⟩
  refine ⟨hT, fun r hr => ?_⟩
  obtain ⟨r', e1, e2, o', e3, e4⟩ := execCallbacks_good W h ho harg hT
  rw [hr] at e1
  simp only [Out.ok.injEq] at e1
  subst e1
  refine ⟨e2, fun hok => ?_⟩
  have hone := execCallbacks_one hr
  refine hF.step (e2.shape.trans h.shape.symm) hone.frame.envPrefix (fun q t' hq => ?_) (fun q o1 o2 g1 g2 hf => ?_)
  · by_cases hqp : q = p
    · subst hqp; rw [textsOf_give_self]; exact List.mem_cons_of_mem _ hq
    · rw [textsOf_give_ne hqp]; exact hq
  · by_cases hqp : q = p
    · subst hqp
      rw [e3] at g2
      simp only [Out.ok.injEq] at g2; subst g2
      exact absurd hok (e4 hf).2
    · rw [hone.others q hqp, g1] at g2
      simp only [Out.ok.injEq] at g2; subst g2
      exact ⟨hf, (textsOf_give_ne hqp t xs).symm⟩

theorem enter_good (env : Env) {S : List (List Opt)} {root : Nat} (hS : Closed S root) {xs : List Act} {a : Argus} (h : Good S root a)
    {p : Ptr} {o : Opt} (ho : a.getOpt p = .ok o) (ht : o.type = .subcommand) (hF : Fits env a (.enter p :: xs)) {e : Option Nat × Argus}
    (hen : enterSub a p = .ok e) : Good S root e.2 ∧ Fits env e.2 xs := by
  have he := enterSub_good hS h ho ht
  rw [hen] at he
  refine ⟨he.1, ?_⟩
  have hfr := enterSub_frame hen
  refine hF.step (he.1.shape.trans h.shape.symm) hfr.1.envPrefix (fun q t hq => hq) (fun q o1 o2 g1 g2 hf => ⟨?_, rfl⟩)
  unfold enterSub at hen
  rw [ho, Out.ok_bind] at hen
  split at hen
  · cases hen
  · simp only [Out.ok.injEq] at hen
    subst hen
    have g2 : (a.setOpt p { o with isSet := true }).getOpt q = .ok o2 := g2
    by_cases hq : q = p
    · subst hq
      rw [getOpt_setOpt_self ho] at g2
      simp only [Out.ok.injEq] at g2; subst g2; cases hf
    · rw [getOpt_setOpt_ne hq, g1] at g2
      simp only [Out.ok.injEq] at g2; subst g2; exact hf

/-- A condition `E` on what remains to be given, under which only keys with `P` are lost. -/
structure Tracks (W : World) (env : Env) (E : Argus → List Act → Prop) (P : Str → Prop) : Prop where
  give : ∀ {a a' : Argus} {p : Ptr} {o : Opt} {t : Option Str} {xs : List Act}, a.getOpt p = .ok o → Sound o →
    (∀ v x, t = some v → o.handler = some x → HarmlessTo o x v) → E a (.give p t :: xs) →
    execCallbacks W a p t = .ok (Err.success, a') → E a' xs
  enter : ∀ {a : Argus} {p : Ptr} {o : Opt} {xs : List Act} {e : Option Nat × Argus}, a.getOpt p = .ok o → o.handler = none →
    E a (.enter p :: xs) → enterSub a p = .ok e → E e.2 xs
  lost : ∀ {a : Argus} {p : Ptr} {o : Opt} {t : Option Str} {xs : List Act} {ks : List Str}, a.getOpt p = .ok o → Sound o →
    E a (.give p t :: xs) → Losing W o t ks → ∀ k ∈ ks, P k
  envGive : ∀ {a a' : Argus} {p : Ptr} {o : Opt} {v : Str}, a.getOpt p = .ok o → Sound o →
    (∀ x, o.handler = some x → HarmlessTo o x v) → E a [] → ¬ (o.isSet = true ∧ o.flags.has .envOverride = false) →
    (envVarName a.envPrefix o).bind env = some v → execCallbacks W a p (some v) = .ok (Err.success, a') → E a' []
  envLost : ∀ {a : Argus} {p : Ptr} {o : Opt} {v : Str} {ks : List Str}, a.getOpt p = .ok o → Sound o → E a [] →
    ¬ (o.isSet = true ∧ o.flags.has .envOverride = false) → (envVarName a.envPrefix o).bind env = some v →
    Losing W o (some v) ks → ∀ k ∈ ks, P k
  same : ∀ {a b : Argus} {xs : List Act}, b.tables = a.tables → b.envPrefix = a.envPrefix → E a xs → E b xs

/-- Selecting a subcommand in memory. -/
theorem Held.enter {base : Ptr → Nat → Option Blk} {B : Nat → Option Blk} {sel : List Nat} {lk : Ptr → Prop} {c : MemArgus} {a : Argus}
    (H : Held base B sel lk c a) {p : Ptr} {o : Opt} (ho : a.getOpt p = .ok o) (hs : Sound o) (ht : o.type = .subcommand)
    {e : Option Nat × Argus} (hen : enterSub a p = .ok e) :
    ∃ e' : Option Nat × Argus, enterSub c.a p = .ok e' ∧ ∃ base', Held base' B sel lk { c with a := e'.2 } e.2 := by
  obtain ⟨ho0, g1, g2, g3, g4⟩ := H.each p o ho
  have hh : o.handler = none := hs.decl.subcommand ht
  unfold enterSub at hen ⊢
  rw [ho, Out.ok_bind] at hen
  rw [(opt_ok g1).1, Out.ok_bind, H.stack]
  split at hen
  · cases hen
  · rename_i hlen
    rw [if_neg hlen]
    simp only [Out.ok.injEq] at hen
    subst hen
    -- the entry is not an array or map
    cases g2 with
    | plain h1 h2 h3 h4 p0 =>
      have e1 : Entry (base p) c.heap ⟨{ ho0.o with isSet := true }, ho0.ptr⟩ { o with isSet := true } :=
        .plain (fun hd hx => h1 hd hx) h2 (by rw [h3]) h4 p0
      obtain ⟨base', B', l1, H1⟩ := H.step (lk' := lk) ho (o' := { o with isSet := true }) rfl e1 (Left.refl _) (fun _ h => h)
        (fun hp => absurd h4 hp) (fun hp => absurd h4 hp)
      have := l1.nil
      subst this
      have hptr : (fun q => if q = p then ho0.ptr else c.ptr q) = c.ptr := by
        funext q
        split
        · rename_i hq; rw [hq]; exact (opt_ok g1).2
        · rfl
      refine ⟨_, rfl, base', ⟨H1.shape, ?_, H1.root, H1.pre, fun q y hy => ?_, fun q hq => ?_, H1.shares⟩⟩
      · show c.a.stack ++ [p] = a.stack ++ [p]
        rw [H.stack]
      · obtain ⟨z, f1, f2, f3, f4⟩ := H1.each q y hy
        refine ⟨z, ?_, f2, f3, f4⟩
        rw [← f1]
        exact opt_same rfl (congrFun hptr q).symm
      · exact H1.absent q hq
    | arr hd fh k n cs _ h1 _ _ h3 =>
      rw [h3] at hh
      have hh : ho0.o.handler = none := hh
      rw [h1] at hh; cases hh
    | map hd fh k n cs _ h1 _ _ h3 =>
      rw [h3] at hh
      have hh : ho0.o.handler = none := hh
      rw [h1] at hh; cases hh

theorem Held.monoSel {base : Ptr → Nat → Option Blk} {B : Nat → Option Blk} {sel sel' : List Nat} {lk : Ptr → Prop} {c : MemArgus}
    {a : Argus} (H : Held base B sel lk c a) (hl : ∀ k ∈ sel, k ∈ sel') : Held base B sel' lk c a :=
  ⟨H.shape, H.stack, H.root, H.pre, fun p o ho => by
    obtain ⟨x, h1, h2, h3, h4⟩ := H.each p o ho
    exact ⟨x, h1, h2, h3, fun hp => hl _ (h4 hp)⟩, H.absent, H.shares⟩

/-- Options are given only once their table is in use. -/
def Levels (T : List (List Opt)) : List Nat → List Act → Prop
  | _, [] => True
  | sel, .give p _ :: xs => p.tbl ∈ sel ∧ Levels T sel xs
  | sel, .enter p :: xs => Levels T (sel ++ (tableBelow T p).toList) xs
  | _, .fail _ :: _ => True
  | _, .noTable :: _ => True

theorem Levels.mono {T : List (List Opt)} : ∀ (xs : List Act) {sel sel' : List Nat}, (∀ k ∈ sel, k ∈ sel') → Levels T sel xs →
    Levels T sel' xs
  | [], _, _, _, _ => trivial
  | .give p _ :: xs, _, _, h, hx => ⟨h _ hx.1, Levels.mono xs h hx.2⟩
  | .enter p :: xs, _, _, h, hx => Levels.mono xs (fun k hk => by
      rcases List.mem_append.1 hk with hk | hk
      · exact List.mem_append_left _ (h k hk)
      · exact List.mem_append_right _ hk) (show Levels T (_ ++ _) xs from hx)
  | .fail _ :: _, _, _, _, _ => trivial
  | .noTable :: _, _, _, _, _ => trivial

theorem Levels.append {T : List (List Opt)} {ys : List Act} : ∀ (xs : List Act) {sel : List Nat},
    (∀ p t, Act.give p t ∈ xs → p.tbl ∈ sel) → Levels T sel ys → Levels T sel (xs ++ ys)
  | [], _, _, h => h
  | .give p t :: xs, _, h, hy => ⟨h p t (by simp), Levels.append xs (fun q t hq => h q t (by simp [hq])) hy⟩
  | .enter p :: xs, sel, h, hy => Levels.append xs (sel := sel ++ (tableBelow T p).toList)
      (fun q t hq => List.mem_append_left _ (h q t (by simp [hq]))) (hy.mono _ (fun _ hk => List.mem_append_left _ hk))
  | .fail _ :: _, _, _, _ => trivial
  | .noTable :: _, _, _, _ => trivial

theorem meaning_levels (tables : List (List Opt)) : ∀ (args : List Str) (t : Option Nat) (pos : Nat)
    (only skip : Bool) {sel : List Nat}, (∀ k, t = some k → k ∈ sel) → Levels tables sel (meaning tables t pos only skip args)
  | [], t, pos, only, skip, _, _ => by simp [meaning, Levels]
  | arg :: rest, t, pos, only, true, sel, h => by
    simp only [meaning]; exact meaning_levels tables rest _ _ _ _ h
  | arg :: rest, t, pos, only, false, sel, h => by
    unfold meaning
    split
    · exact meaning_levels tables rest _ _ _ _ h
    · split
      · exact meaning_levels tables rest _ _ _ _ h
      · split
        · rename_i k os hk
          simp only [Option.bind_some] at hk
          have hsel := h k rfl
          have app : ∀ {xs ys : List Act}, (∀ p t, Act.give p t ∈ xs → p.tbl = k) → Levels tables sel ys → Levels tables sel (xs ++ ys) :=
            fun hx hy => Levels.append _ (fun p t hp => by rw [hx p t hp]; exact hsel) hy
          split
          · exact app (fun p x hx => (posActs_table x hx).symm) (meaning_levels tables rest _ _ _ _ h)
          · split
            · trivial
            · exact app (fun p x hx => (longActs_table x hx).symm) (meaning_levels tables rest _ _ _ _ h)
            · split
              · exact app (fun p x hx => (posActs_table x hx).symm) (meaning_levels tables rest _ _ _ _ h)
              · exact app (fun p x hx => (shortActs_table x _ hx).symm) (meaning_levels tables rest _ _ _ _ h)
            · split
              · rename_i y hy
                obtain ⟨h1, h2⟩ := subChoice_get hy
                have hb : tableBelow tables ⟨k, y.2⟩ = y.1.subOptions := by
                  unfold tableBelow placeAt; rw [hk, Option.bind_some, h1, Option.bind_some]
                refine meaning_levels tables rest _ _ _ _ (fun j hj => List.mem_append_right _ ?_)
                rw [hb, hj]; simp
              · trivial
              · exact app (fun p x hx => (posActs_table x hx).symm) (meaning_levels tables rest _ _ _ _ h)
        · trivial

theorem pathTables_same {a b : Argus} (hsh : b.shape = a.shape) (hr : b.root = a.root) (path : List Ptr) :
    pathTables b path = pathTables a path := by
  unfold pathTables
  rw [hr]
  congr 2
  funext q; exact tableBelow_shape hsh q

theorem Levels.shape {a b : Argus} (hsh : b.shape = a.shape) : ∀ (xs : List Act) {sel : List Nat}, Levels a.tables sel xs →
    Levels b.tables sel xs
  | [], _, _ => trivial
  | .give p _ :: xs, _, hx => ⟨hx.1, Levels.shape hsh xs hx.2⟩
  | .enter p :: xs, sel, hx => by
    have := Levels.shape hsh xs (show Levels a.tables (_ ++ _) xs from hx)
    unfold Levels
    rw [tableBelow_shape hsh]; exact this
  | .fail _ :: _, _, _ => trivial
  | .noTable :: _, _, _ => trivial

/-- The command line in memory. -/
theorem Held.run (W : World) (env : Env) {A : Allocator} (hA : A.Never) {S : List (List Opt)} {root : Nat} (hS : Closed S root)
    {E : Argus → List Act → Prop} {P : Str → Prop} (T : Tracks W env E P) :
    ∀ (xs : List Act) {a : Argus} {c : MemArgus} {base : Ptr → Nat → Option Blk} {B : Nat → Option Blk},
    Held base B (pathTables a a.stack) (fun _ => False) c a → Good S root a → (∀ x ∈ xs, ActWell S x) → Fits env a xs →
    Levels a.tables (pathTables a a.stack) xs → E a xs → ∀ r, Argus.run W a xs = .ok r →
    ∃ c' base' B' ks leak, runH W A c xs = .ok (r.1, c') ∧ Left ks B B' ∧ (∀ k ∈ ks, P k) ∧
      Held base' B' (pathTables r.2 r.2.stack) (fun q => leak = some q) c' r.2 ∧ (r.1 = Err.success ∨ r.1 = Err.shouldExit → leak = none) ∧
      Good S root r.2 ∧ (r.1 = Err.success → Fits env r.2 [] ∧ E r.2 [])
  | [], a, c, base, B, H, hG, _, hF, _, hE, r, hr => by
    simp only [Argus.run, Out.ok.injEq] at hr
    subst hr
    exact ⟨c, base, B, [], none, rfl, Left.refl _, by simp, Held.mono H (fun _ h => h.elim), fun _ => rfl, hG, fun _ => ⟨hF, hE⟩⟩
  | .fail code :: xs, a, c, base, B, H, hG, hw, hF, _, hE, r, hr => by
    simp only [Argus.run, Out.ok.injEq] at hr
    subst hr
    refine ⟨c, base, B, [], none, rfl, Left.refl _, by simp, Held.mono (H.congr rfl rfl rfl rfl) (fun _ h => h.elim), fun _ => rfl,
      hG.report code, fun hc => absurd hc (hw (.fail code) (by simp))⟩
  | .noTable :: xs, a, c, base, B, H, hG, hw, hF, _, hE, r, hr => (hw .noTable (by simp)).elim
  | .enter p :: xs, a, c, base, B, H, hG, hw, hF, hsel, hE, r, hr => by
    obtain ⟨m, h1, h2⟩ := hw (.enter p) (by simp)
    rw [← hG.shape] at h1
    obtain ⟨o, ho, rfl⟩ := entryAt_shape h1
    unfold Argus.run at hr
    obtain ⟨e, h3, h4⟩ := Out.bind_eq_ok hr
    obtain ⟨hG1, hF1⟩ := enter_good env hS hG ho h2 hF h3
    have hs := hG.all p o ho
    obtain ⟨e', f1, base1, H1⟩ := H.enter ho hs h2 h3
    have hsh : e.2.shape = a.shape := hG1.shape.trans hG.shape.symm
    have hstk : e.2.stack = a.stack ++ [p] := by
      unfold enterSub at h3
      rw [ho, Out.ok_bind] at h3
      split at h3
      · cases h3
      · simp only [Out.ok.injEq] at h3
        subst h3; rfl
    have hpt : pathTables e.2 e.2.stack = pathTables a a.stack ++ (tableBelow a.tables p).toList := by
      rw [pathTables_same hsh (hG1.root.trans hG.root.symm), hstk]
      unfold pathTables
      rw [List.filterMap_append, List.cons_append]
      cases hb : tableBelow a.tables p <;> simp [hb]
    have hsub : ∀ k ∈ pathTables a a.stack, k ∈ pathTables e.2 e.2.stack := fun k hk => by
      rw [hpt]; exact List.mem_append_left _ hk
    have hsub' : ∀ k ∈ pathTables a a.stack ++ (tableBelow a.tables p).toList, k ∈ pathTables e.2 e.2.stack := fun k hk => by
      rw [hpt]; exact hk
    obtain ⟨c', base', B', ks, leak, k1, k2⟩ := Held.run W env hA hS T xs (H1.monoSel hsub) hG1 (fun x hx => hw x (by simp [hx])) hF1
      ((show Levels a.tables (_ ++ _) xs from hsel).shape hsh xs |>.mono xs hsub') (T.enter ho (hs.decl.subcommand h2) hE h3) r h4
    refine ⟨c', base', B', ks, leak, ?_, k2⟩
    unfold runH
    rw [f1, Out.ok_bind]
    exact k1
  | .give p t :: xs, a, c, base, B, H, hG, hw, hF, hsel, hE, r, hr => by
    obtain ⟨m, h1, h2⟩ := hw (.give p t) (by simp)
    rw [← hG.shape] at h1
    obtain ⟨o, ho, rfl⟩ := entryAt_shape h1
    have hs := hG.all p o ho
    unfold Argus.run at hr
    obtain ⟨x, h3, h4⟩ := Out.bind_eq_ok hr
    obtain ⟨hT, hgood⟩ := give_good W env hG ho h2 hF
    obtain ⟨hG1, hF1⟩ := hgood x h3
    have hsh : x.2.shape = a.shape := hG1.shape.trans hG.shape.symm
    have hpt : pathTables x.2 x.2.stack = pathTables a a.stack := by
      rw [pathTables_same hsh (hG1.root.trans hG.root.symm), (execCallbacks_one h3).stack]
    obtain ⟨c1, base1, B1, ks1, f1, f2, f3, f4⟩ := H.exec W hA hG ho h2 hT hsel.1 h3
    unfold runH
    rw [f1, Out.ok_bind]
    simp only
    split at h4
    · rename_i hne
      simp only [Out.ok.injEq] at h4
      subst h4
      rw [if_pos hne]
      refine ⟨c1, base1, B1, ks1, if x.1 = Err.shouldExit then none else some p, rfl, f2, T.lost ho hs hE f3, Held.mono (by rw [hpt]; exact f4) (fun q hq => ?_),
        fun hq => ?_, hG1, fun h => absurd h hne⟩
      · rcases hq with hq | ⟨_, hq, rfl⟩
        · exact hq.elim
        · rw [if_neg hq]
      · rcases hq with hq | hq
        · exact absurd hq hne
        · rw [if_pos hq]
    · rename_i hne
      rw [if_neg hne]
      have hok : x.1 = Err.success := Decidable.not_not.1 hne
      obtain ⟨c', base', B', ks, leak, k1, k2, k3, k4⟩ := Held.run W env hA hS T xs
        (Held.mono (lk' := fun _ => False) (by rw [hpt]; exact f4) (fun q hq => by
          rcases hq with hq | ⟨hq, _⟩
          · exact hq
          · exact hq hok)) hG1 (fun x hx => hw x (by simp [hx])) (hF1 hok)
        (by rw [hpt]; exact hsel.2.shape hsh xs) (T.give (a' := x.2) ho hs hT hE (by rw [h3, ← hok])) r h4
      refine ⟨c', base', B', ks1 ++ ks, leak, k1, f2.trans k2, fun k hk => ?_, k4⟩
      rcases List.mem_append.1 hk with hk | hk
      · exact T.lost ho hs hE f3 k hk
      · exact k3 k hk

/-! ### The environment -/

theorem Entry.plain_inv {base : Nat → Option Blk} {h : Heap} {ho : HOpt} {o : Opt} (e : Entry base h ho o) {hd : Handler}
    (hh : o.handler = some hd) (hc : hd.isCollection = false) : o.isAllocated = false ∧ ho.o = o ∧ ho.ptr = none ∧ Part base h [] := by
  cases e with
  | plain _ h2 h3 h4 p => exact ⟨h2, h3, h4, p⟩
  | arr hd' fh k n cs H h1 _ _ h3 =>
    rw [h3] at hh
    have hh : ho.o.handler = some hd := hh
    rw [h1] at hh
    simp only [Option.some.injEq] at hh
    subst hh
    rw [H.coll] at hc; cases hc
  | map hd' fh k n cs H h1 _ _ h3 =>
    rw [h3] at hh
    have hh : ho.o.handler = some hd := hh
    rw [h1] at hh
    simp only [Option.some.injEq] at hh
    subst hh
    rw [H.coll] at hc; cases hc

theorem restoreValue_self (o : Opt) : restoreValue o o = o.value := by
  unfold restoreValue
  cases o.value <;> simp

/-- What a step that may fail comes to in memory. -/
def HeldAfter (E : Argus → List Act → Prop) (P : Str → Prop) (sel : List Nat) (B : Nat → Option Blk) (x : Out (Int × MemArgus))
    (r : Int × Argus) : Prop :=
  ∃ c' base' B' ks leak, x = .ok (r.1, c') ∧ Left ks B B' ∧ (∀ k ∈ ks, P k) ∧
    Held base' B' sel (fun q => leak = some q) c' r.2 ∧ (r.1 = Err.success ∨ r.1 = Err.shouldExit → leak = none) ∧
    (r.1 = Err.success → E r.2 [])

theorem Held.envStep (W : World) (env : Env) {A : Allocator} (hA : A.Never) {S : List (List Opt)} {root : Nat}
    {sel : List Nat} {E : Argus → List Act → Prop} {P : Str → Prop} (T : Tracks W env E P) {a : Argus} {c : MemArgus}
    {base : Ptr → Nat → Option Blk} {B : Nat → Option Blk} (H : Held base B sel (fun _ => False) c a) (hG : Good S root a)
    (hF : Fits env a []) (hE : E a []) {p : Ptr} {o : Opt} (ho : a.getOpt p = .ok o) (hsel : p.tbl ∈ sel) {r : Int × Argus}
    (hr : loadEnvStep W env a p = .ok r) : HeldAfter E P sel B (loadEnvStepH W A env c p) r := by
  obtain ⟨ho0, g1, g2, g3, g4⟩ := H.each p o ho
  have hs := hG.all p o ho
  have hm := g2.meta
  have ht : ho0.o.type = o.type := (congrArg Opt.type hm : ho0.o.meta.type = o.meta.type)
  have hfl : ho0.o.flags = o.flags := (congrArg Opt.flags hm : ho0.o.meta.flags = o.meta.flags)
  have hen : envVarName c.a.envPrefix ho0.o = envVarName a.envPrefix o := by
    rw [H.pre]
    have : envVarName a.envPrefix ho0.o.meta = envVarName a.envPrefix o.meta := by rw [hm]
    exact this
  have nothing : ∀ {x : Out (Int × MemArgus)}, x = .ok (Err.success, c) → r = (Err.success, a) → HeldAfter E P sel B x r := by
    intro x hx hr'
    subst hr'
    exact ⟨c, base, B, [], none, hx, Left.refl _, by simp, Held.mono H (fun _ h => h.elim), fun _ => rfl, fun _ => hE⟩
  unfold loadEnvStep at hr
  unfold loadEnvStepH
  rw [ho, Out.ok_bind] at hr
  rw [g1, Out.ok_bind]
  simp only [ht, hfl, g2.set, hen]
  split at hr
  · rename_i h1
    rw [if_pos h1]
    simp only [Out.ok.injEq] at hr
    exact nothing rfl hr.symm
  · rename_i h1
    rw [if_neg h1]
    split at hr
    · rename_i h2
      rw [if_pos h2]
      simp only [Out.ok.injEq] at hr
      exact nothing rfl hr.symm
    · rename_i h2
      rw [if_neg h2]
      cases hn : envVarName a.envPrefix o with
      | none =>
        rw [hn] at hr
        simp only [Out.ok.injEq] at hr
        exact nothing rfl hr.symm
      | some n =>
        rw [hn] at hr
        simp only at hr ⊢
        cases hv : env n with
        | none =>
          rw [hv] at hr
          simp only [Out.ok.injEq] at hr
          exact nothing rfl hr.symm
        | some v =>
          rw [hv] at hr
          simp only at hr ⊢
          have hbind : (envVarName a.envPrefix o).bind env = some v := by rw [hn]; exact hv
          have hT : ∀ w x, some v = some w → o.handler = some x → HarmlessTo o x w := fun w x hw hx => by
            simp only [Option.some.injEq] at hw; subst hw
            obtain ⟨k1, k2⟩ := hF p o x ho hx
            have hev : textsOf p [] ++ envTexts a.envPrefix env o = [some v] := by
              unfold envTexts; rw [hn, Option.bind_some, hv]; rfl
            rw [hev] at k1 k2
            exact ⟨fun hs hf => k1 hs hf v rfl, fun hi => k2 hi v (by simp)⟩
          obtain ⟨x, e1, e2⟩ := Out.bind_eq_ok hr
          obtain ⟨c1, base1, B1, ks1, f1, f2, f3, f4⟩ := H.exec W hA hG ho (arg := some v) (by simp) hT hsel e1
          have hP := T.envLost ho hs hE h2 hbind f3
          rw [f1, Out.ok_bind]
          simp only
          have lkx : ∀ q, (False ∨ (x.1 ≠ Err.success ∧ x.1 ≠ Err.shouldExit ∧ q = p)) →
              (if x.1 = Err.success ∨ x.1 = Err.shouldExit then none else some p) = some q := by
            intro q hq
            rcases hq with hq | ⟨hq1, hq2, rfl⟩
            · exact hq.elim
            · rw [if_neg (by rintro (h | h); exact hq1 h; exact hq2 h)]
          have asis : HeldAfter E P sel B (.ok (x.1, c1)) x :=
            ⟨c1, base1, B1, ks1, if x.1 = Err.success ∨ x.1 = Err.shouldExit then none else some p, rfl, f2, hP, Held.mono f4 lkx,
              fun hq => if_pos hq, fun hok => T.envGive (a' := x.2) ho hs (fun y hy => hT v y rfl hy) hE h2 hbind (by rw [e1, ← hok])⟩
          split at e2
          · rename_i hne
            rw [if_pos hne]
            split at e2
            · rename_i hset
              rw [if_pos hset]
              obtain ⟨o1, e3, e4⟩ := Out.bind_eq_ok e2
              simp only [Out.ok.injEq] at e4
              subst e4
              obtain ⟨ho1, j1, j2, j3, j4⟩ := f4.each p o1 e3
              rw [j1, Out.ok_bind]
              have hm1 : o1.meta = o.meta := by
                obtain ⟨o2, h3, h4⟩ := shape_getOpt (execCallbacks_one e1).frame.shape ho
                rw [e3] at h3; simp only [Out.ok.injEq] at h3; subst h3; exact h4
              have hhd : o1.handler = o.handler := (congrArg Opt.handler hm1 : o1.meta.handler = o.meta.handler)
              have hov : o.flags.has .envOverride = true := by
                cases hf : o.flags.has .envOverride with
                | true => rfl
                | false => exact absurd ⟨hset, hf⟩ h2
              cases hh : o.handler with
              | none =>
                -- without a handler nothing was called
                cases j2 with
                | plain k1 k2 k3 k4 k5 =>
                  cases g2 with
                  | plain l1 l2 l3 l4 l5 =>
                    unfold execCallbacks at e1
                    rw [ho, Out.ok_bind, hh] at e1
                    simp only [Out.ok.injEq] at e1
                    subst e1
                    have : o1 = o := by
                      have e3 : a.getOpt p = .ok o1 := e3
                      rw [ho] at e3; simp only [Out.ok.injEq] at e3; exact e3.symm
                    subst this
                    have e5 : Entry (base1 p) c1.heap ⟨{ ho1.o with isSet := true, value := ho0.o.value }, ho0.ptr⟩
                        { o1 with isSet := true, value := restoreValue o1 o1 } := by
                      refine .plain k1 k2 ?_ l4 k5
                      show ({ ho1.o with isSet := true, value := ho0.o.value } : Opt) = _
                      rw [k3, l3, restoreValue_self]
                    obtain ⟨base2, B2, m1, m2⟩ := f4.step
                      (lk' := fun q => False ∨ (Err.invalidHandler ≠ Err.success ∧ Err.invalidHandler ≠ Err.shouldExit ∧ q = p)) e3
                      (o' := { o1 with isSet := true, value := restoreValue o1 o1 }) rfl e5 (Left.refl _) (fun _ h => h)
                      (fun hp => absurd l4 hp) (fun hp => absurd l4 hp)
                    have := m1.nil
                    subst this
                    exact ⟨_, base2, B2, ks1, _, rfl, f2, hP, Held.mono m2 lkx, fun hq => if_pos hq, fun hok => absurd hok hne⟩
                  | arr hd fh k n cs _ q1 _ _ q3 =>
                    rw [q3] at hh; have hh : ho0.o.handler = none := hh; rw [q1] at hh; cases hh
                  | map hd fh k n cs _ q1 _ _ q3 =>
                    rw [q3] at hh; have hh : ho0.o.handler = none := hh; rw [q1] at hh; cases hh
                | arr hd fh k n cs _ q1 _ _ q3 =>
                  rw [hh, q3] at hhd; have hh : ho1.o.handler = none := hhd; rw [q1] at hh; cases hh
                | map hd fh k n cs _ q1 _ _ q3 =>
                  rw [hh, q3] at hhd; have hh : ho1.o.handler = none := hhd; rw [q1] at hh; cases hh
              | some hd =>
                have hnc : hd.isCollection = false := by
                  cases hc : hd.isCollection with
                  | false => rfl
                  | true => have := hs.decl.env hd hh hc; rw [hov] at this; simp at this
                obtain ⟨k1, k2, k3, k4⟩ := g2.plain_inv hh hnc
                obtain ⟨l1, l2, l3, l4⟩ := j2.plain_inv (hhd.trans hh) hnc
                obtain ⟨_, w, hw⟩ := hs.plain hh hnc
                have hres : restoreValue o o1 = o.value := by unfold restoreValue; rw [hw]
                have e5 : Entry (base1 p) c1.heap ⟨{ ho1.o with isSet := true, value := ho0.o.value }, ho0.ptr⟩
                    { o1 with isSet := true, value := restoreValue o o1 } := by
                  refine .plain (fun y hy => ?_) l1 ?_ k3 l4
                  · have hy : o1.handler = some y := hy
                    rw [hhd, hh] at hy; simp only [Option.some.injEq] at hy; subst hy; exact hnc
                  · show ({ ho1.o with isSet := true, value := ho0.o.value } : Opt) = _
                    rw [l2, k2, hres]
                obtain ⟨base2, B2, m1, m2⟩ := f4.step (lk' := fun q => False ∨ (x.1 ≠ Err.success ∧ x.1 ≠ Err.shouldExit ∧ q = p)) e3
                  (o' := { o1 with isSet := true, value := restoreValue o o1 }) rfl e5 (Left.refl _) (fun _ h => h)
                  (fun hp => absurd k3 hp) (fun hp => absurd k3 hp)
                have := m1.nil
                subst this
                exact ⟨_, base2, B2, ks1, if x.1 = Err.success ∨ x.1 = Err.shouldExit then none else some p, rfl, f2, hP,
                  Held.mono m2 lkx, fun hq => if_pos hq, fun hok => absurd hok hne⟩
            · rename_i hset
              rw [if_neg hset]
              simp only [Out.ok.injEq] at e2
              subst e2
              exact asis
          · rename_i hne
            rw [if_neg hne]
            simp only [Out.ok.injEq] at e2
            subst e2
            exact asis

theorem HeldAfter.calm {E : Argus → List Act → Prop} {P : Str → Prop} {sel : List Nat} {B : Nat → Option Blk}
    {x : Out (Int × MemArgus)} {r : Int × Argus} (h : HeldAfter E P sel B x r) (hok : r.1 = Err.success) :
    ∃ c' base' B' ks, x = .ok (r.1, c') ∧ Left ks B B' ∧ (∀ k ∈ ks, P k) ∧ Held base' B' sel (fun _ => False) c' r.2 ∧ E r.2 [] := by
  obtain ⟨c', base', B', ks, leak, h1, h2, h3, h4, h5, h6⟩ := h
  refine ⟨c', base', B', ks, h1, h2, h3, Held.mono h4 (fun q hq => ?_), h6 hok⟩
  rw [h5 (.inl hok)] at hq; cases hq

theorem HeldAfter.more {E : Argus → List Act → Prop} {P : Str → Prop} {sel : List Nat} {B B1 : Nat → Option Blk}
    {x : Out (Int × MemArgus)} {r : Int × Argus} {ks : List Str} (h : HeldAfter E P sel B1 x r) (l : Left ks B B1)
    (hk : ∀ k ∈ ks, P k) : HeldAfter E P sel B x r := by
  obtain ⟨c', base', B', ks', leak, h1, h2, h3, h4⟩ := h
  refine ⟨c', base', B', ks ++ ks', leak, h1, l.trans h2, fun k hk' => ?_, h4⟩
  rcases List.mem_append.1 hk' with hk' | hk'
  · exact hk k hk'
  · exact h3 k hk'

theorem Held.envLoop (W : World) (env : Env) {A : Allocator} (hA : A.Never) {S : List (List Opt)} {root : Nat}
    {sel : List Nat} {E : Argus → List Act → Prop} {P : Str → Prop} (T : Tracks W env E P) {k : Nat} (hsel : k ∈ sel) :
    ∀ (n i : Nat) {a : Argus} {c : MemArgus} {base : Ptr → Nat → Option Blk} {B : Nat → Option Blk},
    Held base B sel (fun _ => False) c a → Good S root a → Fits env a [] → E a [] →
    (∀ j, j < i + n → ∃ o, a.getOpt ⟨k, j⟩ = .ok o) → ∀ {r : Int × Argus}, loadEnvLoop W env k n i a = .ok r →
    HeldAfter E P sel B (loadEnvLoopH W A env k n i c) r
  | 0, i, a, c, base, B, H, hG, hF, hE, hget, r, hr => by
    simp only [loadEnvLoop, Out.ok.injEq] at hr
    subst hr
    exact ⟨c, base, B, [], none, rfl, Left.refl _, by simp, Held.mono H (fun _ h => h.elim), fun _ => rfl, fun _ => hE⟩
  | n + 1, i, a, c, base, B, H, hG, hF, hE, hget, r, hr => by
    obtain ⟨o, ho⟩ := hget i (by omega)
    unfold loadEnvLoop at hr
    obtain ⟨x, e1, e2⟩ := Out.bind_eq_ok hr
    obtain ⟨x', e3, e4, e5⟩ := loadEnvStep_good W env hG hF ho
    rw [e1] at e3; simp only [Out.ok.injEq] at e3; subst e3
    have st := H.envStep W env hA T hG hF hE ho hsel e1
    unfold loadEnvLoopH
    split at e2
    · rename_i hne
      simp only [Out.ok.injEq] at e2; subst e2
      obtain ⟨c', base', B', ks, leak, h1, h2⟩ := st
      rw [h1, Out.ok_bind, if_pos hne]
      exact ⟨c', base', B', ks, leak, rfl, h2⟩
    · rename_i hne
      obtain ⟨c', base', B', ks, h1, h2, h3, h4, h5⟩ := st.calm (Decidable.not_not.1 hne)
      rw [h1, Out.ok_bind, if_neg hne]
      refine (Held.envLoop W env hA T hsel n (i + 1) h4 e4 e5 h5 (fun j hj => ?_) e2).more h2 h3
      obtain ⟨o, ho⟩ := hget j (by omega)
      obtain ⟨o2, h3, _⟩ := shape_getOpt (e4.shape.trans hG.shape.symm) ho
      exact ⟨o2, h3⟩

theorem Held.table_len {base : Ptr → Nat → Option Blk} {B : Nat → Option Blk} {sel : List Nat} {lk : Ptr → Prop} {c : MemArgus}
    {a : Argus} (H : Held base B sel lk c a) {k : Nat} {os : List Opt} (ho : a.table (some k) = .ok os) :
    ∃ os', c.a.table (some k) = .ok os' ∧ os'.length = os.length := by
  obtain ⟨_, hk, h1⟩ := table_eq_ok.1 ho
  simp only [Option.some.injEq] at hk
  subst hk
  have h2 : (c.a.shape)[k]? = (a.shape)[k]? := by rw [H.shape]
  unfold Argus.shape at h2
  rw [List.getElem?_map, List.getElem?_map, h1] at h2
  cases h3 : c.a.tables[k]? with
  | none => rw [h3] at h2; cases h2
  | some os' =>
    rw [h3] at h2
    simp only [Option.map_some, Option.some.injEq] at h2
    exact ⟨os', table_eq_ok.2 ⟨k, rfl, h3⟩, by have := congrArg List.length h2; simpa using this⟩

theorem Held.envTable (W : World) (env : Env) {A : Allocator} (hA : A.Never) {S : List (List Opt)} {root : Nat}
    {sel : List Nat} {E : Argus → List Act → Prop} {P : Str → Prop} (T : Tracks W env E P) {k : Nat} (hsel : k ∈ sel) (hk : k < S.length)
    {a : Argus} {c : MemArgus} {base : Ptr → Nat → Option Blk} {B : Nat → Option Blk} (H : Held base B sel (fun _ => False) c a)
    (hG : Good S root a) (hF : Fits env a []) (hE : E a []) {r : Int × Argus} (hr : loadEnvTable W env a k = .ok r) :
    HeldAfter E P sel B (loadEnvTableH W A env c k) r := by
  obtain ⟨os, hos⟩ := hG.table hk
  unfold loadEnvTable at hr
  rw [hos, Out.ok_bind] at hr
  obtain ⟨os', h1, h2⟩ := H.table_len hos
  unfold loadEnvTableH
  rw [h1, Out.ok_bind, h2]
  exact H.envLoop W env hA T hsel _ 0 hG hF hE (fun j hj => by
    obtain ⟨o, ho, _⟩ := findIn_get hos (i := j) (by omega)
    exact ⟨o, ho⟩) hr

theorem Held.envStack (W : World) (env : Env) {A : Allocator} (hA : A.Never) {S : List (List Opt)} {root : Nat}
    {sel : List Nat} {E : Argus → List Act → Prop} {P : Str → Prop} (T : Tracks W env E P) :
    ∀ (ps : List Ptr) {a : Argus} {c : MemArgus} {base : Ptr → Nat → Option Blk} {B : Nat → Option Blk},
    Held base B sel (fun _ => False) c a → Good S root a → Fits env a [] → E a [] →
    (∀ p ∈ ps, p ∈ a.stack ∧ ∀ o k, a.getOpt p = .ok o → o.subOptions = some k → k ∈ sel) → ∀ {r : Int × Argus},
    loadEnvStack W env a ps = .ok r → HeldAfter E P sel B (loadEnvStackH W A env c ps) r
  | [], a, c, base, B, H, hG, hF, hE, _, r, hr => by
    simp only [loadEnvStack, Out.ok.injEq] at hr
    subst hr
    exact ⟨c, base, B, [], none, rfl, Left.refl _, by simp, Held.mono H (fun _ h => h.elim), fun _ => rfl, fun _ => hE⟩
  | p :: ps, a, c, base, B, H, hG, hF, hE, hp, r, hr => by
    obtain ⟨hp1, hp2⟩ := hp p (by simp)
    obtain ⟨o, j, h1, h2, h3, _⟩ := hG.stack p hp1
    obtain ⟨ho0, g1, g2, _⟩ := H.each p o h1
    have hsub : ho0.o.subOptions = o.subOptions := (congrArg Opt.subOptions g2.meta : ho0.o.meta.subOptions = o.meta.subOptions)
    unfold loadEnvStack at hr
    unfold loadEnvStackH
    rw [h1, Out.ok_bind, h2] at hr
    rw [(opt_ok g1).1, Out.ok_bind, hsub, h2]
    simp only at hr ⊢
    obtain ⟨x, e1, e2⟩ := Out.bind_eq_ok hr
    obtain ⟨x', e3, e4, e5, e6⟩ := loadEnvTable_good W env h3 hF hG
    rw [e1] at e3; simp only [Out.ok.injEq] at e3; subst e3
    have st := H.envTable W env hA T (hp2 o j h1 h2) h3 hG hF hE e1
    split at e2
    · rename_i hne
      simp only [Out.ok.injEq] at e2; subst e2
      obtain ⟨c', base', B', ks, leak, h1, h2⟩ := st
      rw [h1, Out.ok_bind, if_pos hne]
      exact ⟨c', base', B', ks, leak, rfl, h2⟩
    · rename_i hne
      obtain ⟨c', base', B', ks, f1, f2, f3, f4, f5⟩ := st.calm (Decidable.not_not.1 hne)
      rw [f1, Out.ok_bind, if_neg hne]
      refine (Held.envStack W env hA T ps f4 e4 e6 f5 (fun q hq => ?_) e2).more f2 f3
      obtain ⟨q1, q2⟩ := hp q (by simp [hq])
      refine ⟨by rw [e5]; exact q1, fun y k hy hyk => ?_⟩
      obtain ⟨y2, y3, y4⟩ := shape_getOpt (hG.shape.trans e4.shape.symm) hy
      exact q2 y2 k y3 ((congrArg Opt.subOptions y4 : y2.meta.subOptions = y.meta.subOptions).trans hyk)

/-- `load_env_vars` in memory. -/
theorem Held.envVars (W : World) (env : Env) {A : Allocator} (hA : A.Never) {S : List (List Opt)} {root : Nat} (hS : Closed S root)
    {sel : List Nat} {E : Argus → List Act → Prop} {P : Str → Prop} (T : Tracks W env E P)
    {a : Argus} {c : MemArgus} {base : Ptr → Nat → Option Blk} {B : Nat → Option Blk} (H : Held base B sel (fun _ => False) c a)
    (hG : Good S root a) (hF : Fits env a []) (hE : E a []) (hroot : a.root ∈ sel)
    (hsel : ∀ p ∈ a.stack, ∀ o k, a.getOpt p = .ok o → o.subOptions = some k → k ∈ sel) {r : Int × Argus}
    (hr : loadEnvVars W env a = .ok r) : HeldAfter E P sel B (loadEnvVarsH W A env c) r := by
  unfold loadEnvVars at hr
  unfold loadEnvVarsH
  rw [H.root]
  obtain ⟨x, e1, e2⟩ := Out.bind_eq_ok hr
  have hk : a.root < S.length := by rw [hG.root]; exact hS.root
  obtain ⟨x', e3, e4, e5, e6⟩ := loadEnvTable_good W env hk hF hG
  rw [e1] at e3; simp only [Out.ok.injEq] at e3; subst e3
  have st := H.envTable W env hA T hroot hk hG hF hE e1
  split at e2
  · rename_i hne
    simp only [Out.ok.injEq] at e2; subst e2
    obtain ⟨c', base', B', ks, leak, h1, h2⟩ := st
    rw [h1, Out.ok_bind, if_pos hne]
    exact ⟨c', base', B', ks, leak, rfl, h2⟩
  · rename_i hne
    obtain ⟨c', base', B', ks, f1, f2, f3, f4, f5⟩ := st.calm (Decidable.not_not.1 hne)
    rw [f1, Out.ok_bind, if_neg hne, f4.stack]
    refine (Held.envStack W env hA T _ f4 e4 e6 f5 (fun q hq => ⟨hq, fun y k hy hyk => ?_⟩) e2).more f2 f3
    obtain ⟨y2, y3, y4⟩ := shape_getOpt (hG.shape.trans e4.shape.symm) hy
    exact hsel q (by rw [← e5]; exact hq) y2 k y3 ((congrArg Opt.subOptions y4 : y2.meta.subOptions = y.meta.subOptions).trans hyk)

end Argus
