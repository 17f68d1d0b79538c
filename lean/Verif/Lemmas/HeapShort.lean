import Verif.Lemmas.HeapKeys
import Verif.Spec.HeapShort

/-!
# Lemmas: a whole parse when allocations fail
-/

set_option autoImplicit false

namespace Argus

/-- Two computations are the same, or the first ends with `P`. -/
def SameOr {α : Type} (P : α → Prop) (x y : Out α) : Prop := x = y ∨ ∀ r, x = .ok r → P r

theorem SameOr.rfl' {α : Type} {P : α → Prop} (x : Out α) : SameOr P x x := .inl rfl

theorem SameOr.bind {α β : Type} {P : α → Prop} {Q : β → Prop} {x y : Out α} {k k' : α → Out β} (h : SameOr P x y)
    (hk : ∀ r, SameOr Q (k r) (k' r)) (hP : ∀ r, P r → ∀ s, k r = .ok s → Q s) : SameOr Q (x >>= k) (y >>= k') := by
  rcases h with rfl | h
  · cases x with
    | ub u => exact .inl rfl
    | ok r => exact hk r
  · refine .inr (fun s hs => ?_)
    obtain ⟨r, h1, h2⟩ := Out.bind_eq_ok hs
    exact hP r (h r h1) s h2

theorem SameOr.after {α β : Type} {Q : β → Prop} {x : Out α} {k k' : α → Out β}
    (hk : ∀ r, SameOr Q (k r) (k' r)) : SameOr Q (x >>= k) (x >>= k') :=
  SameOr.bind (P := fun _ => False) (.inl rfl) hk (fun _ h => h.elim)

/-- The same allocator with memory always there. -/
def Allocator.ample (A : Allocator) : Allocator := { A with malloc := fun _ => true }

theorem Allocator.ample_never {A : Allocator} (h : A.Grows) : A.ample.Never := fun i => ⟨rfl, h i⟩

theorem malloc_ample (A : Allocator) (h : Heap) (b : Blk) :
    h.malloc A b = h.malloc A.ample b ∨ ∃ h1, h.malloc A b = (none, h1) := by
  rcases malloc_cases A h b with ⟨_, e⟩ | ⟨_, e⟩
  · left; rw [e]; rfl
  · exact .inr ⟨_, e⟩

theorem adjustH_ample (A : Allocator) (ho : HOpt) (h : Heap) :
    SameOr (fun r => r.1.o.valueCapacity = 0) (adjustH A ho h) (adjustH A.ample ho h) := by
  unfold adjustH
  cases ho.ptr with
  | some a => exact .inl rfl
  | none =>
    simp only
    rcases malloc_ample A h (.rows (List.replicate initialCapacity [])) with e | ⟨h1, e⟩
    · rw [e]; exact .inl rfl
    · rw [e]
      refine .inr (fun r hr => ?_)
      simp only [Out.ok.injEq] at hr
      subst hr; rfl

/-- A store that says when it lacks memory. -/
def Tells (f f' : HOpt → Heap → Str → Out MRes) : Prop :=
  ∀ ho h s, SameOr (fun r : MRes => r.1 = Err.memory) (f ho h s) (f' ho h s)

theorem setStringH_ample (A : Allocator) : Tells (setStringH A) (setStringH A.ample) := by
  intro ho h s
  unfold setStringH
  refine (adjustH_ample A ho h).bind (fun x => ?_) (fun x hx r hr => ?_)
  · by_cases hc : x.1.o.valueCapacity = 0
    · rw [if_pos hc, if_pos hc]; exact .inl rfl
    · rw [if_neg hc, if_neg hc]
      rcases malloc_ample A x.2 (.text s) with e | ⟨h1, e⟩
      · rw [e]; exact .inl rfl
      · rw [e]
        refine .inr (fun r hr => ?_)
        simp only [Out.ok.injEq] at hr
        subst hr; rfl
  · rw [if_pos hx] at hr
    simp only [Out.ok.injEq] at hr
    subst hr; rfl

theorem setNumH_ample (A : Allocator) (conv : Str → Option Word) : Tells (setNumH A conv) (setNumH A.ample conv) := by
  intro ho h s
  unfold setNumH
  refine (adjustH_ample A ho h).bind (fun x => .inl rfl) (fun x hx r hr => ?_)
  rw [if_pos hx] at hr
  simp only [Out.ok.injEq] at hr
  subst hr; rfl

theorem splitLoopH_ample (A : Allocator) : ∀ (ws : List Str) (done : List Nat) (h : Heap),
    SameOr (fun r => r.1 = none) (splitLoopH A ws done h) (splitLoopH A.ample ws done h)
  | [], done, h => .inl rfl
  | w :: ws, done, h => by
    unfold splitLoopH
    rcases malloc_ample A h (.text w) with e | ⟨h1, e⟩
    · rw [e]
      rcases malloc_cases A.ample h (.text w) with ⟨_, e1⟩ | ⟨h1, _⟩
      · rw [e1]; exact splitLoopH_ample A ws _ _
      · cases h1
    · rw [e]
      refine .inr (fun r hr => ?_)
      obtain ⟨h2, _, hr⟩ := Out.bind_eq_ok hr
      simp only [Out.ok.injEq] at hr
      subst hr; rfl

theorem splitH_ample (A : Allocator) (ws : List Str) (h : Heap) :
    SameOr (fun r => r.1 = none) (splitH A ws h) (splitH A.ample ws h) := by
  unfold splitH
  rcases malloc_ample A h (.words []) with e | ⟨h1, e⟩
  · rw [e]
    rcases malloc_cases A.ample h (.words []) with ⟨_, e1⟩ | ⟨h1, _⟩
    · rw [e1]
      refine (splitLoopH_ample A ws [] _).bind (fun x => .inl rfl) (fun x hx r hr => ?_)
      obtain ⟨y, h2⟩ := x
      simp only at hx
      subst hx
      obtain ⟨h3, _, hr⟩ := Out.bind_eq_ok hr
      simp only [Out.ok.injEq] at hr
      subst hr; rfl
    · cases h1
  · rw [e]
    refine .inr (fun r hr => ?_)
    simp only [Out.ok.injEq] at hr
    subst hr; rfl

theorem setAllH_ample {f f' : HOpt → Heap → Str → Out MRes} (hf : Tells f f') (p : Nat) : ∀ (fuel i : Nat) (ho : HOpt) (h : Heap),
    SameOr (fun r : MRes => r.1 = Err.memory) (setAllH f p fuel i ho h) (setAllH f' p fuel i ho h)
  | 0, i, ho, h => .inl rfl
  | fuel + 1, i, ho, h => by
    unfold setAllH
    refine SameOr.after (fun c => ?_)
    by_cases hc : c = .data .null
    · rw [if_pos hc, if_pos hc]; exact .inl rfl
    · rw [if_neg hc, if_neg hc]
      refine SameOr.after (fun w => ?_)
      cases w.strD with
      | none => exact .inl rfl
      | some s =>
        refine (hf ho h s).bind (fun r => ?_) (fun r hr s hs => ?_)
        · by_cases hr : r.1 ≠ Err.success
          · rw [if_pos hr, if_pos hr]; exact .inl rfl
          · rw [if_neg hr, if_neg hr]; exact setAllH_ample hf p fuel (i + 1) _ _
        · rw [if_pos (by rw [hr]; decide)] at hs
          simp only [Out.ok.injEq] at hs
          subst hs; exact hr

theorem storePartsH_ample (A : Allocator) {f f' : HOpt → Heap → Str → Out MRes} (hf : Tells f f') :
    Tells (storePartsH A f) (storePartsH A.ample f') := by
  intro ho h v
  unfold storePartsH
  by_cases hc : v.contains 44 = true
  · rw [if_pos hc, if_pos hc]
    refine (splitH_ample A _ h).bind (fun x => ?_) (fun x hx r hr => ?_)
    · obtain ⟨y, h1⟩ := x
      cases y with
      | none => exact .inl rfl
      | some p =>
        refine (setAllH_ample hf p _ 0 ho h1).bind (fun r => .inl rfl) (fun r hr s hs => ?_)
        obtain ⟨h3, _, hs⟩ := Out.bind_eq_ok hs
        simp only [Out.ok.injEq] at hs
        subst hs; exact hr
    · obtain ⟨y, h1⟩ := x
      simp only at hx
      subst hx
      simp only [Out.ok.injEq] at hr
      subst hr; rfl
  · rw [if_neg hc, if_neg hc]; exact hf ho h v

theorem collectH_ample {f f' : HOpt → Heap → Str → Out MRes} (hf : Tells f f') (fl : HOpt → Heap → Out (HOpt × Heap)) :
    Tells (collectH f fl) (collectH f' fl) := by
  intro ho h v
  unfold collectH
  refine (hf ho h v).bind (fun r => .inl rfl) (fun r hr s hs => ?_)
  rw [if_pos (by rw [hr]; decide)] at hs
  simp only [Out.ok.injEq] at hs
  subst hs; exact hr

theorem runHandlerH_ample (W : World) (A : Allocator) {hd : Handler} (C : CheckedHandler hd) :
    Tells (runHandlerH W A hd) (runHandlerH W A.ample hd) := by
  intro ho h v
  unfold runHandlerH
  cases C with
  | arrayString => exact collectH_ample (storePartsH_ample A (setStringH_ample A)) _ ho h v
  | variadicString => exact collectH_ample (setStringH_ample A) _ ho h v
  | variadicInt => exact collectH_ample (setNumH_ample A _) _ ho h v
  | variadicFloat => exact collectH_ample (setNumH_ample A _) _ ho h v

/-! ### Options -/

/-- All arrays, maps and variadic options are of the kinds that check their allocations. -/
def AllChecked (a : Argus) : Prop :=
  ∀ p o, a.getOpt p = .ok o → ∀ hd, o.handler = some hd → hd.isCollection = true → CheckedHandler hd

theorem AllChecked.shape {a b : Argus} (h : AllChecked a) (hs : b.shape = a.shape) : AllChecked b := by
  intro p o ho hd hh
  obtain ⟨o', h1, h2⟩ := shape_getOpt hs.symm ho
  exact h p o' h1 hd ((congrArg Opt.handler h2 : o'.meta.handler = o.meta.handler).trans hh)

theorem AllChecked.no_map {a : Argus} (h : AllChecked a) {p : Ptr} {o : Opt} (ho : a.getOpt p = .ok o) {vt : ValueType}
    (hm : IsMapOption o vt) : False := by
  cases hm with
  | string h1 _ => have := h p o ho _ h1 rfl; cases this
  | int h1 _ => have := h p o ho _ h1 rfl; cases this
  | float h1 _ => have := h p o ho _ h1 rfl; cases this
  | bool h1 _ => have := h p o ho _ h1 rfl; cases this

theorem AllChecked.lost {W : World} {a : Argus} (h : AllChecked a) {p : Ptr} {o : Opt} (ho : a.getOpt p = .ok o) {t : Option Str}
    {ks : List Str} (hl : Losing W o t ks) : ks = [] := by
  rcases hl with rfl | ⟨_, _, hm, _⟩
  · rfl
  · exact (h.no_map ho hm).elim

theorem tracks_checked (W : World) (env : Env) : Tracks W env (fun a _ => AllChecked a) (fun _ => False) where
  give := fun _ _ _ hE h => hE.shape (execCallbacks_one h).frame.shape
  enter := fun _ _ hE h => hE.shape (enterSub_frame h).1.shape
  lost := fun ho _ hE hl k hk => by rw [hE.lost ho hl] at hk; cases hk
  envGive := fun _ _ _ hE _ _ h => hE.shape (execCallbacks_one h).frame.shape
  envLost := fun ho _ hE _ _ hl k hk => by rw [hE.lost ho hl] at hk; cases hk
  same := fun ht _ hE => hE.shape (shape_congr ht)

theorem arr_set {hd : Handler} {vt : ValueType} {fh : FreeHandler} {k : CellKind} {n : Nat} (H : ArrHandler hd vt fh k n)
    {ho : HOpt} {cs : List Word} (hs : Sound (ho.abs (arrColl k n) cs)) (hh : ho.o.handler = some hd) (hset : ho.o.isSet = true) :
    cs ≠ [] := by
  have hc : ArrHolds k ho.o.isSet (ho.abs (arrColl k n) cs) := by
    have := hs.holds hd hh
    cases H <;> exact this
  obtain ⟨_, cells, h1, _, h3⟩ := hc
  have hne := h3 hset
  rcases h1.val with ⟨h2, _⟩ | ⟨h2, _⟩
  · exact absurd h2 hne
  · by_cases hp : ho.ptr = none
    · rw [HOpt.abs_none hp] at h2
      have h4 : Val.word .null = Val.arr cells := h2
      cases h4
    · rw [HOpt.abs_some hp] at h2
      have h4 : Val.arr cs = Val.arr cells := h2
      cases h4
      exact hne

theorem Kept.metas {a b : HOpt} (h : Kept a b) : b.o.meta = a.o.meta := by
  unfold Kept at h; rw [h]; rfl

/-- A parse that ran out of memory: what there was is still known, but for one option. -/
def Short (S : List (List Opt)) (root : Nat) (B : Nat → Option Blk) (x : Out (Int × MemArgus)) : Prop :=
  ∃ c' a' a0 base' p, x = .ok (Err.memory, c') ∧ Held base' B (pathTables a0 a0.stack) (fun q => some p = some q) c' a' ∧
    Good S root a0 ∧ a'.shape = a0.shape ∧ a'.stack = a0.stack ∧ a'.root = a0.root

/-- `execute_callbacks`. -/
theorem Held.execShort (W : World) {A : Allocator} (hA : A.Grows) {S : List (List Opt)} {root : Nat} {base : Ptr → Nat → Option Blk}
    {B : Nat → Option Blk} {c : MemArgus} {a : Argus} (H : Held base B (pathTables a a.stack) (fun _ => False) c a) (hG : Good S root a)
    (hC : AllChecked a) {p : Ptr} {o : Opt} (ho : a.getOpt p = .ok o) {arg : Option Str} (harg : arg = none → o.valueType = .flag)
    (hT : ∀ v x, arg = some v → o.handler = some x → HarmlessTo o x v) (hsel : p.tbl ∈ pathTables a a.stack) :
    execCallbacksH W A c p arg = execCallbacksH W A.ample c p arg ∨
      (Short S root B (execCallbacksH W A c p arg) ∧ ∃ hd, o.handler = some hd ∧ hd.isCollection = true) := by
  obtain ⟨ho0, g1, g2, g3, g4⟩ := H.each p o ho
  have hs := hG.all p o ho
  have hhd : ho0.o.handler = o.handler := (congrArg Opt.handler g2.meta : ho0.o.meta.handler = o.meta.handler)
  unfold execCallbacksH
  rw [g1, Out.ok_bind, Out.ok_bind]
  simp only [hhd]
  cases hh : o.handler with
  | none => exact .inl rfl
  | some hd =>
    simp only
    cases hpre : runPreAll W c.a arg (ho0.o.validators.getD []) with
    | ub u => exact .inl rfl
    | ok pre =>
      rw [Out.ok_bind, Out.ok_bind]
      by_cases hne : pre.1 ≠ Err.success
      · rw [if_pos hne, if_pos hne]; exact .inl rfl
      · rw [if_neg hne, if_neg hne]
        unfold callHandlerH
        by_cases hc : hd.isCollection = true
        · rw [if_pos hc, if_pos hc]
          cases arg with
          | none => exact .inl rfl
          | some v =>
            simp only
            have C := hC p o ho hd hh hc
            cases g2 with
            | plain h1 _ _ _ _ => rw [h1 hd hh] at hc; cases hc
            | map hd' fh k n cs M h1 h2 r h3 =>
              rw [hh] at hhd
              exact (hC.no_map ho (by rw [h3]; exact M.isMap h1 rfl)).elim
            | arr hd' fh k n cs M h1 h2 r h3 =>
              have : hd' = hd := by rw [hhd, hh] at h1; simpa using h1.symm
              subst this
              have hT' : hd'.splits = true → cs = [] → pieces v ≠ [] := by
                intro hsp hcs
                refine (hT v hd' rfl hh).1 hsp ?_
                cases hset : o.isSet with
                | false => rfl
                | true =>
                  subst h3
                  exact absurd hcs (arr_set M hs h1 hset)
              obtain ⟨st, ho', h', cs', e1, e2, e3, e4⟩ := checked_step W hA M C r rfl hT'
              rcases runHandlerH_ample W A C ho0 c.heap v with e | e
              · rw [e]; exact .inl rfl
              · have hst : st = Err.memory := e _ e1
                subst hst
                right
                refine ⟨?_, hd', rfl, hc⟩
                rw [e1, Out.ok_bind, if_pos (by show Err.memory ≠ Err.success; decide)]
                have hkept : Kept ho0 ho' := by
                  rcases e4 with ⟨_, h⟩ | ⟨h, _⟩
                  · exact h
                  · exact absurd h (by decide)
                have hmm : (ho'.abs (arrColl k n) cs').meta = o.meta := by
                  rw [h3]
                  exact hkept.metas
                have M1 : ArrHandler hd' ho'.o.valueType fh k n := by rw [e4.fixed.type]; exact M
                obtain ⟨base1, B1, l1, H1⟩ := H.step (lk' := fun q => some p = some q) ho hmm
                  (.arr hd' fh k n cs' M1 (e4.fixed.handler.trans h1) (e4.fixed.free.trans h2) e2 rfl) (Left.refl _)
                  (fun _ h => h.elim) (fun _ => .inr rfl) (fun _ => hsel)
                have := l1.nil
                subst this
                exact ⟨_, _, a, base1, p, rfl, H1, hG, shape_setOpt ho hmm, rfl, rfl⟩
        · rw [if_neg hc, if_neg hc]; exact .inl rfl

theorem Left.none_lost {ks : List Str} {b b' : Nat → Option Blk} (l : Left ks b b') (h : ∀ k ∈ ks, False) : b' = b := by
  have : ks = [] := List.eq_nil_iff_forall_not_mem.2 h
  subst this
  exact l.nil

/-- The command line. -/
theorem Held.runShort (W : World) (env : Env) {A : Allocator} (hA : A.Grows) {S : List (List Opt)} {root : Nat} (hS : Closed S root) :
    ∀ (xs : List Act) {a : Argus} {c : MemArgus} {base : Ptr → Nat → Option Blk} {B : Nat → Option Blk},
    Held base B (pathTables a a.stack) (fun _ => False) c a → Good S root a → (∀ x ∈ xs, ActWell S x) → Fits env a xs →
    Levels a.tables (pathTables a a.stack) xs → AllChecked a → ∀ r, Argus.run W a xs = .ok r →
    runH W A c xs = runH W A.ample c xs ∨ Short S root B (runH W A c xs)
  | [], _, _, _, _, _, _, _, _, _, _, _, _ => .inl rfl
  | .fail code :: xs, _, _, _, _, _, _, _, _, _, _, _, _ => .inl rfl
  | .noTable :: xs, _, _, _, _, _, _, _, _, _, _, _, _ => .inl rfl
  | .enter p :: xs, a, c, base, B, H, hG, hw, hF, hsel, hC, r, hr => by
    obtain ⟨m, h1, h2⟩ := hw (.enter p) (by simp)
    rw [← hG.shape] at h1
    obtain ⟨o, ho, rfl⟩ := entryAt_shape h1
    unfold Argus.run at hr
    obtain ⟨e, h3, h4⟩ := Out.bind_eq_ok hr
    obtain ⟨hG1, hF1⟩ := enter_good env hS hG ho h2 hF h3
    have hs := hG.all p o ho
    obtain ⟨e', f1, base1, H1⟩ := H.enter ho hs h2 h3
    have hsh : e.2.shape = a.shape := hG1.shape.trans hG.shape.symm
    have hstk : e.2.stack = a.stack ++ [p] := by
      unfold enterSub at h3
      rw [ho, Out.ok_bind] at h3
      split at h3
      · cases h3
      · simp only [Out.ok.injEq] at h3
        subst h3; rfl
    have hpt : pathTables e.2 e.2.stack = pathTables a a.stack ++ (tableBelow a.tables p).toList := by
      rw [pathTables_same hsh (hG1.root.trans hG.root.symm), hstk]
      unfold pathTables
      rw [List.filterMap_append, List.cons_append]
      cases hb : tableBelow a.tables p <;> simp [hb]
    have hsub : ∀ k ∈ pathTables a a.stack, k ∈ pathTables e.2 e.2.stack := fun k hk => by
      rw [hpt]; exact List.mem_append_left _ hk
    have hsub' : ∀ k ∈ pathTables a a.stack ++ (tableBelow a.tables p).toList, k ∈ pathTables e.2 e.2.stack := fun k hk => by
      rw [hpt]; exact hk
    unfold runH
    rw [f1, Out.ok_bind, Out.ok_bind]
    exact Held.runShort W env hA hS xs (H1.monoSel hsub) hG1 (fun x hx => hw x (by simp [hx])) hF1
      ((show Levels a.tables (_ ++ _) xs from hsel).shape hsh xs |>.mono xs hsub') (hC.shape hsh) r h4
  | .give p t :: xs, a, c, base, B, H, hG, hw, hF, hsel, hC, r, hr => by
    obtain ⟨m, h1, h2⟩ := hw (.give p t) (by simp)
    rw [← hG.shape] at h1
    obtain ⟨o, ho, rfl⟩ := entryAt_shape h1
    unfold Argus.run at hr
    obtain ⟨x, h3, h4⟩ := Out.bind_eq_ok hr
    obtain ⟨hT, hgood⟩ := give_good W env hG ho h2 hF
    obtain ⟨hG1, hF1⟩ := hgood x h3
    have hsh : x.2.shape = a.shape := hG1.shape.trans hG.shape.symm
    have hpt : pathTables x.2 x.2.stack = pathTables a a.stack := by
      rw [pathTables_same hsh (hG1.root.trans hG.root.symm), (execCallbacks_one h3).stack]
    unfold runH
    rcases H.execShort W hA hG hC ho h2 hT hsel.1 with e | ⟨⟨c1, a1, a0, b1, q, e, hrest⟩, _⟩
    · obtain ⟨c1, base1, B1, ks1, f1, f2, f3, f4⟩ := H.exec W (Allocator.ample_never hA) hG ho h2 hT hsel.1 h3
      rw [e, f1, Out.ok_bind, Out.ok_bind]
      simp only
      split at h4
      · rename_i hne
        rw [if_pos hne, if_pos hne]; exact .inl rfl
      · rename_i hne
        rw [if_neg hne, if_neg hne]
        have hok : x.1 = Err.success := Decidable.not_not.1 hne
        have hks := hC.lost ho f3
        subst hks
        have := f2.nil
        subst this
        exact Held.runShort W env hA hS xs
          (Held.mono (lk' := fun _ => False) (by rw [hpt]; exact f4) (fun q hq => by
            rcases hq with hq | ⟨hq, _⟩
            · exact hq
            · exact hq hok)) hG1 (fun x hx => hw x (by simp [hx])) (hF1 hok)
          (by rw [hpt]; exact hsel.2.shape hsh xs) (hC.shape hsh) r h4
    · right
      rw [e, Out.ok_bind, if_pos (by show Err.memory ≠ Err.success; decide)]
      exact ⟨c1, a1, a0, b1, q, rfl, hrest⟩

/-! ### The environment -/

theorem Held.envStepShort (W : World) (env : Env) {A : Allocator} (hA : A.Grows) {S : List (List Opt)} {root : Nat}
    {a : Argus} {c : MemArgus} {base : Ptr → Nat → Option Blk} {B : Nat → Option Blk}
    (H : Held base B (pathTables a a.stack) (fun _ => False) c a) (hG : Good S root a)
    (hF : Fits env a []) (hC : AllChecked a) {p : Ptr} {o : Opt} (ho : a.getOpt p = .ok o) (hsel : p.tbl ∈ pathTables a a.stack) :
    loadEnvStepH W A env c p = loadEnvStepH W A.ample env c p ∨ Short S root B (loadEnvStepH W A env c p) := by
  obtain ⟨ho0, g1, g2, g3, g4⟩ := H.each p o ho
  have hs := hG.all p o ho
  have hm := g2.meta
  have hfl : ho0.o.flags = o.flags := (congrArg Opt.flags hm : ho0.o.meta.flags = o.meta.flags)
  have hen : envVarName c.a.envPrefix ho0.o = envVarName a.envPrefix o := by
    rw [H.pre]
    have : envVarName a.envPrefix ho0.o.meta = envVarName a.envPrefix o.meta := by rw [hm]
    exact this
  unfold loadEnvStepH
  rw [g1, Out.ok_bind, Out.ok_bind]
  split
  · exact .inl rfl
  · split
    · exact .inl rfl
    · rename_i h2
      rw [hen]
      cases hn : envVarName a.envPrefix o with
      | none => exact .inl rfl
      | some n =>
        simp only
        cases hv : env n with
        | none => exact .inl rfl
        | some v =>
          simp only
          have hT : ∀ w x, some v = some w → o.handler = some x → HarmlessTo o x w := fun w x hw hx => by
            simp only [Option.some.injEq] at hw; subst hw
            obtain ⟨k1, k2⟩ := hF p o x ho hx
            have hev : textsOf p [] ++ envTexts a.envPrefix env o = [some v] := by
              unfold envTexts; rw [hn, Option.bind_some, hv]; rfl
            rw [hev] at k1 k2
            exact ⟨fun hs hf => k1 hs hf v rfl, fun hi => k2 hi v (by simp)⟩
          rcases H.execShort W hA hG hC ho (arg := some v) (by simp) hT hsel with e | ⟨⟨c1, a1, a0, b1, q, e, hrest⟩, hd, hh, hc⟩
          · rw [e]; exact .inl rfl
          · right
            have hset : ho0.o.isSet = false := by
              cases hset : ho0.o.isSet with
              | false => rfl
              | true => exact absurd ⟨hset, by rw [hfl]; exact hs.decl.env hd hh hc⟩ h2
            rw [e, Out.ok_bind, if_pos (by show Err.memory ≠ Err.success; decide), if_neg (by rw [hset]; simp)]
            exact ⟨c1, a1, a0, b1, q, rfl, hrest⟩

theorem pathTables_step {S : List (List Opt)} {root : Nat} {a b : Argus} (hG : Good S root a) (hG1 : Good S root b)
    (hst : b.stack = a.stack) : pathTables b b.stack = pathTables a a.stack := by
  rw [pathTables_same (hG1.shape.trans hG.shape.symm) (hG1.root.trans hG.root.symm), hst]

theorem Held.envLoopShort (W : World) (env : Env) {A : Allocator} (hA : A.Grows) {S : List (List Opt)} {root : Nat} {k : Nat} :
    ∀ (n i : Nat) {a : Argus} {c : MemArgus} {base : Ptr → Nat → Option Blk} {B : Nat → Option Blk},
    Held base B (pathTables a a.stack) (fun _ => False) c a → Good S root a → Fits env a [] → AllChecked a →
    k ∈ pathTables a a.stack → (∀ j, j < i + n → ∃ o, a.getOpt ⟨k, j⟩ = .ok o) → ∀ {r : Int × Argus}, loadEnvLoop W env k n i a = .ok r →
    loadEnvLoopH W A env k n i c = loadEnvLoopH W A.ample env k n i c ∨ Short S root B (loadEnvLoopH W A env k n i c)
  | 0, _, _, _, _, _, _, _, _, _, _, _, _, _ => .inl rfl
  | n + 1, i, a, c, base, B, H, hG, hF, hC, hsel, hget, r, hr => by
    obtain ⟨o, ho⟩ := hget i (by omega)
    unfold loadEnvLoop at hr
    obtain ⟨x, e1, e2⟩ := Out.bind_eq_ok hr
    obtain ⟨x', e3, e4, e5⟩ := loadEnvStep_good W env hG hF ho
    rw [e1] at e3; simp only [Out.ok.injEq] at e3; subst e3
    unfold loadEnvLoopH
    rcases H.envStepShort W env hA hG hF hC ho hsel with e | ⟨c1, a1, a0, b1, q, e, hrest⟩
    · have st := H.envStep W env (Allocator.ample_never hA) (tracks_checked W env) hG hF hC ho hsel e1
      rw [e]
      split at e2
      · rename_i hne
        obtain ⟨c', base', B', ks, leak, h1, h2⟩ := st
        rw [h1, Out.ok_bind, Out.ok_bind, if_pos hne, if_pos hne]; exact .inl rfl
      · rename_i hne
        obtain ⟨c', base', B', ks, h1, h2, h3, h4, h5⟩ := st.calm (Decidable.not_not.1 hne)
        rw [h1, Out.ok_bind, Out.ok_bind, if_neg hne, if_neg hne]
        have := h2.none_lost h3
        subst this
        have hpt := pathTables_step hG e4 (loadEnvStep_one e1).stack
        refine Held.envLoopShort W env hA n (i + 1) (by rw [hpt]; exact h4) e4 e5 h5 (by rw [hpt]; exact hsel) (fun j hj => ?_) e2
        obtain ⟨o, ho⟩ := hget j (by omega)
        obtain ⟨o2, h3, _⟩ := shape_getOpt (e4.shape.trans hG.shape.symm) ho
        exact ⟨o2, h3⟩
    · right
      rw [e, Out.ok_bind, if_pos (by show Err.memory ≠ Err.success; decide)]
      exact ⟨c1, a1, a0, b1, q, rfl, hrest⟩

theorem Held.envTableShort (W : World) (env : Env) {A : Allocator} (hA : A.Grows) {S : List (List Opt)} {root : Nat} {k : Nat}
    (hk : k < S.length) {a : Argus} {c : MemArgus} {base : Ptr → Nat → Option Blk} {B : Nat → Option Blk}
    (H : Held base B (pathTables a a.stack) (fun _ => False) c a) (hG : Good S root a) (hF : Fits env a []) (hC : AllChecked a)
    (hsel : k ∈ pathTables a a.stack) {r : Int × Argus} (hr : loadEnvTable W env a k = .ok r) :
    loadEnvTableH W A env c k = loadEnvTableH W A.ample env c k ∨ Short S root B (loadEnvTableH W A env c k) := by
  obtain ⟨os, hos⟩ := hG.table hk
  unfold loadEnvTable at hr
  rw [hos, Out.ok_bind] at hr
  obtain ⟨os', h1, h2⟩ := H.table_len hos
  unfold loadEnvTableH
  rw [h1, Out.ok_bind, Out.ok_bind, h2]
  exact H.envLoopShort W env hA _ 0 hG hF hC hsel (fun j hj => by
    obtain ⟨o, ho, _⟩ := findIn_get hos (i := j) (by omega)
    exact ⟨o, ho⟩) hr

theorem Held.envStackShort (W : World) (env : Env) {A : Allocator} (hA : A.Grows) {S : List (List Opt)} {root : Nat} :
    ∀ (ps : List Ptr) {a : Argus} {c : MemArgus} {base : Ptr → Nat → Option Blk} {B : Nat → Option Blk},
    Held base B (pathTables a a.stack) (fun _ => False) c a → Good S root a → Fits env a [] → AllChecked a →
    (∀ p ∈ ps, p ∈ a.stack) → ∀ {r : Int × Argus}, loadEnvStack W env a ps = .ok r →
    loadEnvStackH W A env c ps = loadEnvStackH W A.ample env c ps ∨ Short S root B (loadEnvStackH W A env c ps)
  | [], _, _, _, _, _, _, _, _, _, _, _ => .inl rfl
  | p :: ps, a, c, base, B, H, hG, hF, hC, hp, r, hr => by
    have hp1 := hp p (by simp)
    obtain ⟨o, j, h1, h2, h3, _⟩ := hG.stack p hp1
    obtain ⟨ho0, g1, g2, _⟩ := H.each p o h1
    have hsub : ho0.o.subOptions = o.subOptions := (congrArg Opt.subOptions g2.meta : ho0.o.meta.subOptions = o.meta.subOptions)
    have hsel : j ∈ pathTables a a.stack := by
      refine List.mem_cons_of_mem _ (List.mem_filterMap.2 ⟨p, hp1, ?_⟩)
      rw [tableBelow_subOf, subOf_eq h1, h2]
    unfold loadEnvStack at hr
    unfold loadEnvStackH
    rw [h1, Out.ok_bind, h2] at hr
    rw [(opt_ok g1).1, Out.ok_bind, Out.ok_bind, hsub, h2]
    simp only at hr ⊢
    obtain ⟨x, e1, e2⟩ := Out.bind_eq_ok hr
    obtain ⟨x', e3, e4, e5, e6⟩ := loadEnvTable_good W env h3 hF hG
    rw [e1] at e3; simp only [Out.ok.injEq] at e3; subst e3
    rcases H.envTableShort W env hA h3 hG hF hC hsel e1 with e | ⟨c1, a1, a0, b1, q, e, hrest⟩
    · have st := H.envTable W env (Allocator.ample_never hA) (tracks_checked W env) hsel h3 hG hF hC e1
      rw [e]
      split at e2
      · rename_i hne
        obtain ⟨c', base', B', ks, leak, h1, h2⟩ := st
        rw [h1, Out.ok_bind, Out.ok_bind, if_pos hne, if_pos hne]; exact .inl rfl
      · rename_i hne
        obtain ⟨c', base', B', ks, f1, f2, f3, f4, f5⟩ := st.calm (Decidable.not_not.1 hne)
        rw [f1, Out.ok_bind, Out.ok_bind, if_neg hne, if_neg hne]
        have := f2.none_lost f3
        subst this
        exact Held.envStackShort W env hA ps (by rw [pathTables_step hG e4 e5]; exact f4) e4 e6 f5
          (fun q hq => by rw [e5]; exact hp q (by simp [hq])) e2
    · right
      rw [e, Out.ok_bind, if_pos (by show Err.memory ≠ Err.success; decide)]
      exact ⟨c1, a1, a0, b1, q, rfl, hrest⟩

theorem Held.envVarsShort (W : World) (env : Env) {A : Allocator} (hA : A.Grows) {S : List (List Opt)} {root : Nat} (hS : Closed S root)
    {a : Argus} {c : MemArgus} {base : Ptr → Nat → Option Blk} {B : Nat → Option Blk}
    (H : Held base B (pathTables a a.stack) (fun _ => False) c a) (hG : Good S root a) (hF : Fits env a []) (hC : AllChecked a)
    {r : Int × Argus} (hr : loadEnvVars W env a = .ok r) :
    loadEnvVarsH W A env c = loadEnvVarsH W A.ample env c ∨ Short S root B (loadEnvVarsH W A env c) := by
  unfold loadEnvVars at hr
  unfold loadEnvVarsH
  rw [H.root]
  obtain ⟨x, e1, e2⟩ := Out.bind_eq_ok hr
  have hk : a.root < S.length := by rw [hG.root]; exact hS.root
  have hroot : a.root ∈ pathTables a a.stack := by simp [pathTables]
  obtain ⟨x', e3, e4, e5, e6⟩ := loadEnvTable_good W env hk hF hG
  rw [e1] at e3; simp only [Out.ok.injEq] at e3; subst e3
  rcases H.envTableShort W env hA hk hG hF hC hroot e1 with e | ⟨c1, a1, a0, b1, q, e, hrest⟩
  · have st := H.envTable W env (Allocator.ample_never hA) (tracks_checked W env) hroot hk hG hF hC e1
    rw [e]
    split at e2
    · rename_i hne
      obtain ⟨c', base', B', ks, leak, h1, h2⟩ := st
      rw [h1, Out.ok_bind, Out.ok_bind, if_pos hne, if_pos hne]; exact .inl rfl
    · rename_i hne
      obtain ⟨c', base', B', ks, f1, f2, f3, f4, f5⟩ := st.calm (Decidable.not_not.1 hne)
      rw [f1, Out.ok_bind, Out.ok_bind, if_neg hne, if_neg hne, f4.stack]
      have := f2.none_lost f3
      subst this
      exact Held.envStackShort W env hA x.2.stack (by rw [pathTables_step hG e4 e5]; exact f4) e4 e6 f5 (fun q hq => hq) e2
  · right
    rw [e, Out.ok_bind, if_pos (by show Err.memory ≠ Err.success; decide)]
    exact ⟨c1, a1, a0, b1, q, rfl, hrest⟩

/-! ### The release -/

/-- `argus_free` after running out of memory. -/
theorem Held.freeShort {S : List (List Opt)} {root : Nat} (hS : Closed S root) {base : Ptr → Nat → Option Blk} {B : Nat → Option Blk}
    {lk : Ptr → Prop} {c : MemArgus} {a a0 : Argus} (H : Held base B (pathTables a0 a0.stack) lk c a) (hG : Good S root a0)
    (hsh : a.shape = a0.shape) (hst : a.stack = a0.stack) (hrt : a.root = a0.root) :
    ∃ c' base', argusFreeH c = .ok c' ∧ Rel (fun _ => False) lk base' B c' ∧ SameFrame c c' := by
  have hc : c.a.shape = a0.shape := H.shape.trans hsh
  obtain ⟨os0, h0⟩ := hG.table (k := a0.root) (by rw [hG.root]; exact hS.root)
  obtain ⟨os, h1, _⟩ := shape_table hc h0
  obtain ⟨c1, base1, g1, g2, g3⟩ := H.rel.freeTable h1
  unfold argusFreeH
  rw [H.root, hrt, g1, Out.ok_bind, g3.stack]
  obtain ⟨c', base', f1, f2, f3⟩ := g2.freeStack c.a.stack (fun p hp => by
    obtain ⟨o, j, k1, k2, k3, _⟩ := hG.stack p (by rw [← hst, ← H.stack]; exact hp)
    obtain ⟨os1, k4⟩ := hG.table k3
    obtain ⟨os3, k6, _⟩ := shape_table (g3.shape.trans hc) k4
    obtain ⟨o', k7, k8⟩ := shape_getOpt (g3.shape.trans hc) k1
    exact ⟨o', j, os3, k7, (congrArg Opt.subOptions k8 : o'.meta.subOptions = o.meta.subOptions).trans k2, k6⟩)
  refine ⟨c', base', f1, f2.narrow (fun q _ _ hq => ?_), g3.trans f3⟩
  obtain ⟨⟨hq1, hq2⟩, hq3⟩ := hq
  unfold pathTables at hq1
  rcases List.mem_cons.1 hq1 with hq1 | hq1
  · exact hq2 hq1
  · obtain ⟨p, hp, hb⟩ := List.mem_filterMap.1 hq1
    refine hq3 p (by rw [H.stack, hst]; exact hp) ?_
    rw [tableBelow_shape (g3.shape.trans hc)]; exact hb

theorem Short.free {S : List (List Opt)} {root : Nat} (hS : Closed S root) {B : Nat → Option Blk} {x : Out (Int × MemArgus)}
    (h : Short S root B x) : ∃ c c', x = .ok (Err.memory, c) ∧ argusFreeH c = .ok c' ∧ GivenBack B c' := by
  obtain ⟨c, a', a0, base, p, h1, H, hG, h2, h3, h4⟩ := h
  obtain ⟨c', base', g1, g2, _⟩ := H.freeShort hS hG h2 h3 h4
  refine ⟨c, c', h1, g1, ?_⟩
  rcases g2.end with h | ⟨q, ho, fh, h', _, f⟩
  · exact .inl h
  · exact .inr ⟨q, ho, fh, h', f⟩

/-- `argus_parse` when allocations fail. -/
theorem parse_short (W : World) (env : Env) {A : Allocator} (hA : A.Grows) {a : Argus} (hp : a.Proper) (hst : a.stack = [])
    (hC : AllChecked a) {args : List Str} (hT : a.TextsFit args env) {h0 : Heap} (hs : h0.Sound) {e : ParseEnd} {a1 : Argus}
    (hr : argusParse W env a args = .ok (e, a1)) :
    argusParseH W A env (MemArgus.start a h0) args = argusParseH W A.ample env (MemArgus.start a h0) args ∨
      ∃ c1, argusParseH W A env (MemArgus.start a h0) args = .ok (.returned Err.memory, c1) ∧ GivenBack h0.live c1 := by
  obtain ⟨hS, hG⟩ := hp.good hst
  have hF : Fits env a (a.asks args) := hG.texts rfl rfl rfl hT
  have hlev : Levels a.tables (pathTables a a.stack) (a.asks args) :=
    meaning_levels a.tables args _ _ _ _ (fun k hk => by
      simp only [Option.some.injEq] at hk
      subst hk; simp [pathTables])
  have hw : ∀ x ∈ a.asks args, ActWell a.shape x := by
    rw [asks_shape]
    exact meaning_well hS args _ _ _ _ hS.root
  unfold argusParse at hr
  obtain ⟨r, h1, h2⟩ := Out.bind_eq_ok hr
  rw [parseArgs_run] at h1
  have H0 := Held.start hp hs (pathTables a a.stack)
  unfold argusParseH
  have hasks : (MemArgus.start a h0).a.asks args = a.asks args := rfl
  rw [hasks]
  rcases H0.runShort W env hA hS _ hG hw hF hlev hC r h1 with e1 | sh
  · obtain ⟨c1, base1, B1, ks1, leak, f1, f2, f3, f4, f5, f6, f7⟩ := H0.run W env (Allocator.ample_never hA) hS (tracks_checked W env) _ hG hw hF
      hlev hC r h1
    rw [e1, f1, Out.ok_bind, Out.ok_bind]
    simp only
    split at h2
    · rename_i hex
      rw [if_pos hex, if_pos hex]; exact .inl rfl
    · rename_i hex
      rw [if_neg hex, if_neg hex]
      split at h2
      · rename_i hne
        rw [if_pos hne, if_pos hne]; exact .inl rfl
      · rename_i hne
        rw [if_neg hne, if_neg hne]
        have hok : r.1 = Err.success := Decidable.not_not.1 hne
        obtain ⟨f8, f9⟩ := f7 hok
        obtain ⟨x, h3, h4⟩ := Out.bind_eq_ok h2
        have hG1 : Good a.shape a.root { r.2 with errorCode := r.1 } := f6.same rfl rfl rfl
        have H1 : Held base1 B1 (pathTables r.2 r.2.stack) (fun _ => False) c1 { r.2 with errorCode := r.1 } :=
          Held.mono (f4.congr (b := { r.2 with errorCode := r.1 }) rfl rfl rfl rfl) (fun q hq => by rw [f5 (.inl hok)] at hq; cases hq)
        have hF1 : Fits env { r.2 with errorCode := r.1 } [] := f8
        have hB : B1 = h0.live := f2.none_lost f3
        subst hB
        rcases Held.envVarsShort W env hA hS (a := { r.2 with errorCode := r.1 }) H1 hG1 hF1
            ((f9 : AllChecked r.2).shape (b := { r.2 with errorCode := r.1 }) rfl) h3 with e2 | sh
        · rw [e2]; exact .inl rfl
        · right
          obtain ⟨c, c', k1, k2, k3⟩ := sh.free hS
          rw [k1, Out.ok_bind, if_pos (by show Err.memory ≠ Err.success; decide), k2, Out.ok_bind]
          exact ⟨c', rfl, k3⟩
  · right
    obtain ⟨c, c', k1, k2, k3⟩ := sh.free hS
    rw [k1, Out.ok_bind, if_neg (by show Err.memory ≠ Err.shouldExit; decide), if_pos (by show Err.memory ≠ Err.success; decide), k2, Out.ok_bind]
    exact ⟨c', rfl, k3⟩

end Argus
