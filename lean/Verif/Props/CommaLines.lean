import Verif.Lemmas.Marked
import Verif.Lemmas.Safe
import Verif.Lemmas.Order
import Verif.Lemmas.Spelling
import Verif.Lemmas.Syntax
import Verif.Lemmas.Frame
import Verif.Spec.Sample

/-!
# C13 on whole lines: a comma is repetition

Arrays and maps, `source/callbacks/handlers/array_*.c` and `map_*.c`, inside any command line.
-/

set_option autoImplicit false

namespace Argus

/-- An option that takes lists: it splits texts at commas, keeps its values as they come, checks no text beforehand and does not
    end the process. -/
structure ListOption (o : Opt) : Prop where
  splits : ∃ h, o.handler = some h ∧ h.splits = true
  asTheyCome : ∀ f ∈ [Flag.sorted, .unique, .sortedValue, .sortedKey, .uniqueValue], o.flags.has f = false
  unchecked : ∀ v ∈ o.validators.getD [], v.order = .post
  stays : o.flags.has .exit = false

theorem ListOption.plainly {o : Opt} (h : ListOption o) : Plainly o :=
  ⟨h.asTheyCome _ (by simp), h.asTheyCome _ (by simp), h.asTheyCome _ (by simp), h.asTheyCome _ (by simp), h.asTheyCome _ (by simp)⟩

theorem ListOption.of_meta {o o' : Opt} (h : ListOption o) (hm : o'.meta = o.meta) : ListOption o' := by
  have e1 : o'.handler = o.handler := (congrArg Opt.handler hm : o'.meta.handler = o.meta.handler)
  have e2 : o'.flags = o.flags := (congrArg Opt.flags hm : o'.meta.flags = o.meta.flags)
  have e3 : o'.validators = o.validators := (congrArg Opt.validators hm : o'.meta.validators = o.meta.validators)
  exact ⟨by rw [e1]; exact h.splits, by rw [e2]; exact h.asTheyCome, by rw [e3]; exact h.unchecked, by rw [e2]; exact h.stays⟩

/-- Giving `s,t` to an option is giving it `s` and then `t`. -/
theorem ListOption.give_comma {W : World} {o : Opt} (hl : ListOption o) {s t : Str}
    (hs' : ∃ c ∈ s, c ≠ 44) (ht' : ∃ c ∈ t, c ≠ 44) :
    o.give W (some (s ++ c!"," ++ t)) = (o.give W (some s)).bind (fun o1 => o1.give W (some t)) := by
  obtain ⟨h, hh, hsp⟩ := hl.splits
  have hs : s ≠ [] := by rintro rfl; obtain ⟨c, hc, _⟩ := hs'; cases hc
  have ht : t ≠ [] := by rintro rfl; obtain ⟨c, hc, _⟩ := ht'; cases hc
  have p1 : pieces s ≠ [] := pieces_ne_nil (.inr hs')
  have p2 : pieces t ≠ [] := pieces_ne_nil (.inr ht')
  rw [give_stored hh hsp hl.plainly (by rw [pieces_comma hs ht]; simp [p1]), pieces_comma hs ht, stored_append (h.step_good W),
    give_stored hh hsp hl.plainly p1]
  cases hst : stored (h.step W) o (pieces s) with
  | none => rfl
  | some o1 =>
    have hm : o1.meta = o.meta := giveAll_meta [some s] (by
      simp only [Opt.giveAll]
      rw [give_stored hh hsp hl.plainly p1, hst]; rfl)
    have hl1 := hl.of_meta hm
    have e1 : o1.handler = some h := ((congrArg Opt.handler hm : o1.meta.handler = o.meta.handler)).trans hh
    exact (give_stored e1 hsp hl1.plainly p2).symm

theorem ListOption.exec {W : World} {a a' : Argus} {p : Ptr} {o : Opt} (hl : ListOption o) (ho : a.getOpt p = .ok o) (v : Str) :
    execCallbacks W a p (some v) = .ok (Err.success, a') ↔ ∃ o', o.give W (some v) = some o' ∧ a' = a.setOpt p o' := by
  obtain ⟨h, hh, hsp⟩ := hl.splits
  unfold execCallbacks Opt.give
  rw [ho, Out.ok_bind, hh]
  simp only [runPreAll_noPre _ a hl.unchecked, Out.ok_bind, ne_eq, not_true_eq_false, if_false, runHandler_step hsp hl.plainly]
  cases hr : setAll (h.step W) o (pieces v) with
  | ub u =>
    constructor
    · intro e; cases e
    · rintro ⟨o', e, _⟩; cases e
  | ok r =>
    simp only [Out.ok_bind]
    by_cases h0 : r.1 = Err.success
    · have hq := (setAll_quiet (h.step_good W) (pieces v) (o := o) (o' := r.2.1) (es := r.2.2) (by rw [hr, ← h0])).1
      have hfl : r.2.1.flags = o.flags :=
        (congrArg Opt.flags (setAll_meta (h.step_good W).decl _ hr) : r.2.1.meta.flags = o.meta.flags)
      have hx : ({ r.2.1 with isAllocated := true } : Opt).markSet.flags.has .exit = false := by
        show r.2.1.flags.has .exit = false
        rw [hfl]; exact hl.stays
      simp only [h0, not_true_eq_false, if_false, Out.ok_bind, hq, hx, Bool.false_eq_true, if_true]
      constructor
      · intro e
        simp only [Out.ok.injEq, Prod.mk.injEq, true_and] at e
        exact ⟨_, rfl, e.symm⟩
      · rintro ⟨o', e, rfl⟩
        simp only [Option.some.injEq] at e
        subst e; rfl
    · simp only [h0, not_false_eq_true, if_true, Out.ok_bind, if_false]
      constructor
      · intro e
        simp only [Out.ok.injEq, Prod.mk.injEq] at e
        exact absurd e.1 h0
      · rintro ⟨o', e, _⟩; cases e

theorem setOpt_twice (a : Argus) (p : Ptr) (o1 o2 : Opt) : (a.setOpt p o1).setOpt p o2 = a.setOpt p o2 := by
  unfold Argus.setOpt
  simp only [List.modify_modify_eq]
  congr 1
  congr 1
  funext os
  simp

/-- `--name=value` at some state of the parse. -/
theorem finish_attached {W : World} {s : PState} {k i : Nat} {os : List Opt} {name v : Str} {o : Opt} {post : List Str}
    (hskip : s.skip = false) (honly : s.only = false) (hk : s.t = some k) (ht : s.a.table s.t = .ok os)
    (hc : CalledLong os name i o) (hv : o.valueType ≠ .flag) (heq : (61 : Byte) ∉ name) (hlen : name.length ≤ 63) :
    s.finish W ((c!"--" ++ name ++ c!"=" ++ v) :: post) = (execCallbacks W s.a ⟨k, i⟩ (some v) >>= fun r =>
      if r.1 ≠ Err.success then .ok r else ({ s with a := r.2 } : PState).finish W post) := by
  have e1 : c!"--" ++ name ++ c!"=" ++ v = 45 :: 45 :: (name ++ 61 :: v) := by simp
  rw [finish_cons hskip, honly, e1, parseStep_long (by simp)]
  unfold handleLong
  rw [longParts_cut heq, ht]
  simp only [Out.ok_bind]
  have hf : findLname os (name.take 63) = some i := by
    rw [List.take_of_length_le hlen, longIdx_eq]
    exact longIdx_called.2 ⟨o, hc⟩
  rw [hf, hk]
  simp only [table_getOpt (by rw [← hk]; exact ht) hc.1, Out.ok_bind, hv, if_false]
  cases execCallbacks W s.a ⟨k, i⟩ (some v) with
  | ub u => rfl
  | ok r =>
    simp only [Out.ok_bind]
    unfold OptRes.step
    by_cases h0 : r.1 = Err.success
    · simp only [h0, ne_eq, not_true_eq_false, if_false]
      unfold PState.finish
      simp only [hskip, honly, hk]
    · simp only [h0, ne_eq, not_false_eq_true, if_true]

/-- **C13** (full statement: for all options that take lists). A comma is repetition, on whole lines: for every option that
    splits texts at commas, array or map of any type, `--name=x,y` anywhere on a line can be replaced by `--name=x --name=y` and
    conversely. One of the lines is accepted if and only if the other is, and then the two results are the same altogether.
    Missing: options with flags that sort or remove values (the values are the same by C16 and C17, but the capacity may not
    be), options whose texts are checked before the handler (the check sees other texts), and lists with nothing but commas
    (`C13_only_commas`). -/
theorem C13_line_partial (W : World) (env : Env) (a a' : Argus) (pre post : List Str) (s : PState) (os : List Opt) (name x y : Str)
    (i : Nat) (o : Opt) (hs : Reach W a pre s) (honly : s.only = false) (ht : s.a.table s.t = .ok os)
    (hc : CalledLong os name i o) (hl : ListOption o) (hv : o.valueType ≠ .flag) (heq : (61 : Byte) ∉ name)
    (hlen : name.length ≤ 63) (hx : ∃ c ∈ x, c ≠ 44) (hy : ∃ c ∈ y, c ≠ 44) :
    argusParse W env a (pre ++ (c!"--" ++ name ++ c!"=" ++ (x ++ c!"," ++ y)) :: post) = .ok (.returned Err.success, a') ↔
    argusParse W env a (pre ++ (c!"--" ++ name ++ c!"=" ++ x) :: (c!"--" ++ name ++ c!"=" ++ y) :: post) =
      .ok (.returned Err.success, a') := by
  obtain ⟨k, hk, hkt⟩ := table_eq_ok.1 ht
  have hg : s.a.getOpt ⟨k, i⟩ = .ok o := getOpt_eq_ok.2 ⟨os, hkt, hc.1⟩
  -- both lines read `post` from the same state, or neither does
  have key : ∀ r, s.finish W ((c!"--" ++ name ++ c!"=" ++ (x ++ c!"," ++ y)) :: post) = .ok (Err.success, r) ↔
      s.finish W ((c!"--" ++ name ++ c!"=" ++ x) :: (c!"--" ++ name ++ c!"=" ++ y) :: post) = .ok (Err.success, r) := by
    intro r
    rw [finish_attached hs.skip honly hk ht hc hv heq hlen, finish_attached hs.skip honly hk ht hc hv heq hlen]
    have second : ∀ o1, o.give W (some x) = some o1 →
        ({ s with a := s.a.setOpt ⟨k, i⟩ o1 } : PState).finish W ((c!"--" ++ name ++ c!"=" ++ y) :: post) =
          (execCallbacks W (s.a.setOpt ⟨k, i⟩ o1) ⟨k, i⟩ (some y) >>= fun r =>
            if r.1 ≠ Err.success then .ok r else ({ s with a := r.2 } : PState).finish W post) ∧
        ListOption o1 ∧ (s.a.setOpt ⟨k, i⟩ o1).getOpt ⟨k, i⟩ = .ok o1 := by
      intro o1 h1
      have hm : o1.meta = o.meta := giveAll_meta [some x] (by simp only [Opt.giveAll]; rw [h1]; rfl)
      have hi : i < os.length := (List.getElem?_eq_some_iff.1 hc.1).1
      refine ⟨?_, hl.of_meta hm, getOpt_setOpt_self hg⟩
      refine finish_attached (os := os.set i o1) (o := o1) (i := i) hs.skip honly hk ?_ ?_ ?_ heq hlen
      · exact table_eq_ok.2 ⟨k, hk, by simp [Argus.setOpt, hkt]⟩
      · refine ⟨by simp [hi], ⟨?_, ?_⟩, ?_⟩
        · exact ((congrArg Opt.type hm : o1.meta.type = o.meta.type)).trans hc.2.1.1
        · exact ((congrArg Opt.lname hm : o1.meta.lname = o.meta.lname)).trans hc.2.1.2
        · intro j o' hj ho'
          rw [List.getElem?_set_ne (by omega)] at ho'
          exact hc.2.2 j o' hj ho'
      · intro e
        exact hv (((congrArg Opt.valueType hm : o1.meta.valueType = o.meta.valueType)).symm.trans e)
    have split1 : ∀ (b : Argus) (v : Str) (q : Argus → Out (Int × Argus)),
        (execCallbacks W b ⟨k, i⟩ (some v) >>= fun r => if r.1 ≠ Err.success then .ok r else q r.2) = .ok (Err.success, r) ↔
          ∃ b', execCallbacks W b ⟨k, i⟩ (some v) = .ok (Err.success, b') ∧ q b' = .ok (Err.success, r) := by
      intro b v q
      constructor
      · intro h
        obtain ⟨u, h1, h2⟩ := Out.bind_eq_ok h
        by_cases h0 : u.1 = Err.success
        · rw [if_neg (by simpa using h0)] at h2
          exact ⟨u.2, by rw [h1, ← h0], h2⟩
        · rw [if_pos h0] at h2
          simp only [Out.ok.injEq] at h2
          rw [h2] at h0; exact absurd rfl h0
      · rintro ⟨b', h1, h2⟩
        rw [h1, Out.ok_bind, if_neg (by simp)]; exact h2
    rw [split1 s.a _ (fun b => ({ s with a := b } : PState).finish W post),
      split1 s.a x (fun b => ({ s with a := b } : PState).finish W ((c!"--" ++ name ++ c!"=" ++ y) :: post))]
    constructor
    · rintro ⟨b, h1, h2⟩
      obtain ⟨o2, h3, rfl⟩ := (hl.exec hg _).1 h1
      rw [hl.give_comma hx hy] at h3
      cases h4 : o.give W (some x) with
      | none => rw [h4] at h3; cases h3
      | some o1 =>
        rw [h4, Option.bind_some] at h3
        obtain ⟨e1, e2, e3⟩ := second o1 h4
        refine ⟨_, (hl.exec hg x).2 ⟨o1, h4, rfl⟩, ?_⟩
        rw [e1, split1 _ y (fun b => ({ s with a := b } : PState).finish W post)]
        exact ⟨_, (e2.exec e3 y).2 ⟨o2, h3, rfl⟩, by rw [setOpt_twice]; exact h2⟩
    · rintro ⟨b, h1, h2⟩
      obtain ⟨o1, h3, rfl⟩ := (hl.exec hg _).1 h1
      obtain ⟨e1, e2, e3⟩ := second o1 h3
      rw [e1, split1 _ y (fun b => ({ s with a := b } : PState).finish W post)] at h2
      obtain ⟨b, h4, h5⟩ := h2
      obtain ⟨o2, h6, rfl⟩ := (e2.exec e3 _).1 h4
      rw [setOpt_twice] at h5
      exact ⟨_, (hl.exec hg _).2 ⟨o2, by rw [hl.give_comma hx hy, h3]; exact h6, rfl⟩, h5⟩
  have toward : ∀ p q : List Str, (∀ r, s.finish W p = .ok (Err.success, r) → s.finish W q = .ok (Err.success, r)) →
      argusParse W env a (pre ++ p) = .ok (.returned Err.success, a') →
      argusParse W env a (pre ++ q) = .ok (.returned Err.success, a') := by
    intro p q h hp
    obtain ⟨a1, _, h1, _⟩ := argusParse_success hp
    rw [hs.parseArgs] at h1
    have h2 := h a1 h1
    rw [← hp]
    exact hs.argusParse_congr (by rw [h1, h2])
  exact ⟨toward _ _ (fun r => (key r).1), toward _ _ (fun r => (key r).2)⟩

/-- `prog -v --tags=a,b,c f`, `prog -v --tags=a --tags=b,c f`. -/
example : (∃ s os, Reach Sample.world Sample.prog [c!"-v"] s ∧ s.only = false ∧ s.a.table s.t = .ok os ∧
      ∃ o, CalledLong os c!"tags" 4 o ∧ ListOption o ∧ o.valueType ≠ .flag) ∧
    (∃ a', argusParse Sample.world Sample.noEnv Sample.prog ([c!"-v"] ++ c!"--tags=a,b,c" :: [c!"f"]) =
      .ok (.returned Err.success, a')) := by
  refine ⟨⟨_, _, rfl, rfl, rfl, _, ⟨rfl, by decide, ?_⟩, ⟨⟨.arrayString, rfl, rfl⟩, by decide, by decide, by decide⟩, by decide⟩,
    ⟨_, rfl⟩⟩
  intro j o' hj ho' h
  match j, hj with
  | 0, _ => cases ho'; exact absurd h.2 (by decide)
  | 1, _ => cases ho'; exact absurd h.2 (by decide)
  | 2, _ => cases ho'; exact absurd h.2 (by decide)
  | 3, _ => cases ho'; exact absurd h.2 (by decide)

end Argus
