import Verif.Lemmas.Swap
import Verif.Lemmas.Commands
import Verif.Lemmas.Depth
import Verif.Lemmas.Syntax

/-! Prefixes that end the parse; exiting options; the level in force. -/

set_option autoImplicit false

namespace Argus

/-- A prefix that ends the parse ends it in the same way whatever follows. -/
theorem parseLoop_append_done {W : World} : ∀ (pre : List Str) {t : Option Nat} {a : Argus} {pos : Nat}
    {only skip : Bool} {st : Int} {a1 : Argus},
    parseLoop W t a pos only skip pre = .ok (st, a1) → st ≠ Err.success → st ≠ Err.missingValue →
    ∀ post, parseLoop W t a pos only skip (pre ++ post) = .ok (st, a1)
  | [], t, a, pos, only, skip, st, a1, h, h0, _, post => by
    cases skip <;> simp only [parseLoop, Out.ok.injEq, Prod.mk.injEq] at h <;> exact absurd h.1.symm h0
  | arg :: rest, t, a, pos, only, true, st, a1, h, h0, h1, post => by
    simp only [parseLoop, List.cons_append] at h ⊢
    exact parseLoop_append_done rest h h0 h1 post
  | arg :: rest, t, a, pos, only, false, st, a1, h, h0, h1, post => by
    simp only [parseLoop, List.cons_append] at h ⊢
    obtain ⟨s, hs, h2⟩ := Out.bind_eq_ok h
    have hn : s.notMissing := by
      cases s with
      | done c a2 =>
        simp only [Out.ok.injEq, Prod.mk.injEq] at h2
        show c ≠ _; rw [h2.1]; exact h1
      | next => trivial
      | enter => trivial
    rw [parseStep_append hs (.inr hn) post]
    simp only [Out.ok_bind]
    cases s with
    | done c a2 => exact h2
    | next a2 p2 o2 u2 => exact parseLoop_append_done rest h2 h0 h1 post
    | enter t2 a2 => exact parseLoop_append_done rest h2 h0 h1 post

theorem argusParse_append_done {W : World} {env env' : Env} {a a1 : Argus} {pre : List Str} {st : Int}
    (h : parseArgs W a (some a.root) pre = .ok (st, a1)) (h0 : st ≠ Err.success)
    (h1 : st ≠ Err.missingValue) (post : List Str) :
    argusParse W env a (pre ++ post) = argusParse W env' a pre := by
  have h' : parseArgs W a (some a.root) (pre ++ post) = .ok (st, a1) :=
    parseLoop_append_done pre h h0 h1 post
  rw [argusParse_eq, argusParse_eq, h, h']
  simp only [Out.ok_bind, afterParse, ne_eq, h0, not_false_eq_true, if_true]

/-- The level in force is the table of the innermost selected subcommand. -/
theorem runPrefix_active {W : World} : ∀ (pre : List Str) {s s' : PState},
    runPrefix W s pre = some s' → s.a.activeOptions = .ok s.t → s'.a.activeOptions = .ok s'.t
  | [], s, s', h, ha => by simp only [runPrefix, Option.some.injEq] at h; exact h ▸ ha
  | arg :: rest, s, s', h, ha => by
    unfold runPrefix at h
    split at h
    · exact runPrefix_active rest h ha
    · split at h
      · rename_i a1 pos1 only1 used1 hs
        have hf : InTable s.t s.a a1 := parseStep_frame hs
        refine runPrefix_active rest h ?_
        show a1.activeOptions = .ok s.t
        rw [activeOptions_shape hf.frame.shape hf.stack hf.frame.root, ha]
      · rename_i t1 a1 hs
        obtain ⟨hf, p, hp, hst, hsub, _⟩ := parseStep_frame hs
        refine runPrefix_active rest h ?_
        show a1.activeOptions = .ok t1
        have h1 : a1.subOf p = t1 := by rw [subOf_shape hf.shape, hsub]
        unfold Argus.activeOptions
        rw [hst, List.getLast?_concat]
        -- the subcommand just entered exists
        have : ∃ o, a1.getOpt p = .ok o := by
          clear h ha
          revert hs
          unfold parseStep
          intro hs
          split at hs
          · simp at hs
          · split at hs
            · unfold stepPositional at hs
              obtain ⟨q, _, h3⟩ := Out.bind_eq_ok hs
              split at h3 <;> simp at h3
            · split at hs
              · obtain ⟨q, _, h3⟩ := Out.bind_eq_ok hs
                unfold OptRes.step at h3
                split at h3 <;> simp at h3
              · split at hs
                · obtain ⟨q, _, h3⟩ := Out.bind_eq_ok hs
                  split at h3
                  · unfold stepPositional at h3
                    obtain ⟨q2, _, h4⟩ := Out.bind_eq_ok h3
                    split at h4 <;> simp at h4
                  · obtain ⟨q2, _, h4⟩ := Out.bind_eq_ok h3
                    unfold OptRes.step at h4
                    split at h4 <;> simp at h4
                · obtain ⟨os, hos, h3⟩ := Out.bind_eq_ok hs
                  split at h3
                  · simp at h3
                  · split at h3
                    · rename_i k i _ _
                      obtain ⟨e, he, h4⟩ := Out.bind_eq_ok h3
                      simp only [Out.ok.injEq, Step.enter.injEq] at h4
                      unfold enterSub at he
                      obtain ⟨o, ho, h5⟩ := Out.bind_eq_ok he
                      split at h5
                      · simp at h5
                      · simp only [Out.ok.injEq] at h5
                        subst h5
                        have hst' := congrArg Argus.stack h4.2
                        simp only [hst, Argus.setOpt] at hst'
                        have : p = ⟨k, i⟩ := by
                          have := List.append_cancel_left hst'
                          simp at this
                          exact this.symm
                        subst this
                        refine ⟨{ o with isSet := true }, ?_⟩
                        rw [← h4.2]
                        have := getOpt_setOpt_self (o' := { o with isSet := true }) ho
                        exact this
                    · unfold stepPositional at h3
                      obtain ⟨q2, _, h4⟩ := Out.bind_eq_ok h3
                      split at h4 <;> simp at h4
        obtain ⟨o, ho⟩ := this
        simp only [ho, Out.ok_bind]
        rw [← h1, subOf_eq ho]
      · simp at h

theorem Reach.active {W : World} {a : Argus} {pre : List Str} {s : PState} (h : Reach W a pre s)
    (hf : a.stack = []) : s.a.activeOptions = .ok s.t := by
  refine runPrefix_active pre h ?_
  unfold Argus.activeOptions PState.start
  simp [hf]

theorem meaning_long_attached {tables : List (List Opt)} {k i pos : Nat} {os : List Opt} {m v : Str}
    {rest : List Str} (hk : tables[k]? = some os) (hm : (61 : Byte) ∉ m) (hm2 : m.length ≤ 63)
    (hi : longIdx os m = some i) (hf : isFlagAt os i = false) :
    meaning tables (some k) pos false false ((c!"--" ++ m ++ c!"=" ++ v) :: rest) =
      .give ⟨k, i⟩ (some v) :: meaning tables (some k) pos false false rest := by
  have e1 : c!"--" ++ m ++ c!"=" ++ v = 45 :: 45 :: (m ++ 61 :: v) := by simp
  have e2 : argKind (45 :: 45 :: (m ++ 61 :: v)) = .long m (some v) := by
    have hl := longParts_kind (m ++ 61 :: v)
    rw [longParts_eq hm hm2] at hl
    cases m with
    | nil => exact hl
    | cons c cs => exact hl
  rw [e1, meaning]
  case heq => exact hk
  rw [if_neg (by rw [e2]; simp), if_neg (by rw [e2]; simp)]
  rw [if_neg (by simp), e2]
  simp [longActs, hi, hf]

theorem runPreAll_noPre {W : World} {arg : Option Str} : ∀ (vs : List Validator) (a : Argus),
    (∀ v ∈ vs, v.order = .post) → runPreAll W a arg vs = .ok (Err.success, a)
  | [], a, _ => rfl
  | v :: vs, a, h => by
    unfold runPreAll
    rw [if_neg (by rw [h v (by simp)]; decide)]
    exact runPreAll_noPre vs a (fun v hv => h v (by simp [hv]))

theorem execCallbacks_exit {W : World} {a : Argus} {p : Ptr} {o o1 : Opt} {h : Handler} {x : Option Str}
    {es : List Event} (ho : a.getOpt p = .ok o) (hh : o.handler = some h)
    (hv : ∀ v ∈ o.validators.getD [], v.order = .post) (hx : o.flags.has .exit = true)
    (hr : runHandler W a h o x = .ok (Err.success, o1, es)) :
    execCallbacks W a p x = .ok (Err.shouldExit, (a.emits es).setOpt p o1.markSet) := by
  have hf : o1.flags = o.flags := by
    have := runHandler_meta hr
    exact (congrArg Opt.flags this : o1.meta.flags = o.meta.flags)
  unfold execCallbacks
  simp only [ho, Out.ok_bind, hh, runPreAll_noPre _ a hv, hr, ne_eq, not_true_eq_false, if_false]
  rw [if_pos (show o1.markSet.flags.has .exit = true by
    show o1.flags.has .exit = true
    rw [hf]; exact hx)]

theorem argusParse_exit {W : World} {env : Env} {a a1 : Argus} {args : List Str}
    (h : parseArgs W a (some a.root) args = .ok (Err.shouldExit, a1)) :
    argusParse W env a args = (do
      let a2 ← argusFree { a1 with errorCode := Err.shouldExit }
      .ok (.exited, a2)) := by
  rw [argusParse_eq, h]
  simp [afterParse]

end Argus
