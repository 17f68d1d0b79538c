import Verif.Lemmas.Stream

/-!
# C47, C48: redirection of output streams

`StreamOp`, `StreamOp.run`, `Proc.Fresh` and `holds` are in Spec/Stream.
-/

set_option autoImplicit false

namespace Argus

namespace Sample

/-- stdin, stdout and stderr are open, nothing else. -/
def fresh : Proc where
  fds := fun n => if n < 3 then some (.other n) else none

/-- The system hands out the descriptors 3 and 4, then 5. -/
def os3 : RedirectOs := ⟨some (3, 4), some 5, true⟩
/-- Then 4 and 6, and 7. -/
def os4 : RedirectOs := ⟨some (4, 6), some 7, true⟩

/-- Reads return three bytes at a time, and allocations succeed. -/
def reads3 : ReadOs := ⟨fun _ => 3, fun _ => true, true, fun _ => 7⟩

theorem fresh_fresh : fresh.Fresh where
  std := fun fd h => by simp [fresh, h]
  plain := fun n f h => by
    simp only [fresh] at h
    split at h
    · simp only [Option.some.injEq] at h; exact ⟨n, h.symm⟩
    · simp at h
  idle := fun _ => rfl

end Sample

/-! ## C47 -/

/-- **C47** (the `dup2` of `stream_restore` does not fail) Whatever a program does with its streams, and whichever
    calls of the system fail inside `stream_redirect`: a descriptor that is not redirected at the end refers to what it
    referred to at the start, and no other descriptor is open than those of the streams still redirected. The original
    file of such a stream is kept open. -/
theorem C47_restored_partial (cap : Nat) (p p' : Proc) (os : List StreamOp) (ms : List (Option Mem)) (hp : p.Fresh)
    (ho : ∀ o ∈ os, o.restores) (hr : StreamOp.run cap p os = .ok (some (ms, p'))) :
    (∀ n, (p'.slots n).active = false →
      (∀ fd < 3, (p'.slots fd).active = true → n ≠ (p'.slots fd).readEnd ∧ n ≠ (p'.slots fd).backup) →
      p'.fds n = p.fds n) ∧
    ∀ fd, (p'.slots fd).active = true → fd < 3 ∧ p'.fds (p'.slots fd).backup = p.fds fd := by
  have h := Inv.run os p p' ms hp.inv ho hr
  refine ⟨fun n hn hf => h.back n hn (fun fd hfd => hf fd (h.slot_lt hfd) hfd), fun fd hfd => ?_⟩
  obtain ⟨q, _, _, _, h4, _⟩ := h.active fd hfd
  exact ⟨h.slot_lt hfd, h4⟩

/-- **C47** In particular, when every stream has been restored, all descriptors are as they were. -/
theorem C47_all_restored_partial (cap : Nat) (p p' : Proc) (os : List StreamOp) (ms : List (Option Mem)) (hp : p.Fresh)
    (ho : ∀ o ∈ os, o.restores) (hr : StreamOp.run cap p os = .ok (some (ms, p')))
    (hd : ∀ fd < 3, (p'.slots fd).active = false) : p'.fds = p.fds := by
  have h := Inv.run os p p' ms hp.inv ho hr
  have hi : ∀ fd, (p'.slots fd).active = false := fun fd => by
    cases ha : (p'.slots fd).active with
    | false => rfl
    | true => rw [hd fd (h.slot_lt ha)] at ha; exact ha.symm
  funext n
  exact h.back n (hi n) (fun fd hfd => by rw [hi fd] at hfd; simp at hfd)

/-- **C47** After a successful redirection the stream writes to a new pipe and only `stream_restore` (or cleanup) of
    this stream ends it; after an unsuccessful one nothing has changed. -/
theorem C47_redirect (cap : Nat) (p p' : Proc) (os : List StreamOp) (ms : List (Option Mem)) (hp : p.Fresh)
    (ho : ∀ o ∈ os, o.restores) (hr : StreamOp.run cap p os = .ok (some (ms, p'))) (c : RedirectOs) (fd : Int) :
    ((streamRedirect c p' fd).1 = 0 → isValidFd fd = true ∧ (p'.slots fd.toNat).active = false ∧
      streamIsActive (streamRedirect c p' fd).2 fd = true ∧
      ∃ q, (streamRedirect c p' fd).2.fds fd.toNat = some (.pipeW q) ∧
        ∀ n, p'.fds n ≠ some (.pipeW q) ∧ p'.fds n ≠ some (.pipeR q)) ∧
    ((streamRedirect c p' fd).1 ≠ 0 → (streamRedirect c p' fd).2.fds = p'.fds ∧
      (streamRedirect c p' fd).2.slots = p'.slots) := by
  have h := Inv.run os p p' ms hp.inv ho hr
  rcases redirect_cases c p' fd (fun hv => h.open_std (isValidFd_lt (by rw [hv]; simp))) with
    ⟨h0, h1, h2, _⟩ | ⟨r, w, b, hv, ha, hopen, hr, hw, hb, hrw, hbr, hbw, e⟩
  · exact ⟨fun h' => absurd h' h0, fun _ => ⟨h1, h2⟩⟩
  · rw [e]
    refine ⟨fun _ => ⟨hv, ha, ?_, p'.nextPipe, ?_, fun n => ⟨fun hn => ?_, fun hn => ?_⟩⟩, fun h' => absurd rfl h'⟩
    · simp [streamIsActive, hv, upd]
    · show upd _ _ _ _ = _
      rw [upd_ne _ _ (fun e' => hopen (by rw [e']; exact hw)), upd_self]
    · have := h.old n _ (.inl hn); omega
    · have := h.old n _ (.inr hn); omega

/-- stdout and stderr are redirected, stdout is restored; then stderr. -/
example : ∃ p', StreamOp.run 100 Sample.fresh [.redirect 1 Sample.os3, .redirect 2 Sample.os4, .print 1 c!"x" 0,
      .restore 1 true] = .ok (some ([none, none, none, none], p')) ∧
    p'.fds 1 = some (.other 1) ∧ p'.fds 2 = some (.pipeW 1) ∧ p'.fds 3 = none ∧ p'.fds 5 = none ∧
    p'.fds 7 = some (.other 2) ∧ (p'.slots 1).active = false ∧ (p'.slots 2).active = true :=
  ⟨_, rfl, by decide +kernel⟩

/-- `dup` fails: the pipe is closed again. -/
example : (streamRedirect ⟨some (3, 4), none, true⟩ Sample.fresh 1).1 = streamDupFailed ∧
    (streamRedirect ⟨some (3, 4), none, true⟩ Sample.fresh 1).2.fds 3 = none ∧
    (streamRedirect ⟨some (3, 4), none, true⟩ Sample.fresh 1).2.fds 4 = none := by decide +kernel

/-- **C47** fails when `dup2` fails in `stream_restore`: its result is ignored and the only descriptor of the original
    file is closed. -/
theorem C47_dup2_ignored : ∃ (p p' : Proc), p.Fresh ∧
    StreamOp.run 100 p [.redirect 1 Sample.os3, .restore 1 false] = .ok (some ([none, none], p')) ∧
    streamIsActive p' 1 = false ∧ p'.fds 1 = some (.pipeW 0) ∧ ∀ n, p'.fds n ≠ p.fds 1 := by
  refine ⟨Sample.fresh, _, Sample.fresh_fresh, rfl, by decide +kernel, by decide +kernel, fun n => ?_⟩
  by_cases h : n < 6
  · revert h
    revert n
    decide +kernel
  · show upd (upd (upd (upd (upd (upd (upd Sample.fresh.fds 3 _) 4 _) 5 _) 1 _) 4 none) 5 none) 3 none n ≠ _
    rw [upd_ne _ _ (by omega), upd_ne _ _ (by omega), upd_ne _ _ (by omega), upd_ne _ _ (by omega),
      upd_ne _ _ (by omega), upd_ne _ _ (by omega), upd_ne _ _ (by omega)]
    simp only [Sample.fresh]
    rw [if_neg (by omega)]
    simp

/-- **C47** `stream_cleanup_all` restores stderr whenever it is redirected, whatever was done before. -/
theorem C47_cleanup_stderr_partial (cap : Nat) (p0 p p' : Proc) (os : List StreamOp) (ms : List (Option Mem))
    (hp : p0.Fresh) (ho : ∀ o ∈ os, o.restores) (hrun : StreamOp.run cap p0 os = .ok (some (ms, p)))
    (hr : streamCleanupAll cap p = some p') : streamIsActive p' 2 = false ∧ p'.fds 2 = p0.fds 2 := by
  have h := Inv.run os p0 p ms hp.inv ho hrun
  obtain ⟨p2, p1, e0, e1, e2⟩ := cleanup_steps hr
  have h0 := h.cleanupStep e0
  have h1 := h0.cleanupStep e1
  have h2 := h1.cleanupStep e2
  have hs : (p'.slots 2).active = false := by
    unfold cleanupStep at e2
    split at e2
    · rename_i ha
      rcases restore_cases h1 e2 with rfl | ⟨_, _, _, e, _⟩
      · exfalso
        unfold streamRestore at e2
        simp only [show ((2 : Nat) = 0) = False by simp, if_false] at e2
        simp only [show isValidFd 2 = true from rfl, Bool.true_eq_false, if_false,
          show ((2 : Int).toNat) = 2 from rfl, ha, Option.map_eq_some_iff] at e2
        obtain ⟨p2, _, e3⟩ := e2
        have : (p'.slots 2).active = false := by rw [← e3]; show (upd (α := StreamInfo) _ _ _ _).active = false; rw [upd_self]
        rw [ha] at this; simp at this
      · rw [e]; simp [upd]
    · rename_i ha
      simp only [Option.some.injEq] at e2
      subst e2
      simpa using ha
  refine ⟨by simp [streamIsActive, hs], h2.back 2 hs (fun fd ha => ?_)⟩
  obtain ⟨q, _, _, _, _, h5, h6⟩ := h2.active fd ha
  exact ⟨fun e => h2.std 2 (by omega) (e ▸ h5), fun e => h2.std 2 (by omega) (e ▸ h6)⟩

/-- stdout and stderr are redirected; cleanup restores stderr. -/
example : ∃ p p', StreamOp.run 100 Sample.fresh [.redirect 1 Sample.os3, .redirect 2 Sample.os4] =
      .ok (some ([none, none], p)) ∧ streamCleanupAll 100 p = some p' ∧ streamIsActive p 2 = true ∧
      p'.fds 2 = some (.other 2) := ⟨_, _, rfl, rfl, by decide +kernel⟩

/-- **C47** fails for cleanup: with only stdout redirected, `stream_cleanup_all` does nothing, since it restores stderr
    for the slot of stdout. -/
theorem C47_cleanup_misses_stdout : ∃ (p p' : Proc), p.Fresh ∧
    StreamOp.run 100 p [.redirect 1 Sample.os3, .cleanup] = .ok (some ([none, none], p')) ∧
    streamIsActive p' 1 = true ∧ p'.fds 1 = some (.pipeW 0) ∧ p'.fds 1 ≠ p.fds 1 :=
  ⟨Sample.fresh, _, Sample.fresh_fresh, rfl, by decide +kernel⟩

/-! ## C48 -/

/-- What has been printed to stream `fd` since it was last read. -/
def printedSince (fd : Nat) : Str → List StreamOp → Str
  | acc, [] => acc
  | acc, .print n s _ :: os => printedSince fd (if n = fd then acc ++ s else acc) os
  | acc, .read n _ :: os => printedSince fd (if n = (fd : Int) then [] else acc) os
  | acc, _ :: os => printedSince fd acc os

/-- The stream stays redirected, and reading it does not run out of memory. -/
def StreamOp.keeps (fd : Nat) : StreamOp → Prop
  | .restore n b => n ≠ (fd : Int) ∧ b = true
  | .cleanup => False
  | .read n os => n = (fd : Int) → ∀ j, os.alloc j = true
  | _ => True

/-- The stream `fd` writes to pipe `q`, and `acc` is on its way. -/
structure PipeHolds (orig : Nat → Option File) (fd : Nat) (acc : Str) (p : Proc) : Prop where
  inv : Inv orig p
  active : (p.slots fd).active = true
  text : ∀ q, p.fds fd = some (.pipeW q) → p.pipes q ++ p.buffered fd = acc

theorem write_text {cap : Nat} {p p1 : Proc} {fd n q : Nat} {s : Str} {orig : Nat → Option File} (h : Inv orig p)
    (hq : p.fds fd = some (.pipeW q)) (hn : n ≠ fd) (hw : p.write cap n s = some p1) : p1.pipes q = p.pipes q :=
  write_other hw (fun e => hn (h.ends n fd q e hq))

theorem PipeHolds.step {cap : Nat} {orig : Nat → Option File} {fd : Nat} {acc : Str} {p p' : Proc} {o : StreamOp}
    {m : Option Mem} (hfd : fd = 1 ∨ fd = 2) (h : PipeHolds orig fd acc p) (ho : o.keeps fd)
    (hs : o.step cap p = .ok (some (m, p'))) :
    PipeHolds orig fd (printedSince fd acc [o]) p' ∧ ((∃ os, o = .read fd os) → holds m acc) := by
  obtain ⟨q, hq, hw, hrd, hbk, hor, hob⟩ := h.inv.active fd h.active
  have hacc := h.text q hw
  have hlt : fd < 3 := by omega
  cases o with
  | redirect n c =>
    simp only [StreamOp.step, Out.ok.injEq, Option.some.injEq, Prod.mk.injEq] at hs
    obtain ⟨_, rfl⟩ := hs
    refine ⟨⟨h.inv.redirect c n, ?_, ?_⟩, by rintro ⟨os, e⟩; simp at e⟩
    · rcases redirect_cases c p n (fun hv => h.inv.open_std (isValidFd_lt (by rw [hv]; simp))) with
        ⟨_, _, h2, _⟩ | ⟨r, w, b, hv, ha, _, _, _, _, _, _, _, e⟩
      · rw [h2]; exact h.active
      · rw [e]
        have : fd ≠ n.toNat := fun e => by rw [← e, h.active] at ha; simp at ha
        show (upd (α := StreamInfo) _ _ _ fd).active = true
        rw [upd_ne _ _ this]; exact h.active
    · rcases redirect_cases c p n (fun hv => h.inv.open_std (isValidFd_lt (by rw [hv]; simp))) with
        ⟨_, h1, _, _, h4, h5⟩ | ⟨r, w, b, hv, ha, hopen, hr, hww, hb, hrw, hbr, hbw, e⟩
      · intro q' hq'
        rw [h1, hw] at hq'
        simp only [Option.some.injEq, File.pipeW.injEq] at hq'
        subst hq'
        rw [h4, h5 q hq]; exact hacc
      · rw [e]
        intro q' hq'
        have hne : fd ≠ n.toNat := fun e => by rw [← e, h.active] at ha; simp at ha
        have hfr : fd ≠ r := fun e => by rw [e, hr] at hw; simp at hw
        have hfw : fd ≠ w := fun e => by rw [e, hww] at hw; simp at hw
        have hfb : fd ≠ b := fun e => by rw [e, hb] at hw; simp at hw
        replace hq' : upd _ _ _ fd = _ := hq'
        rw [upd_ne _ _ hfw, upd_ne _ _ hne, upd_ne _ _ hfb, upd_ne _ _ hfr, hw] at hq'
        simp only [Option.some.injEq, File.pipeW.injEq] at hq'
        subst hq'
        show upd _ _ _ q ++ p.buffered fd = acc
        rw [upd_ne _ _ (by omega)]; exact hacc
  | print n s k =>
    simp only [StreamOp.step, Out.ok.injEq, Option.map_eq_some_iff, Prod.mk.injEq] at hs
    obtain ⟨p1, h1, _, rfl⟩ := hs
    obtain ⟨a, b, c⟩ := print_same h1
    refine ⟨⟨h.inv.of_same a b c, by rw [b]; exact h.active, ?_⟩, by rintro ⟨os, e⟩; simp at e⟩
    intro q' hq'
    rw [a, hw] at hq'
    simp only [Option.some.injEq, File.pipeW.injEq] at hq'
    subst hq'
    unfold Proc.print at h1
    simp only [Option.map_eq_some_iff] at h1
    obtain ⟨p2, h2, rfl⟩ := h1
    simp only [printedSince]
    by_cases hn : n = fd
    · subst hn
      rw [write_pipe hw] at h2
      split at h2
      · simp at h2
      · simp only [Option.some.injEq] at h2
        subst h2
        show upd _ _ _ q ++ upd _ _ _ n = _
        rw [upd_self, upd_self, if_pos rfl, List.append_assoc, List.take_append_drop, ← List.append_assoc, hacc]
    · show p2.pipes q ++ upd _ _ _ fd = _
      rw [upd_ne _ _ (Ne.symm hn), write_text h.inv hw hn h2, (write_same h2).2.2.2, if_neg hn]
      exact hacc
  | flush n =>
    simp only [StreamOp.step, Out.ok.injEq, Option.map_eq_some_iff, Prod.mk.injEq] at hs
    obtain ⟨p1, h1, _, rfl⟩ := hs
    obtain ⟨a, b, c⟩ := flush_same h1
    refine ⟨⟨h.inv.of_same a b c, by rw [b]; exact h.active, ?_⟩, by rintro ⟨os, e⟩; simp at e⟩
    intro q' hq'
    rw [a, hw] at hq'
    simp only [Option.some.injEq, File.pipeW.injEq] at hq'
    subst hq'
    unfold Proc.flush at h1
    simp only [Option.map_eq_some_iff] at h1
    obtain ⟨p2, h2, rfl⟩ := h1
    simp only [printedSince]
    by_cases hn : n = fd
    · subst hn
      rw [write_pipe hw] at h2
      split at h2
      · simp at h2
      · simp only [Option.some.injEq] at h2
        subst h2
        show upd _ _ _ q ++ upd _ _ _ n = _
        rw [upd_self, upd_self, List.append_nil]
        exact hacc
    · show p2.pipes q ++ upd _ _ _ fd = _
      rw [upd_ne _ _ (Ne.symm hn), write_text h.inv hw hn h2, (write_same h2).2.2.2]
      exact hacc
  | read n os =>
    simp only [StreamOp.step] at hs
    by_cases hn : n = (fd : Int)
    · subst hn
      rcases streamRead_spec (cap := cap) (os := os) hfd h.active hw hrd with ⟨_, e⟩ | ⟨_, m1, p1, e, a, b, c, d, f, g⟩
      · rw [e] at hs; simp at hs
      · rw [e] at hs
        simp only [Out.ok.injEq, Option.some.injEq, Prod.mk.injEq] at hs
        obtain ⟨rfl, rfl⟩ := hs
        rcases g with ⟨g1, g2⟩ | ⟨_, j, g⟩
        · rw [hacc] at g1
          refine ⟨⟨h.inv.of_same a b c, by rw [b]; exact h.active, ?_⟩, fun _ => g1⟩
          intro q' hq'
          rw [a, hw] at hq'
          simp only [Option.some.injEq, File.pipeW.injEq] at hq'
          subst hq'
          rw [g2, d, upd_self]
          simp [printedSince]
        · rw [ho rfl j] at g; simp at g
    · refine ⟨?_, by rintro ⟨os', e⟩; simp only [StreamOp.read.injEq] at e; exact absurd e.1 hn⟩
      rcases streamRead_same (cap := cap) (os := os) (p := p) (fd := n) with e | ⟨m1, p1, e, a, b, c, d⟩
      · rw [e] at hs; simp at hs
      · have hs' := hs
        rw [e] at hs
        simp only [Out.ok.injEq, Option.some.injEq, Prod.mk.injEq] at hs
        obtain ⟨rfl, rfl⟩ := hs
        simp only [printedSince, if_neg hn]
        refine ⟨h.inv.of_same a b c, by rw [b]; exact h.active, ?_⟩
        intro q' hq'
        rw [a, hw] at hq'
        simp only [Option.some.injEq, File.pipeW.injEq] at hq'
        subst hq'
        by_cases hv : isValidFd n = false
        · unfold streamRead at hs'
          rw [if_pos hv] at hs'
          simp only [Out.ok.injEq, Option.some.injEq, Prod.mk.injEq] at hs'
          rw [← hs'.2]; exact hacc
        · have hne : n.toNat ≠ fd := by
            intro e'
            simp only [isValidFd, Bool.or_eq_false_iff, beq_eq_false_iff_ne, ne_eq] at hv
            omega
          by_cases ha : (p.slots n.toNat).active = true
          · obtain ⟨q2, _, w2, r2, _⟩ := h.inv.active _ ha
            have hq2 : q2 ≠ q := fun e' => hne (h.inv.ends _ _ q (e' ▸ w2) hw)
            obtain ⟨x, y⟩ := d q fd (by rw [w2]; simpa using hq2) (by rw [r2]; simpa using hq2) (Ne.symm hne)
            rw [x, y]; exact hacc
          · unfold streamRead at hs'
            rw [if_neg hv, if_pos (by simpa using ha)] at hs'
            simp only [Out.ok.injEq, Option.some.injEq, Prod.mk.injEq] at hs'
            rw [← hs'.2]; exact hacc
  | restore n b =>
    obtain ⟨hn, rfl⟩ := ho
    simp only [StreamOp.step, Out.ok.injEq, Option.map_eq_some_iff, Prod.mk.injEq] at hs
    obtain ⟨p1, h1, _, rfl⟩ := hs
    refine ⟨?_, by rintro ⟨os, e⟩; simp at e⟩
    have hinv := h.inv.restore h1
    simp only [printedSince]
    unfold streamRestore at h1
    split at h1
    · simp only [Option.some.injEq] at h1; exact h1 ▸ h
    rename_i hv
    have hne : n.toNat ≠ fd := by
      intro e'
      simp only [isValidFd, Bool.or_eq_false_iff, beq_eq_false_iff_ne, ne_eq] at hv
      omega
    split at h1
    · simp only [Option.some.injEq] at h1; exact h1 ▸ h
    rename_i ha
    have ha' : (p.slots n.toNat).active = true := by simpa using ha
    obtain ⟨q2, _, w2, r2, b2, or2, ob2⟩ := h.inv.active _ ha'
    have hq2 : q ≠ q2 := fun e' => hne (h.inv.ends _ _ q (e' ▸ w2) hw)
    simp only [Option.map_eq_some_iff] at h1
    obtain ⟨p2, hp2, e⟩ := h1
    obtain ⟨s1, s2, s3⟩ := flushFor_same hp2
    obtain ⟨o1, o2⟩ := flushFor_other (fd := fd) (q := q) hp2 (by rw [w2]; simpa using Ne.symm hq2) (Ne.symm hne)
    have hd : p2.drain (p2.slots n.toNat).readEnd = { p2 with pipes := upd p2.pipes q2 [] } := by
      unfold Proc.drain; rw [s2, s1, r2]
    have hpp : p1.pipes q = p.pipes q ∧ p1.buffered fd = p.buffered fd ∧ p1.slots = upd p.slots n.toNat {} := by
      rw [← e, hd]
      have hdp : ∀ x : Proc, (((x.dup2 (p2.slots n.toNat).backup n.toNat true).getD x).pipes = x.pipes) ∧
          (((x.dup2 (p2.slots n.toNat).backup n.toNat true).getD x).buffered = x.buffered) ∧
          (((x.dup2 (p2.slots n.toNat).backup n.toNat true).getD x).slots = x.slots) := by
        intro x
        unfold Proc.dup2
        split <;> exact ⟨rfl, rfl, rfl⟩
      obtain ⟨d1, d2, d3⟩ := hdp { p2 with pipes := upd p2.pipes q2 [] }
      refine ⟨?_, ?_, ?_⟩
      · show ((Proc.dup2 _ _ _ _).getD _).pipes q = _
        rw [d1]
        show upd _ _ _ q = _
        rw [upd_ne _ _ hq2, o1]
      · show ((Proc.dup2 _ _ _ _).getD _).buffered fd = _
        rw [d2]; exact o2
      · show upd ((Proc.dup2 _ _ _ _).getD _).slots _ _ = _
        rw [d3, ← s2]
    obtain ⟨t1, t2, t3⟩ := hpp
    have hact : (p1.slots fd).active = true := by
      rw [t3, upd_ne _ _ (Ne.symm hne)]; exact h.active
    refine ⟨hinv, hact, ?_⟩
    intro q' hq'
    have : p1.fds fd = p.fds fd := by
      rcases restore_cases h.inv (cap := cap) (fd := n) (p' := p1) (by
          unfold streamRestore
          rw [if_neg hv, if_neg ha, hp2]
          exact congrArg some e) with rfl | ⟨_, _, e1, _, _⟩
      · rfl
      · rw [e1, upd_ne _ _ (fun e' => h.inv.std fd hlt (by rw [e']; exact or2)), upd_ne _ _ (fun e' => h.inv.std fd hlt (by rw [e']; exact ob2)),
          upd_ne _ _ (Ne.symm hne)]
    rw [this, hw] at hq'
    simp only [Option.some.injEq, File.pipeW.injEq] at hq'
    subst hq'
    rw [t1, t2]; exact hacc
  | cleanup => exact absurd ho (by simp [StreamOp.keeps])

theorem printedSince_cons (fd : Nat) (acc : Str) (o : StreamOp) (os : List StreamOp) :
    printedSince fd acc (o :: os) = printedSince fd (printedSince fd acc [o]) os := by
  cases o <;> simp [printedSince]

theorem PipeHolds.run {cap : Nat} {orig : Nat → Option File} {fd : Nat} (hfd : fd = 1 ∨ fd = 2) :
    ∀ (os : List StreamOp) (acc : Str) (p p' : Proc) (ms : List (Option Mem)), PipeHolds orig fd acc p →
    (∀ o ∈ os, o.keeps fd) → StreamOp.run cap p os = .ok (some (ms, p')) →
    PipeHolds orig fd (printedSince fd acc os) p'
  | [], acc, p, p', ms, h, _, hr => by
    simp only [StreamOp.run, Out.ok.injEq, Option.some.injEq, Prod.mk.injEq] at hr
    exact hr.2 ▸ h
  | o :: os, acc, p, p', ms, h, ho, hr => by
    obtain ⟨m, p1, ms', h1, h2, _⟩ := run_cons hr
    rw [printedSince_cons]
    exact PipeHolds.run hfd os _ p1 p' ms' (h.step hfd (ho o (by simp)) h1).1 (fun o' ho' => ho o' (by simp [ho'])) h2

/-- **C48** (nothing was pending in stdio when the stream was redirected, the calls return, memory suffices)
    `stream_read` returns exactly what was printed to the stream since the last read, NUL-terminated, or NULL if that is
    nothing: for every way in which stdio and the system cut it into pieces, and whatever happens on other streams. -/
theorem C48_read_partial (cap : Nat) (p0 p p1 p' : Proc) (pre os : List StreamOp) (ms ms' : List (Option Mem)) (fd : Nat)
    (c : RedirectOs) (ro : ReadOs) (m : Option Mem) (hfd : fd = 1 ∨ fd = 2) (hp : p0.Fresh)
    (hpre : ∀ o ∈ pre, o.restores) (hr0 : StreamOp.run cap p0 pre = .ok (some (ms, p)))
    (hred : (streamRedirect c p fd).1 = 0) (hbuf : p.buffered fd = []) (hkeep : ∀ o ∈ os, o.keeps fd)
    (hr : StreamOp.run cap (streamRedirect c p fd).2 os = .ok (some (ms', p1))) (hmem : ∀ j, ro.alloc j = true)
    (hread : streamRead cap ro p1 fd = .ok (some (m, p'))) : holds m (printedSince fd [] os) := by
  have h := Inv.run pre p0 p ms hp.inv hpre hr0
  have hc : PipeHolds p0.fds fd [] (streamRedirect c p fd).2 := by
    rcases redirect_cases c p fd (fun hv => h.open_std (isValidFd_lt (by rw [hv]; simp))) with
      ⟨h0, _⟩ | ⟨r, w, b, hv, ha, hopen, hr, hw, hb, hrw, hbr, hbw, e⟩
    · exact absurd hred h0
    · refine ⟨h.redirect c fd, ?_, ?_⟩
      · rw [e]; simp [upd]
      · rw [e]
        intro q hq
        replace hq : upd _ _ _ fd = _ := hq
        have hfw : fd ≠ w := fun e => by
          have : ((fd : Nat) : Int).toNat = fd := by simp
          rw [this] at hopen; exact hopen (e ▸ hw)
        rw [upd_ne _ _ hfw, show ((fd : Nat) : Int).toNat = fd by simp, upd_self] at hq
        simp only [Option.some.injEq, File.pipeW.injEq] at hq
        subst hq
        show upd _ _ _ p.nextPipe ++ p.buffered fd = []
        rw [upd_self, hbuf]; rfl
  have h1 := PipeHolds.run hfd os [] _ p1 ms' hc hkeep hr
  exact (h1.step (o := .read fd ro) hfd (fun _ => hmem) hread).2 ⟨ro, rfl⟩

/-- The blocks returned by a run. -/
def blocksOf (cap : Nat) (p : Proc) (os : List StreamOp) : Option (List (Option Mem)) :=
  match StreamOp.run cap p os with
  | .ok (some (ms, _)) => some ms
  | _ => none

theorem blocksOf_run {cap : Nat} {p : Proc} {os : List StreamOp} {ms : List (Option Mem)}
    (h : blocksOf cap p os = some ms) : ∃ p', StreamOp.run cap p os = .ok (some (ms, p')) := by
  unfold blocksOf at h
  split at h
  · rename_i ms' p' e
    simp only [Option.some.injEq] at h
    exact ⟨p', h ▸ e⟩
  · simp at h

/-- The bytes arrive in pieces of three, cut by stdio after two; there is a read before them, and one after. -/
example : (streamRedirect Sample.os3 Sample.fresh 1).1 = 0 ∧
    blocksOf 100 (streamRedirect Sample.os3 Sample.fresh 1).2
      [.print 1 c!"gone" 1, .read 1 Sample.reads3, .print 2 c!"other" 9, .print 1 c!"hel" 2, .print 1 c!"lo" 0,
       .read 1 Sample.reads3, .read 1 Sample.reads3] =
      some [none, some (c!"gone" ++ [0]), none, none, none, some (c!"hello" ++ [0]), none] := by decide +kernel

/-- **C48** For every behaviour of the allocator, reading has no undefined behaviour (no write outside the buffer):
    it never returns, or it returns a block or NULL. -/
theorem C48_defined (cap : Nat) (os : ReadOs) (p : Proc) (fd : Int) : ∃ r, streamRead cap os p fd = .ok r := by
  rcases streamRead_same (cap := cap) (os := os) (p := p) (fd := fd) with e | ⟨m, p', e, _⟩
  · exact ⟨_, e⟩
  · exact ⟨_, e⟩

/-- **C48** fails for text that stdio still holds when the stream is redirected: it is returned by the read, although
    it was printed before. -/
theorem C48_earlier_text : ∃ (p p' : Proc), p.Fresh ∧
    StreamOp.run 100 p [.print 1 c!"old" 0, .redirect 1 Sample.os3, .print 1 c!"new" 0, .read 1 Sample.reads3] =
      .ok (some ([none, none, none, some (c!"oldnew" ++ [0])], p')) := by
  obtain ⟨p', h⟩ := blocksOf_run (p := Sample.fresh) (cap := 100)
    (os := [.print 1 c!"old" 0, .redirect 1 Sample.os3, .print 1 c!"new" 0, .read 1 Sample.reads3])
    (ms := [none, none, none, some (c!"oldnew" ++ [0])]) (by decide +kernel)
  exact ⟨Sample.fresh, p', Sample.fresh_fresh, h⟩

/-- **C48** fails for more text than a pipe holds: neither reading nor restoring ever returns. -/
theorem C48_full_pipe (cap : Nat) (p : Proc) (fd : Nat) (c : RedirectOs) (s : Str) (ro : ReadOs) (b : Bool)
    (hp : p.Fresh) (hfd : fd = 1 ∨ fd = 2) (hred : (streamRedirect c p fd).1 = 0) (hl : cap < s.length) :
    ∃ p1, (streamRedirect c p fd).2.print cap fd s 0 = some p1 ∧ streamRead cap ro p1 fd = .ok none ∧
      streamRestore cap b p1 fd = none := by
  rcases redirect_cases c p fd (fun hv => hp.inv.open_std (isValidFd_lt (by rw [hv]; simp))) with
    ⟨h0, _⟩ | ⟨r, w, bk, hv, ha, hopen, hr, hw, hb, hrw, hbr, hbw, e⟩
  · exact absurd hred h0
  rw [e]
  rw [show ((fd : Nat) : Int).toNat = fd by simp] at hopen ⊢
  have hfw : fd ≠ w := fun e => hopen (e ▸ hw)
  unfold Proc.print
  simp only [List.take_zero]
  rw [write_pipe (q := p.nextPipe) (by show upd _ _ _ fd = _; rw [upd_ne _ _ hfw, upd_self])]
  rw [if_neg (by show ¬ (upd (α := Str) _ _ _ p.nextPipe).length + _ > cap; rw [upd_self]; simp)]
  simp only [Option.map_some]
  refine ⟨_, rfl, ?_, ?_⟩
  · unfold streamRead
    rw [if_neg (by rw [hv]; simp), show ((fd : Nat) : Int).toNat = fd by simp, flushFor_std hfd]
    rw [if_neg (by show ¬ (upd (α := StreamInfo) _ _ _ fd).active = false; rw [upd_self]; simp)]
    unfold Proc.flush
    rw [write_pipe (q := p.nextPipe) (by show upd _ _ _ fd = _; rw [upd_ne _ _ hfw, upd_self])]
    rw [if_pos]
    · rfl
    · show (upd (α := Str) _ _ _ _).length + (upd (α := Str) _ _ _ fd).length > cap
      rw [upd_self]
      have : (upd p.buffered fd (p.buffered fd ++ s) fd).length = (p.buffered fd ++ s).length := by rw [upd_self]
      have h2 : (p.buffered fd ++ s).length = (p.buffered fd).length + s.length := by simp
      simp only [List.length_append] at this ⊢
      show _ + (upd p.buffered fd (p.buffered fd ++ s) fd).length > cap
      omega
  · unfold streamRestore
    rw [if_neg (by rw [hv]; simp), show ((fd : Nat) : Int).toNat = fd by simp, flushFor_std hfd]
    rw [if_neg (by show ¬ (upd (α := StreamInfo) _ _ _ fd).active = false; rw [upd_self]; simp)]
    unfold Proc.flush
    rw [write_pipe (q := p.nextPipe) (by show upd _ _ _ fd = _; rw [upd_ne _ _ hfw, upd_self])]
    rw [if_pos]
    · rfl
    · show (upd (α := Str) _ _ _ _).length + (upd (α := Str) _ _ _ fd).length > cap
      rw [upd_self]
      have : (upd p.buffered fd (p.buffered fd ++ s) fd).length = (p.buffered fd ++ s).length := by rw [upd_self]
      have h2 : (p.buffered fd ++ s).length = (p.buffered fd).length + s.length := by simp
      simp only [List.length_append] at this ⊢
      show _ + (upd p.buffered fd (p.buffered fd ++ s) fd).length > cap
      omega

example : (streamRedirect Sample.os3 Sample.fresh (1 : Nat)).1 = 0 := rfl

end Argus
