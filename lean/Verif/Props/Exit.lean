import Verif.Lemmas.Order
import Verif.Lemmas.Scalar
import Verif.Lemmas.Free
import Verif.Spec.Sample

/-!
# C35: exiting options
-/

set_option autoImplicit false

namespace Argus

/-- **C35** When everything a command line asks for before an exiting option is carried out, and the
    handler of the exiting option succeeds, the process exits (with status 0). The result does not
    depend on the environment nor on anything asked for later. -/
theorem C35_exit_ends_process (W : World) (env : Env) (a a1 : Argus) (args : List Str) (xs ys : List Act)
    (p : Ptr) (x : Option Str) (o o1 : Opt) (h : Handler) (es : List Event)
    (hask : a.asks args = xs ++ .give p x :: ys) (hrun : run W a xs = .ok (Err.success, a1))
    (ho : a1.getOpt p = .ok o) (hh : o.handler = some h) (hexit : o.flags.has .exit = true)
    (hv : ∀ v ∈ o.validators.getD [], v.order = .post)
    (hok : runHandler W a1 h o x = .ok (Err.success, o1, es)) :
    (∀ r, argusParse W env a args = .ok r → r.1 = .exited ∧ r.2.out = a1.out ++ es) ∧
    (∀ env' args' ys', a.asks args' = xs ++ .give p x :: ys' →
      argusParse W env' a args' = argusParse W env a args) := by
  have key : ∀ args' ys', a.asks args' = xs ++ .give p x :: ys' →
      parseArgs W a (some a.root) args' = .ok (Err.shouldExit, (a1.emits es).setOpt p o1.markSet) := by
    intro args' ys' hask'
    rw [parseArgs_run, hask', run_append _ _ _ (fun c hc h0 => asks_no_fail0 a args' (by
      rw [hask']; simp [← h0, hc])), hrun]
    simp only [Out.ok_bind, ne_eq, not_true_eq_false, if_false, run, execCallbacks_exit ho hh hv hexit hok]
    rfl
  constructor
  · intro r hr
    rw [argusParse_exit (key args ys hask)] at hr
    obtain ⟨a2, ha2, h2⟩ := Out.bind_eq_ok hr
    simp only [Out.ok.injEq] at h2
    subst h2
    refine ⟨rfl, ?_⟩
    have hout : a2.out = ((a1.emits es).setOpt p o1.markSet).out := by
      have h3 := argusFree_out ha2
      exact h3
    rw [hout]
    obtain ⟨c, hc⟩ := emits_eq a1 es
    show (a1.emits es).out = _
    rw [hc]
  · intro env' args' ys' hask'
    rw [argusParse_exit (key args' ys' hask'), argusParse_exit (key args ys hask)]

/-- What the built-in exiting options show at a level. -/
def shown (h : Handler) (t : Option Nat) : List Event :=
  match h with
  | .help => [.usage t, .help t]
  | .version => [.version]
  | _ => []

/-- **C35**, spelled out for `--name` with `--help` and `--version` in mind: the process exits, having
    shown the help of the level at which the option stands, and the rest of the line and the
    environment do not matter. -/
theorem C35_exit_long (W : World) (env : Env) (a : Argus) (pre post : List Str) (s : PState) (name : Str)
    (os : List Opt) (o : Opt) (h : Handler)
    (hfresh : a.stack = []) (hs : Reach W a pre s) (honly : s.only = false) (ht : s.a.table s.t = .ok os)
    (hne : name ≠ []) (heq : (61 : Byte) ∉ name) (hlen : name.length ≤ 63)
    (ho : byLong os name = some o) (hflag : o.valueType = .flag) (hh : o.handler = some h)
    (hb : h = .help ∨ h = .version ∨ h = .flag) (hexit : o.flags.has .exit = true)
    (hv : ∀ v ∈ o.validators.getD [], v.order = .post) :
    (∀ r, argusParse W env a (pre ++ (c!"--" ++ name) :: post) = .ok r →
      r.1 = .exited ∧ r.2.out = s.a.out ++ shown h s.t) ∧
    (∀ env' post', argusParse W env' a (pre ++ (c!"--" ++ name) :: post') =
      argusParse W env a (pre ++ (c!"--" ++ name) :: post)) := by
  obtain ⟨k, hk, hkt⟩ := table_eq_ok.1 ht
  obtain ⟨i, hi, hoi⟩ := findLname_of_byLong ho
  have ht' : s.a.table (some k) = .ok os := hk ▸ ht
  have hg := table_getOpt ht' hoi
  have hact := hs.active hfresh
  have hrun : ∃ o1, runHandler W s.a h o none = .ok (Err.success, o1, shown h s.t) := by
    rcases hb with rfl | rfl | rfl
    · exact ⟨o, by simp [runHandler, hact, shown]⟩
    · exact ⟨o, rfl⟩
    · exact ⟨_, rfl⟩
  obtain ⟨o1, ho1⟩ := hrun
  have key : ∀ post', parseArgs W a (some a.root) (pre ++ (c!"--" ++ name) :: post') =
      .ok (Err.shouldExit, (s.a.emits (shown h s.t)).setOpt ⟨k, i⟩ o1.markSet) := by
    intro post'
    rw [hs.parseArgs, finish_cons hs.skip, honly, show c!"--" ++ name = 45 :: 45 :: name by simp,
      parseStep_long hne]
    unfold handleLong
    rw [longParts_none heq hlen]
    rw [hk] at hact ⊢
    simp only [ht', Out.ok_bind, hi, hg, hflag, if_true,
      execCallbacks_exit hg hh hv hexit (hk ▸ ho1)]
    rfl
  constructor
  · intro r hr
    rw [argusParse_exit (key post)] at hr
    obtain ⟨a2, ha2, h2⟩ := Out.bind_eq_ok hr
    simp only [Out.ok.injEq] at h2
    subst h2
    refine ⟨rfl, ?_⟩
    have hout : a2.out = ((s.a.emits (shown h s.t)).setOpt ⟨k, i⟩ o1.markSet).out := by
      have h3 := argusFree_out ha2
      exact h3
    rw [hout]
    obtain ⟨c, hc⟩ := emits_eq s.a (shown h s.t)
    show (s.a.emits _).out = _
    rw [hc]
  · intro env' post'
    rw [argusParse_exit (key post'), argusParse_exit (key post)]

/-- `prog -v admin --help ...`: table 2 is in force, its help is shown; a required positional is not
    missed and an unknown option is not noticed. -/
example : ∃ s os o, Reach Sample.world Sample.prog [c!"-v", c!"admin"] s ∧ s.only = false ∧
    s.a.table s.t = .ok os ∧ s.t = some 2 ∧ byLong os c!"help" = some o ∧ o.valueType = .flag ∧
    o.handler = some .help ∧ o.flags.has .exit = true ∧ (∀ v ∈ o.validators.getD [], v.order = .post) ∧
    (argusParse Sample.world Sample.noEnv Sample.prog
      [c!"-v", c!"admin", c!"--help", c!"--nope"]).toOption.map (fun r => (r.1, r.2.out)) =
      some (.exited, [.usage (some 2), .help (some 2)]) := by
  refine ⟨_, _, _, rfl, rfl, rfl, rfl, rfl, rfl, rfl, by decide, ?_, by decide +kernel⟩
  intro v hv
  simp [helpOption, optionBase] at hv

/-- **C35** for the short spelling: `-c` as the first of a cluster (with any rest). -/
theorem C35_exit_short (W : World) (env : Env) (a : Argus) (pre post : List Str) (s : PState) (c : Byte)
    (cs : Str) (os : List Opt) (o : Opt) (h : Handler)
    (hfresh : a.stack = []) (hs : Reach W a pre s) (honly : s.only = false) (ht : s.a.table s.t = .ok os)
    (hc : c ≠ 45) (hnum : isDigit c = false ∧ c ≠ 46)
    (ho : byShort os c = some o) (hflag : o.valueType = .flag) (hh : o.handler = some h)
    (hb : h = .help ∨ h = .version ∨ h = .flag) (hexit : o.flags.has .exit = true)
    (hv : ∀ v ∈ o.validators.getD [], v.order = .post) :
    (∀ r, argusParse W env a (pre ++ (45 :: c :: cs) :: post) = .ok r →
      r.1 = .exited ∧ r.2.out = s.a.out ++ shown h s.t) ∧
    (∀ env' cs' post', argusParse W env' a (pre ++ (45 :: c :: cs') :: post') =
      argusParse W env a (pre ++ (45 :: c :: cs) :: post)) := by
  obtain ⟨k, hk, hkt⟩ := table_eq_ok.1 ht
  obtain ⟨i, hi, hoi⟩ := findSname_of_byShort ho
  have ht' : s.a.table (some k) = .ok os := hk ▸ ht
  have hg := table_getOpt ht' hoi
  have hact := hs.active hfresh
  have hrun : ∃ o1, runHandler W s.a h o none = .ok (Err.success, o1, shown h s.t) := by
    rcases hb with rfl | rfl | rfl
    · exact ⟨o, by simp [runHandler, hact, shown]⟩
    · exact ⟨o, rfl⟩
    · exact ⟨_, rfl⟩
  obtain ⟨o1, ho1⟩ := hrun
  have key : ∀ cs' post', parseArgs W a (some a.root) (pre ++ (45 :: c :: cs') :: post') =
      .ok (Err.shouldExit, (s.a.emits (shown h s.t)).setOpt ⟨k, i⟩ o1.markSet) := by
    intro cs' post'
    rw [hs.parseArgs, finish_cons hs.skip, honly,
      parseStep_short ht hc (by simp [looksNumeric, hnum.1, hnum.2])]
    unfold handleShort
    rw [hk] at hact ⊢
    simp only [ht', Out.ok_bind, hi, hg, hflag, if_true,
      execCallbacks_exit hg hh hv hexit (hk ▸ ho1)]
    rfl
  constructor
  · intro r hr
    rw [argusParse_exit (key cs post)] at hr
    obtain ⟨a2, ha2, h2⟩ := Out.bind_eq_ok hr
    simp only [Out.ok.injEq] at h2
    subst h2
    refine ⟨rfl, ?_⟩
    have hout : a2.out = ((s.a.emits (shown h s.t)).setOpt ⟨k, i⟩ o1.markSet).out := by
      have h3 := argusFree_out ha2
      exact h3
    rw [hout]
    obtain ⟨c, hc⟩ := emits_eq s.a (shown h s.t)
    show (s.a.emits _).out = _
    rw [hc]
  · intro env' cs' post'
    rw [argusParse_exit (key cs' post'), argusParse_exit (key cs post)]

/-- `prog -v -hx ...`. -/
example : ∃ s os o, Reach Sample.world Sample.prog [c!"-v"] s ∧ s.only = false ∧
    s.a.table s.t = .ok os ∧ byShort os 104 = some o ∧ o.valueType = .flag ∧ o.handler = some .help ∧
    o.flags.has .exit = true := by
  refine ⟨_, _, _, rfl, rfl, rfl, rfl, rfl, rfl, by decide⟩

end Argus
