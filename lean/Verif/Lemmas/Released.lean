import Verif.Lemmas.SafeRun

/-! What `argus_free` leaves allocated. -/

set_option autoImplicit false

namespace Argus

theorem FreedOpt.unallocated {o o' : Opt} (h : FreedOpt o o') (ho : o.isAllocated = false) : o' = o := by
  rcases h with rfl | ⟨h1, _⟩
  · rfl
  · rw [ho] at h1; simp at h1

theorem Argus.Released.free {a a' : Argus} {k : Nat} (h : a.Released k) (hs : a'.shape = a.shape)
    (hg : ∀ p o, a.getOpt p = .ok o → ∃ o', a'.getOpt p = .ok o' ∧ FreedOpt o o') : a'.Released k := by
  intro i o' ho'
  obtain ⟨o, h1, _⟩ := shape_getOpt hs.symm ho'
  obtain ⟨o2, h2, h3⟩ := hg _ _ h1
  rw [ho'] at h2; simp only [Out.ok.injEq] at h2; subst h2
  rw [h3.unallocated (h i o h1)]; exact h i o h1

theorem freeTable_released {a a' : Argus} {k : Nat} (h : freeTable a (some k) = .ok a') : a'.Released k := by
  unfold freeTable at h
  obtain ⟨os, hos, h1⟩ := Out.bind_eq_ok h
  obtain ⟨os1, hos1, h2⟩ := Out.bind_eq_ok h1
  obtain ⟨k', hk', hk⟩ := table_eq_ok.1 hos
  simp only [Option.some.injEq] at hk'; subst hk'
  simp only [Out.ok.injEq] at h2; subst h2
  intro i o ho
  obtain ⟨ps, hps, hi⟩ := getOpt_eq_ok.1 ho
  have hlt : k < a.tables.length := (List.getElem?_eq_some_iff.1 hk).1
  simp only [List.getElem?_set, hlt, if_true] at hps
  simp only [Option.some.injEq] at hps; subst hps
  have hlen : os1.length = os.length := by
    have : ∀ (os : List Opt) {os1 : List Opt}, freeOpts os = .ok os1 → os1.length = os.length := by
      intro os
      induction os with
      | nil => intro os1 h; simp only [freeOpts, Out.ok.injEq] at h; subst h; rfl
      | cons x xs ih =>
        intro os1 h
        unfold freeOpts at h
        obtain ⟨o1, _, h2⟩ := Out.bind_eq_ok h
        obtain ⟨os2, h3, h4⟩ := Out.bind_eq_ok h2
        simp only [Out.ok.injEq] at h4; subst h4
        simp [ih h3]
    exact this os hos1
  have hilt : i < os.length := by
    have : i < os1.length := (List.getElem?_eq_some_iff.1 hi).1
    omega
  obtain ⟨o', g1, g2⟩ := freeOpts_get os hos1 i os[i] (by simp [hilt])
  rw [hi] at g1; simp only [Option.some.injEq] at g1; subst g1
  subst g2
  split
  · rfl
  · rename_i hf; simpa using hf

/-- Every entry of the table can be left as it is. -/
theorem freeTable_id {a : Argus} {k : Nat} (hk : k < a.tables.length) (h : a.Released k) :
    freeTable a (some k) = .ok a := by
  have htab : a.tables[k]? = some a.tables[k] := by simp [hk]
  have hid : ∀ (os : List Opt), (∀ o ∈ os, o.isAllocated = false) → freeOpts os = .ok os := by
    intro os
    induction os with
    | nil => intro _; rfl
    | cons x xs ih =>
      intro h
      unfold freeOpts
      rw [freeOptionValue_unallocated (h x (by simp)), Out.ok_bind, ih (fun o ho => h o (by simp [ho])), Out.ok_bind]
  have : freeOpts a.tables[k] = .ok a.tables[k] := by
    refine hid _ (fun o ho => ?_)
    obtain ⟨i, hi, rfl⟩ := List.getElem_of_mem ho
    exact h i _ (getOpt_eq_ok.2 ⟨_, htab, by simp [hi]⟩)
  unfold freeTable
  rw [table_eq_ok.2 ⟨k, rfl, htab⟩, Out.ok_bind, this, Out.ok_bind]
  simp

theorem freeTable_some {a a' : Argus} {t : Option Nat} (h : freeTable a t = .ok a') :
    ∃ k, t = some k ∧ k < a.tables.length := by
  unfold freeTable at h
  obtain ⟨os, hos, _⟩ := Out.bind_eq_ok h
  obtain ⟨k, hk, h1⟩ := table_eq_ok.1 hos
  exact ⟨k, hk, (List.getElem?_eq_some_iff.1 h1).1⟩

theorem shape_length {a b : Argus} (h : b.shape = a.shape) : b.tables.length = a.tables.length := by
  have := congrArg List.length h
  unfold Argus.shape at this
  simpa using this

theorem freeStack_frame' : ∀ (ps : List Ptr) {a a' : Argus}, freeStack a ps = .ok a' →
    a'.shape = a.shape ∧ a'.stack = a.stack ∧ a'.root = a.root
  | [], a, a', h => by simp only [freeStack, Out.ok.injEq] at h; subst h; exact ⟨rfl, rfl, rfl⟩
  | p :: ps, a, a', h => by
    unfold freeStack at h
    obtain ⟨cmd, _, h1⟩ := Out.bind_eq_ok h
    obtain ⟨a1, ha1, h2⟩ := Out.bind_eq_ok h1
    have hf := freeTable_frame ha1
    obtain ⟨g1, g2, g3⟩ := freeStack_frame' ps h2
    exact ⟨g1.trans hf.frame.shape, g2.trans hf.stack, g3.trans hf.frame.root⟩

theorem freeStack_released : ∀ (ps : List Ptr) {a a' : Argus}, freeStack a ps = .ok a' →
    (∀ k, a.Released k → a'.Released k) ∧
    ∀ p ∈ ps, ∃ cmd k, a'.getOpt p = .ok cmd ∧ cmd.subOptions = some k ∧ k < a'.tables.length ∧ a'.Released k
  | [], a, a', h => by simp only [freeStack, Out.ok.injEq] at h; subst h; exact ⟨fun _ h => h, by simp⟩
  | p :: ps, a, a', h => by
    unfold freeStack at h
    obtain ⟨cmd, hc, h1⟩ := Out.bind_eq_ok h
    obtain ⟨a1, ha1, h2⟩ := Out.bind_eq_ok h1
    have hf := freeTable_frame ha1
    obtain ⟨k, hk, hlt⟩ := freeTable_some ha1
    obtain ⟨g1, g2⟩ := freeStack_released ps h2
    obtain ⟨e1, e2, e3⟩ := freeStack_frame' ps h2
    refine ⟨fun j hj => g1 j (hj.free hf.frame.shape (fun p o ho => freeTable_get ha1 ho)), ?_⟩
    intro q hq
    rcases List.mem_cons.1 hq with rfl | hq
    · obtain ⟨c', h3, h4⟩ := shape_getOpt (e1.trans hf.frame.shape) hc
      refine ⟨c', k, h3, ?_, ?_, g1 k (freeTable_released (hk ▸ ha1))⟩
      · exact ((congrArg Opt.subOptions h4 : c'.meta.subOptions = cmd.meta.subOptions)).trans hk
      · rw [shape_length (e1.trans hf.frame.shape)]; exact hlt
    · exact g2 q hq

theorem freeStack_id : ∀ (ps : List Ptr) {a : Argus},
    (∀ p ∈ ps, ∃ cmd k, a.getOpt p = .ok cmd ∧ cmd.subOptions = some k ∧ k < a.tables.length ∧ a.Released k) →
    freeStack a ps = .ok a
  | [], a, _ => rfl
  | p :: ps, a, h => by
    obtain ⟨cmd, k, h1, h2, h3, h4⟩ := h p (by simp)
    unfold freeStack
    rw [h1, Out.ok_bind, h2, freeTable_id h3 h4, Out.ok_bind]
    exact freeStack_id ps (fun q hq => h q (by simp [hq]))

/-- After `argus_free` nothing on the path is allocated, and a second call does nothing. -/
theorem argusFree_released {a a' : Argus} (h : argusFree a = .ok a') :
    (∀ k, a'.Selected k → a'.Released k) ∧ argusFree a' = .ok a' := by
  unfold argusFree at h
  obtain ⟨a1, ha1, h1⟩ := Out.bind_eq_ok h
  obtain ⟨k, hk, hlt⟩ := freeTable_some ha1
  simp only [Option.some.injEq] at hk
  have hf := freeTable_frame ha1
  obtain ⟨g1, g2⟩ := freeStack_released _ h1
  obtain ⟨e1, e2, e3⟩ := freeStack_frame' _ h1
  have hroot : a'.root = a.root := e3.trans hf.frame.root
  have hr : a'.Released a'.root := by rw [hroot]; exact g1 _ (freeTable_released ha1)
  have hlen : a'.root < a'.tables.length := by
    rw [shape_length (e1.trans hf.frame.shape), hroot, hk]; exact hlt
  rw [← e2] at g2
  constructor
  · intro j hj
    rcases hj with rfl | ⟨q, hq, cmd, h3, h4⟩
    · exact hr
    · obtain ⟨cmd', k', f1, f2, _, f4⟩ := g2 q hq
      rw [h3] at f1; simp only [Out.ok.injEq] at f1; subst f1
      rw [h4] at f2; simp only [Option.some.injEq] at f2; subst f2
      exact f4
  · unfold argusFree
    rw [freeTable_id hlen hr, Out.ok_bind]
    exact freeStack_id _ g2

/-- No option collects values. -/
def Plain (S : List (List Opt)) : Prop := ∀ os ∈ S, ∀ o ∈ os, ∀ h, o.handler = some h → h.isCollection = false

theorem Plain.harmless {S : List (List Opt)} (h : Plain S) {q : Ptr} {o : Opt} (ho : entryAt S q = some o) {x : Handler}
    (hx : o.handler = some x) (t : Str) : Harmless x t := by
  unfold entryAt at ho
  obtain ⟨os, h1, h2⟩ := Option.bind_eq_some_iff.1 ho
  have hc := h os (List.mem_of_getElem? h1) o (List.mem_of_getElem? h2) x hx
  refine ⟨fun hs => ?_, fun hi => ?_⟩
  · cases x <;> simp [Handler.splits, Handler.isCollection] at hs hc
  · subst hi; simp [Handler.isCollection] at hc

theorem Plain.fits {S : List (List Opt)} (h : Plain S) {root : Nat} {a : Argus} (hg : Good S root a) (env : Env)
    (xs : List Act) : Fits env a xs := by
  intro q o x ho hx
  obtain ⟨os, g1, g2⟩ := shape_get ho
  rw [hg.shape] at g1
  have hh : ∀ t, Harmless x t := fun t => h.harmless (q := q) (o := o.meta) (by simp [entryAt, g1, g2]) hx t
  exact ⟨fun hs _ t _ => (hh t).1 hs, fun hi t _ => (hh t).2 hi⟩

theorem Good.unallocated {S : List (List Opt)} {root : Nat} {a : Argus} (h : Good S root a) (hp : Plain S)
    (k : Nat) : a.Released k := by
  intro i o ho
  have hs := h.all _ o ho
  cases hh : o.handler with
  | none => exact hs.none hh
  | some x =>
    have hc := hs.holds x hh
    obtain ⟨os, h1, o', h2, h3⟩ := h.fed ho hh
    have hn := hp os h1 o' h2 x h3
    cases x <;> simp [Handler.isCollection] at hn <;> first | exact hc.1 | exact hc.elim

theorem argusFree_plain {S : List (List Opt)} {root : Nat} (hS : Closed S root) {a : Argus} (h : Good S root a)
    (hp : Plain S) : argusFree a = .ok a := by
  unfold argusFree
  have hlen := h.length
  rw [freeTable_id (by rw [hlen, h.root]; exact hS.root) (h.unallocated hp _), Out.ok_bind]
  refine freeStack_id _ (fun p hq => ?_)
  obtain ⟨o, j, h1, h2, h3, _⟩ := h.stack p hq
  exact ⟨o, j, h1, h2, by rw [hlen]; exact h3, h.unallocated hp _⟩

/-- A parse of a context without collections leaves it in good order, however it ends. -/
theorem argusParse_plain (W : World) (env : Env) {S : List (List Opt)} {root : Nat} (hS : Closed S root)
    (hpl : Plain S) {a : Argus} (h : Good S root a) (args : List Str) :
    Defd (argusParse W env a args) (fun r => Good S root r.2) := by
  unfold argusParse
  refine (parseArgs_good W env hS h args (hpl.fits h env _)).bind (fun r _ hr => ?_)
  replace hr := hr.1
  have h1 : Good S root { r.2 with errorCode := r.1 } := hr.same rfl rfl rfl
  simp only
  have free : ∀ (b : Argus) (e : ParseEnd), Good S root b →
      Defd (argusFree b >>= fun a2 => .ok (e, a2)) (fun r => Good S root r.2) := by
    intro b e hb
    rw [argusFree_plain hS hb hpl, Out.ok_bind]
    exact hb
  split
  · exact free _ _ h1
  · split
    · exact free _ _ (h1.same rfl rfl rfl)
    · obtain ⟨e, e1, e2⟩ := loadEnvVars_good W env hS (hpl.fits h1 env []) h1
      rw [e1, Out.ok_bind]
      split
      · exact free _ _ e2
      · obtain ⟨v, f1, f2⟩ := postValidation_good W hS e2
        rw [f1, Out.ok_bind]
        split
        · exact free _ _ f2
        · exact f2

theorem runCalls_plain (W : World) {S : List (List Opt)} {root : Nat} (hS : Closed S root) (hpl : Plain S) :
    ∀ (cs : List Call) {a : Argus}, Good S root a → Defd (runCalls W a cs) (Good S root)
  | [], a, h => h
  | .free :: cs, a, h => by
    unfold runCalls
    simp only [Call.run]
    rw [argusFree_plain hS h hpl]
    exact runCalls_plain W hS hpl cs h
  | .parse env args :: cs, a, h => by
    unfold runCalls
    simp only [Call.run]
    have h1 := argusParse_plain W env hS hpl h args
    cases hr : argusParse W env a args with
    | ub u => rw [hr] at h1; exact h1
    | ok r => rw [hr] at h1; exact runCalls_plain W hS hpl cs h1

/-- Without subcommand entries the stack of a context in good order is empty. -/
theorem Good.noSub {S : List (List Opt)} {root : Nat} {a : Argus} (h : Good S root a)
    (hn : ∀ os ∈ S, ∀ o ∈ os, o.type ≠ .subcommand) : a.stack = [] := by
  cases hs : a.stack with
  | nil => rfl
  | cons p ps =>
    obtain ⟨o, j, h1, _, _, h4⟩ := h.stack p (by rw [hs]; simp)
    obtain ⟨os, g1, g2⟩ := shape_get h1
    rw [h.shape] at g1
    exact absurd h4 (hn os (List.mem_of_getElem? g1) o.meta (List.mem_of_getElem? g2))

end Argus
