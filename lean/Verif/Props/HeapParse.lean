import Verif.Lemmas.HeapKeys
import Verif.Props.Heap
import Verif.Props.Safe

/-!
# C98: a whole program gives back its memory
-/

set_option autoImplicit false

namespace Argus

/-- The claim in full: however a parse ends, after the release every block is given back. -/
def C98_claim : Prop :=
  ∀ (W : World) (env : Env) (A : Allocator) (a : Argus) (args : List Str) (h0 : Heap) (e : ParseEnd) (a1 : Argus), A.Never → a.Proper →
    a.stack = [] → a.TextsFit args env → h0.Sound → argusParse W env a args = .ok (e, a1) →
    ∃ c1 c2, argusParseH W A env (MemArgus.start a h0) args = .ok (e, c1) ∧ argusFreeH c1 = .ok c2 ∧ c2.heap.live = h0.live

/-- **C98** (full statement: `C98_claim`, for every end of the parse). A parse that succeeds uses memory without any
    mistake, ends with the values of the model without memory, and `argus_free` gives back every block, except copies of keys
    that were written in texts for maps. Releasing again changes nothing.
    Missing: the keys, see `C98_key_leaks`. -/
theorem C98_success_partial (W : World) (env : Env) {A : Allocator} (hA : A.Never) {a : Argus} (hp : a.Proper) (hst : a.stack = [])
    {args : List Str} (hT : a.TextsFit args env) {h0 : Heap} (hs : h0.Sound) {a1 : Argus}
    (hr : argusParse W env a args = .ok (.returned Err.success, a1)) :
    ∃ c1 c2 lost, argusParseH W A env (MemArgus.start a h0) args = .ok (.returned Err.success, c1) ∧ c1.Holds a1 ∧
      argusFreeH c1 = .ok c2 ∧ Left lost h0.live c2.heap.live ∧ (∀ k ∈ lost, a.WrittenKey args env k) ∧
      ∃ c3, argusFreeH c2 = .ok c3 ∧ c3.heap.live = c2.heap.live :=
  parse_success W env hA (tracks_written W env a args) hp hst hT hs ⟨rfl, rfl, fun _ h => h⟩ hr

/-- **C98** If each map gets pairs with different keys, every block is given back. -/
theorem C98_success_all_partial (W : World) (env : Env) {A : Allocator} (hA : A.Never) {a : Argus} (hp : a.Proper) (hst : a.stack = [])
    {args : List Str} (hT : a.TextsFit args env) (hk : a.DifferentKeys W args env) {h0 : Heap} (hs : h0.Sound) {a1 : Argus}
    (hr : argusParse W env a args = .ok (.returned Err.success, a1)) :
    ∃ c1 c2, argusParseH W A env (MemArgus.start a h0) args = .ok (.returned Err.success, c1) ∧ c1.Holds a1 ∧
      argusFreeH c1 = .ok c2 ∧ c2.heap.live = h0.live := by
  obtain ⟨c1, c2, ks, e1, e2, e3, e4, e5, _⟩ := parse_success W env hA (tracks_apart W env) hp hst hT hs (hk.apart hp) hr
  have : ks = [] := List.eq_nil_iff_forall_not_mem.2 e5
  subst this
  exact ⟨c1, c2, e1, e2, e3, e4.nil⟩

/-- **C98** When `argus_parse` ends the process (`--help`, `--version`), it has given back every block, except copies of keys
    that were written in texts for maps, and these too if the keys are different. -/
theorem C98_exit_partial (W : World) (env : Env) {A : Allocator} (hA : A.Never) {a : Argus} (hp : a.Proper) (hst : a.stack = [])
    {args : List Str} (hT : a.TextsFit args env) {h0 : Heap} (hs : h0.Sound) {a1 : Argus}
    (hr : argusParse W env a args = .ok (.exited, a1)) :
    ∃ c1 lost, argusParseH W A env (MemArgus.start a h0) args = .ok (.exited, c1) ∧ Left lost h0.live c1.heap.live ∧
      (∀ k ∈ lost, a.WrittenKey args env k) ∧ (a.DifferentKeys W args env → c1.heap.live = h0.live) := by
  obtain ⟨c1, ks, e1, e2, e3⟩ := parse_exited W env hA (tracks_written W env a args) hp hst hT hs ⟨rfl, rfl, fun _ h => h⟩ hr
  refine ⟨c1, ks, e1, e2, e3, fun hk => ?_⟩
  obtain ⟨c2, ks, f1, f2, f3⟩ := parse_exited W env hA (tracks_apart W env) hp hst hT hs (hk.apart hp) hr
  rw [e1] at f1
  simp only [Out.ok.injEq, Prod.mk.injEq, true_and] at f1
  subst f1
  have : ks = [] := List.eq_nil_iff_forall_not_mem.2 f3
  subst this
  exact f2.nil

/-- **C98** When `argus_parse` reports an error, it has given back every block, except copies of keys that were written in
    texts for maps, and the blocks of at most one option, which its free handler would give back.
    Missing: these blocks, see `C98_refused_leaks`. -/
theorem C98_failure_partial (W : World) (env : Env) {A : Allocator} (hA : A.Never) {a : Argus} (hp : a.Proper) (hst : a.stack = [])
    {args : List Str} (hT : a.TextsFit args env) {h0 : Heap} (hs : h0.Sound) {e : Int} (he : e ≠ Err.success) {a1 : Argus}
    (hr : argusParse W env a args = .ok (.returned e, a1)) :
    ∃ c1 lost, argusParseH W A env (MemArgus.start a h0) args = .ok (.returned e, c1) ∧ (∀ k ∈ lost, a.WrittenKey args env k) ∧
      (Left lost h0.live c1.heap.live ∨ ∃ q ho fh h1, c1.opt q = .ok ho ∧ ho.ptr ≠ none ∧ ho.o.freeHandler = some fh ∧
        runFreeH (some fh) ho c1.heap = .ok h1 ∧ Left lost h0.live h1.live) :=
  parse_failed W env hA (tracks_written W env a args) hp hst hT hs ⟨rfl, rfl, fun _ h => h⟩ he hr

/-- **C98** A program without maps loses no keys. -/
theorem C98_without_maps_partial (W : World) (env : Env) {A : Allocator} (hA : A.Never) {a : Argus} (hp : a.Proper) (hst : a.stack = [])
    {args : List Str} (hT : a.TextsFit args env) (hm : ∀ os ∈ a.tables, ∀ o ∈ os, ∀ vt, ¬ IsMapOption o vt) {h0 : Heap} (hs : h0.Sound)
    {e : ParseEnd} {a1 : Argus} (hr : argusParse W env a args = .ok (e, a1)) :
    ∃ c1, argusParseH W A env (MemArgus.start a h0) args = .ok (e, c1) ∧
      (e = .returned Err.success → ∃ c2, argusFreeH c1 = .ok c2 ∧ c2.heap.live = h0.live) ∧
      (e = .exited → c1.heap.live = h0.live) := by
  have hk : a.DifferentKeys W args env := fun q o ho hx => by
    obtain ⟨os, h1, h2⟩ := getOpt_eq_ok.1 ho
    exact absurd hx (hm os (List.mem_of_getElem? h1) o (List.mem_of_getElem? h2) _)
  cases e with
  | exited =>
    obtain ⟨c1, _, e1, _, _, e2⟩ := C98_exit_partial W env hA hp hst hT hs hr
    exact ⟨c1, e1, fun h => (nomatch h), fun _ => e2 hk⟩
  | returned s =>
    by_cases h : s = Err.success
    · subst h
      obtain ⟨c1, c2, e1, _, e2, e3⟩ := C98_success_all_partial W env hA hp hst hT hk hs hr
      exact ⟨c1, e1, fun _ => ⟨c2, e2, e3⟩, fun h => (nomatch h)⟩
    · obtain ⟨c1, _, e1, _⟩ := C98_failure_partial W env hA hp hst hT hs h hr
      exact ⟨c1, e1, fun hx => absurd (by simpa using hx) h, fun hx => (nomatch hx)⟩

/-! ### Cases -/

namespace Sample

/-- A parse and, if it succeeds, the release: the end and the blocks then in use. -/
def memLife (env : Env) (a : Argus) (h : Heap) (args : List Str) : Out (ParseEnd × List (Nat × Blk)) := do
  let r ← argusParseH world plenty env (MemArgus.start a h) args
  if r.1 = .returned Err.success then do
    let c ← argusFreeH r.2
    .ok (r.1, liveBelow c.heap c.heap.next)
  else .ok (r.1, liveBelow r.2.heap r.2.heap.next)

/-- What a parse stores for an option, read from memory. -/
def memWords (env : Env) (a : Argus) (h : Heap) (args : List Str) (q : Ptr) : Out (List (List Word)) := do
  let r ← argusParseH world plenty env (MemArgus.start a h) args
  let ho ← r.2.opt q
  ho.words r.2.heap

/-- A line with an array, a map, a subcommand and a variadic argument. -/
def memLine : List Str :=
  [c!"--tags", c!"b,a", c!"-m", c!"x=1,y=2", c!"--tags=c", c!"-o", c!"f", c!"-m", c!"z=3", c!"admin", c!"list", c!"3", c!"p", c!"q"]

/-- No array or map of the sample program gets a text of commas only as its first. -/
theorem prog_fits {args : List Str} (hall : ∀ k < 3, ∀ i < 12, ∀ o ∈ (prog.tables[k]?.bind (fun os => os[i]?)).toList,
    o.handler.any Handler.splits = true → ∀ t ∈ (textsOf ⟨k, i⟩ (prog.asks args)).head?.toList,
      t.any (fun s => s.any (· != 44)) = true) : prog.TextsFit args noEnv := by
  intro q o h ho hh
  obtain ⟨os, h1, h2⟩ := getOpt_eq_ok.1 ho
  have hno : ∀ os ∈ prog.tables, ∀ o ∈ os, o.handler ≠ some .arrayInt := by decide +kernel
  refine ⟨fun hs t ht => ?_, fun hi => absurd (hi ▸ hh) (hno os (List.mem_of_getElem? h1) o (List.mem_of_getElem? h2))⟩
  have hev : (envVarName prog.envPrefix o).bind noEnv = none := by
    cases envVarName prog.envPrefix o <;> rfl
  unfold Argus.textsFor at ht
  rw [hev, Option.toList_none, List.map_nil, List.append_nil] at ht
  have hlt : q.tbl < 3 ∧ q.idx < 12 := by
    have hl : ∀ os ∈ prog.tables, os.length ≤ 12 := by decide +kernel
    have := hl os (List.mem_of_getElem? h1)
    refine ⟨?_, ?_⟩
    · rcases Nat.lt_or_ge q.tbl 3 with hlt | hge
      · exact hlt
      · rw [List.getElem?_eq_none (show prog.tables.length ≤ q.tbl from hge)] at h1; cases h1
    · rcases Nat.lt_or_ge q.idx 12 with hlt | hge
      · exact hlt
      · rw [List.getElem?_eq_none (by omega)] at h2; cases h2
  have := hall q.tbl hlt.1 q.idx hlt.2 o (by rw [h1, Option.bind_some, h2]; simp) (by rw [hh]; exact hs) (some t)
    (by rw [show (⟨q.tbl, q.idx⟩ : Ptr) = q from rfl, ht]; simp)
  simp only [Option.any_some, List.any_eq_true, bne_iff_ne] at this
  exact .inr this

end Sample

/-- `C98_success_partial` and `C98_success_all_partial` apply to a line with an array, a map, a subcommand and a variadic
    argument; the map is read back from memory, and the block of another owner is all that remains. -/
example : Sample.prog.Proper ∧ Sample.prog.stack = [] ∧ Sample.prog.TextsFit Sample.memLine Sample.noEnv ∧
    Sample.prog.DifferentKeys Sample.world Sample.memLine Sample.noEnv ∧ Sample.busyHeap.Sound ∧
    (∃ a1, argusParse Sample.world Sample.noEnv Sample.prog Sample.memLine = .ok (.returned Err.success, a1)) ∧
    Sample.memWords Sample.noEnv Sample.prog Sample.busyHeap Sample.memLine ⟨0, 5⟩ =
      .ok [[.ptr c!"x", .bits 1], [.ptr c!"y", .bits 2], [.ptr c!"z", .bits 3]] ∧
    Sample.memLife Sample.noEnv Sample.prog Sample.busyHeap Sample.memLine =
      .ok (.returned Err.success, [(0, .text c!"other")]) := by
  refine ⟨Sample.prog_proper, rfl, Sample.prog_fits (by decide +kernel), ?_, Sample.busyHeap_sound, ⟨_, rfl⟩, by decide +kernel,
    by decide +kernel⟩
  intro q o ho hm
  have hpos : ∀ k < 3, ∀ os ∈ Sample.prog.tables[k]?.toList, ∀ i < 12, ∀ o ∈ os[i]?.toList, o.valueType.mapKind.isSome = true →
      k = 0 ∧ i = 5 := by decide +kernel
  obtain ⟨os, h1, h2⟩ := getOpt_eq_ok.1 ho
  have hk : q.tbl < 3 := by
    rcases Nat.lt_or_ge q.tbl 3 with h | h
    · exact h
    · rw [List.getElem?_eq_none (show Sample.prog.tables.length ≤ q.tbl from h)] at h1; cases h1
  have hi : q.idx < 12 := by
    have hl : ∀ os ∈ Sample.prog.tables, os.length ≤ 12 := by decide +kernel
    have := hl os (List.mem_of_getElem? h1)
    have := (List.getElem?_eq_some_iff.1 h2).1
    omega
  have hmk : o.valueType.mapKind.isSome = true := by
    have : ∀ vt, IsMapOption o vt → vt.mapKind.isSome = true := by intro vt hv; cases hv <;> rfl
    exact this _ hm
  obtain ⟨g1, g2⟩ := hpos q.tbl hk os (by rw [h1]; simp) q.idx hi o (by rw [h2]; simp) hmk
  have hq : q = ⟨0, 5⟩ := by cases q; simp only at g1 g2; subst g1; subst g2; rfl
  subst hq
  have ho2 : Sample.prog.getOpt ⟨0, 5⟩ = .ok (optMapInt 109 (some c!"map")) := by decide +kernel
  rw [ho] at ho2
  simp only [Out.ok.injEq] at ho2
  subst ho2
  refine ⟨[c!"x=1,y=2", c!"z=3"], [[(c!"x", .int 1), (c!"y", .int 2)], [(c!"z", .int 3)]], by decide +kernel,
    ⟨_, _, rfl, ⟨[(c!"x", c!"1", .int 1), (c!"y", c!"2", .int 2)], by decide +kernel, rfl, ?_⟩, _, _, rfl,
      ⟨[(c!"z", c!"3", .int 3)], by decide +kernel, rfl, ?_⟩, rfl⟩, by decide +kernel⟩
  · intro q hq
    simp only [List.mem_cons, List.not_mem_nil, or_false] at hq
    rcases hq with rfl | rfl
    · exact ⟨by decide, 1, ⟨[], [], c!"1", by decide +kernel⟩, by decide +kernel⟩
    · exact ⟨by decide, 2, ⟨[], [], c!"2", by decide +kernel⟩, by decide +kernel⟩
  · intro q hq
    simp only [List.mem_cons, List.not_mem_nil, or_false] at hq
    subst hq; exact ⟨by decide, 3, ⟨[], [], c!"3", by decide +kernel⟩, by decide +kernel⟩

/-- `C98_exit_partial`: `--help` after values were stored. -/
example : (∃ a1, argusParse Sample.world Sample.noEnv Sample.prog [c!"-m", c!"x=1,y=2", c!"--tags=a", c!"--help"] = .ok (.exited, a1)) ∧
    Sample.memLife Sample.noEnv Sample.prog Sample.busyHeap [c!"-m", c!"x=1,y=2", c!"--tags=a", c!"--help"] =
      .ok (.exited, [(0, .text c!"other")]) := ⟨⟨_, rfl⟩, by decide +kernel⟩

/-- `C98_failure_partial`: an unknown option after values were stored. -/
example : (∃ a1, argusParse Sample.world Sample.noEnv Sample.prog [c!"-m", c!"x=1,y=2", c!"--tags=a", c!"--nope"] =
      .ok (.returned Err.invalidArgument, a1)) ∧
    Sample.memLife Sample.noEnv Sample.prog Sample.busyHeap [c!"-m", c!"x=1,y=2", c!"--tags=a", c!"--nope"] =
      .ok (.returned Err.invalidArgument, [(0, .text c!"other")]) := ⟨⟨_, rfl⟩, by decide +kernel⟩

/-- `C98_without_maps_partial`: the sample program with the map left out. -/
example : (∀ os ∈ [Sample.root.eraseIdx 5, Sample.add, Sample.admin], ∀ o ∈ os, ∀ vt, ¬ IsMapOption o vt) ∧
    Sample.memLife Sample.noEnv (argusInit [Sample.root.eraseIdx 5, Sample.add, Sample.admin] c!"prog" none) Sample.busyHeap
      [c!"--tags", c!"b,a", c!"--tags=a", c!"f"] = .ok (.returned Err.success, [(0, .text c!"other")]) := by
  refine ⟨fun os hos o ho vt hm => ?_, by decide +kernel⟩
  have hno : ∀ os ∈ [Sample.root.eraseIdx 5, Sample.add, Sample.admin], ∀ o ∈ os, o.valueType.mapKind.isSome = false := by
    decide +kernel
  have := hno os hos o ho
  rw [hm.type] at this
  cases hm <;> cases this

/-! ### The claim in full is false -/

/-- **C98** A key written twice leaves a copy behind, though parse and release succeed. -/
theorem C98_key_leaks : Sample.memLife Sample.noEnv Sample.prog Sample.emptyHeap [c!"-m", c!"x=1,x=2"] =
    .ok (.returned Err.success, [(5, .text c!"x")]) := by decide +kernel

/-- **C98** A map whose first text is refused after a pair was stored: the release in `argus_parse` passes it over, and so
    does a release after it. -/
theorem C98_refused_leaks : (Sample.memLife Sample.noEnv Sample.prog Sample.emptyHeap [c!"-m", c!"x=1,y"]).bind
    (fun r => .ok (r.1, r.2.map Prod.fst)) = .ok (.returned Err.invalidFormat, [3, 4]) ∧
    ((argusParseH Sample.world Sample.plenty Sample.noEnv (MemArgus.start Sample.prog Sample.emptyHeap) [c!"-m", c!"x=1,y"]).bind
      fun r => (argusFreeH r.2).bind fun c => .ok ((Sample.liveBelow c.heap c.heap.next).map Prod.fst)) = .ok [3, 4] := by
  decide +kernel

/-- **C98** Hence the claim in full is false. -/
theorem C98_claim_false : ¬ C98_claim := by
  intro h
  obtain ⟨a1, hr⟩ : ∃ a1, argusParse Sample.world Sample.noEnv Sample.prog [c!"-m", c!"x=1,x=2"] = .ok (.returned Err.success, a1) :=
    ⟨_, rfl⟩
  obtain ⟨c1, c2, e1, e2, e3⟩ := h Sample.world Sample.noEnv Sample.plenty Sample.prog _ Sample.emptyHeap _ a1 Sample.plenty_never
    Sample.prog_proper rfl (Sample.prog_fits (by decide +kernel)) Sample.emptyHeap_sound hr
  have hl := C98_key_leaks
  unfold Sample.memLife at hl
  rw [e1, Out.ok_bind] at hl
  simp only [if_true] at hl
  rw [e2, Out.ok_bind] at hl
  unfold Sample.liveBelow at hl
  rw [e3] at hl
  have hn : ∀ l : List Nat, l.filterMap (fun x => (Sample.emptyHeap.live x).map fun b => (x, b)) = [] :=
    fun l => List.filterMap_eq_nil_iff.2 (fun _ _ => rfl)
  rw [hn] at hl
  simp at hl

end Argus
