import Verif.Lemmas.HeapShort
import Verif.Props.HeapParse

/-!
# C100: a program that runs out of memory
-/

set_option autoImplicit false

namespace Argus

/-- The claim in full: for every program and wherever allocations fail, the parse ends as with memory or reports the lack of
    it, and nothing is left in use. -/
def C100_claim : Prop :=
  ∀ (W : World) (env : Env) (A : Allocator) (a : Argus) (args : List Str) (h0 : Heap) (e : ParseEnd) (a1 : Argus), a.Proper →
    a.stack = [] → a.TextsFit args env → h0.Sound → argusParse W env a args = .ok (e, a1) →
    ∃ e' c1, argusParseH W A env (MemArgus.start a h0) args = .ok (e', c1) ∧ (e' = e ∨ e' = .returned Err.memory) ∧
      (e' ≠ .returned Err.success → c1.heap.live = h0.live)

theorem ChecksMemory.all {a : Argus} (h : a.ChecksMemory) : AllChecked a := by
  intro p o ho hd hh hc
  obtain ⟨os, h1, h2⟩ := getOpt_eq_ok.1 ho
  have := h os (List.mem_of_getElem? h1) o (List.mem_of_getElem? h2) hd hh hc
  simp only [List.mem_cons, List.not_mem_nil, or_false] at this
  rcases this with rfl | rfl | rfl | rfl
  · exact .arrayString
  · exact .variadicString
  · exact .variadicInt
  · exact .variadicFloat

/-- **C100** (full statement: `C100_claim`, for every program). Wherever `malloc` and `strdup` fail, a program whose only
    collections are string arrays and variadic options makes no mistake: its parse ends as with plenty of memory or reports
    the lack of it. If it succeeds, its values are those of the parse with memory, and `argus_free` gives back every block. If
    the process ends (`--help`), every block is given back. If it reports an error, so too, except the blocks of at most one
    option.
    Missing: number arrays and maps, see `C100_map_crashes`; `realloc`, see `C100_realloc_overruns`; the blocks of that option,
    see `C100_first_value_leaks`. -/
theorem C100_lack_of_memory_partial (W : World) (env : Env) {A : Allocator} (hA : A.Grows) {a : Argus} (hp : a.Proper)
    (hst : a.stack = []) (hC : a.ChecksMemory) {args : List Str} (hT : a.TextsFit args env) {h0 : Heap} (hs : h0.Sound) {e : ParseEnd}
    {a1 : Argus} (hr : argusParse W env a args = .ok (e, a1)) :
    ∃ e' c1, argusParseH W A env (MemArgus.start a h0) args = .ok (e', c1) ∧ (e' = e ∨ e' = .returned Err.memory) ∧
      (e' = .returned Err.success → c1.Holds a1 ∧ ∃ c2, argusFreeH c1 = .ok c2 ∧ c2.heap.live = h0.live) ∧
      (e' = .exited → c1.heap.live = h0.live) ∧ (e' ≠ .returned Err.success → GivenBack h0.live c1) := by
  have hN := Allocator.ample_never hA
  have T := tracks_checked W env
  have hE := ChecksMemory.all hC
  rcases parse_short W env hA hp hst hE hT hs hr with h | ⟨c1, h, hg⟩
  · rw [h]
    cases e with
    | exited =>
      obtain ⟨c1, ks, e1, e2, e3⟩ := parse_exited W env hN T hp hst hT hs hE hr
      have hl : c1.heap.live = h0.live := e2.none_lost e3
      exact ⟨_, c1, e1, .inl rfl, fun h => (nomatch h), fun _ => hl, fun _ => .inl hl⟩
    | returned s =>
      by_cases hok : s = Err.success
      · subst hok
        obtain ⟨c1, c2, ks, e1, e2, e3, e4, e5, _⟩ := parse_success W env hN T hp hst hT hs hE hr
        exact ⟨_, c1, e1, .inl rfl, fun _ => ⟨e2, c2, e3, e4.none_lost e5⟩, fun h => (nomatch h), fun h => absurd rfl h⟩
      · obtain ⟨c1, ks, e1, e2, e3⟩ := parse_failed W env hN T hp hst hT hs hE hok hr
        refine ⟨_, c1, e1, .inl rfl, fun h => absurd (by simpa using h) hok, fun h => (nomatch h), fun _ => ?_⟩
        have : ks = [] := List.eq_nil_iff_forall_not_mem.2 e2
        subst this
        rcases e3 with e3 | ⟨q, ho, fh, h1, g1, g2, g3, g4, g5⟩
        · exact .inl e3.nil
        · exact .inr ⟨q, ho, fh, h1, g1, g2, g3, g4, g5.nil⟩
  · exact ⟨_, c1, h, .inr rfl, fun h => absurd h (by decide), fun h => (nomatch h), fun _ => hg⟩

/-- **C100** Two allocators that never fail to enlarge a block, one of them never failing at all: the parse ends in the same
    way, or the other one lacked memory. In particular the values do not depend on where blocks lie. -/
theorem C100_same_as_with_memory_partial (W : World) (env : Env) {A A' : Allocator} (hA : A.Grows) (hA' : A'.Never) {a : Argus}
    (hp : a.Proper) (hst : a.stack = []) (hC : a.ChecksMemory) {args : List Str} (hT : a.TextsFit args env) {h0 h0' : Heap}
    (hs : h0.Sound) (hs' : h0'.Sound) {c1' : MemArgus}
    (hr : argusParseH W A' env (MemArgus.start a h0') args = .ok (.returned Err.success, c1'))
    {e : ParseEnd} {a1 : Argus} (hr1 : argusParse W env a args = .ok (e, a1)) :
    ∃ c1, (argusParseH W A env (MemArgus.start a h0) args = .ok (.returned Err.success, c1) ∧ c1.Holds a1 ∧ c1'.Holds a1) ∨
      argusParseH W A env (MemArgus.start a h0) args = .ok (.returned Err.memory, c1) := by
  obtain ⟨c2, ks, B, e1, _⟩ := parse_held W env hA' (tracks_checked W env) hp hst hT hs' (ChecksMemory.all hC) hr1
  rw [hr] at e1
  simp only [Out.ok.injEq, Prod.mk.injEq] at e1
  obtain ⟨rfl, rfl⟩ := e1
  obtain ⟨e', c1, f1, f2, f3, _⟩ := C100_lack_of_memory_partial W env hA hp hst hC hT hs hr1
  obtain ⟨c3, _, _, g1, g2, _⟩ := parse_success W env hA' (tracks_checked W env) hp hst hT hs' (ChecksMemory.all hC) hr1
  rw [hr] at g1
  simp only [Out.ok.injEq, Prod.mk.injEq, true_and] at g1
  subst g1
  rcases f2 with rfl | rfl
  · exact ⟨c1, .inl ⟨f1, (f3 rfl).1, g2⟩⟩
  · exact ⟨c1, .inr f1⟩

/-! ### Cases -/

namespace Sample

/-- The sample program without its map. -/
def frugal : Argus := argusInit [root.eraseIdx 5, add, admin] c!"prog" (some c!"1.0")

theorem frugal_proper : frugal.Proper := by
  have hsub : ∀ os ∈ frugal.tables, ∀ o ∈ os, ∃ os' ∈ prog.tables, o ∈ os' := by
    intro os hos o ho
    have ht : frugal.tables = [root.eraseIdx 5, add, admin] := rfl
    have ht' : prog.tables = [root, add, admin] := rfl
    rw [ht] at hos
    rw [ht']
    simp only [List.mem_cons, List.not_mem_nil, or_false] at hos
    rcases hos with rfl | rfl | rfl
    · exact ⟨root, by simp, List.mem_of_mem_eraseIdx ho⟩
    · exact ⟨add, by simp, ho⟩
    · exact ⟨admin, by simp, ho⟩
  refine ⟨fun os hos o ho => ?_, by decide +kernel, fun os hos o ho ht => ?_⟩
  · obtain ⟨os', h1, h2⟩ := hsub os hos o ho
    exact prog_proper.entries os' h1 o h2
  · obtain ⟨os', h1, h2⟩ := hsub os hos o ho
    exact prog_proper.subs os' h1 o h2 ht

theorem frugal_checks : frugal.ChecksMemory := by
  have : ∀ os ∈ frugal.tables, ∀ o ∈ os, ∀ hd ∈ o.handler.toList, hd.isCollection = true →
      hd ∈ [Handler.arrayString, .variadicString, .variadicInt, .variadicFloat] := by decide +kernel
  intro os hos o ho hd hh hc
  exact this os hos o ho hd (by rw [hh]; simp) hc

/-- A line with an array given twice, a subcommand and a variadic argument. -/
def frugalLine : List Str := [c!"--tags", c!"b,a", c!"--tags=c", c!"f", c!"add", c!"3", c!"p", c!"q"]

theorem frugal_fits : frugal.TextsFit frugalLine noEnv := by
  intro q o h ho hh
  obtain ⟨os, h1, h2⟩ := getOpt_eq_ok.1 ho
  have hno : ∀ os ∈ frugal.tables, ∀ o ∈ os, o.handler ≠ some .arrayInt := by decide +kernel
  refine ⟨fun hs t ht => ?_, fun hi => absurd (hi ▸ hh) (hno os (List.mem_of_getElem? h1) o (List.mem_of_getElem? h2))⟩
  have hev : (envVarName frugal.envPrefix o).bind noEnv = none := by
    cases envVarName frugal.envPrefix o <;> rfl
  unfold Argus.textsFor at ht
  rw [hev, Option.toList_none, List.map_nil, List.append_nil] at ht
  have hlt : q.tbl < 3 ∧ q.idx < 12 := by
    have hl : ∀ os ∈ frugal.tables, os.length ≤ 12 := by decide +kernel
    have := hl os (List.mem_of_getElem? h1)
    refine ⟨?_, ?_⟩
    · rcases Nat.lt_or_ge q.tbl 3 with hlt | hge
      · exact hlt
      · rw [List.getElem?_eq_none (show frugal.tables.length ≤ q.tbl from hge)] at h1; cases h1
    · rcases Nat.lt_or_ge q.idx 12 with hlt | hge
      · exact hlt
      · rw [List.getElem?_eq_none (by omega)] at h2; cases h2
  have hall : ∀ k < 3, ∀ i < 12, ∀ o ∈ (frugal.tables[k]?.bind (fun os => os[i]?)).toList,
      o.handler.any Handler.splits = true → ∀ t ∈ (textsOf ⟨k, i⟩ (frugal.asks frugalLine)).head?.toList,
        t.any (fun s => s.any (· != 44)) = true := by decide +kernel
  have := hall q.tbl hlt.1 q.idx hlt.2 o (by rw [h1, Option.bind_some, h2]; simp) (by rw [hh]; exact hs) (some t)
    (by rw [show (⟨q.tbl, q.idx⟩ : Ptr) = q from rfl, ht]; simp)
  simp only [Option.any_some, List.any_eq_true, bne_iff_ne] at this
  exact .inr this

/-- A parse with an allocator and, if it succeeds, the release: the end and the blocks then in use. -/
def memLifeWith (A : Allocator) (a : Argus) (h : Heap) (args : List Str) : Out (ParseEnd × List (Nat × Blk)) := do
  let r ← argusParseH world A noEnv (MemArgus.start a h) args
  if r.1 = .returned Err.success then do
    let c ← argusFreeH r.2
    .ok (r.1, liveBelow c.heap c.heap.next)
  else .ok (r.1, liveBelow r.2.heap r.2.heap.next)

end Sample

/-- `C100_lack_of_memory_partial` applies to a line with an array given twice, a subcommand and a variadic argument. The
    parse makes allocations 1 to 10; one in the middle fails. -/
example : Sample.frugal.Proper ∧ Sample.frugal.stack = [] ∧ Sample.frugal.ChecksMemory ∧
    Sample.frugal.TextsFit Sample.frugalLine Sample.noEnv ∧ Sample.busyHeap.Sound ∧ (Sample.failsAt 7).Grows ∧
    (∃ a1, argusParse Sample.world Sample.noEnv Sample.frugal Sample.frugalLine = .ok (.returned Err.success, a1)) ∧
    Sample.memLifeWith Sample.plenty Sample.frugal Sample.busyHeap Sample.frugalLine =
      .ok (.returned Err.success, [(0, .text c!"other")]) ∧
    Sample.memLifeWith (Sample.failsAt 7) Sample.frugal Sample.busyHeap Sample.frugalLine =
      .ok (.returned Err.memory, [(0, .text c!"other")]) :=
  ⟨Sample.frugal_proper, rfl, Sample.frugal_checks, Sample.frugal_fits, Sample.busyHeap_sound, fun _ => rfl, ⟨_, rfl⟩, by decide +kernel,
    by decide +kernel⟩

/-- `C100_same_as_with_memory_partial`: the same line with plenty of memory, in another heap. -/
example : Sample.plenty.Never ∧ Sample.emptyHeap.Sound ∧
    ∃ c1, argusParseH Sample.world Sample.plenty Sample.noEnv (MemArgus.start Sample.frugal Sample.emptyHeap) Sample.frugalLine =
      .ok (.returned Err.success, c1) := ⟨Sample.plenty_never, Sample.emptyHeap_sound, _, rfl⟩

/-! ### The claim in full is false -/

/-- **C100** The key of a map cannot be copied: it is printed all the same. -/
theorem C100_map_crashes : Sample.memLifeWith (Sample.failsAt 0) Sample.prog Sample.emptyHeap [c!"-m", c!"x=1"] = .ub .nullDeref := by
  decide +kernel

/-- **C100** `realloc` fails at the ninth value: it is written behind the block. -/
theorem C100_realloc_overruns : Sample.memLifeWith ⟨fun _ => true, fun _ => false, fun _ => false⟩ Sample.frugal Sample.emptyHeap
    [c!"--tags=1,2,3,4,5,6,7,8,9"] = .ub .outOfBounds := by decide +kernel

/-- **C100** The second value of an array cannot be copied: the array and its first value stay. -/
theorem C100_first_value_leaks : (Sample.memLifeWith (Sample.failsAt 5) Sample.frugal Sample.emptyHeap [c!"--tags=1,2"]).bind
    (fun r => .ok (r.1, r.2.map Prod.fst)) = .ok (.returned Err.memory, [3, 4]) := by decide +kernel

/-- **C100** Hence the claim in full is false. -/
theorem C100_claim_false : ¬ C100_claim := by
  intro h
  obtain ⟨a1, hr⟩ : ∃ a1, argusParse Sample.world Sample.noEnv Sample.prog [c!"-m", c!"x=1"] = .ok (.returned Err.success, a1) := ⟨_, rfl⟩
  obtain ⟨e', c1, e1, _⟩ := h Sample.world Sample.noEnv (Sample.failsAt 0) Sample.prog _ Sample.emptyHeap _ a1
    Sample.prog_proper rfl (Sample.prog_fits (by decide +kernel)) Sample.emptyHeap_sound hr
  have hu : argusParseH Sample.world (Sample.failsAt 0) Sample.noEnv (MemArgus.start Sample.prog Sample.emptyHeap) [c!"-m", c!"x=1"] =
    .ub .nullDeref := rfl
  rw [hu] at e1; cases e1

end Argus
