import Verif.Lemmas.HeapEnd
import Verif.Props.Safe

/-!
# C39: what array and map options allocate and release

In this model a second release of a block, a release of what is no block, and any access to a released block are undefined
behaviour, so a result `.ok` means that none of them has happened. `h.live` are the blocks in use; equality before and after
means that every block allocated in between has been released and no other one.
-/

set_option autoImplicit false

namespace Argus

/-- The claim in full: for every sequence of occurrences, followed by the release, whatever the allocator does. -/
def C39_claim : Prop :=
  ∀ (W : World) (A : Allocator) (hd : Handler) (ho : HOpt) (h : Heap) (ts : List Str), ho.Unused hd → h.Sound →
    hd.Takes ts →
    ∃ st ho1 h1 ho2 h2, giveAllH W A hd ho h ts = .ok (st, ho1, h1) ∧ freeOptionH ho1 h1 = .ok (ho2, h2) ∧ h2.live = h.live

/-- **C39** With memory available and wherever `realloc` puts its blocks, occurrences never misuse memory, end with the same
    status as in the model without memory and leave the same values, readable in memory. -/
theorem C39_same_values_partial (W : World) {A : Allocator} (hA : A.Never) {hd : Handler} {ho : HOpt} (u : ho.Unused hd) {h : Heap}
    (hs : h.Sound) {ts : List Str} (hT : hd.Takes ts) :
    ∃ st o1 ho1 h1, giveAllV W hd ho.o ts = .ok (st, o1) ∧ giveAllH W A hd ho h ts = .ok (st, ho1, h1) ∧
      ho1.Reads h1 o1.value ∧ { ho1.o with value := o1.value } = o1 := by
  have hS := u.proper.sound
  obtain ⟨fh, hfh, ⟨k, n, H, _⟩ | ⟨k, n, H, _⟩⟩ := u.kinds
  · obtain ⟨st, ho1, h1, cs, e1, e2, e3, _⟩ := arr_life W hA H (u.rep (arrColl k n) hs) (by rw [u.abs]; exact hS) u.handler rfl
      hT.harmless
    rw [u.abs] at e1
    exact ⟨st, _, ho1, h1, e1, e2, e3.reads_arr, rfl⟩
  · obtain ⟨st, ho1, h1, cs, base, ks, e1, e2, e3, _⟩ := map_life W hA H (u.rep (mapColl k n) hs) (by rw [u.abs]; exact hS)
      u.handler rfl hT.harmless
    rw [u.abs] at e1
    exact ⟨st, _, ho1, h1, e1, e2, e3.reads_map, rfl⟩

/-- **C39** Arrays and variadic positionals, with memory available and wherever `realloc` puts its blocks: after any sequence
    of occurrences of which the first is accepted, the release succeeds and gives back exactly what was allocated. -/
theorem C39_arrays_partial (W : World) {A : Allocator} (hA : A.Never) {hd : Handler} {ho : HOpt} (u : ho.Unused hd) {h : Heap}
    (hs : h.Sound) {ts : List Str} (hT : hd.Takes ts) (hnm : ∀ vt, ¬ IsMapOption ho.o vt) :
    ∃ st ho1 h1, giveAllH W A hd ho h ts = .ok (st, ho1, h1) ∧
      (st = Err.success ∨ ho1.o.isAllocated = true → ∃ ho2 h2, freeOptionH ho1 h1 = .ok (ho2, h2) ∧ h2.live = h.live) := by
  have hS := u.proper.sound
  obtain ⟨fh, hfh, ⟨k, n, H, _⟩ | ⟨_, _, _, hm⟩⟩ := u.kinds
  · obtain ⟨st, ho1, h1, cs, e1, e2, e3, e4, e5, _⟩ := arr_life W hA H (u.rep (arrColl k n) hs) (by rw [u.abs]; exact hS) u.handler
      rfl hT.harmless
    refine ⟨st, ho1, h1, e2, fun ha => ?_⟩
    refine freeOptionH_of (arr_free H e3) (e4.free.trans hfh) e3 ?_
    rcases ha with ha | ha
    · cases ts with
      | nil =>
        right
        simp only [giveAllH, Out.ok.injEq, Prod.mk.injEq] at e2
        rw [← e2.2.1]; exact u.ptr
      | cons t ts => exact .inl (e5 ha (by simp))
    · exact .inl ha
  · exact absurd hm (hnm _)

/-- **C39** Maps, with memory available: the release succeeds and gives back everything but the copies of the keys that
    `set_kv_pair` drops, which are those written again and that of a value that is not accepted. -/
theorem C39_maps_partial (W : World) {A : Allocator} (hA : A.Never) {hd : Handler} {ho : HOpt} (u : ho.Unused hd) {h : Heap}
    (hs : h.Sound) {ts : List Str} (hT : hd.Takes ts) {vt : ValueType} (hm : IsMapOption ho.o vt) :
    ∃ st ho1 h1 lost, giveAllH W A hd ho h ts = .ok (st, ho1, h1) ∧ LostByAll W hd vt ho.o ts lost ∧
      (∀ k ∈ lost, (61 : Byte) ∉ k ∧ ∃ t ∈ ts, ∃ v, k ++ c!"=" ++ v ∈ pieces t) ∧
      (st = Err.success ∨ ho1.o.isAllocated = true → ∃ ho2 h2, freeOptionH ho1 h1 = .ok (ho2, h2) ∧ Left lost h.live h2.live) := by
  have hS := u.proper.sound
  obtain ⟨fh, hfh, ⟨_, _, _, hnm⟩ | ⟨k, n, H, _⟩⟩ := u.kinds
  · exact absurd hm (hnm _)
  · rw [hm.type] at H
    obtain ⟨st, ho1, h1, cs, base, ks, e1, e2, e3, e4, e5, e6, e7, _⟩ := map_life W hA H (u.rep (mapColl k n) hs)
      (by rw [u.abs]; exact hS) u.handler hm.type hT.harmless
    rw [u.abs] at e7
    refine ⟨st, ho1, h1, ks, e2, e7, e7.keys, fun ha => ?_⟩
    obtain ⟨ho2, h2, f1, f2⟩ := freeOptionH_of (map_free H e3) (e5.free.trans hfh) e3 (by
      rcases ha with ha | ha
      · cases ts with
        | nil =>
          right
          simp only [giveAllH, Out.ok.injEq, Prod.mk.injEq] at e2
          rw [← e2.2.1]; exact u.ptr
        | cons t ts => exact .inl (e6 ha (by simp))
      · exact .inl ha)
    exact ⟨ho2, h2, f1, by rw [f2]; exact e4⟩

/-- **C39** A map whose keys are all different, in all occurrences together, loses nothing. -/
theorem C39_maps_distinct_partial (W : World) {A : Allocator} (hA : A.Never) {hd : Handler} {ho : HOpt} (u : ho.Unused hd)
    {h : Heap} (hs : h.Sound) {ts : List Str} (hT : hd.Takes ts) {vt : ValueType} (hm : IsMapOption ho.o vt)
    {pss : List (List (Str × MVal))} (hp : OccurrencePairs W vt ts pss) (hd' : (pss.flatten.map Prod.fst).Nodup) :
    ∃ st ho1 h1, giveAllH W A hd ho h ts = .ok (st, ho1, h1) ∧
      (st = Err.success ∨ ho1.o.isAllocated = true → ∃ ho2 h2, freeOptionH ho1 h1 = .ok (ho2, h2) ∧ h2.live = h.live) := by
  obtain ⟨st, ho1, h1, lost, e1, e2, _, e3⟩ := C39_maps_partial W hA u hs hT hm
  have hsp : hd.splits = true := by
    have := u.handler
    cases hm <;> (rename_i g _; rw [this] at g; simp only [Option.some.injEq] at g; subst g; rfl)
  have hS : MapS ho.o [] := ⟨u.fresh.2, .inl ⟨rfl, u.fresh.1⟩, by simp, by simp⟩
  have hl := e2.distinct [] pss hm u.handler hS (fun _ t ht => pieces_ne_nil (hT.1 hsp t ht)) hp (by simpa using hd')
  subst hl
  refine ⟨st, ho1, h1, e1, fun ha => ?_⟩
  obtain ⟨ho2, h2, f1, f2⟩ := e3 ha
  exact ⟨ho2, h2, f1, f2.nil⟩

/-- **C39** Allocation failures: string arrays and all variadic positionals check `malloc` and `strdup`. Wherever these
    fail, and wherever `realloc` puts its blocks, memory is not misused and everything is given back, as long as
    `realloc` itself does not fail and the first occurrence is accepted. -/
theorem C39_out_of_memory_partial (W : World) {A : Allocator} (hA : A.Grows) {hd : Handler}
    (hc : hd = .arrayString ∨ hd = .variadicString ∨ hd = .variadicInt ∨ hd = .variadicFloat) {ho : HOpt} (u : ho.Unused hd)
    {h : Heap} (hs : h.Sound) {ts : List Str} (hT : hd.Takes ts) :
    ∃ st ho1 h1, giveAllH W A hd ho h ts = .ok (st, ho1, h1) ∧
      (st = Err.success ∨ st = Err.memory ∨ st = Err.invalidValue) ∧
      (st = Err.success ∨ ho1.o.isAllocated = true → ∃ ho2 h2, freeOptionH ho1 h1 = .ok (ho2, h2) ∧ h2.live = h.live) := by
  have hC : CheckedHandler hd := by
    rcases hc with rfl | rfl | rfl | rfl
    · exact .arrayString
    · exact .variadicString
    · exact .variadicInt
    · exact .variadicFloat
  obtain ⟨fh, hfh, ⟨k, n, H, _⟩ | ⟨_, _, H, _⟩⟩ := u.kinds
  · obtain ⟨st, ho1, h1, cs, e2, e3, e4, e6, e5⟩ := life_safe W hA H hC ts h ho [] (u.rep (arrColl k n) hs) rfl
      (fun hs _ t ht => pieces_ne_nil (hT.1 hs t ht))
    refine ⟨st, ho1, h1, e2, e6, fun ha => ?_⟩
    refine freeOptionH_of (arr_free H e3) (e4.free.trans hfh) e3 ?_
    rcases ha with ha | ha
    · cases ts with
      | nil =>
        right
        simp only [giveAllH, Out.ok.injEq, Prod.mk.injEq] at e2
        rw [← e2.2.1]; exact u.ptr
      | cons t ts => exact .inl (e5 ha (by simp))
    · exact .inl ha
  · generalize ho.o.valueType = v at H
    cases H <;> cases hC

/-- **C39** The condition of the theorems above: it holds as soon as the first occurrence is accepted, also when a later
    one is not. -/
theorem C39_first_accepted_partial {W : World} {A : Allocator} {hd : Handler} {ho : HOpt} (u : ho.Unused hd) {h : Heap} {t : Str}
    {ts : List Str} {st : Int} {ho0 ho1 : HOpt} {h0 h1 : Heap}
    (e0 : runHandlerH W A hd ho h t = .ok (Err.success, ho0, h0))
    (e : giveAllH W A hd ho h (t :: ts) = .ok (st, ho1, h1)) : ho1.o.isAllocated = true :=
  giveAllH_first u.collection e0 e

/-! ### Cases -/

namespace Sample

/-- An empty heap. -/
def emptyHeap : Heap := ⟨fun _ => none, 0, 0⟩

theorem emptyHeap_sound : emptyHeap.Sound := fun _ _ => rfl

/-- A heap in which another option keeps a string. -/
def busyHeap : Heap := ⟨fun x => if x = 0 then some (.text c!"other") else none, 1, 1⟩

theorem busyHeap_sound : busyHeap.Sound := by
  intro x hx
  have : x ≠ 0 := by intro h; subst h; exact absurd hx (by decide)
  show (if x = 0 then _ else _) = _
  rw [if_neg this]

/-- Memory is always available; `realloc` moves every second time. -/
def plenty : Allocator := ⟨fun _ => true, fun _ => true, fun i => i % 2 == 0⟩

theorem plenty_never : plenty.Never := fun _ => ⟨rfl, rfl⟩

/-- The allocation number `n` fails. -/
def failsAt (n : Nat) : Allocator := ⟨fun i => i != n, fun _ => true, fun _ => true⟩

def tags : HOpt := ⟨optArrayString 116 (some c!"tags"), none⟩
def ints : HOpt := ⟨optArrayInt 105 (some c!"ints"), none⟩
def floatsOpt : HOpt := ⟨optArrayFloat 102 (some c!"floats"), none⟩
def pairs : HOpt := ⟨optMapString 109 (some c!"map"), none⟩
def intPairs : HOpt := ⟨optMapInt 109 (some c!"map"), none⟩
def names : HOpt := ⟨posManyString c!"names", none⟩

theorem tags_unused : tags.Unused .arrayString :=
  ⟨rfl, rfl, .fresh _ .arrayString .arrayString rfl rfl .arrayString rfl (by decide) rfl rfl rfl (by decide) (fun _ h => nomatch h), rfl⟩

theorem ints_unused : ints.Unused .arrayInt :=
  ⟨rfl, rfl, .fresh _ .arrayInt .default rfl rfl .arrayInt rfl (by decide) rfl rfl rfl (by decide) (fun _ h => nomatch h), rfl⟩

theorem floatsOpt_unused : floatsOpt.Unused .arrayFloat :=
  ⟨rfl, rfl, .fresh _ .arrayFloat .default rfl rfl .arrayFloat rfl (by decide) rfl rfl rfl (by decide) (fun _ h => nomatch h), rfl⟩

theorem pairs_unused : pairs.Unused .mapString :=
  ⟨rfl, rfl, .fresh _ .mapString .mapString rfl rfl .mapString rfl (by decide) rfl rfl rfl (by decide) (fun _ h => nomatch h), rfl⟩

theorem intPairs_unused : intPairs.Unused .mapInt :=
  ⟨rfl, rfl, .fresh _ .mapInt .mapInt rfl rfl .mapInt rfl (by decide) rfl rfl rfl (by decide) (fun _ h => nomatch h), rfl⟩

/-- The blocks below an address. -/
def liveBelow (h : Heap) (n : Nat) : List (Nat × Blk) :=
  (List.range n).filterMap fun x => (h.live x).map fun b => (x, b)

/-- Occurrences and the release: status, what the release gives, and the blocks then in use. -/
def life (A : Allocator) (hd : Handler) (ho : HOpt) (h : Heap) (ts : List Str) : Out (Int × List (Nat × Blk)) := do
  let r ← giveAllH world A hd ho h ts
  let x ← freeOptionH r.2.1 r.2.2
  .ok (r.1, liveBelow x.2 x.2.next)

end Sample

/-- `C39_arrays_partial` applies to `--tags=b,a,b --tags=, --tags=c`. -/
example : Sample.tags.Unused .arrayString ∧ Sample.busyHeap.Sound ∧ Sample.plenty.Never ∧
    Handler.arrayString.Takes [c!"b,a,b", c!",", c!"c"] ∧ (∀ vt, ¬ IsMapOption Sample.tags.o vt) ∧
    Sample.life Sample.plenty .arrayString Sample.tags Sample.busyHeap [c!"b,a,b", c!",", c!"c"] =
      .ok (Err.success, [(0, .text c!"other")]) := by
  refine ⟨Sample.tags_unused, Sample.busyHeap_sound, Sample.plenty_never, ?_, ?_, by decide +kernel⟩
  · refine ⟨fun _ t ht => .inr ?_, fun h => nomatch h⟩
    have : t = c!"b,a,b" := by simpa using ht.symm
    rw [this]; decide +kernel
  · rintro vt (h | h | h | h) <;> exact absurd h (by decide)

/-- `C39_maps_partial`: `--map=a=1,b=2 --map=a=3` loses one copy of the key `a`. -/
example : Sample.pairs.Unused .mapString ∧ IsMapOption Sample.pairs.o .mapString ∧
    Handler.mapString.Takes [c!"a=1,b=2", c!"a=3"] ∧
    Sample.life Sample.plenty .mapString Sample.pairs Sample.emptyHeap [c!"a=1,b=2", c!"a=3"] =
      .ok (Err.success, [(8, .text c!"a")]) := by
  refine ⟨Sample.pairs_unused, .string rfl rfl, ?_, by decide +kernel⟩
  refine ⟨fun _ t ht => .inr ?_, fun h => nomatch h⟩
  have : t = c!"a=1,b=2" := by simpa using ht.symm
  rw [this]; decide +kernel

/-- `C39_maps_distinct_partial`: `--map=a=1,b=2 --map=c=3` loses nothing. -/
example : OccurrencePairs Sample.world .mapString [c!"a=1,b=2", c!"c=3"]
      [[(c!"a", .str c!"1"), (c!"b", .str c!"2")], [(c!"c", .str c!"3")]] ∧
    Sample.life Sample.plenty .mapString Sample.pairs Sample.emptyHeap [c!"a=1,b=2", c!"c=3"] = .ok (Err.success, []) := by
  refine ⟨⟨_, _, rfl, ⟨[(c!"a", c!"1", .str c!"1"), (c!"b", c!"2", .str c!"2")], by decide +kernel, rfl, ?_⟩, _, _, rfl,
    ⟨[(c!"c", c!"3", .str c!"3")], by decide +kernel, rfl, ?_⟩, rfl⟩, by decide +kernel⟩
  · intro q hq
    simp only [List.mem_cons, List.not_mem_nil, or_false] at hq
    rcases hq with rfl | rfl <;> exact ⟨by decide, rfl⟩
  · intro q hq
    simp only [List.mem_cons, List.not_mem_nil, or_false] at hq
    subst hq; exact ⟨by decide, rfl⟩

/-- `C39_out_of_memory_partial`: the copy made for the second occurrence fails. -/
example : (Sample.failsAt 6).Grows ∧
    Sample.life (Sample.failsAt 6) .arrayString Sample.tags Sample.busyHeap [c!"b", c!"a,c"] =
      .ok (Err.memory, [(0, .text c!"other")]) :=
  ⟨fun _ => rfl, by decide +kernel⟩

/-! ### The claim in full is false -/

theorem ub_of_unit {α : Type} {x : Out α} {u : Ub} (h : (x.bind fun _ => Out.ok ()) = .ub u) : x = .ub u := by
  cases x with
  | ok a => cases h
  | ub v => exact congrArg Out.ub (by injection h)

/-- **C39** A first occurrence that is rejected after some values were stored: `is_allocated` is not set and the array stays
    allocated for ever. -/
theorem C39_rejected_leaks : Sample.life Sample.plenty .arrayInt Sample.ints Sample.emptyHeap [c!"1,x"] =
    .ok (Err.invalidFormat, [(3, .rows ([.data (.low 1#32)] :: List.replicate 7 []))]) := by decide +kernel

/-- **C39** A key written again leaves its copy behind. -/
theorem C39_key_leaks : Sample.life Sample.plenty .mapInt Sample.intPairs Sample.emptyHeap [c!"a=1", c!"a=2"] =
    .ok (Err.success, [(2, .text c!"a")]) := by decide +kernel

/-- **C39** A value that is not accepted leaves the copy of its key behind. -/
theorem C39_bad_value_leaks : Sample.life Sample.plenty .mapInt Sample.intPairs Sample.emptyHeap [c!"a=1", c!"b=x"] =
    .ok (Err.invalidValue, [(2, .text c!"b")]) := by decide +kernel

/-- **C39** `malloc` fails for an array of integers: the result is not checked. -/
theorem C39_int_array_null : giveAllH Sample.world (Sample.failsAt 0) .arrayInt Sample.ints Sample.emptyHeap [c!"1"] =
    .ub .nullDeref := ub_of_unit (by decide +kernel)

/-- **C39** ... the same for floats ... -/
theorem C39_float_array_null : giveAllH Sample.world (Sample.failsAt 0) .arrayFloat Sample.floatsOpt Sample.emptyHeap [c!"1.5"] =
    .ub .nullDeref := ub_of_unit (by decide +kernel)

/-- **C39** ... and for a map. -/
theorem C39_map_null : giveAllH Sample.world (Sample.failsAt 1) .mapInt Sample.intPairs Sample.emptyHeap [c!"a=1"] =
    .ub .nullDeref := ub_of_unit (by decide +kernel)

/-- **C39** When the key cannot be copied, it is printed all the same. -/
theorem C39_key_null : giveAllH Sample.world (Sample.failsAt 0) .mapInt Sample.intPairs Sample.emptyHeap [c!"a=1"] =
    .ub .nullDeref := ub_of_unit (by decide +kernel)

/-- **C39** When `realloc` fails, the ninth value is written behind the block. -/
theorem C39_realloc_fails : giveAllH Sample.world ⟨fun _ => true, fun _ => false, fun _ => false⟩ .arrayString Sample.tags
    Sample.emptyHeap [c!"1", c!"2", c!"3", c!"4", c!"5", c!"6", c!"7", c!"8", c!"9"] = .ub .outOfBounds := ub_of_unit (by decide +kernel)

/-- **C39** `strdup` fails on the first occurrence: the array stays allocated for ever. -/
theorem C39_first_copy_leaks : Sample.life (Sample.failsAt 1) .arrayString Sample.tags Sample.emptyHeap [c!"a"] =
    .ok (Err.memory, [(0, .rows (List.replicate 8 []))]) := by decide +kernel

/-- **C39** Hence the claim as first stated is false. -/
theorem C39_claim_false : ¬ C39_claim := by
  intro h
  obtain ⟨st, ho1, h1, ho2, h2, e1, e2, _⟩ := h Sample.world (Sample.failsAt 0) .arrayInt Sample.ints Sample.emptyHeap [c!"1"]
    Sample.ints_unused Sample.emptyHeap_sound (by
      refine ⟨fun _ t ht => ?_, fun _ t ht p hp lo hi hr => ?_⟩
      · have : t = c!"1" := by simpa using ht.symm
        rw [this]; exact .inr (by decide +kernel)
      simp only [List.mem_singleton] at ht
      subst ht
      have hp1 : pieces c!"1" = [c!"1"] := by decide +kernel
      rw [hp1, List.mem_singleton] at hp
      subst hp
      have h1 := parseIntRange_iff.2 hr
      rw [(by decide +kernel : parseIntRange c!"1" = some (1, 1))] at h1
      cases h1
      decide)
  rw [C39_int_array_null] at e1
  cases e1

/-- **C39** The release forgets the block: the option holds no pointer any more, and releasing it again leaves memory as it is
    and is no misuse. -/
theorem C39_release_forgets {ho ho1 : HOpt} {h h1 : Heap} (e : freeOptionH ho h = .ok (ho1, h1))
    (ha : ho.o.isAllocated = true) :
    ho1.ptr = none ∧ ho1.o.isAllocated = false ∧ freeOptionH ho1 h1 = .ok (ho1, h1) := by
  unfold freeOptionH at e
  rw [ha] at e
  simp only [Bool.true_eq_false, if_false] at e
  obtain ⟨h2, e2, e3⟩ := Out.bind_eq_ok e
  simp only [Out.ok.injEq, Prod.mk.injEq] at e3
  obtain ⟨rfl, rfl⟩ := e3
  exact ⟨rfl, rfl, rfl⟩

/-- `--tags=b,a` and two releases. -/
example : (do let r ← giveAllH Sample.world Sample.plenty .arrayString Sample.tags Sample.busyHeap [c!"b,a"]
              let x ← freeOptionH r.2.1 r.2.2
              let y ← freeOptionH x.1 x.2
              Out.ok (r.2.1.o.isAllocated, r.2.1.ptr.isSome, Sample.liveBelow y.2 y.2.next)) =
    .ok (true, true, [(0, .text c!"other")]) := by decide +kernel

end Argus
