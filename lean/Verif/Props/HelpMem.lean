import Verif.Lemmas.HelpMemRun
import Verif.Props.Help

/-!
# C66: the help frees what it allocates and shows what it was given

`HelpData.Within`, `HelpData.count` and `refused` are in Spec/HelpMem.
-/

set_option autoImplicit false

namespace Argus

/-- The lists of the help of `os` as built under the allocator `A` from memory `m`: `d` is found in them, `n` calls of `malloc`
    were refused, and releasing them leaves memory as it was. -/
def HelpBuilt (A : Nat → Bool) (os : List Opt) (m : HMem) (d : HelpData) (n : Nat) : Prop :=
  ∃ r m1 m2, organizeM A os m = .ok (some (r, m1)) ∧ readHelp r m1 = .ok (some d) ∧ refused A m.calls m1.calls = n ∧
    freeHelp r m1 = .ok (some m2) ∧ m2.live = m.live

/-- **C66** As first stated: whatever the allocator does, every visible entry is listed, and every node is freed once. -/
def C66_claim : Prop :=
  ∀ (A : Nat → Bool) (os : List Opt) (m : HMem), m.Sound → ∃ n, HelpBuilt A os m (organize os) n

/-- **C66** Whatever the allocator does, the lists are built, can be read to their end, lack exactly as many entries as there were
    refused calls, and are released so that memory is as before, no node being freed twice; or a group was refused, and its
    NULL pointer is used. -/
theorem C66_any_allocator_partial (A : Nat → Bool) (os : List Opt) {m : HMem} (hm : m.Sound) :
    (∃ d n, HelpBuilt A os m d n ∧ d.Within (organize os) ∧ d.count + n = (organize os).count) ∨
    (organizeM A os m = .ub .nullDeref ∧ (∃ n, m.calls ≤ n ∧ A n = false) ∧ (organize os).groups ≠ []) := by
  rcases loop_rel os 0 (start_rel A hm) with ⟨s, d, own, G, e, R⟩ | ⟨e, h1, h2⟩
  · left
    obtain ⟨m2, f1, f2⟩ := R.rep.release
    exact ⟨d, _, ⟨s.roots, s.mem, m2, by rw [organizeM, e, Ends.bind_ok], R.rep.read, rfl, f1, f2⟩, R.within, R.count⟩
  · right
    exact ⟨by rw [organizeM, e]; rfl, h1, h2⟩

/-- **C66** As long as no call is refused, the lists are complete and released in full. -/
theorem C66_enough_partial {A : Nat → Bool} (hA : ∀ n, A n = true) (os : List Opt) {m : HMem} (hm : m.Sound) :
    HelpBuilt A os m (organize os) 0 := by
  rcases C66_any_allocator_partial A os hm with ⟨d, n, h, w, c⟩ | ⟨_, ⟨n, _, h⟩, _⟩
  · have hn : n = 0 := by
      obtain ⟨r, m1, m2, _, _, h3, _⟩ := h
      rw [← h3]
      exact refused_zero fun n _ _ => hA n
    subst hn
    rw [w.eq (by simpa using c)] at h
    exact h
  · rw [hA n] at h; cases h

/-- **C66** Without groups no allocator leads to undefined behaviour or to a leak: an entry refused is an entry not shown. -/
theorem C66_no_groups_partial (A : Nat → Bool) {os : List Opt} {m : HMem} (hm : m.Sound)
    (hg : ∀ (i : Nat) (t : Str), sectionOf os i ≠ some (.group t)) :
    ∃ d n, HelpBuilt A os m d n ∧ d.Within (organize os) ∧ d.count + n = (organize os).count := by
  rcases C66_any_allocator_partial A os hm with h | ⟨_, _, h⟩
  · exact h
  · exfalso
    apply h
    have h1 : groupTitles os = [] := by
      cases hl : groupTitles os with
      | nil => rfl
      | cons t l =>
        obtain ⟨i, hi⟩ := mem_groupTitles.1 (show t ∈ groupTitles os by simp [hl])
        exact absurd hi (hg i t)
    rw [(C43_sections os).2.1, h1]; rfl

/-- **C66** With memory enough, `display_help` prints the text of C43 and leaves memory as it was. -/
theorem C66_display_partial (F : Fmt) (a : Argus) {A : Nat → Bool} (hA : ∀ n, A n = true) {m : HMem} (hm : m.Sound) (s : Str) :
    displayHelp F a = .ok (some s) ↔ ∃ m1, displayHelpM F a A m = .ok (some (s, m1)) ∧ m1.live = m.live := by
  unfold displayHelp displayHelpM
  cases ht : a.activeOptions with
  | ub u => exact ⟨fun h => (nomatch h), fun ⟨_, h, _⟩ => (nomatch h)⟩
  | ok t =>
    simp only [Out.ok_bind]
    cases hos : a.table t with
    | ub u => exact ⟨fun h => (nomatch h), fun ⟨_, h, _⟩ => (nomatch h)⟩
    | ok os =>
      simp only [Out.ok_bind]
      obtain ⟨r, m1, m2, h1, h2, _, h4, h5⟩ := C66_enough_partial hA os hm
      rw [h1, Ends.bind_ok]
      simp only [h2, Ends.bind_ok, h4]
      cases helpSections F a os (organize os) with
      | ub u => exact ⟨fun h => (nomatch h), fun ⟨_, h, _⟩ => (nomatch h)⟩
      | ok x =>
        cases x with
        | none => exact ⟨fun h => (nomatch h), fun ⟨_, h, _⟩ => (nomatch h)⟩
        | some x =>
          simp only [Ends.bind_ok, Text.cat, Text.lit, Out.ok_bind, Option.map_some, Out.ok.injEq, Option.some.injEq,
            Prod.mk.injEq]
          constructor
          · rintro rfl; exact ⟨m2, ⟨rfl, rfl⟩, h5⟩
          · rintro ⟨_, ⟨rfl, _⟩, _⟩; rfl

namespace Sample

/-- No node in memory. -/
def noNodes : HMem := ⟨fun _ => none, 0, 0⟩

/-- A node of someone else in memory, three addresses and calls used up. -/
def someNodes : HMem := ⟨fun x => if x = 1 then some (.entry 7 none) else none, 3, 3⟩

theorem noNodes_sound : noNodes.Sound := fun _ _ => rfl

theorem someNodes_sound : someNodes.Sound := fun x hx => by
  have hx : 3 ≤ x := hx
  simp only [someNodes]; rw [if_neg (by omega)]

/-- A group with one option. -/
def oneGroup : List Opt := [{ type := .group, name := some c!"Net" }, optInt 112 (some c!"port")]

/-- What is left of the help of `os` when the calls in `l` fail: what is listed, and what stays in memory below address `n`. -/
def helpLife (l : List Nat) (os : List Opt) (m : HMem) (n : Nat) : Out (Option (HelpData × List Nat)) :=
  Ends.bind (organizeM (fun c => !l.contains c) os m) fun x =>
    Ends.bind (readHelp x.1 x.2) fun d =>
      Ends.bind (freeHelp x.1 x.2) fun m1 => .ok (some (d, (List.range n).filter fun a => (m1.live a).isSome))

end Sample

/-- `C66_any_allocator_partial` and `C66_enough_partial`: nine nodes for the table with two groups, all released; with the sixth
    and the seventh call refused, two entries are missing. -/
example : Sample.someNodes.Sound ∧
    Sample.helpLife [] Sample.grouped Sample.someNodes 20 =
      .ok (some (⟨[10], [(c!"Net", [2, 7]), (c!"Log", [5])], [0, 9], [11]⟩, [1])) ∧
    Sample.helpLife [7, 8] Sample.grouped Sample.someNodes 20 =
      .ok (some (⟨[10], [(c!"Net", [2]), (c!"Log", [])], [0, 9], [11]⟩, [1])) :=
  ⟨Sample.someNodes_sound, by decide +kernel, by decide +kernel⟩

/-- `C66_no_groups_partial` with every call refused: an empty help. -/
example : (∀ (i : Nat) (t : Str), sectionOf [helpOption, posString c!"f"] i ≠ some (.group t)) ∧
    Sample.helpLife [0, 1] [helpOption, posString c!"f"] Sample.noNodes 5 = .ok (some ({}, [])) := by
  refine ⟨fun i t => ?_, by decide +kernel⟩
  match i with
  | 0 => exact (by decide +kernel : sectionOf [helpOption, posString c!"f"] 0 = some .options) ▸ by simp
  | 1 => exact (by decide +kernel : sectionOf [helpOption, posString c!"f"] 1 = some .arguments) ▸ by simp
  | i + 2 => simp [sectionOf]

/-- **C66** No memory for a group: its NULL pointer is used. -/
theorem C66_group_null : organizeM (fun _ => false) Sample.oneGroup Sample.noNodes = .ub .nullDeref := by
  rcases C66_any_allocator_partial (fun _ => false) Sample.oneGroup Sample.noNodes_sound with ⟨d, n, ⟨r, m1, m2, e, _⟩, _⟩ | h
  · have h := congrArg (fun x => Ends.bind x fun _ => Out.ok (some ())) e
    have h0 : Ends.bind (organizeM (fun _ => false) Sample.oneGroup Sample.noNodes) (fun _ => Out.ok (some ())) =
      .ub .nullDeref := by decide +kernel
    rw [h0] at h
    cases h
  · exact h.1

/-- **C66** No memory for an entry: the option is not shown, and nothing is said about it. -/
theorem C66_entry_dropped : Sample.helpLife [1] Sample.oneGroup Sample.noNodes 5 =
    .ok (some (⟨[], [(c!"Net", [])], [], []⟩, [])) := by decide +kernel

/-- **C66** Hence the claim as first stated is false. -/
theorem C66_claim_false : ¬ C66_claim := by
  intro h
  obtain ⟨n, r, m1, m2, e, _⟩ := h (fun _ => false) Sample.oneGroup Sample.noNodes Sample.noNodes_sound
  rw [C66_group_null] at e
  cases e

end Argus
