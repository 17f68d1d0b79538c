import Verif.Model.Define
import Verif.Model.Access
import Verif.Spec.Prefix

/-!
# A concrete world and concrete option tables

They show that the laws of `World` can be met, and serve in the examples beside the theorems.
-/

set_option autoImplicit false

namespace Argus.Sample

/-- Insertion of an element before the first one that is not smaller. -/
def insertBy {α : Type} (cmp : α → α → Int) (x : α) : List α → List α
  | [] => [x]
  | y :: ys => if cmp x y ≤ 0 then x :: y :: ys else y :: insertBy cmp x ys

/-- Insertion sort: a conforming `qsort`. -/
def sortBy {α : Type} (cmp : α → α → Int) : List α → List α
  | [] => []
  | x :: xs => insertBy cmp x (sortBy cmp xs)

theorem insertBy_perm {α : Type} (cmp : α → α → Int) (x : α) : ∀ l, (insertBy cmp x l).Perm (x :: l)
  | [] => .refl _
  | y :: ys => by
    unfold insertBy
    split
    · exact .refl _
    · exact ((insertBy_perm cmp x ys).cons y).trans (.swap x y ys)

theorem sortBy_perm {α : Type} (cmp : α → α → Int) : ∀ l : List α, (sortBy cmp l).Perm l
  | [] => .refl _
  | x :: xs => (insertBy_perm cmp x _).trans ((sortBy_perm cmp xs).cons x)

theorem insertBy_sorted {α : Type} {cmp : α → α → Int} {x : α} {l all : List α}
    (hc : Consistent cmp all) (hx : x ∈ all) (hl : ∀ y ∈ l, y ∈ all)
    (h : l.Pairwise (fun a b => cmp a b ≤ 0)) :
    (insertBy cmp x l).Pairwise (fun a b => cmp a b ≤ 0) := by
  induction l with
  | nil => simp [insertBy]
  | cons y ys ih =>
    have hy := hl y (by simp)
    rw [List.pairwise_cons] at h
    unfold insertBy
    split
    · rename_i hle
      rw [List.pairwise_cons]
      refine ⟨fun z hz => ?_, List.pairwise_cons.2 h⟩
      rcases List.mem_cons.1 hz with rfl | hz
      · exact hle
      · exact hc.trans x hx y hy z (hl z (by simp [hz])) hle (h.1 z hz)
    · rename_i hgt
      rw [List.pairwise_cons]
      refine ⟨fun z hz => ?_, ih (fun z hz => hl z (by simp [hz])) h.2⟩
      rcases List.mem_cons.1 ((insertBy_perm cmp x ys).mem_iff.1 hz) with rfl | hz
      · have := (hc.swap y hy z hx).2 (by omega); omega
      · exact h.1 z hz

theorem sortBy_sorted {α : Type} (cmp : α → α → Int) (l all : List α) (hc : Consistent cmp all)
    (hl : ∀ y ∈ l, y ∈ all) : (sortBy cmp l).Pairwise (fun a b => cmp a b ≤ 0) := by
  induction l with
  | nil => exact .nil
  | cons x xs ih =>
    refine insertBy_sorted hc (hl x (by simp)) (fun y hy => ?_) (ih fun y hy => hl y (by simp [hy]))
    exact hl y (by simp [(sortBy_perm cmp xs).mem_iff.1 hy])

theorem insertBy_map {α β : Type} (f : α → β) (cmp : β → β → Int) (x : α) : ∀ l : List α,
    (insertBy (fun a b => cmp (f a) (f b)) x l).map f = insertBy cmp (f x) (l.map f)
  | [] => rfl
  | y :: ys => by
    simp only [insertBy, List.map_cons]
    split
    · rfl
    · rw [List.map_cons, insertBy_map f cmp x ys]

theorem sortBy_map {α β : Type} (f : α → β) (cmp : β → β → Int) : ∀ l : List α,
    (sortBy (fun a b => cmp (f a) (f b)) l).map f = sortBy cmp (l.map f)
  | [] => rfl
  | x :: xs => by
    simp only [sortBy, List.map_cons]
    rw [insertBy_map, sortBy_map]

/-- A few float texts with their double patterns. -/
def floats : List (Str × F64) :=
  [(c!"0.5", 0x3FE0000000000000#64), (c!"1.5", 0x3FF8000000000000#64), (c!"2.5", 0x4004000000000000#64),
   (c!"-1.5", 0xBFF8000000000000#64)]

def float (s : Str) : F64 := ((floats.find? (fun p => p.1 == s)).map (·.2)).getD 0

/-- A world: insertion sort, the float texts above, no regular expressions, and callbacks that
    succeed. -/
def world : World where
  strtof := float
  strtod s := (float s, if floats.any (fun p => p.1 == s) then s.length else 0)
  regexAvailable := false
  regex _ _ := .noMatch
  qsort := sortBy
  handler _ o _ := ⟨Err.success, o.value, o.isAllocated, o.valueCount, o.valueCapacity, none⟩
  preValidator _ _ := (Err.success, none)
  postValidator _ _ := (Err.success, none)
  action id _ := id
  strtof_low s := by
    unfold float floats
    simp only [List.find?]
    repeat' split
    all_goals decide
  strtod_consumed s := by split <;> simp
  qsort_perm := sortBy_perm
  qsort_sorted cmp l hc := sortBy_sorted cmp l l hc (fun _ h => h)
  qsort_map := sortBy_map

/-- Options of a small program; the subcommands `add` and `admin` have tables 1 and 2. -/
def root : List Opt :=
  [ helpOption,
    optFlag 118 (some c!"verbose"),
    optString 111 (some c!"output"),
    optInt 110 (some c!"num"),
    optArrayString 116 (some c!"tags"),
    optMapInt 109 (some c!"map"),
    { optInt 112 (some c!"port") with
      validators := some [vRange 1 65535], envName := some c!"PORT" },
    { posString c!"file" with flags := 0 },
    subcommand c!"add" 1 (some 11),
    subcommand c!"admin" 2 (some 12) ]

/-- Options of `add`. -/
def add : List Opt :=
  [ helpOption, optFlag 102 (some c!"force"), posInt c!"count", posManyString c!"names" ]

/-- Options of `admin`. -/
def admin : List Opt :=
  [ helpOption, optString 117 (some c!"user"), subcommand c!"list" 1 (some 13) ]

/-- The program's context. -/
def prog : Argus := argusInit [root, add, admin] c!"prog" (some c!"1.0")

/-- The empty environment. -/
def noEnv : Env := fun _ => none

end Argus.Sample
