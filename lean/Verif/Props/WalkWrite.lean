import Verif.Model.WalkWrite
import Verif.Props.Walk
import Verif.Lemmas.FrameApi

/-!
# C110: loops that change the table they walk over
-/

set_option autoImplicit false

namespace Argus

theorem freeOptionsAt_eq (tail : List (Option Opt)) : ∀ (os : List Opt) (front : List (Option Opt)) (fuel : Nat),
    os.length < fuel →
    freeOptionsAt fuel front.length (front ++ (os.map some ++ none :: tail)) =
      (freeOpts os).bind fun os1 => .ok (some (front ++ (os1.map some ++ none :: tail)))
  | os, front, 0, hf => by omega
  | [], front, fuel + 1, _ => by
    unfold freeOptionsAt tableEntry
    rw [if_neg (by omega)]
    simp [Out.ok_bind, freeOpts]
    rfl
  | o :: os, front, fuel + 1, hf => by
    have ha : tableEntry (front ++ ((o :: os).map some ++ none :: tail)) front.length = .ok (some o) := by
      unfold tableEntry
      rw [if_neg (by omega)]
      simp
    unfold freeOptionsAt
    rw [ha, Out.ok_bind, freeOpts]
    simp only
    cases freeOptionValue o with
    | ub u => rfl
    | ok o1 =>
      simp only [Out.ok_bind]
      simp only [List.length_cons] at hf
      have hs : (front ++ ((o :: os).map some ++ none :: tail)).set (front.length : Int).toNat (some o1) =
          (front ++ [some o1]) ++ (os.map some ++ none :: tail) := by simp
      have ih := freeOptionsAt_eq tail os (front ++ [some o1]) fuel (by omega)
      rw [hs]
      simp only [List.length_append, List.length_singleton] at ih
      refine Eq.trans ih ?_
      cases freeOpts os with
      | ub u => rfl
      | ok os1 => simp [Out.bind, bind]

/-- **C110** `free_options` releases the value of every entry before the end mark and changes nothing behind it: afterwards the
    end mark is where it was, with the same memory after it. -/
theorem C110_free (os : List Opt) (tail : List (Option Opt)) (fuel : Nat) (hf : os.length < fuel) :
    freeOptionsAt fuel 0 (os.map some ++ none :: tail) =
      (freeOpts os).bind fun os1 => .ok (some (os1.map some ++ none :: tail)) :=
  freeOptionsAt_eq tail os [] fuel hf

theorem contextEntry_at {a : Argus} {k : Nat} {os : List Opt} (h : a.table (some k) = .ok os) (i : Nat) (hi : i ≤ os.length) :
    contextEntry a k i = .ok os[i]? := by
  unfold contextEntry tableEntry
  rw [h, Out.ok_bind, if_neg (by omega)]
  by_cases hl : i < os.length
  · simp [List.getElem?_append_left, hl]
  · have : i = os.length := by omega
    subst this
    simp

theorem loadEnvAt_eq (W : World) (env : Env) (k : Nat) : ∀ (n i fuel : Nat) (a : Argus) (os : List Opt),
    a.table (some k) = .ok os → i + n = os.length → n < fuel → os.length ≤ 2147483647 →
    loadEnvAt W env k fuel i a = (loadEnvLoop W env k n i a).bind fun r => .ok (some r)
  | n, i, 0, a, os, _, _, hf, _ => by omega
  | 0, i, fuel + 1, a, os, h, hi, _, _ => by
    unfold loadEnvAt
    rw [contextEntry_at h i (by omega), Out.ok_bind, List.getElem?_eq_none (by omega)]
    rfl
  | n + 1, i, fuel + 1, a, os, h, hi, hf, hl => by
    have hlt : i < os.length := by omega
    unfold loadEnvAt loadEnvLoop
    rw [contextEntry_at h i (by omega), Out.ok_bind, List.getElem?_eq_getElem hlt]
    simp only [Int.toNat_natCast]
    cases hs : loadEnvStep W env a ⟨k, i⟩ with
    | ub u => rfl
    | ok r =>
      simp only [Out.ok_bind]
      by_cases hr : r.1 ≠ Err.success
      · rw [if_pos hr, if_pos hr]; rfl
      · rw [if_neg hr, if_neg hr]
        have hinc : intInc (i : Int) = .ok ((i + 1 : Nat) : Int) := by
          unfold intInc; rw [if_neg (by omega)]; rfl
        obtain ⟨os', ht, hm⟩ := shape_table (loadEnvStep_one hs).frame.shape h
        have hlen : os'.length = os.length := by simpa using congrArg List.length hm
        rw [hinc, Out.ok_bind]
        exact loadEnvAt_eq W env k n (i + 1) fuel r.2 os' ht (by omega) (by omega) (by omega)

/-- **C110** `load_env` looks at every entry of the table once and stops at the end mark, also after handlers and callbacks have
    changed the entries: no handler makes the table longer or shorter. -/
theorem C110_environment (W : World) (env : Env) (a : Argus) (k : Nat) (os : List Opt) (h : a.table (some k) = .ok os)
    (fuel : Nat) (hf : os.length < fuel) (hl : os.length ≤ 2147483647) :
    loadEnvAt W env k fuel 0 a = (loadEnvTable W env a k).bind fun r => .ok (some r) := by
  unfold loadEnvTable
  rw [h, Out.ok_bind]
  exact loadEnvAt_eq W env k os.length 0 fuel a os h (by omega) hf hl

/-- An allocated value in the table and one behind it. -/
def walkOwned : List Opt := [helpOption, { optString 111 (some c!"out") with isAllocated := true, isSet := true, value := .word (.ptr c!"x") }]
def walkOther : Opt := { optString 122 none with isAllocated := true, value := .word (.ptr c!"y") }

/-- A context with two options that have variables, of which the second is an `int`. -/
def walkEnv : Argus :=
  { Sample.prog with tables := [[{ optString 111 (some c!"out") with envName := some c!"OUT" },
      { optInt 112 (some c!"port") with envName := some c!"PORT" }]], root := 0 }

/-- **C110** The hypotheses are met: the value of the table is released and the one behind the end mark is not; both variables are
    read, and the loop ends after them. -/
theorem C110_write_case :
    freeOptionsAt 3 0 (walkOwned.map some ++ none :: [some walkOther]) =
      .ok (some (some helpOption :: some { optString 111 (some c!"out") with isSet := true, value := .null } :: none ::
        [some walkOther])) ∧
    walkEnv.table (some 0) = .ok walkEnv.tables.head! ∧ walkEnv.tables.head!.length < 3 ∧
    (∃ b, loadEnvAt Sample.world 
        (fun n => if n = c!"OUT" then some c!"f" else if n = c!"PORT" then some c!"80" else none) 0 3 0 walkEnv =
      .ok (some (Err.success, b)) ∧ b.tables.map (List.map Opt.value) = [[.word (.ptr c!"f"), .word (.bits 80)]]) := by
  exact ⟨rfl, rfl, by decide, _, rfl, rfl⟩

end Argus
