import Verif.Model.WalkDepend
import Verif.Props.WalkChecks

/-!
# C110: the checks of the names an option requires or conflicts with, on memory
-/

set_option autoImplicit false

namespace Argus

/-- A loop that only sets the status sets it if some entry asks for it. -/
theorem status_walk {α : Type} (p : α → Bool) (e : Int) (body : Int → Int → α → Out (Int ⊕ Unit)) :
    ∀ (xs : List α) (i st : Int), (∀ st i, ∀ x ∈ xs, body st i x = .ok (.inl (check (p x) e st))) →
      walkList body i st xs = .ok (.inl (check (xs.any p) e st))
  | [], _, _, _ => rfl
  | x :: xs, i, st, h => by
    rw [walkList, h st i x (List.mem_cons_self ..), Out.ok_bind]
    simp only
    rw [status_walk p e body xs (i + 1) _ (fun st i y hy => h st i y (List.mem_cons_of_mem _ hy)), List.any_cons]
    cases p x <;> simp [check]

theorem statusLoopAt_eq (p : Str → Bool) (body : Int → Int → Str → Out (Int ⊕ Unit)) (fuel : Nat)
    (h : ∀ st i x, body st i x = .ok (.inl (check (p x) Err.invalidDependency st))) (names : Option (List Str))
    (l : Option (List (Option Str))) (hat : ListAt names l) (hf : (names.getD []).length < fuel)
    (hl : (names.getD []).length ≤ 2147483647) (st : Int) :
    statusLoopAt body fuel l st = .ok (some (check ((names.getD []).any p) Err.invalidDependency st)) := by
  unfold ListAt at hat
  cases names with
  | none =>
    cases l with
    | none => rfl
    | some l => exact hat.elim
  | some ns =>
    cases l with
    | none => exact hat.elim
    | some l =>
      obtain ⟨tail, rfl⟩ := hat
      simp only [Option.getD_some] at hf hl
      simp only [statusLoopAt]
      rw [walkTable_eq _ ns tail fuel _ hf hl, status_walk p Err.invalidDependency body ns _ _ (fun st i x _ => h st i x)]
      rfl

theorem sharedAt_eq (fuel : Nat) (req con : Option (List Str)) (lr lc : Option (List (Option Str))) (hr : ListAt req lr)
    (hc : ListAt con lc) (hfr : (req.getD []).length < fuel) (hlr : (req.getD []).length ≤ 2147483647)
    (hfc : (con.getD []).length < fuel) (hlc : (con.getD []).length ≤ 2147483647) :
    sharedAt fuel lr lc = .ok (some (check ((req.getD []).any fun r => (con.getD []).any fun c => strcmp r c == 0)
      Err.invalidDependency Err.success)) := by
  cases con with
  | none =>
    cases lc with
    | none => simp [sharedAt, check]
    | some l => exact hc.elim
  | some cs =>
    cases lc with
    | none => exact hc.elim
    | some l =>
      obtain ⟨tail, rfl⟩ := hc
      simp only [Option.getD_some] at hfc hlc ⊢
      simp only [sharedAt]
      refine statusLoopAt_eq (fun r => cs.any fun c => strcmp r c == 0) _ fuel ?_ req lr hr hfr hlr _
      intro st i r
      unfold sharedBody
      rw [walkTable_eq _ cs tail fuel _ hfc hlc,
        status_walk (fun c => strcmp r c == 0) Err.invalidDependency (sharedInner r) cs _ _ (fun _ _ _ _ => rfl)]
      rfl

/-- **C110** `validate_dependencies`: the table is read up to its end mark and both lists up to their NULL, also in the nested
    loops. -/
theorem C110_dependencies (os : List Opt) (tail : List (Option Opt)) (fuel : Nat) (hf : os.length < fuel)
    (hl : os.length ≤ 2147483647) (o : Opt) (lr lc : Option (List (Option Str))) (hr : ListAt o.require lr)
    (hc : ListAt o.conflict lc) (hfr : (o.require.getD []).length < fuel) (hlr : (o.require.getD []).length ≤ 2147483647)
    (hfc : (o.conflict.getD []).length < fuel) (hlc : (o.conflict.getD []).length ≤ 2147483647) :
    validateDependenciesAt (os.map some ++ none :: tail) fuel lr lc = .ok (some (validateDependencies os o)) := by
  have hk : ∀ st i n, knownBody (os.map some ++ none :: tail) fuel st i n =
      .ok (.inl (check (findName os n).isNone Err.invalidDependency st)) := by
    intro st i n
    unfold knownBody
    rw [C110_name os tail fuel hf hl, Out.ok_bind]
    cases findName os n <;> rfl
  unfold validateDependenciesAt validateDependencies
  rw [sharedAt_eq fuel _ _ lr lc hr hc hfr hlr hfc hlc, Out.ok_bind]
  simp only
  rw [statusLoopAt_eq (fun n => (findName os n).isNone) _ fuel hk _ lr hr hfr hlr, Out.ok_bind]
  simp only
  rw [statusLoopAt_eq (fun n => (findName os n).isNone) _ fuel hk _ lc hc hfc hlc]

/-- **C110** The hypotheses are met with an option that requires one option and conflicts with none of the table: the name behind
    the NULL of a list is not looked up, and without the NULL the list is left. -/
theorem C110_dependencies_case :
    validateDependenciesAt (walkCase.map some ++ [none]) 9 (some [some c!"verbose", none, some c!"nothing"]) none =
      .ok (some Err.success) ∧
    validateDependenciesAt (walkCase.map some ++ [none]) 9 (some [some c!"verbose", some c!"nothing", none]) none =
      .ok (some Err.invalidDependency) ∧
    validateDependenciesAt (walkCase.map some ++ [none]) 9 (some [some c!"verbose", none]) (some [some c!"verbose", none]) =
      .ok (some Err.invalidDependency) ∧
    validateDependenciesAt (walkCase.map some ++ [none]) 9 (some [some c!"verbose"]) none = .ub .outOfBounds := by
  refine ⟨by decide +kernel, by decide +kernel, by decide +kernel, by decide +kernel⟩

end Argus
