import Verif.Model.WalkType
import Verif.Props.WalkDepend

/-!
# C110: the checks of the entries of a definition on memory
-/

set_option autoImplicit false

namespace Argus

theorem default_walk (W : World) (o : Opt) : ∀ (vs : List Validator) (i st : Int),
    walkList (defaultBody W o) i st vs = (defaultLoop W o st vs).bind fun r => .ok (.inl r)
  | [], _, _ => rfl
  | v :: vs, i, st => by
    rw [walkList, defaultLoop, defaultBody]
    cases defaultCheck W o v with
    | ub u => rfl
    | ok r =>
      simp only [Out.ok_bind]
      exact default_walk W o vs (i + 1) _

theorem ListAt.isSome {α : Type} {xs : Option (List α)} {l : Option (List (Option α))} (h : ListAt xs l) : l.isSome = xs.isSome := by
  cases xs <;> cases l <;> first | rfl | exact h.elim

/-- **C110** `validate_default_value` calls the validators before the NULL, in order, and nothing behind it. -/
theorem C110_default (W : World) (o : Opt) (fuel : Nat) (l : Option (List (Option Validator))) (hat : ListAt o.validators l)
    (hn : (o.validators.getD []).length < fuel) (hm : (o.validators.getD []).length ≤ 2147483647) :
    validateDefaultAt W o fuel l = (validateDefault W o).bind fun r => .ok (some r) := by
  unfold validateDefaultAt validateDefault
  by_cases h1 : o.haveDefault ∧ o.valueType = .flag
  · rw [if_pos h1, if_pos h1]; rfl
  · rw [if_neg h1, if_neg h1]
    by_cases h2 : o.haveDefault = true
    · rw [if_pos h2, if_pos h2]
      unfold ListAt at hat
      generalize o.validators = vs at hat hn hm
      cases vs with
      | none =>
        cases l with
        | none => rfl
        | some l => exact hat.elim
      | some vs =>
        cases l with
        | none => exact hat.elim
        | some l =>
          obtain ⟨t, rfl⟩ := hat
          simp only [Option.getD_some] at hn hm
          simp only
          rw [walkTable_eq _ vs t fuel _ hn hm, default_walk]
          cases defaultLoop W o Err.success vs <;> rfl
    · rw [if_neg h2, if_neg h2]; rfl

theorem validateEntryAt_eq (W : World) (os : List Opt) (tail : List (Option Opt)) (L : ListsAt) (fuel : Nat)
    (hf : os.length < fuel) (hmax : fuel ≤ 2147483648) (o : Opt) (hL : L.Holds fuel [o]) :
    validateEntryAt W (os.map some ++ none :: tail) L fuel o = (validateEntry W os o).bind fun r => .ok (some r) := by
  obtain ⟨r1, r2⟩ := hL.require o (.head _)
  obtain ⟨c1, c2⟩ := hL.conflict o (.head _)
  obtain ⟨v1, v2⟩ := hL.validators o (.head _)
  have hd := C110_default W o fuel _ v1 v2 (by omega)
  unfold validateEntryAt validateEntry
  cases o.type with
  | option =>
    simp only [validateOptionAt, validateOption, hd,
      C110_dependencies os tail fuel hf (by omega) o _ _ r1 c1 r2 (by omega) c2 (by omega)]
    cases validateDefault W o <;> rfl
  | positional =>
    simp only [validatePositionalAt, validatePositional, hd, r1.isSome, c1.isSome]
    cases validateDefault W o <;> rfl
  | group => rfl
  | subcommand => rfl

theorem type_walk (W : World) (os : List Opt) (tail : List (Option Opt)) (L : ListsAt) (fuel : Nat)
    (hf : os.length < fuel) (hmax : fuel ≤ 2147483648) : ∀ (es : List Opt) (i st : Int), L.Holds fuel es →
    walkList (typeFormatBody W (os.map some ++ none :: tail) L fuel) i st es =
      (typeFormatLoop W os st es).bind fun r => .ok (.inl r)
  | [], _, _, _ => rfl
  | o :: es, i, st, hL => by
    have ho : L.Holds fuel [o] := ⟨fun x hx => hL.require x (List.mem_singleton.1 hx ▸ .head _),
      fun x hx => hL.conflict x (List.mem_singleton.1 hx ▸ .head _), fun x hx => hL.validators x (List.mem_singleton.1 hx ▸ .head _)⟩
    have hes : L.Holds fuel es := ⟨fun x hx => hL.require x (.tail _ hx), fun x hx => hL.conflict x (.tail _ hx),
      fun x hx => hL.validators x (.tail _ hx)⟩
    rw [walkList, typeFormatLoop, typeFormatBody, validateEntryAt_eq W os tail L fuel hf hmax o ho]
    cases validateEntry W os o with
    | ub u => rfl
    | ok r => exact type_walk W os tail L fuel hf hmax es (i + 1) _ hes

/-- **C110** `validate_type_format` on the memory of a table and of the lists of its entries gives what it gives on the entries
    themselves, defined or not, whatever is behind the end marks. -/
theorem C110_entries (W : World) (os : List Opt) (tail : List (Option Opt)) (L : ListsAt) (fuel : Nat)
    (hf : os.length < fuel) (hmax : fuel ≤ 2147483648) (hL : L.Holds fuel os) :
    validateTypeFormatAt W (os.map some ++ none :: tail) L fuel = (validateTypeFormat W os).bind fun r => .ok (some r) := by
  unfold validateTypeFormatAt validateTypeFormat
  rw [walkTable_eq _ os tail fuel _ hf (by omega), type_walk W os tail L fuel hf hmax os _ _ hL]
  cases typeFormatLoop W os Err.success os <;> rfl

/-- The table of `walkLinked` with the texts that the checks ask for. -/
def walkTyped : List Opt := (walkLinked true false).map fun o => { o with help := some c!"text" }

theorem walkTyped_holds : walkLists.Holds 4 walkTyped := by
  have h := walkLists_holds true false
  refine ⟨fun x hx => ?_, fun x hx => ?_, fun x hx => ?_⟩ <;> obtain ⟨o, ho, rfl⟩ := List.mem_map.1 hx
  · exact h.require o ho
  · exact h.conflict o ho
  · exact h.validators o ho

/-- An option that requires one that does not exist. -/
def walkFaulty : Opt := { optFlag 100 none with help := some c!"text", require := some [c!"nothing"] }

/-- **C110** The hypotheses are met with an option that requires one option and conflicts with another; a faulty entry behind the
    end mark is not looked at, it is refused before the end mark, and without an end mark the table is left. -/
theorem C110_entries_case :
    walkTyped.length < 4 ∧ walkLists.Holds 4 walkTyped ∧
    validateTypeFormatAt Sample.world (walkTyped.map some ++ none :: [some walkFaulty]) walkLists 4 = .ok (some Err.success) ∧
    validateTypeFormatAt Sample.world (walkTyped.map some ++ [some walkFaulty, none]) walkLists 5 =
      .ok (some Err.malformedOption) ∧
    validateTypeFormatAt Sample.world (walkTyped.map some) walkLists 5 = .ub .outOfBounds :=
  ⟨by decide, walkTyped_holds, by decide +kernel, by decide +kernel, by decide +kernel⟩

end Argus
