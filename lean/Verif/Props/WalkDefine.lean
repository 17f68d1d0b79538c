import Verif.Model.WalkDefine
import Verif.Props.Walk

/-!
# C110: the checks of a definition on the memory of a table
-/

set_option autoImplicit false

namespace Argus

theorem placement_walk : ∀ (es : List Opt) (i : Int) (s : Placed × Int),
    walkList (fun (s : Placed × Int) _ o => .ok (.inl (placementStep s.1 s.2 o) : (Placed × Int) ⊕ Unit)) i s es =
      .ok (.inl (placementLoop s.1 s.2 es))
  | [], _, _ => rfl
  | o :: es, i, s => by
    rw [walkList, placementLoop, Out.ok_bind]
    exact placement_walk es (i + 1) _

/-- **C110** `validate_placement`. -/
theorem C110_placement (os : List Opt) (tail : List (Option Opt)) (fuel : Nat) (hf : os.length < fuel)
    (hl : os.length ≤ 2147483647) :
    validatePlacementAt (os.map some ++ none :: tail) fuel = .ok (some (validatePlacement os)) := by
  unfold validatePlacementAt
  rw [walkTable_eq _ os tail fuel _ hf hl, placement_walk]
  rfl

theorem unique_walk (l : Str) : ∀ (es : List Opt) (i st : Int),
    walkList (uniqueBody l) i st es =
      .ok (.inl (check (es.any fun p => p.name == some l || p.lname == some l) Err.duplicateOption st))
  | [], _, _ => rfl
  | o :: es, i, st => by
    rw [walkList, uniqueBody, Out.ok_bind]
    simp only
    rw [unique_walk l es (i + 1), List.any_cons]
    cases h : (o.name == some l || o.lname == some l) <;> simp [check]

theorem lnameIsUniqueAt_eq (tail : List (Option Opt)) (es : List Opt) (front : List (Option Opt)) (o : Opt) (fuel : Nat)
    (hf : es.length < fuel) (hl : front.length + (es.length + 1) ≤ 2147483647) :
    lnameIsUniqueAt (front ++ ((o :: es).map some ++ none :: tail)) fuel front.length = .ok (some (lnameIsUnique o es)) := by
  have ha : tableEntry (front ++ ((o :: es).map some ++ none :: tail)) front.length = .ok (some o) := by
    unfold tableEntry
    rw [if_neg (by omega)]
    simp
  unfold lnameIsUniqueAt lnameIsUnique
  rw [ha, Out.ok_bind]
  cases ho : o.lname with
  | none => simp only [ho]
  | some l =>
    have hi : intInc (front.length : Int) = .ok ((front.length : Int) + 1) := by
      unfold intInc; rw [if_neg (by omega)]
    have h := C110_loop (uniqueBody l) tail es (front ++ [some o]) fuel Err.success hf (by simp; omega)
    simp only [List.length_append, List.length_singleton, List.append_assoc, List.cons_append, List.nil_append] at h
    simp only [ho, hi, Out.ok_bind, List.map_cons, List.cons_append]
    rw [show (front.length : Int) + 1 = ((front.length + 1 : Nat) : Int) by omega, h, unique_walk]
    rfl

/-- The array `used_short` after the short names `used`. -/
def UsedShort (arr : List Bool) (used : List Byte) : Prop := ∀ c : Byte, c ≠ 0 → arr[c.toNat]? = some (used.contains c)

theorem UsedShort.mark {arr : List Bool} {used : List Byte} (h : UsedShort arr used) (b : Byte) :
    UsedShort (arr.set b.toNat true) (b :: used) := by
  intro c hc
  have hlen : c.toNat < arr.length := by
    have := h c hc
    exact (List.getElem?_eq_some_iff.1 this).1
  by_cases hb : c = b
  · subst hb; simp [hlen]
  · have hne : b.toNat ≠ c.toNat := fun he => hb (UInt8.toNat_inj.1 he.symm)
    rw [List.getElem?_set_ne hne, h c hc]
    simp [hb]

theorem naming_walk (tail : List (Option Opt)) (fuel : Nat) : ∀ (es : List Opt) (front : List (Option Opt)) (arr : List Bool)
    (used : List Byte) (st : Int), es.length < fuel → front.length + es.length ≤ 2147483647 → UsedShort arr used →
    ∃ arr', walkList (namingBody (front ++ (es.map some ++ none :: tail)) fuel) front.length (arr, st) es =
      .ok (.inl (arr', namingLoop used st es))
  | [], front, arr, used, st, _, _, _ => ⟨arr, rfl⟩
  | o :: es, front, arr, used, st, hf, hl, hu => by
    simp only [List.length_cons] at hf hl
    have hb := lnameIsUniqueAt_eq tail es front o fuel (by omega) (by omega)
    have hm : front ++ ((o :: es).map some ++ none :: tail) = (front ++ [some o]) ++ (es.map some ++ none :: tail) := by simp
    have hseen : seenShort arr o.sname = .ok (o.sname != 0 && used.contains o.sname) := by
      unfold seenShort
      by_cases h0 : o.sname = 0
      · simp [h0]
      · have h0' : (o.sname != 0) = true := by simpa using h0
        simp only [h0', if_true, Bool.true_and]
        unfold usedShort
        rw [hu o.sname h0]
    have hu' : UsedShort (if o.sname != 0 then arr.set o.sname.toNat true else arr)
        (if o.sname != 0 then o.sname :: used else used) := by
      cases o.sname != 0
      · exact hu
      · exact hu.mark o.sname
    have ih := naming_walk tail fuel es (front ++ [some o]) _ _
      (check (lnameIsUnique o es != Err.success) Err.malformedOption <|
        check (o.lname == some []) Err.malformedOption <|
        check (o.lname.any fun s => s.contains 46) Err.malformedOption <|
        check (o.lname.any fun s => s.contains 32) Err.malformedOption <|
        check (o.lname.any fun s => s.head? == some 45) Err.malformedOption <|
        check (o.sname != 0 && used.contains o.sname) Err.malformedOption <|
        check (o.sname == 45) Err.malformedOption <|
        check (o.sname == 32) Err.malformedOption <|
        check ((o.name.getD []).isEmpty && o.type != .group) Err.malformedOption st) (by omega) (by simp; omega) hu'
    rw [← hm] at ih
    simp only [List.length_append, List.length_singleton] at ih
    rw [walkList, namingLoop, namingBody]
    simp only [hseen, hb, Out.ok_bind]
    rw [show (front.length : Int) + 1 = ((front.length + 1 : Nat) : Int) by omega]
    exact ih

/-- **C110** `validate_naming`: for every entry the entries behind it are compared up to the end mark, `i + 1` does not overflow,
    and every access to the array of used short names is inside it. -/
theorem C110_naming (os : List Opt) (tail : List (Option Opt)) (fuel : Nat) (hf : os.length < fuel)
    (hl : os.length ≤ 2147483647) :
    validateNamingAt (os.map some ++ none :: tail) fuel = .ok (some (validateNaming os)) := by
  have hu : UsedShort (List.replicate 256 false) [] := by
    intro c _
    have : c.toNat < 256 := c.toNat_lt
    rw [List.getElem?_replicate, if_pos this]
    rfl
  obtain ⟨arr', h⟩ := naming_walk tail fuel os [] _ [] Err.success hf (by simpa using hl) hu
  unfold validateNamingAt
  rw [walkTable_eq _ os tail fuel _ hf hl]
  simp only [List.nil_append, List.length_nil] at h
  rw [show ((0 : Nat) : Int) = 0 from rfl] at h
  rw [h]
  rfl

/-- **C110** The hypotheses are met; a name used twice is found, one that is only repeated behind the end mark is not a fault. -/
theorem C110_define_case :
    validatePlacementAt (walkCase.map some ++ none :: walkBehind) 5 = .ok (some (validatePlacement walkCase)) ∧
    validateNamingAt (walkCase.map some ++ none :: [some (optionBase 118 (some c!"verbose") .flag .flag)]) 5 =
      .ok (some Err.success) ∧
    validateNamingAt (walkCase.map some ++ [some (optionBase 118 (some c!"verbose") .flag .flag), none]) 6 =
      .ok (some Err.malformedOption) ∧
    validateNamingAt (walkCase.map some) 5 = .ub .outOfBounds := by
  refine ⟨by decide +kernel, by decide +kernel, by decide +kernel, by decide +kernel⟩

end Argus
