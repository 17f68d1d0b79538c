import Verif.Model.Walk
import Verif.Spec.Sample
import Verif.Model.Define

/-!
# C110: tables are read up to their end and no further
-/

set_option autoImplicit false

namespace Argus

/-- The loop on the list of entries. -/
def walkList {α σ ρ : Type} (body : σ → Int → α → Out (σ ⊕ ρ)) : Int → σ → List α → Out (σ ⊕ ρ)
  | _, s, [] => .ok (.inl s)
  | i, s, e :: es => do
    match ← body s i e with
    | .inr r => .ok (.inr r)
    | .inl s1 => walkList body (i + 1) s1 es

/-- **C110** Every loop over a table, whatever its body does, sees the entries before the end mark, one after the other, and
    nothing else: no access is outside the table, and no index overflows, whatever comes behind the end mark. -/
theorem C110_loop {α σ ρ : Type} (body : σ → Int → α → Out (σ ⊕ ρ)) (tail : List (Option α)) :
    ∀ (es : List α) (front : List (Option α)) (fuel : Nat) (s : σ), es.length < fuel →
      front.length + es.length ≤ 2147483647 →
      walkTable (front ++ (es.map some ++ none :: tail)) body fuel front.length s =
        (walkList body front.length s es).bind fun r => .ok (some r)
  | es, front, 0, s, hf, _ => by omega
  | [], front, fuel + 1, s, _, _ => by
    unfold walkTable tableEntry
    rw [if_neg (by omega)]
    simp [Out.ok_bind, walkList]
    rfl
  | e :: es, front, fuel + 1, s, hf, hl => by
    have ha : tableEntry (front ++ ((e :: es).map some ++ none :: tail)) front.length = .ok (some e) := by
      unfold tableEntry
      rw [if_neg (by omega)]
      simp
    unfold walkTable
    rw [ha, Out.ok_bind]
    simp only [walkList]
    cases body s front.length e with
    | ub u => rfl
    | ok x =>
    cases x with
    | inr r => rfl
    | inl s1 =>
      simp only [List.length_cons] at hf hl
      have hi : intInc (front.length : Int) = .ok ((front.length : Int) + 1) := by
        unfold intInc; rw [if_neg (by omega)]
      simp only [hi, Out.ok_bind]
      have := C110_loop body tail es (front ++ [some e]) fuel s1 (by omega) (by simp; omega)
      simp only [List.length_append, List.length_singleton, List.append_assoc, List.cons_append, List.nil_append] at this
      rw [List.map_cons, List.cons_append]
      exact this

theorem walkTable_eq {α σ ρ : Type} (body : σ → Int → α → Out (σ ⊕ ρ)) (es : List α) (tail : List (Option α)) (fuel : Nat) (s : σ)
    (hf : es.length < fuel) (hl : es.length ≤ 2147483647) :
    walkTable (es.map some ++ none :: tail) body fuel 0 s = (walkList body 0 s es).bind fun r => .ok (some r) :=
  C110_loop body tail es [] fuel s hf (by simpa using hl)

theorem walkList_find {α : Type} (p : α → Bool) : ∀ (es : List α) (k : Nat),
    walkList (fun (_ : Unit) i e => if p e then .ok (.inr i) else .ok (.inl ())) (k : Int) () es =
      match es.findIdx? p with
      | some j => .ok (.inr ((k + j : Nat) : Int))
      | none => .ok (.inl ())
  | [], k => rfl
  | e :: es, k => by
    rw [walkList, List.findIdx?_cons]
    by_cases h : p e = true
    · simp [h]
    · have := walkList_find p es (k + 1)
      simp only [h, if_false, Bool.false_eq_true, Out.ok_bind]
      rw [show (k : Int) + 1 = ((k + 1 : Nat) : Int) by omega, this]
      cases es.findIdx? p with
      | none => rfl
      | some j => simp; omega

variable (os : List Opt) (tail : List (Option Opt)) (fuel : Nat) (hf : os.length < fuel) (hl : os.length ≤ 2147483647)

theorem found_find (p : Opt → Bool) (hf : os.length < fuel) (hl : os.length ≤ 2147483647) :
    found (walkTable (os.map some ++ none :: tail) (fun (_ : Unit) i o => if p o then .ok (.inr i) else .ok (.inl ())) fuel 0 ()) =
      .ok (some ((os.findIdx? p).map fun (j : Nat) => (j : Int))) := by
  rw [walkTable_eq _ os tail fuel () hf hl]
  have h := walkList_find p os 0
  rw [show ((0 : Nat) : Int) = 0 from rfl] at h
  rw [h]
  cases os.findIdx? p with
  | none => rfl
  | some j => simp [found]; rfl

include hf hl

/-- **C110** `find_option_by_lname` finds in the table of `os` what is found in `os`, whatever is behind its end. -/
theorem C110_long_name (l : Str) :
    findLnameAt (os.map some ++ none :: tail) fuel l = .ok (some ((findLname os l).map fun (j : Nat) => (j : Int))) :=
  found_find os tail fuel _ hf hl

/-- **C110** `find_option_by_sname`. -/
theorem C110_short_name (c : Byte) :
    findSnameAt (os.map some ++ none :: tail) fuel c = .ok (some ((findSname os c).map fun (j : Nat) => (j : Int))) :=
  found_find os tail fuel _ hf hl

/-- **C110** `find_option_by_name`. -/
theorem C110_name (n : Str) :
    findNameAt (os.map some ++ none :: tail) fuel n = .ok (some ((findName os n).map fun (j : Nat) => (j : Int))) :=
  found_find os tail fuel _ hf hl

/-- **C110** `find_positional`. -/
theorem C110_positional (position : Nat) :
    findPositionalAt (os.map some ++ none :: tail) fuel position =
      .ok (some ((findPositional os position).map fun (j : Nat) => (j : Int))) := by
  have h : ∀ (es : List Opt) (k pos : Nat),
      walkList (fun (pos : Nat) i o =>
        if o.type == .positional then
          if o.valueType.isVariadic || pos == position then .ok (.inr i) else .ok (.inl (pos + 1))
        else .ok (.inl pos)) (k : Int) pos es =
      match findPositionalFrom position k pos es with
      | some j => .ok (.inr (j : Int))
      | none => .ok (.inl (pos + (es.filter fun o => o.type == .positional).length)) := by
    intro es
    induction es with
    | nil => intro k pos; rfl
    | cons o es ih =>
      intro k pos
      rw [walkList, findPositionalFrom]
      by_cases h1 : (o.type == .positional) = true
      · by_cases h2 : (o.valueType.isVariadic || pos == position) = true
        · simp only [h1, h2, if_true, Out.ok_bind]
        · simp only [h1, h2, if_true, Bool.false_eq_true, if_false, Out.ok_bind]
          rw [show (k : Int) + 1 = ((k + 1 : Nat) : Int) by omega, ih (k + 1) (pos + 1)]
          cases findPositionalFrom position (k + 1) (pos + 1) es with
          | some j => rfl
          | none => simp [h1]; omega
      · simp only [h1, Bool.false_eq_true, if_false, Out.ok_bind]
        rw [show (k : Int) + 1 = ((k + 1 : Nat) : Int) by omega, ih (k + 1) pos]
        cases findPositionalFrom position (k + 1) pos es with
        | some j => rfl
        | none => simp [h1]
  unfold findPositionalAt findPositional
  rw [walkTable_eq _ os tail fuel 0 hf hl]
  have h0 := h os 0 0
  rw [show ((0 : Nat) : Int) = 0 from rfl] at h0
  rw [h0]
  cases findPositionalFrom position 0 0 os <;> rfl

/-- **C110** `find_subcommand`. -/
theorem C110_subcommand (n : Str) :
    findSubAt (os.map some ++ none :: tail) fuel n =
      .ok (some ((findSub os n).1, (findSub os n).2.map fun (j : Nat) => (j : Int))) := by
  have h : ∀ (es : List Opt) (k : Nat) (sub : Option Nat),
      walkList (findSubBody n) (k : Int) (sub.map fun (j : Nat) => (j : Int)) es =
        .ok (.inr ((findSubFrom n k sub es).1, (findSubFrom n k sub es).2.map fun (j : Nat) => (j : Int))) ∨
      walkList (findSubBody n) (k : Int) (sub.map fun (j : Nat) => (j : Int)) es =
        .ok (.inl ((findSubFrom n k sub es).2.map fun (j : Nat) => (j : Int))) ∧
        (findSubFrom n k sub es).1 = Err.success := by
    intro es
    induction es with
    | nil => intro k sub; exact .inr ⟨rfl, rfl⟩
    | cons o es ih =>
      intro k sub
      rw [walkList, findSubFrom, findSubBody]
      have hk : (k : Int) + 1 = ((k + 1 : Nat) : Int) := by omega
      cases ht : o.type with
      | subcommand =>
        cases hn : o.name with
        | none => simp only [hk]; exact ih (k + 1) sub
        | some m =>
          simp only
          by_cases h1 : (startsWith n m).isSome = true
          · cases sub with
            | some j => left; simp [h1]
            | none =>
              by_cases h2 : strcmp n m = 0
              · left; simp [h1, h2]
              · simp only [h1, if_true, h2, if_false, Option.isSome_none, Option.map_none, Bool.false_eq_true, hk]
                exact ih (k + 1) (some k)
          · simp only [h1, if_false, Bool.false_eq_true, hk]; exact ih (k + 1) sub
      | option => simp only [hk]; exact ih (k + 1) sub
      | group => simp only [hk]; exact ih (k + 1) sub
      | positional => simp only [hk]; exact ih (k + 1) sub
  unfold findSubAt findSub
  rw [walkTable_eq _ os tail fuel none hf hl]
  rcases h os 0 none with h0 | ⟨h0, h1⟩
  · rw [show ((0 : Nat) : Int) = 0 from rfl, Option.map_none] at h0
    rw [h0]; rfl
  · rw [show ((0 : Nat) : Int) = 0 from rfl, Option.map_none] at h0
    rw [h0, h1]; rfl

omit hf hl

/-- **C110** The end mark is needed: a loop whose body goes on with every entry reads past a table that has none. -/
theorem C110_no_end {α σ ρ : Type} (body : σ → Int → α → Out (σ ⊕ ρ)) (go : σ → σ) (hb : ∀ s i e, body s i e = .ok (.inl (go s))) :
    ∀ (es : List α) (front : List (Option α)) (fuel : Nat) (s : σ), es.length < fuel →
      front.length + es.length ≤ 2147483647 →
      walkTable (front ++ es.map some) body fuel front.length s = .ub .outOfBounds
  | es, front, 0, s, hf, _ => by omega
  | [], front, fuel + 1, s, _, _ => by
    unfold walkTable tableEntry
    rw [if_neg (by omega)]
    simp
  | e :: es, front, fuel + 1, s, hf, hl => by
    have ha : tableEntry (front ++ (e :: es).map some) front.length = .ok (some e) := by
      unfold tableEntry
      rw [if_neg (by omega)]
      simp
    unfold walkTable
    rw [ha, Out.ok_bind]
    simp only [hb]
    simp only [List.length_cons] at hf hl
    have hi : intInc (front.length : Int) = .ok ((front.length : Int) + 1) := by
      unfold intInc; rw [if_neg (by omega)]
    simp only [hi, Out.ok_bind]
    have := C110_no_end body go hb es (front ++ [some e]) fuel (go s) (by omega) (by simp; omega)
    simp only [List.length_append, List.length_singleton, List.append_assoc, List.cons_append, List.nil_append] at this
    rw [List.map_cons]
    exact this

/-- **C110** What is behind the end mark of a table is never found, nor does it change what is found: two tables with the same
    entries give the same answers. -/
theorem C110_behind_end (tail' : List (Option Opt)) (hf : os.length < fuel) (hl : os.length ≤ 2147483647)
    (l : Str) (c : Byte) (k : Nat) :
    findLnameAt (os.map some ++ none :: tail) fuel l = findLnameAt (os.map some ++ none :: tail') fuel l ∧
    findSnameAt (os.map some ++ none :: tail) fuel c = findSnameAt (os.map some ++ none :: tail') fuel c ∧
    findNameAt (os.map some ++ none :: tail) fuel l = findNameAt (os.map some ++ none :: tail') fuel l ∧
    findPositionalAt (os.map some ++ none :: tail) fuel k = findPositionalAt (os.map some ++ none :: tail') fuel k ∧
    findSubAt (os.map some ++ none :: tail) fuel l = findSubAt (os.map some ++ none :: tail') fuel l := by
  simp only [C110_long_name os _ fuel hf hl, C110_short_name os _ fuel hf hl, C110_name os _ fuel hf hl,
    C110_positional os _ fuel hf hl, C110_subcommand os _ fuel hf hl, and_self]

/-- A table of four entries. -/
def walkCase : List Opt :=
  [helpOption, optionBase 118 (some c!"verbose") .flag .flag, positionalBase c!"input" .string .string, subcommand c!"run" 0]

/-- Memory behind it, with an option `--zeta`. -/
def walkBehind : List (Option Opt) := [some (optionBase 122 (some c!"zeta") .flag .flag), none]

/-- **C110** The hypotheses are met, and the lookups find the entries of the table and not those behind it; without the end mark
    the option behind the table would be found. -/
theorem C110_case :
    walkCase.length < 5 ∧
    findLnameAt (walkCase.map some ++ none :: walkBehind) 5 c!"verbose" = .ok (some (some 1)) ∧
    findSnameAt (walkCase.map some ++ none :: walkBehind) 5 104 = .ok (some (some 0)) ∧
    findNameAt (walkCase.map some ++ none :: walkBehind) 5 c!"input" = .ok (some (some 2)) ∧
    findPositionalAt (walkCase.map some ++ none :: walkBehind) 5 0 = .ok (some (some 2)) ∧
    findSubAt (walkCase.map some ++ none :: walkBehind) 5 c!"ru" = .ok (some (Err.success, some 3)) ∧
    findLnameAt (walkCase.map some ++ none :: walkBehind) 5 c!"zeta" = .ok (some none) ∧
    findLnameAt (walkCase.map some ++ walkBehind) 5 c!"zeta" = .ok (some (some 4)) ∧
    findLnameAt (walkCase.map some) 5 c!"zeta" = .ub .outOfBounds := by
  refine ⟨by decide, ?_, ?_, ?_, ?_, ?_, ?_, ?_, ?_⟩ <;> rfl

end Argus
