import Verif.Lemmas.Meaning

/-!
# The meaning of a command line and the parts of the declarations it depends on
-/

set_option autoImplicit false

namespace Argus

/-- A change of declarations that leaves alone what the reading of command lines depends on. -/
structure KeepsKeys (f : Opt → Opt) : Prop where
  type : ∀ o, (f o).type = o.type
  name : ∀ o, (f o).name = o.name
  sname : ∀ o, (f o).sname = o.sname
  lname : ∀ o, (f o).lname = o.lname
  valueType : ∀ o, (f o).valueType = o.valueType
  subOptions : ∀ o, (f o).subOptions = o.subOptions

section

variable {f : Opt → Opt} (hf : KeepsKeys f)
include hf

theorem longIdx_keys (os : List Opt) (n : Str) : longIdx (os.map f) n = longIdx os n := by
  unfold longIdx; rw [List.findIdx?_map]; congr 1; funext o; simp [hf.type, hf.lname]

theorem shortIdx_keys (os : List Opt) (c : Byte) : shortIdx (os.map f) c = shortIdx os c := by
  unfold shortIdx; rw [List.findIdx?_map]; congr 1; funext o; simp [hf.type, hf.sname]

theorem isFlagAt_keys (os : List Opt) (i : Nat) : isFlagAt (os.map f) i = isFlagAt os i := by
  unfold isFlagAt; rw [List.getElem?_map, Option.any_map]; congr 1; funext o; simp [hf.valueType]

theorem slotAt_keys (os : List Opt) (k : Nat) :
    slotAt (os.map f) k = (slotAt os k).map (fun x => (f x.1, x.2)) := by
  unfold slotAt
  rw [List.zipIdx_map, List.filter_map, slotBy_map]
  have h1 : (fun x : Opt × Nat => decide (x.1.type = .positional)) ∘ Prod.map f id =
      fun x => decide (x.1.type = .positional) := by funext x; simp [hf.type]
  have h2 : (fun x : Opt × Nat => x.1.valueType.isVariadic) ∘ Prod.map f id =
      fun x => x.1.valueType.isVariadic := by funext x; simp [hf.valueType]
  rw [h1, h2]; rfl

theorem subMatches_keys (os : List Opt) (arg : Str) :
    subMatches (os.map f) arg = (subMatches os arg).map (fun x => (f x.1, x.2)) := by
  unfold subMatches
  rw [List.zipIdx_map, List.filter_map]
  congr 1
  congr 1
  funext x
  simp [hf.type, hf.name]

theorem posActs_keys (t : Nat) (os : List Opt) (pos : Nat) (arg : Str) :
    posActs t (os.map f) pos arg = posActs t os pos arg := by
  unfold posActs; rw [slotAt_keys hf]; cases slotAt os pos <;> rfl

theorem longActs_keys (t : Nat) (os : List Opt) (name : Str) (v n : Option Str) :
    longActs t (os.map f) name v n = longActs t os name v n := by
  unfold longActs; rw [longIdx_keys hf]; simp only [isFlagAt_keys hf]

theorem shortActs_keys (t : Nat) (os : List Opt) (n : Option Str) : ∀ cs : Str,
    shortActs t (os.map f) n cs = shortActs t os n cs
  | [] => rfl
  | c :: cs => by
    unfold shortActs
    rw [shortIdx_keys hf, shortActs_keys t os n cs]
    simp only [isFlagAt_keys hf]

theorem negNumber_keys (os : List Opt) (pos : Nat) (cl : Str) :
    negNumber (os.map f) pos cl = negNumber os pos cl := by
  unfold negNumber; rw [slotAt_keys hf, Option.any_map]
  congr 2; funext x; simp [hf.valueType]

theorem subChoice_keys (os : List Opt) (arg : Str) : subChoice (os.map f) arg =
    (subChoice os arg).map (fun e => e.map (fun x => (f x.1, x.2))) := by
  unfold subChoice
  rw [subMatches_keys hf]
  match subMatches os arg with
  | [] => rfl
  | [x] => rfl
  | x :: y :: l =>
    simp only [List.map_cons, hf.name]
    by_cases h : x.1.name = some arg
    · simp only [h, if_true]; rfl
    · simp only [h, if_false]; rfl

/-- Only names, types and subcommand tables of the declarations matter for reading a command line. -/
theorem meaning_keys (tables : List (List Opt)) : ∀ (args : List Str) (t : Option Nat) (pos : Nat)
    (only skip : Bool), meaning (tables.map (·.map f)) t pos only skip args =
      meaning tables t pos only skip args
  | [], _, _, _, skip => by cases skip <;> rfl
  | arg :: rest, t, pos, only, true => by
    unfold meaning; exact meaning_keys tables rest t pos only false
  | arg :: rest, t, pos, only, false => by
    have ih := meaning_keys tables rest
    unfold meaning
    split
    · exact ih t pos true false
    split
    · exact ih t pos only false
    · cases t with
      | none => rfl
      | some k =>
        simp only [Option.bind_some, List.getElem?_map]
        cases tables[k]? with
        | none => rfl
        | some os =>
          simp only [Option.map_some, posActs_keys hf, longActs_keys hf, shortActs_keys hf, negNumber_keys hf,
            subChoice_keys hf, ih]
          cases subChoice os arg with
          | none => rfl
          | some e =>
            cases e with
            | error c => rfl
            | ok x =>
              simp only [Option.map_some, Except.map, hf.subOptions]

end

end Argus
