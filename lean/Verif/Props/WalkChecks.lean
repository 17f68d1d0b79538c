import Verif.Props.Walk

/-!
# C110: the checks after the parse on the memory of the tables and lists
-/

set_option autoImplicit false

namespace Argus

/-- `l` is the memory of a list with the texts, names or validators `xs`: NULL, or the entries with a NULL after them and anything
    behind it. -/
def ListAt {α : Type} (xs : Option (List α)) (l : Option (List (Option α))) : Prop :=
  match xs, l with
  | none, none => True
  | some xs, some l => ∃ tail, l = xs.map some ++ none :: tail
  | _, _ => False

theorem tableEntry_found (os : List Opt) (tail : List (Option Opt)) (k : Nat) (o : Opt) (h : os[k]? = some o) :
    tableEntry (os.map some ++ none :: tail) (k : Int) = .ok (some o) := by
  unfold tableEntry
  rw [if_neg (by omega)]
  have hk : k < os.length := (List.getElem?_eq_some_iff.1 h).1
  have ho : os[k] = o := (List.getElem?_eq_some_iff.1 h).2
  simp [List.getElem?_append_left, hk, ho]

variable (os : List Opt) (tail : List (Option Opt)) (fuel : Nat)

theorem requiredBody_eq (hf : os.length < fuel) (hl : os.length ≤ 2147483647) (i : Int) (n : Str) :
    requiredBody (os.map some ++ none :: tail) fuel () i n =
      match (findName os n).bind (fun i => os[i]?) with
      | some r => if r.isSet then .ok (.inl ()) else .ok (.inr (some (.fail Err.missingRequired)))
      | none => .ok (.inl ()) := by
  unfold requiredBody
  rw [C110_name os tail fuel hf hl, Out.ok_bind]
  cases h : findName os n with
  | none => rfl
  | some k =>
    have hk : k < os.length := (List.findIdx?_eq_some_iff_getElem.1 h).1
    simp only [Option.map_some, Option.bind_some, List.getElem?_eq_getElem hk,
      tableEntry_found os tail k os[k] (List.getElem?_eq_getElem hk), Out.ok_bind]

theorem conflictBody_eq (hf : os.length < fuel) (hl : os.length ≤ 2147483647) (i : Int) (n : Str) :
    conflictBody (os.map some ++ none :: tail) fuel () i n =
      match (findName os n).bind (fun i => os[i]?) with
      | some r => if r.isSet then .ok (.inr (some (.fail Err.conflictingOptions))) else .ok (.inl ())
      | none => .ok (.inl ()) := by
  unfold conflictBody
  rw [C110_name os tail fuel hf hl, Out.ok_bind]
  cases h : findName os n with
  | none => rfl
  | some k =>
    have hk : k < os.length := (List.findIdx?_eq_some_iff_getElem.1 h).1
    simp only [Option.map_some, Option.bind_some, List.getElem?_eq_getElem hk,
      tableEntry_found os tail k os[k] (List.getElem?_eq_getElem hk), Out.ok_bind]

/-- What the loop over a list of names ends with. -/
def namesEnd : Unit ⊕ Option VRes → Option VRes
  | .inl _ => some .pass
  | .inr r => r

theorem checkNamesAt_eq (body : Unit → Int → Str → Out (Unit ⊕ Option VRes)) (check : List Str → VRes)
    (h : ∀ ns (i : Int), (walkList body i () ns).bind (fun x => .ok (namesEnd x)) = .ok (some (check ns)))
    (h0 : check [] = .pass) (names : Option (List Str)) (l : Option (List (Option Str))) (hat : ListAt names l)
    (hf : (names.getD []).length < fuel) (hl : (names.getD []).length ≤ 2147483647) :
    checkNamesAt body fuel l = .ok (some (check (names.getD []))) := by
  unfold ListAt at hat
  cases names with
  | none =>
    cases l with
    | none => simp [checkNamesAt, h0]
    | some l => exact hat.elim
  | some ns =>
    cases l with
    | none => exact hat.elim
    | some l =>
      obtain ⟨t, rfl⟩ := hat
      simp only [Option.getD_some] at hf hl ⊢
      have hn := h ns 0
      unfold checkNamesAt
      simp only
      rw [walkTable_eq body ns t fuel () hf hl]
      cases hw : walkList body 0 () ns with
      | ub u => rw [hw] at hn; exact nomatch hn
      | ok x =>
        rw [hw] at hn
        cases x with
        | inl u => exact hn
        | inr r => exact hn

theorem required_walk (hf : os.length < fuel) (hl : os.length ≤ 2147483647) : ∀ (ns : List Str) (i : Int),
    (walkList (requiredBody (os.map some ++ none :: tail) fuel) i () ns).bind (fun x => .ok (namesEnd x)) =
      .ok (some (validateRequired os ns))
  | [], i => rfl
  | n :: ns, i => by
    rw [walkList, requiredBody_eq os tail fuel hf hl, validateRequired]
    cases (findName os n).bind (fun i => os[i]?) with
    | none => exact required_walk hf hl ns (i + 1)
    | some r =>
      simp only
      cases r.isSet with
      | true => exact required_walk hf hl ns (i + 1)
      | false => rfl

theorem conflict_walk (hf : os.length < fuel) (hl : os.length ≤ 2147483647) : ∀ (ns : List Str) (i : Int),
    (walkList (conflictBody (os.map some ++ none :: tail) fuel) i () ns).bind (fun x => .ok (namesEnd x)) =
      .ok (some (validateConflicts os ns))
  | [], i => rfl
  | n :: ns, i => by
    rw [walkList, conflictBody_eq os tail fuel hf hl, validateConflicts]
    cases (findName os n).bind (fun i => os[i]?) with
    | none => exact conflict_walk hf hl ns (i + 1)
    | some r =>
      simp only
      cases r.isSet with
      | false => exact conflict_walk hf hl ns (i + 1)
      | true => rfl

/-- **C110** `validate_required` reads the list of names up to its NULL and the table up to its end mark. -/
theorem C110_required (hf : os.length < fuel) (hl : os.length ≤ 2147483647) (names : Option (List Str))
    (l : Option (List (Option Str))) (hat : ListAt names l) (hn : (names.getD []).length < fuel)
    (hm : (names.getD []).length ≤ 2147483647) :
    checkNamesAt (requiredBody (os.map some ++ none :: tail) fuel) fuel l = .ok (some (validateRequired os (names.getD []))) :=
  checkNamesAt_eq fuel _ _ (required_walk os tail fuel hf hl) rfl names l hat hn hm

/-- **C110** `validate_conflicts`. -/
theorem C110_conflicts (hf : os.length < fuel) (hl : os.length ≤ 2147483647) (names : Option (List Str))
    (l : Option (List (Option Str))) (hat : ListAt names l) (hn : (names.getD []).length < fuel)
    (hm : (names.getD []).length ≤ 2147483647) :
    checkNamesAt (conflictBody (os.map some ++ none :: tail) fuel) fuel l = .ok (some (validateConflicts os (names.getD []))) :=
  checkNamesAt_eq fuel _ _ (conflict_walk os tail fuel hf hl) rfl names l hat hn hm

/-- What the loop over the validators ends with. -/
def validatorsEnd : List Int ⊕ (Int × List Int) → Int × List Int
  | .inl codes => (Err.success, codes)
  | .inr r => r

theorem validators_walk (W : World) (o : Opt) : ∀ (vs : List Validator) (i : Int) (codes : List Int),
    (walkList (validatorBody W o) i codes vs).bind (fun x => .ok (validatorsEnd x)) =
      (callValidators W o vs).bind fun r => .ok (r.1, codes ++ r.2)
  | [], i, codes => by simp [walkList, callValidators, validatorsEnd, Out.bind]
  | v :: vs, i, codes => by
    rw [walkList, callValidators, validatorBody]
    by_cases hv : v.order = .post
    · simp only [hv, if_true]
      cases runPost W v.kind o with
      | ub u => rfl
      | ok r =>
        simp only [Out.ok_bind]
        by_cases hr : r.1 ≠ Err.success
        · simp only [hr, if_true, ne_eq, not_false_eq_true, Out.ok_bind]; rfl
        · simp only [hr, if_false, Out.ok_bind]
          rw [validators_walk W o vs (i + 1) (codes ++ r.2.toList)]
          cases callValidators W o vs with
          | ub u => rfl
          | ok r2 => simp [Out.bind, bind]
    · simp only [hv, if_false, Out.ok_bind]
      exact validators_walk W o vs (i + 1) codes

/-- **C110** `call_validators` calls the validators before the NULL, in order, and nothing behind it. -/
theorem C110_validators (W : World) (o : Opt) (vs : Option (List Validator)) (l : Option (List (Option Validator)))
    (hat : ListAt vs l) (hn : (vs.getD []).length < fuel) (hm : (vs.getD []).length ≤ 2147483647) :
    callValidatorsAt W o fuel l = (callValidators W o (vs.getD [])).bind fun r => .ok (some r) := by
  unfold ListAt at hat
  cases vs with
  | none =>
    cases l with
    | none => rfl
    | some l => exact hat.elim
  | some vs =>
    cases l with
    | none => exact hat.elim
    | some l =>
      obtain ⟨t, rfl⟩ := hat
      simp only [Option.getD_some] at hn hm ⊢
      have h := validators_walk W o vs 0 []
      unfold callValidatorsAt
      simp only
      rw [walkTable_eq _ vs t fuel [] hn hm]
      cases hw : walkList (validatorBody W o) 0 [] vs with
      | ub u =>
        rw [hw] at h
        cases hc : callValidators W o vs with
        | ub u' => rw [hc] at h; simp only [Out.bind, Out.ub.injEq] at h; rw [h]; rfl
        | ok r => rw [hc] at h; exact nomatch h
      | ok x =>
        rw [hw] at h
        cases hc : callValidators W o vs with
        | ub u' => rw [hc] at h; exact nomatch h
        | ok r =>
          rw [hc] at h
          simp only [Out.bind, List.nil_append, Out.ok.injEq] at h
          cases x with
          | inl codes => exact congrArg (fun r => Out.ok (some r)) h
          | inr r' => exact congrArg (fun r => Out.ok (some r)) h

/-- The lists of the entries of a table are in memory, with fewer entries than `fuel`. -/
structure ListsAt.Holds (L : ListsAt) (fuel : Nat) (os : List Opt) : Prop where
  require : ∀ o ∈ os, ListAt o.require (L.require o) ∧ (o.require.getD []).length < fuel
  conflict : ∀ o ∈ os, ListAt o.conflict (L.conflict o) ∧ (o.conflict.getD []).length < fuel
  validators : ∀ o ∈ os, ListAt o.validators (L.validators o) ∧ (o.validators.getD []).length < fuel

/-- What the loop of `validate_options_set` ends with. -/
def validateEnd : (Bool × Option Str × List Int) ⊕ Option (Int × List Int) → Option (Int × List Int)
  | .inl s => some (Err.success, s.2.2)
  | .inr r => r

theorem validate_walk (W : World) (L : ListsAt) (hf : os.length < fuel) (hmax : fuel ≤ 2147483648) :
    ∀ (es : List Opt) (i : Int) (s : Bool × Option Str × List Int), L.Holds fuel es →
    (walkList (validateBody W (os.map some ++ none :: tail) L fuel) i s es).bind (fun x => .ok (validateEnd x)) =
      (validateSet W os s.1 s.2.1 es).bind fun r => .ok (some (r.1, s.2.2 ++ r.2))
  | [], i, s, _ => by simp [walkList, validateSet, validateEnd, Out.bind]
  | o :: es, i, s, hL => by
    have hes : L.Holds fuel es := ⟨fun x hx => hL.require x (.tail _ hx), fun x hx => hL.conflict x (.tail _ hx),
      fun x hx => hL.validators x (.tail _ hx)⟩
    obtain ⟨r1, r2⟩ := hL.require o (.head _)
    obtain ⟨c1, c2⟩ := hL.conflict o (.head _)
    obtain ⟨v1, v2⟩ := hL.validators o (.head _)
    rw [walkList, validateSet, validateBody, C110_validators fuel W o _ _ v1 v2 (by omega),
      C110_required os tail fuel hf (by omega) _ _ r1 r2 (by omega),
      C110_conflicts os tail fuel hf (by omega) _ _ c1 c2 (by omega)]
    by_cases h1 : o.type = .group
    · simp only [h1, if_true, Out.ok_bind]
      exact validate_walk W L hf hmax es (i + 1) _ hes
    · simp only [h1, if_false]
      by_cases h2 : o.type = .positional ∧ o.flags.has .required ∧ o.isSet = false
      · rw [if_pos h2, if_pos h2]; rfl
      · rw [if_neg h2, if_neg h2]
        by_cases h3 : o.isSet = true
        · rw [if_pos h3, if_pos h3]
          by_cases h4 : s.1 = true ∧ s.2.1.isSome = true
          · rw [if_pos h4, if_pos h4]; rfl
          · rw [if_neg h4, if_neg h4]
            cases callValidators W o (o.validators.getD []) with
            | ub u => rfl
            | ok r =>
              simp only [Out.ok_bind, Out.bind]
              by_cases h5 : r.1 ≠ Err.success
              · simp only [if_pos h5, Out.ok_bind]; rfl
              · simp only [if_neg h5, Out.ok_bind]
                by_cases h6 : (validateRequired os (o.require.getD [])).1 ≠ Err.success
                · simp only [if_pos h6, Out.ok_bind]; rfl
                · simp only [if_neg h6, Out.ok_bind]
                  by_cases h7 : (validateConflicts os (o.conflict.getD [])).1 ≠ Err.success
                  · simp only [if_pos h7, Out.ok_bind]; rfl
                  · simp only [if_neg h7, Out.ok_bind]
                    have ih := validate_walk W L hf hmax es (i + 1) (s.1, if s.1 then o.name else s.2.1, s.2.2 ++ r.2) hes
                    refine Eq.trans ih ?_
                    simp only
                    cases validateSet W os s.1 (if s.1 = true then o.name else s.2.1) es with
                    | ub u => rfl
                    | ok r2 => simp [Out.bind, bind]
        · rw [if_neg h3, if_neg h3]
          simp only [Out.ok_bind]
          exact validate_walk W L hf hmax es (i + 1) s hes

/-- **C110** `validate_options_set` on the memory of a table and of the lists of its entries gives what it gives on the entries
    themselves, defined or not, whatever is behind the end marks: the checks after the parse read nothing else. -/
theorem C110_checks (W : World) (L : ListsAt) (hf : os.length < fuel) (hmax : fuel ≤ 2147483648) (hL : L.Holds fuel os) :
    validateSetAt W (os.map some ++ none :: tail) L fuel = (validateSet W os false none os).bind fun r => .ok (some r) := by
  have h := validate_walk os tail fuel W L hf hmax os 0 (false, none, []) hL
  unfold validateSetAt
  rw [walkTable_eq _ os tail fuel _ hf (by omega)]
  simp only [List.nil_append] at h
  refine Eq.trans ?_ h
  cases walkList (validateBody W (os.map some ++ none :: tail) L fuel) 0 (false, none, []) os with
  | ub u => rfl
  | ok x => cases x <;> rfl

/-- `-a` asks for `-b` and excludes `-c`; a NULL and a name that is not in the list follow each of the lists. -/
def walkLists : ListsAt where
  require o := o.require.map fun ns => ns.map some ++ [none, some c!"c"]
  conflict o := o.conflict.map fun ns => ns.map some ++ [none, some c!"b"]
  validators o := o.validators.map fun vs => vs.map some ++ [none]

def walkLinked (b c : Bool) : List Opt :=
  [{ optFlag 97 none with isSet := true, require := some [c!"b"], conflict := some [c!"c"] },
   { optFlag 98 none with isSet := b }, { optFlag 99 none with isSet := c }]

theorem walkLists_holds (b c : Bool) : walkLists.Holds 4 (walkLinked b c) := by
  have h : ∀ {α : Type} (xs : Option (List α)) (t : List (Option α)), ListAt xs (xs.map fun ns => ns.map some ++ none :: t) := by
    intro α xs t
    cases xs with
    | none => trivial
    | some xs => exact ⟨t, rfl⟩
  refine ⟨fun o ho => ⟨h _ _, ?_⟩, fun o ho => ⟨h _ _, ?_⟩, fun o ho => ⟨h _ _, ?_⟩⟩ <;>
    (simp only [walkLinked, List.mem_cons, List.not_mem_nil, or_false] at ho
     rcases ho with rfl | rfl | rfl <;> decide +revert)

/-- **C110** The hypotheses of `C110_checks` are met, and the three outcomes occur: names behind the NULL do not count, and a
    list without its NULL is read past its end. -/
theorem C110_checks_case :
    walkLists.Holds 4 (walkLinked true false) ∧
    validateSetAt Sample.world ((walkLinked true false).map some ++ none :: walkBehind) walkLists 4 = .ok (some (Err.success, [])) ∧
    validateSetAt Sample.world ((walkLinked false false).map some ++ none :: walkBehind) walkLists 4 =
      .ok (some (Err.missingRequired, [Err.missingRequired])) ∧
    validateSetAt Sample.world ((walkLinked true true).map some ++ none :: walkBehind) walkLists 4 =
      .ok (some (Err.conflictingOptions, [Err.conflictingOptions])) ∧
    validateSetAt Sample.world ((walkLinked true false).map some ++ none :: walkBehind)
      { walkLists with require := fun o => o.require.map fun ns => ns.map some } 4 = .ub .outOfBounds := by
  refine ⟨walkLists_holds true false, ?_, ?_, ?_, ?_⟩ <;> rfl

end Argus
