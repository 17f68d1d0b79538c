import Verif.Spec.Complaints
import Verif.Lemmas.Structure
import Verif.Lemmas.Messages

/-! The complaints of Model/Complaints and the rules of Spec/Complaints. -/

set_option autoImplicit false

namespace Argus

theorem mem_complain {c : Bool} {i : Nat} {t : Str} {x : Complaint} : x ∈ complain c i t ↔ c = true ∧ x = (i, t) := by
  cases c <;> simp [complain]

theorem complain_nil {c : Bool} {i : Nat} {t : Str} : complain c i t = [] ↔ c = false := by cases c <;> simp [complain]

theorem mem_take_iff {os : List Opt} {i : Nat} {x : Opt} : x ∈ os.take i ↔ ∃ j, j < i ∧ os[j]? = some x := by
  constructor
  · intro h
    obtain ⟨j, hj⟩ := List.getElem?_of_mem h
    rw [List.getElem?_take] at hj
    split at hj
    · exact ⟨j, by assumption, hj⟩
    · simp at hj
  · rintro ⟨j, h1, h2⟩
    exact List.mem_of_getElem? (i := j) (by rw [List.getElem?_take, if_pos h1, h2])

theorem mem_take_succ {os : List Opt} {i : Nat} {o x : Opt} (h : os[i]? = some o) :
    x ∈ os.take i ++ [o] ↔ ∃ j, j ≤ i ∧ os[j]? = some x := by
  rw [List.mem_append, mem_take_iff, List.mem_singleton]
  constructor
  · rintro (⟨j, h1, h2⟩ | rfl)
    · exact ⟨j, by omega, h2⟩
    · exact ⟨i, Nat.le_refl _, h⟩
  · rintro ⟨j, h1, h2⟩
    rcases Nat.lt_or_eq_of_le h1 with h1 | rfl
    · exact .inl ⟨j, h1, h2⟩
    · rw [h] at h2; simp only [Option.some.injEq] at h2; exact .inr h2.symm

/-! ### Placement -/

theorem mem_placementComplaintLoop : ∀ (os pre : List Opt) (b : Nat) (x : Complaint),
    x ∈ placementComplaintLoop (placedAfter pre) b os ↔
      ∃ i o, os[i]? = some o ∧ x ∈ placementComplaint (placedAfter (pre ++ os.take i)) (b + i) o
  | [], pre, b, x => by simp [placementComplaintLoop]
  | o :: os, pre, b, x => by
    unfold placementComplaintLoop
    rw [placementStep_after, List.mem_append, mem_placementComplaintLoop os (pre ++ [o]) (b + 1) x]
    constructor
    · rintro (h | ⟨i, p, h1, h2⟩)
      · exact ⟨0, o, rfl, by simpa using h⟩
      · refine ⟨i + 1, p, h1, ?_⟩
        rw [List.take_succ_cons, show b + (i + 1) = b + 1 + i by omega]
        simpa using h2
    · rintro ⟨i, p, h1, h2⟩
      cases i with
      | zero =>
        simp only [List.getElem?_cons_zero, Option.some.injEq] at h1; subst h1
        exact .inl (by simpa using h2)
      | succ i =>
        refine .inr ⟨i, p, h1, ?_⟩
        rw [List.take_succ_cons, show b + (i + 1) = b + 1 + i by omega] at h2
        simpa using h2

theorem mem_placementComplaint {pre : List Opt} {i : Nat} {o : Opt} {x : Complaint} :
    x ∈ placementComplaint (placedAfter pre) i o ↔
      (o.RequiredMany ∧ (∃ p ∈ pre, p.RequiredMany) ∧ x = (i, c!"Only one POSITIONAL_MANY argument is allowed")) ∨
      (o.RequiredPos ∧ o.valueType.isVariadic = false ∧ (∃ p ∈ pre, p.RequiredMany) ∧
        x = (i, c!"POSITIONAL argument must be placed before POSITIONAL_MANY argument")) ∨
      ((∃ p ∈ pre ++ [o], p.OptionalPos) ∧ (∃ p ∈ pre ++ [o], p.RequiredMany) ∧
        x = (i, c!"Cannot mix optional positional and POSITIONAL_MANY arguments")) ∨
      (o.type = .option ∧ (∃ p ∈ pre ++ [o], p.type = .subcommand) ∧
        x = (i, c!"Options should be placed at the top level, before any subcommands")) ∨
      ((∃ p ∈ pre ++ [o], p.type = .subcommand) ∧ (∃ p ∈ pre ++ [o], p.RequiredPos ∧ p.valueType.isVariadic = false) ∧
        x = (i, c!"Cannot mix subcommands and positional arguments at the same level")) ∨
      (o.RequiredPos ∧ (∃ p ∈ pre ++ [o], p.OptionalPos) ∧
        x = (i, c!"Required positional must be before all optional positional arguments")) := by
  rw [← placedAfter_many pre, ← placedAfter_many (pre ++ [o]), ← placedAfter_optional (pre ++ [o]),
    ← placedAfter_subcommands (pre ++ [o]), ← placedAfter_positional (pre ++ [o])]
  unfold placementComplaint
  simp only [placementStep_after, List.mem_append, mem_complain]
  simp only [Bool.and_eq_true, beq_iff_eq, Bool.not_eq_true', Opt.RequiredMany, Opt.RequiredPos, and_assoc, or_assoc]

theorem mem_placementComplaints {os : List Opt} {i : Nat} {t : Str} :
    (i, t) ∈ placementComplaints os ↔ Misplaced os i t := by
  unfold placementComplaints
  have h0 : ({} : Placed) = placedAfter [] := rfl
  rw [List.mem_append, h0, mem_placementComplaintLoop, (placementLoop_ok os [] Err.success).1, mem_complain]
  simp only [List.nil_append, Nat.zero_add]
  constructor
  · rintro (⟨j, o, ho, h⟩ | ⟨h, he⟩)
    · rw [mem_placementComplaint] at h
      have hl := (List.getElem?_eq_some_iff.1 ho).1
      rcases h with ⟨h1, ⟨p, hp, h2⟩, he⟩ | ⟨h1, h3, ⟨p, hp, h2⟩, he⟩ | ⟨⟨p, hp, h1⟩, ⟨q, hq, h2⟩, he⟩ |
        ⟨h1, ⟨p, hp, h2⟩, he⟩ | ⟨⟨p, hp, h1⟩, ⟨q, hq, h2, h3⟩, he⟩ | ⟨h1, ⟨p, hp, h2⟩, he⟩ <;>
        (simp only [Prod.mk.injEq] at he; obtain ⟨rfl, rfl⟩ := he)
      · obtain ⟨k, g1, g2⟩ := mem_take_iff.1 hp; exact .manyTwice ho h1 g1 g2 h2
      · obtain ⟨k, g1, g2⟩ := mem_take_iff.1 hp; exact .afterMany ho h1 h3 g1 g2 h2
      · obtain ⟨k, g1, g2⟩ := (mem_take_succ ho).1 hp
        obtain ⟨k2, g3, g4⟩ := (mem_take_succ ho).1 hq
        exact .mixed hl g1 g2 h1 g3 g4 h2
      · obtain ⟨k, g1, g2⟩ := (mem_take_succ ho).1 hp
        refine .optionLate ho h1 (Nat.lt_of_le_of_ne g1 ?_) g2 h2
        rintro rfl
        rw [ho] at g2; simp only [Option.some.injEq] at g2; subst g2
        rw [h1] at h2; simp at h2
      · obtain ⟨k, g1, g2⟩ := (mem_take_succ ho).1 hp
        obtain ⟨k2, g3, g4⟩ := (mem_take_succ ho).1 hq
        exact .beside hl g1 g2 h1 g3 g4 h2 h3
      · obtain ⟨k, g1, g2⟩ := (mem_take_succ ho).1 hp
        refine .requiredLate ho h1 (Nat.lt_of_le_of_ne g1 ?_) g2 h2
        rintro rfl
        rw [ho] at g2; simp only [Option.some.injEq] at g2; subst g2
        exact absurd (h1.2.symm.trans h2.2) (by simp)
    · simp only [Prod.mk.injEq] at he
      obtain ⟨rfl, rfl⟩ := he
      refine .noHelp ?_
      rintro ⟨o, ho, h1, h2⟩
      simp only [Bool.not_eq_true', placedAfter, List.any_eq_false] at h
      exact h o ho (by simp [h1, h2])
  · have build : ∀ {o : Opt}, os[i]? = some o → (i, t) ∈ placementComplaint (placedAfter (os.take i)) i o →
      (∃ j o, os[j]? = some o ∧ (i, t) ∈ placementComplaint (placedAfter (os.take j)) j o) ∨
        (!(placedAfter os).helper) = true ∧ (i, t) = (0, c!"Help option is missing") := fun h1 h2 => .inl ⟨_, _, h1, h2⟩
    intro h
    cases h with
    | manyTwice h1 h2 h3 h4 h5 =>
      exact build h1 (mem_placementComplaint.2 (.inl ⟨h2, ⟨_, mem_take_iff.2 ⟨_, h3, h4⟩, h5⟩, rfl⟩))
    | afterMany h1 h2 h6 h3 h4 h5 =>
      exact build h1 (mem_placementComplaint.2 (.inr (.inl ⟨h2, h6, ⟨_, mem_take_iff.2 ⟨_, h3, h4⟩, h5⟩, rfl⟩)))
    | mixed h1 h2 h3 h4 h5 h6 h7 =>
      have ho := List.getElem?_eq_getElem h1
      exact build ho (mem_placementComplaint.2 (.inr (.inr (.inl ⟨⟨_, (mem_take_succ ho).2 ⟨_, h2, h3⟩, h4⟩,
        ⟨_, (mem_take_succ ho).2 ⟨_, h5, h6⟩, h7⟩, rfl⟩))))
    | optionLate h1 h2 h3 h4 h5 =>
      exact build h1 (mem_placementComplaint.2 (.inr (.inr (.inr (.inl
        ⟨h2, ⟨_, (mem_take_succ h1).2 ⟨_, Nat.le_of_lt h3, h4⟩, h5⟩, rfl⟩)))))
    | beside h1 h2 h3 h4 h5 h6 h7 h8 =>
      have ho := List.getElem?_eq_getElem h1
      exact build ho (mem_placementComplaint.2 (.inr (.inr (.inr (.inr (.inl ⟨⟨_, (mem_take_succ ho).2 ⟨_, h2, h3⟩, h4⟩,
        ⟨_, (mem_take_succ ho).2 ⟨_, h5, h6⟩, h7, h8⟩, rfl⟩))))))
    | requiredLate h1 h2 h3 h4 h5 =>
      exact build h1 (mem_placementComplaint.2 (.inr (.inr (.inr (.inr (.inr
        ⟨h2, ⟨_, (mem_take_succ h1).2 ⟨_, Nat.le_of_lt h3, h4⟩, h5⟩, rfl⟩))))))
    | noHelp h1 =>
      refine .inr ⟨?_, rfl⟩
      simp only [Bool.not_eq_true', placedAfter, List.any_eq_false]
      intro o ho hb
      simp only [Bool.and_eq_true, beq_iff_eq] at hb
      exact h1 ⟨o, ho, hb⟩

/-! ### Naming -/

theorem mem_lnameComplaints {L : Nat → Site} {i : Nat} {l : Str} {x : Complaint} : ∀ (os : List Opt) (b : Nat),
    x ∈ lnameComplaints L i l b os ↔ ∃ j p, os[j]? = some p ∧
      ((p.name = some l ∧ x = (i, c!"Name conflict with option line: " ++ showInt (L (b + j)).line)) ∨
       (p.lname = some l ∧ x = (i, c!"Long name conflict with option line: " ++ showInt (L (b + j)).line)))
  | [], b => by simp [lnameComplaints]
  | o :: os, b => by
    unfold lnameComplaints
    simp only [List.mem_append, mem_complain, mem_lnameComplaints os (b + 1), beq_iff_eq]
    constructor
    · rintro (h | ⟨j, p, h1, h2⟩)
      · exact ⟨0, o, rfl, h⟩
      · exact ⟨j + 1, p, h1, by rw [show b + (j + 1) = b + 1 + j by omega]; exact h2⟩
    · rintro ⟨j, p, h1, h2⟩
      cases j with
      | zero =>
        simp only [List.getElem?_cons_zero, Option.some.injEq] at h1; subst h1
        exact .inl h2
      | succ j => exact .inr ⟨j, p, h1, by rw [show b + (j + 1) = b + 1 + j by omega] at h2; exact h2⟩

/-- The short names marked after the entries `os`. -/
def usedAfter (used : List Byte) (os : List Opt) : List Byte :=
  os.foldl (fun u o => if o.sname != 0 then o.sname :: u else u) used

theorem mem_usedAfter {b : Byte} (hb : b ≠ 0) : ∀ (os : List Opt) (used : List Byte),
    b ∈ usedAfter used os ↔ b ∈ used ∨ ∃ o ∈ os, o.sname = b
  | [], used => by simp [usedAfter]
  | o :: os, used => by
    have := mem_usedAfter hb os (if o.sname != 0 then o.sname :: used else used)
    rw [show usedAfter used (o :: os) = usedAfter (if o.sname != 0 then o.sname :: used else used) os from rfl, this]
    by_cases h : o.sname = 0
    · rw [if_neg (by simp [h])]
      simp only [List.mem_cons, exists_eq_or_imp]
      constructor
      · rintro (h1 | h1)
        · exact .inl h1
        · exact .inr (.inr h1)
      · rintro (h1 | h1 | h1)
        · exact .inl h1
        · exact absurd (h1.symm.trans h) hb
        · exact .inr h1
    · rw [if_pos (by simp [h])]
      simp only [List.mem_cons, exists_eq_or_imp, @eq_comm _ b]
      constructor
      · rintro ((h1 | h1) | h1)
        · exact .inr (.inl h1)
        · exact .inl h1
        · exact .inr (.inr h1)
      · rintro (h1 | h1 | h1)
        · exact .inl (.inr h1)
        · exact .inl (.inl h1)
        · exact .inr h1

theorem mem_namingComplaintLoop {L : Nat → Site} {x : Complaint} : ∀ (os : List Opt) (used : List Byte) (b : Nat),
    x ∈ namingComplaintLoop L used b os ↔ ∃ i o, os[i]? = some o ∧
      x ∈ namingComplaint L (usedAfter used (os.take i)) (b + i) o (os.drop (i + 1))
  | [], used, b => by simp [namingComplaintLoop]
  | o :: os, used, b => by
    unfold namingComplaintLoop
    rw [List.mem_append, mem_namingComplaintLoop os _ (b + 1)]
    constructor
    · rintro (h | ⟨i, p, h1, h2⟩)
      · exact ⟨0, o, rfl, h⟩
      · refine ⟨i + 1, p, h1, ?_⟩
        rw [List.take_succ_cons, show b + (i + 1) = b + 1 + i by omega, List.drop_succ_cons]
        exact h2
    · rintro ⟨i, p, h1, h2⟩
      cases i with
      | zero =>
        simp only [List.getElem?_cons_zero, Option.some.injEq] at h1; subst h1
        exact .inl h2
      | succ i =>
        rw [List.take_succ_cons, show b + (i + 1) = b + 1 + i by omega, List.drop_succ_cons] at h2
        exact .inr ⟨i, p, h1, h2⟩

theorem mem_namingComplaint {L : Nat → Site} {used : List Byte} {i : Nat} {o : Opt} {after : List Opt} {x : Complaint} :
    x ∈ namingComplaint L used i o after ↔
      ((((((((((o.name.getD []).isEmpty && o.type != .group) = true ∧ x = (i, c!"Option name cannot be empty")) ∨
      ((o.sname == 32) = true ∧ x = (i, c!"Short name cannot be a space character"))) ∨
      ((o.sname == 45) = true ∧ x = (i, c!"Short name cannot be a hyphen"))) ∨
      ((o.sname != 0 && used.contains o.sname) = true ∧ x = (i, c!"Short name '" ++ [o.sname] ++ c!"' is already used"))) ∨
      ((o.lname.any fun s => s.head? == some 45) = true ∧ x = (i, c!"Long name cannot start with a hyphen"))) ∨
      ((o.lname.any fun s => s.contains 32) = true ∧ x = (i, c!"Long name cannot contain spaces"))) ∨
      ((o.lname.any fun s => s.contains 46) = true ∧ x = (i, c!"Long name cannot contain dots"))) ∨
      ((o.lname == some []) = true ∧ x = (i, c!"Long name cannot be empty"))) ∨
      ∃ s, o.lname = some s ∧ x ∈ lnameComplaints L i s (i + 1) after := by
  unfold namingComplaint
  simp only [List.mem_append, mem_complain]
  refine or_congr Iff.rfl ?_
  cases o.lname with
  | none => simp
  | some s => simp

theorem mem_namingComplaints {L : Nat → Site} {os : List Opt} {i : Nat} {t : Str} :
    (i, t) ∈ namingComplaintLoop L [] 0 os ↔ Misnamed L os i t := by
  rw [mem_namingComplaintLoop]
  simp only [Nat.zero_add]
  constructor
  · rintro ⟨j, o, ho, h⟩
    rw [mem_namingComplaint] at h
    simp only [Prod.mk.injEq] at h
    rcases h with ((((((((⟨h, rfl, rfl⟩ | ⟨h, rfl, rfl⟩) | ⟨h, rfl, rfl⟩) | ⟨h, rfl, rfl⟩) | ⟨h, rfl, rfl⟩) | ⟨h, rfl, rfl⟩) |
      ⟨h, rfl, rfl⟩) | ⟨h, rfl, rfl⟩) | ⟨s, hl, h⟩)
    · simp only [Bool.and_eq_true, List.isEmpty_iff, bne_iff_ne, ne_eq] at h
      refine .unnamed ho h.2 ?_
      cases hn : o.name with
      | none => exact .inl rfl
      | some n => rw [hn] at h; exact .inr (by rw [show n = [] from h.1])
    · exact .space ho (by simpa using h)
    · exact .hyphen ho (by simpa using h)
    · simp only [Bool.and_eq_true, bne_iff_ne, ne_eq, List.contains_iff_mem] at h
      rw [mem_usedAfter h.1] at h
      rcases h with ⟨h1, h2 | ⟨p, hp, h2⟩⟩
      · simp at h2
      · obtain ⟨k, g1, g2⟩ := mem_take_iff.1 hp
        exact .shortTwice ho h1 g1 g2 h2
    · cases hl : o.lname with
      | none => rw [hl] at h; simp at h
      | some s =>
        rw [hl] at h
        cases s with
        | nil => simp at h
        | cons c s =>
          simp only [Option.any_some, List.head?_cons, beq_iff_eq, Option.some.injEq] at h
          subst h; exact .longHyphen ho hl
    · cases hl : o.lname with
      | none => rw [hl] at h; simp at h
      | some s => rw [hl] at h; exact .longSpace ho hl (by simpa using h)
    · cases hl : o.lname with
      | none => rw [hl] at h; simp at h
      | some s => rw [hl] at h; exact .longDot ho hl (by simpa using h)
    · exact .longEmpty ho (by simpa using h)
    · simp only [mem_lnameComplaints, Prod.mk.injEq, List.getElem?_drop] at h
      obtain ⟨k, p, hp, ⟨h1, rfl, rfl⟩ | ⟨h1, rfl, rfl⟩⟩ := h
      · exact .nameClash ho hl (by omega) hp h1
      · exact .longClash ho hl (by omega) hp h1
  · intro h
    have build : ∀ {o : Opt}, os[i]? = some o → (i, t) ∈ namingComplaint L (usedAfter [] (os.take i)) i o (os.drop (i + 1)) →
      ∃ j o, os[j]? = some o ∧ (i, t) ∈ namingComplaint L (usedAfter [] (os.take j)) j o (os.drop (j + 1)) :=
      fun h1 h2 => ⟨_, _, h1, h2⟩
    cases h with
    | unnamed ho h1 h2 =>
      refine build ho (mem_namingComplaint.2 (.inl (.inl (.inl (.inl (.inl (.inl (.inl (.inl ⟨?_, rfl⟩)))))))))
      rcases h2 with h2 | h2 <;> simp [h2, h1]
    | space ho h1 => exact build ho (mem_namingComplaint.2 (.inl (.inl (.inl (.inl (.inl (.inl (.inl (.inr ⟨by simp [h1], rfl⟩)))))))))
    | hyphen ho h1 => exact build ho (mem_namingComplaint.2 (.inl (.inl (.inl (.inl (.inl (.inl (.inr ⟨by simp [h1], rfl⟩))))))))
    | shortTwice ho h1 h2 h3 h4 =>
      refine build ho (mem_namingComplaint.2 (.inl (.inl (.inl (.inl (.inl (.inr ⟨?_, rfl⟩)))))))
      simp only [Bool.and_eq_true, bne_iff_ne, ne_eq, List.contains_iff_mem]
      exact ⟨h1, (mem_usedAfter h1 _ _).2 (.inr ⟨_, mem_take_iff.2 ⟨_, h2, h3⟩, h4⟩)⟩
    | longHyphen ho h1 => exact build ho (mem_namingComplaint.2 (.inl (.inl (.inl (.inl (.inr ⟨by simp [h1], rfl⟩))))))
    | longSpace ho h1 h2 => exact build ho (mem_namingComplaint.2 (.inl (.inl (.inl (.inr ⟨by simp [h1, h2], rfl⟩)))))
    | longDot ho h1 h2 => exact build ho (mem_namingComplaint.2 (.inl (.inl (.inr ⟨by simp [h1, h2], rfl⟩))))
    | longEmpty ho h1 => exact build ho (mem_namingComplaint.2 (.inl (.inr ⟨by simp [h1], rfl⟩)))
    | nameClash ho hl hj hp h1 =>
      rename_i j o p s
      refine build ho (mem_namingComplaint.2 (.inr ⟨s, hl, ?_⟩))
      refine (mem_lnameComplaints _ _).2 ⟨j - (i + 1), p, ?_, .inl ⟨h1, ?_⟩⟩
      · rw [List.getElem?_drop, show i + 1 + (j - (i + 1)) = j by omega]; exact hp
      · rw [show i + 1 + (j - (i + 1)) = j by omega]
    | longClash ho hl hj hp h1 =>
      rename_i j o p s
      refine build ho (mem_namingComplaint.2 (.inr ⟨s, hl, ?_⟩))
      refine (mem_lnameComplaints _ _).2 ⟨j - (i + 1), p, ?_, .inr ⟨h1, ?_⟩⟩
      · rw [List.getElem?_drop, show i + 1 + (j - (i + 1)) = j by omega]; exact hp
      · rw [show i + 1 + (j - (i + 1)) = j by omega]

end Argus
