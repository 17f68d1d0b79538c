import Verif.Lemmas.ComplaintsEntry
import Verif.Lemmas.HelpMem

/-! The complaints about a table, and about a whole definition. -/

set_option autoImplicit false

namespace Argus

/-! ### One table -/

theorem typeComplaintLoop_mem {W : World} {M : Wording} {prog : Str} {all : List Opt} :
    ∀ (os : List Opt) {b : Nat} {cs : List Complaint}, typeComplaintLoop W M prog all b os = .ok cs →
    (∀ x, x ∈ cs ↔ ∃ i o t, os[i]? = some o ∧ Malformed W M prog all o t ∧ x = (b + i, t)) ∧
    ∀ st, ∃ r, typeFormatLoop W all st os = .ok r ∧ (r = Err.success ↔ st = Err.success ∧ cs = [])
  | [], b, cs, h => by
    simp only [typeComplaintLoop, Out.ok.injEq] at h; subst h
    exact ⟨by simp, fun st => ⟨st, rfl, by simp⟩⟩
  | o :: os, b, cs, h => by
    unfold typeComplaintLoop at h
    obtain ⟨c, h1, h2⟩ := Out.bind_eq_ok h
    obtain ⟨cs1, h3, h4⟩ := Out.bind_eq_ok h2
    simp only [Out.ok.injEq] at h4; subst h4
    obtain ⟨h5, h6⟩ := typeComplaintLoop_mem os h3
    constructor
    · intro x
      rw [List.mem_append, entryComplaints_mem h1, h5]
      constructor
      · rintro (⟨t, h7, rfl⟩ | ⟨i, p, t, h7, h8, rfl⟩)
        · exact ⟨0, o, t, rfl, h7, rfl⟩
        · exact ⟨i + 1, p, t, h7, h8, by rw [show b + (i + 1) = b + 1 + i by omega]⟩
      · rintro ⟨i, p, t, h7, h8, rfl⟩
        cases i with
        | zero =>
          simp only [List.getElem?_cons_zero, Option.some.injEq] at h7; subst h7
          exact .inl ⟨t, h8, rfl⟩
        | succ i => exact .inr ⟨i, p, t, h7, h8, by rw [show b + (i + 1) = b + 1 + i by omega]⟩
    · intro st
      obtain ⟨r, h7, h8⟩ := entryComplaints_status h1
      obtain ⟨r2, h9, h10⟩ := h6 (check (r != Err.success) Err.malformedOption st)
      refine ⟨r2, by unfold typeFormatLoop; rw [h7]; exact h9, ?_⟩
      rw [h10, check_ok (by decide), bne_eq_false_iff_eq, h8, List.append_eq_nil_iff]
      constructor
      · rintro ⟨⟨a, b⟩, c⟩; exact ⟨b, a, c⟩
      · rintro ⟨b, a, c⟩; exact ⟨⟨a, b⟩, c⟩

theorem typeComplaintLoop_ok {W : World} {M : Wording} {prog : Str} {all : List Opt} :
    ∀ (os : List Opt) {b : Nat}, (∃ cs, typeComplaintLoop W M prog all b os = .ok cs) ↔
      ∀ o ∈ os, o.type = .option ∨ o.type = .positional → o.Explained W M
  | [], b => by simp [typeComplaintLoop]
  | o :: os, b => by
    unfold typeComplaintLoop
    rw [List.forall_mem_cons, ← typeComplaintLoop_ok (prog := prog) (all := all) os (b := b + 1),
      ← entryComplaints_ok (prog := prog) (os := all) (i := b)]
    constructor
    · rintro ⟨cs, h⟩
      obtain ⟨c, h1, h2⟩ := Out.bind_eq_ok h
      obtain ⟨cs1, h3, _⟩ := Out.bind_eq_ok h2
      exact ⟨⟨c, h1⟩, cs1, h3⟩
    · rintro ⟨⟨c, h1⟩, cs1, h3⟩
      rw [h1, Out.ok_bind, h3]; exact ⟨_, rfl⟩

theorem placementStep_status {s : Placed} {i : Nat} {o : Opt} {st : Int} :
    (placementStep s st o).2 = Err.success ↔ st = Err.success ∧ placementComplaint s i o = [] := by
  unfold placementStep placementComplaint
  simp only [placementStep, check_ok (show Err.malformedOption ≠ Err.success by decide),
    check_ok (show Err.structError ≠ Err.success by decide), List.append_eq_nil_iff, complain_nil]
  have hm : (o.type == .positional && o.flags.has .required && s.positionalMany) = false ↔
      (o.type == .positional && o.flags.has .required && o.valueType.isVariadic && s.positionalMany) = false ∧
      (o.type == .positional && o.flags.has .required && !o.valueType.isVariadic && s.positionalMany) = false := by
    cases o.type == OptType.positional <;> cases o.flags.has .required <;> cases o.valueType.isVariadic <;>
      cases s.positionalMany <;> decide
  rw [hm]
  constructor
  · rintro ⟨a, b, c, d, ⟨e, f⟩, g⟩; exact ⟨g, ⟨⟨⟨⟨e, f⟩, d⟩, c⟩, b⟩, a⟩
  · rintro ⟨g, ⟨⟨⟨⟨e, f⟩, d⟩, c⟩, b⟩, a⟩; exact ⟨a, b, c, d, ⟨e, f⟩, g⟩

theorem placementLoop_status : ∀ (os : List Opt) {s : Placed} {i : Nat} {st : Int},
    (placementLoop s st os).2 = Err.success ↔ st = Err.success ∧ placementComplaintLoop s i os = []
  | [], s, i, st => by simp [placementLoop, placementComplaintLoop]
  | o :: os, s, i, st => by
    unfold placementLoop placementComplaintLoop
    rw [placementLoop_status os (i := i + 1), placementStep_status (i := i), List.append_eq_nil_iff, and_assoc]
    exact Iff.rfl

theorem placementComplaints_status {os : List Opt} : validatePlacement os = Err.success ↔ placementComplaints os = [] := by
  unfold validatePlacement placementComplaints
  simp only [check_ok (show Err.malformedOption ≠ Err.success by decide), placementLoop_status os (i := 0), true_and,
    List.append_eq_nil_iff, complain_nil]
  exact and_comm

theorem lnameComplaints_nil {L : Nat → Site} {i : Nat} {l : Str} : ∀ (os : List Opt) {j : Nat},
    lnameComplaints L i l j os = [] ↔ (os.any fun p => p.name == some l || p.lname == some l) = false
  | [], j => by simp [lnameComplaints]
  | o :: os, j => by
    unfold lnameComplaints
    rw [List.append_eq_nil_iff, List.append_eq_nil_iff, complain_nil, complain_nil, lnameComplaints_nil os, List.any_cons,
      Bool.or_eq_false_iff, Bool.or_eq_false_iff]

theorem namingLoop_status {L : Nat → Site} : ∀ (os : List Opt) {used : List Byte} {i : Nat} {st : Int},
    namingLoop used st os = Err.success ↔ st = Err.success ∧ namingComplaintLoop L used i os = []
  | [], used, i, st => by simp [namingLoop, namingComplaintLoop]
  | o :: os, used, i, st => by
    unfold namingLoop namingComplaintLoop
    have hu : lnameIsUnique o os = Err.success ↔
        (match o.lname with
          | none => []
          | some s => lnameComplaints L i s (i + 1) os) = [] := by
      unfold lnameIsUnique
      cases o.lname with
      | none => simp
      | some l =>
        simp only [check_ok (show Err.duplicateOption ≠ Err.success by decide), lnameComplaints_nil, and_true]
    simp only [namingLoop_status (L := L) os (i := i + 1), List.append_eq_nil_iff,
      check_ok (show Err.malformedOption ≠ Err.success by decide), bne_eq_false_iff_eq]
    rw [hu]
    unfold namingComplaint
    simp only [List.append_eq_nil_iff, complain_nil]
    constructor
    · rintro ⟨⟨a, b, c, d, e, f, g, h, i, j⟩, k⟩; exact ⟨j, ⟨⟨⟨⟨⟨⟨⟨⟨i, h⟩, g⟩, f⟩, e⟩, d⟩, c⟩, b⟩, a⟩, k⟩
    · rintro ⟨j, ⟨⟨⟨⟨⟨⟨⟨⟨i, h⟩, g⟩, f⟩, e⟩, d⟩, c⟩, b⟩, a⟩, k⟩; exact ⟨⟨a, b, c, d, e, f, g, h, i, j⟩, k⟩

/-- The complaints about a table are those of Spec/Complaints, and there is none iff the table is accepted. -/
theorem tableComplaints_mem {W : World} {M : Wording} {prog : Str} {L : Nat → Site} {os : List Opt} {cs : List Complaint}
    (h : tableComplaints W M prog L os = .ok cs) :
    (∀ i t, (i, t) ∈ cs ↔ Faulty W M prog L os i t) ∧
    ∃ f, validateTypeFormat W os = .ok f ∧
      ((f = Err.success ∧ validateNaming os = Err.success ∧ validatePlacement os = Err.success) ↔ cs = []) := by
  unfold tableComplaints at h
  obtain ⟨c, h1, h2⟩ := Out.bind_eq_ok h
  simp only [Out.ok.injEq] at h2; subst h2
  obtain ⟨h3, h4⟩ := typeComplaintLoop_mem os h1
  constructor
  · intro i t
    unfold Faulty
    rw [List.mem_append, List.mem_append, mem_placementComplaints, mem_namingComplaints, h3, or_assoc]
    refine or_congr Iff.rfl (or_congr Iff.rfl ?_)
    simp only [Nat.zero_add, Prod.mk.injEq]
    constructor
    · rintro ⟨j, o, t', h5, h6, rfl, rfl⟩; exact ⟨o, h5, h6⟩
    · rintro ⟨o, h5, h6⟩; exact ⟨i, o, t, h5, h6, rfl, rfl⟩
  · obtain ⟨r, h5, h6⟩ := h4 Err.success
    refine ⟨r, h5, ?_⟩
    rw [h6, placementComplaints_status, show validateNaming os = namingLoop [] Err.success os from rfl,
      namingLoop_status (L := L) os (i := 0), List.append_eq_nil_iff, List.append_eq_nil_iff]
    constructor
    · rintro ⟨⟨_, a⟩, ⟨_, b⟩, c⟩; exact ⟨⟨c, b⟩, a⟩
    · rintro ⟨⟨c, b⟩, a⟩; exact ⟨⟨rfl, a⟩, ⟨rfl, b⟩, c⟩

theorem tableComplaints_ok {W : World} {M : Wording} {prog : Str} {L : Nat → Site} {os : List Opt} :
    (∃ cs, tableComplaints W M prog L os = .ok cs) ↔ ∀ o ∈ os, o.type = .option ∨ o.type = .positional → o.Explained W M := by
  rw [← typeComplaintLoop_ok (prog := prog) (all := os) os (b := 0)]
  unfold tableComplaints
  constructor
  · rintro ⟨cs, h⟩
    obtain ⟨c, h1, _⟩ := Out.bind_eq_ok h
    exact ⟨c, h1⟩
  · rintro ⟨c, h1⟩
    rw [h1]; exact ⟨_, rfl⟩

/-! ### A definition -/

theorem ReachesAt.step {tables : List (List Opt)} {k k' j d : Nat} {os : List Opt} {o : Opt} (htab : tables[k]? = some os)
    (ho : o ∈ os) (ht : o.type = .subcommand) (hs : o.subOptions = some k') (h : ReachesAt tables k' j d) :
    ReachesAt tables k j (d + 1) := by
  induction h with
  | root => exact .sub .root htab ho ht hs
  | sub _ h1 h2 h3 h4 ih => exact .sub ih h1 h2 h3 h4

theorem ReachesAt.cases {tables : List (List Opt)} {k j d : Nat} (h : ReachesAt tables k j d) :
    (j = k ∧ d = 0) ∨ ∃ (os : List Opt) (o : Opt) (k' d' : Nat), tables[k]? = some os ∧ o ∈ os ∧ o.type = .subcommand ∧
      o.subOptions = some k' ∧ d = d' + 1 ∧ ReachesAt tables k' j d' := by
  induction h with
  | root => exact .inl ⟨rfl, rfl⟩
  | sub _ h1 h2 h3 h4 ih =>
    rcases ih with ⟨rfl, rfl⟩ | ⟨os', o', k2, d', g1, g2, g3, g4, rfl, g5⟩
    · exact .inr ⟨_, _, _, 0, h1, h2, h3, h4, rfl, .root⟩
    · exact .inr ⟨os', o', k2, d' + 1, g1, g2, g3, g4, rfl, .sub g5 h1 h2 h3 h4⟩

theorem ReachesAt.reaches {tables : List (List Opt)} {k j d : Nat} (h : ReachesAt tables k j d) : Reaches tables k j := by
  induction h with
  | root => exact .root
  | sub _ h1 h2 h3 h4 ih => exact .sub ih h1 h2 h3 h4

theorem Reaches.at {tables : List (List Opt)} {k j : Nat} (h : Reaches tables k j) : ∃ d, ReachesAt tables k j d := by
  induction h with
  | root => exact ⟨0, .root⟩
  | sub _ h1 h2 h3 h4 ih => obtain ⟨d, hd⟩ := ih; exact ⟨d + 1, .sub hd h1 h2 h3 h4⟩

theorem Ends.bind_eq_some {α β : Type} {x : Out (Option α)} {f : α → Out (Option β)} {b : β}
    (h : Ends.bind x f = .ok (some b)) : ∃ a, x = .ok (some a) ∧ f a = .ok (some b) := by
  cases x with
  | ub u => exact (nomatch h)
  | ok x =>
    cases x with
    | none => exact (nomatch h)
    | some a => exact ⟨a, rfl, h⟩

/-- The text about nesting. -/
def depthText : Str := c!"Subcommand depth exceeds maximum allowed (8)"

theorem depthText_eq : c!"Subcommand depth exceeds maximum allowed (" ++ showInt maxSubcommandDepth ++ c!")" = depthText := by
  decide +kernel

theorem subComplaints_mem {sub : Option Nat → Out (Option (List (Nat × Complaint)))} {depth k : Nat} :
    ∀ (os : List Opt) {b : Nat} {cs : List (Nat × Complaint)}, subComplaints sub depth k b os = .ok (some cs) →
    ∀ x, x ∈ cs ↔
      (∃ i o, os[i]? = some o ∧ o.type = .subcommand ∧ o.subOptions ≠ none ∧ 8 < depth + 1 ∧ x = (k, b + i, depthText)) ∨
      (∃ o ∈ os, o.type = .subcommand ∧ o.subOptions ≠ none ∧ ∃ c, sub o.subOptions = .ok (some c) ∧ x ∈ c)
  | [], b, cs, h => by
    simp only [subComplaints, Out.ok.injEq, Option.some.injEq] at h; subst h
    simp
  | o :: os, b, cs, h => by
    unfold subComplaints at h
    intro x
    by_cases hc : o.type = .subcommand ∧ o.subOptions ≠ none
    · rw [if_pos hc] at h
      obtain ⟨c, h1, h2⟩ := Ends.bind_eq_some h
      obtain ⟨cs1, h3, h4⟩ := Ends.bind_eq_some h2
      simp only [Out.ok.injEq, Option.some.injEq] at h4; subst h4
      have ih := subComplaints_mem os h3 x
      rw [List.mem_append, List.mem_append, ih, depthText_eq, List.mem_map]
      simp only [mem_complain, decide_eq_true_eq]
      constructor
      · rintro ((⟨y, ⟨h5, rfl⟩, rfl⟩ | h5) | ⟨i, p, h5, h6, h7, h8, rfl⟩ | ⟨p, h5, h6, h7, h8⟩)
        · exact .inl ⟨0, o, rfl, hc.1, hc.2, h5, rfl⟩
        · exact .inr ⟨o, by simp, hc.1, hc.2, c, h1, h5⟩
        · exact .inl ⟨i + 1, p, h5, h6, h7, h8, by rw [show b + (i + 1) = b + 1 + i by omega]⟩
        · exact .inr ⟨p, by simp [h5], h6, h7, h8⟩
      · rintro (⟨i, p, h5, h6, h7, h8, rfl⟩ | ⟨p, h5, h6, h7, c2, h8, h9⟩)
        · cases i with
          | zero => exact .inl (.inl ⟨(b, depthText), ⟨h8, rfl⟩, rfl⟩)
          | succ i => exact .inr (.inl ⟨i, p, h5, h6, h7, h8, by rw [show b + (i + 1) = b + 1 + i by omega]⟩)
        · rcases List.mem_cons.1 h5 with rfl | h5
          · rw [h1] at h8; simp only [Out.ok.injEq, Option.some.injEq] at h8; subst h8
            exact .inl (.inr h9)
          · exact .inr (.inr ⟨p, h5, h6, h7, c2, h8, h9⟩)
    · rw [if_neg hc] at h
      rw [subComplaints_mem os h x]
      constructor
      · rintro (⟨i, p, h5, h6, h7, h8, rfl⟩ | ⟨p, h5, h6⟩)
        · exact .inl ⟨i + 1, p, h5, h6, h7, h8, by rw [show b + (i + 1) = b + 1 + i by omega]⟩
        · exact .inr ⟨p, by simp [h5], h6⟩
      · rintro (⟨i, p, h5, h6, h7, h8, rfl⟩ | ⟨p, h5, h6, h7, h8⟩)
        · cases i with
          | zero =>
            simp only [List.getElem?_cons_zero, Option.some.injEq] at h5; subst h5
            exact absurd ⟨h6, h7⟩ hc
          | succ i => exact .inl ⟨i, p, h5, h6, h7, h8, by rw [show b + (i + 1) = b + 1 + i by omega]⟩
        · rcases List.mem_cons.1 h5 with rfl | h5
          · exact absurd ⟨h6, h7⟩ hc
          · exact .inr ⟨p, h5, h6, h7, h8⟩

/-- Every recursive call of a run that ends has ended. -/
theorem subComplaints_ends {sub : Option Nat → Out (Option (List (Nat × Complaint)))} {depth k : Nat} :
    ∀ (os : List Opt) {b : Nat}, (∃ cs, subComplaints sub depth k b os = .ok (some cs)) ↔
    ∀ o ∈ os, o.type = .subcommand → o.subOptions ≠ none → ∃ c, sub o.subOptions = .ok (some c)
  | [], b => by simp [subComplaints]
  | o :: os, b => by
    unfold subComplaints
    rw [List.forall_mem_cons, ← subComplaints_ends os (depth := depth) (k := k) (b := b + 1)]
    by_cases hc : o.type = .subcommand ∧ o.subOptions ≠ none
    · rw [if_pos hc]
      constructor
      · rintro ⟨cs, h⟩
        obtain ⟨c, h1, h2⟩ := Ends.bind_eq_some h
        obtain ⟨cs1, h3, h4⟩ := Ends.bind_eq_some h2
        exact ⟨fun _ _ => ⟨c, h1⟩, cs1, h3⟩
      · rintro ⟨h1, cs1, h3⟩
        obtain ⟨c, h1⟩ := h1 hc.1 hc.2
        rw [h1, Ends.bind_ok, h3]
        exact ⟨_, rfl⟩
    · rw [if_neg hc]
      constructor
      · rintro ⟨cs, h⟩; exact ⟨fun h1 h2 => absurd ⟨h1, h2⟩ hc, cs, h⟩
      · rintro ⟨_, h⟩; exact h

/-- All complaints about a definition. -/
theorem structureComplaints_mem {W : World} {M : Wording} {prog : Str} {L : Nat → Nat → Site} {tables : List (List Opt)} :
    ∀ {fuel depth k : Nat} {cs : List (Nat × Complaint)},
    structureComplaints W M prog L tables fuel depth (some k) = .ok (some cs) → ∀ j i t, (j, i, t) ∈ cs ↔
      ∃ d os, ReachesAt tables k j d ∧ tables[j]? = some os ∧ (Faulty W M prog (L j) os i t ∨
        ∃ o, os[i]? = some o ∧ o.type = .subcommand ∧ o.subOptions ≠ none ∧ 8 ≤ depth + d ∧ t = depthText)
  | 0, _, _, _, h => by simp [structureComplaints] at h
  | fuel + 1, depth, k, cs, h => by
    unfold structureComplaints at h
    split at h
    · simp at h
    · rename_i os hos
      obtain ⟨c, h1, h2⟩ := Out.bind_eq_ok h
      obtain ⟨cs1, h3, h4⟩ := Ends.bind_eq_some h2
      simp only [Out.ok.injEq, Option.some.injEq] at h4; subst h4
      intro j i t
      rw [List.mem_append, List.mem_map, subComplaints_mem os h3]
      have hm := (tableComplaints_mem h1).1
      constructor
      · rintro (⟨⟨i', t'⟩, h5, h6⟩ | ⟨i', o, h5, h6, h7, h8, h9⟩ | ⟨o, h5, h6, h7, c2, h8, h9⟩)
        · simp only [Prod.mk.injEq] at h6
          obtain ⟨rfl, rfl, rfl⟩ := h6
          exact ⟨0, os, .root, hos, .inl ((hm _ _).1 h5)⟩
        · simp only [Prod.mk.injEq, Nat.zero_add] at h9
          obtain ⟨rfl, rfl, rfl⟩ := h9
          exact ⟨0, os, .root, hos, .inr ⟨o, h5, h6, h7, by omega, rfl⟩⟩
        · obtain ⟨k', hk'⟩ := Option.ne_none_iff_exists'.1 h7
          rw [hk'] at h8
          obtain ⟨d, os', g1, g2, g3⟩ := (structureComplaints_mem h8 j i t).1 h9
          refine ⟨d + 1, os', g1.step hos h5 h6 hk', g2, ?_⟩
          rcases g3 with g3 | ⟨o', g3, g4, g5, g6, g7⟩
          · exact .inl g3
          · exact .inr ⟨o', g3, g4, g5, by omega, g7⟩
      · rintro ⟨d, os', g1, g2, g3⟩
        rcases g1.cases with ⟨rfl, rfl⟩ | ⟨os2, o, k', d', e1, e2, e3, e4, rfl, e5⟩
        · rw [hos] at g2; simp only [Option.some.injEq] at g2; subst g2
          rcases g3 with g3 | ⟨o', g3, g4, g5, g6, rfl⟩
          · exact .inl ⟨(i, t), (hm _ _).2 g3, rfl⟩
          · exact .inr (.inl ⟨i, o', g3, g4, g5, by omega, by simp⟩)
        · rw [hos] at e1; simp only [Option.some.injEq] at e1; subst e1
          have hn : o.subOptions ≠ none := by rw [e4]; simp
          obtain ⟨c2, hc2⟩ := (subComplaints_ends os).1 ⟨_, h3⟩ o e2 e3 hn
          refine .inr (.inr ⟨o, e2, e3, hn, c2, hc2, ?_⟩)
          rw [e4] at hc2
          refine (structureComplaints_mem hc2 j i t).2 ⟨d', os', e5, g2, ?_⟩
          rcases g3 with g3 | ⟨o', g3, g4, g5, g6, g7⟩
          · exact .inl g3
          · exact .inr ⟨o', g3, g4, g5, by omega, g7⟩

/-- The complaints end and are defined, for definitions nested at most `n` deep. -/
theorem structureComplaints_ok {W : World} {M : Wording} {prog : Str} {L : Nat → Nat → Site} {tables : List (List Opt)} :
    ∀ {n fuel depth k : Nat}, n < fuel → DepthAtMost tables (some k) n →
    (∀ j, Reaches tables k j → ∃ os, tables[j]? = some os ∧
      ∀ o ∈ os, o.type = .option ∨ o.type = .positional → o.Explained W M) →
    ∃ cs, structureComplaints W M prog L tables fuel depth (some k) = .ok (some cs)
  | n, 0, _, _, hf, _, _ => by omega
  | n, fuel + 1, depth, k, hf, hn, hr => by
    obtain ⟨os, h1, h2⟩ := hr k .root
    obtain ⟨c, h3⟩ := (tableComplaints_ok (prog := prog) (L := L k)).2 h2
    have hsub : ∃ cs, subComplaints (structureComplaints W M prog L tables fuel (depth + 1)) depth k 0 os = .ok (some cs) := by
      refine (subComplaints_ends os).2 fun o ho ht hs => ?_
      obtain ⟨k', hk'⟩ := Option.ne_none_iff_exists'.1 hs
      obtain ⟨i, hi⟩ := List.getElem?_of_mem ho
      have hlen : ∀ ps, SubChain tables (some k') ps → ps.length + 1 ≤ n := fun ps hps =>
        hn (⟨k, i⟩ :: ps) ⟨rfl, os, o, h1, hi, ht, by rw [hk']; exact hps⟩
      have h0 := hlen [] trivial
      simp only [List.length_nil] at h0
      rw [hk']
      exact structureComplaints_ok (n := n - 1) (by omega) (fun ps hps => by have := hlen ps hps; omega)
        fun j hj => hr j (hj.step h1 ho ht hk')
    obtain ⟨cs, h4⟩ := hsub
    unfold structureComplaints
    simp only [h1]
    rw [h3, Out.ok_bind, h4]
    exact ⟨_, rfl⟩

theorem structureComplaints_explained {W : World} {M : Wording} {prog : Str} {L : Nat → Nat → Site} {tables : List (List Opt)} :
    ∀ {fuel depth k : Nat} {cs : List (Nat × Complaint)},
    structureComplaints W M prog L tables fuel depth (some k) = .ok (some cs) → ∀ j, Reaches tables k j →
      ∃ os, tables[j]? = some os ∧ ∀ o ∈ os, o.type = .option ∨ o.type = .positional → o.Explained W M
  | 0, _, _, _, h => by simp [structureComplaints] at h
  | fuel + 1, depth, k, cs, h => by
    unfold structureComplaints at h
    split at h
    · simp at h
    · rename_i os hos
      obtain ⟨c, h1, h2⟩ := Out.bind_eq_ok h
      obtain ⟨cs1, h3, h4⟩ := Ends.bind_eq_some h2
      intro j hj
      rcases hj.cases with rfl | ⟨os2, o, k', e1, e2, e3, e4, e5⟩
      · exact ⟨os, hos, tableComplaints_ok.1 ⟨c, h1⟩⟩
      · rw [hos] at e1; simp only [Option.some.injEq] at e1; subst e1
        obtain ⟨c2, hc2⟩ := (subComplaints_ends os).1 ⟨_, h3⟩ o e2 e3 (by rw [e4]; simp)
        rw [e4] at hc2
        exact structureComplaints_explained hc2 j e5

theorem subLoop_status {sub : Option Nat → Out (Option (List (Nat × Complaint)))} {val : Option Nat → Out (Option Int)}
    {depth k : Nat} (hsub : ∀ t c, sub t = .ok (some c) → ∃ r, val t = .ok (some r) ∧ (r = Err.success ↔ c = [])) :
    ∀ (os : List Opt) {b : Nat} {st : Int} {cs : List (Nat × Complaint)}, subComplaints sub depth k b os = .ok (some cs) →
    ∃ r, subLoop val depth st os = .ok (some r) ∧ (r = Err.success ↔ st = Err.success ∧ cs = [])
  | [], b, st, cs, h => by
    simp only [subComplaints, Out.ok.injEq, Option.some.injEq] at h; subst h
    exact ⟨st, rfl, by simp⟩
  | o :: os, b, st, cs, h => by
    unfold subComplaints at h
    unfold subLoop
    by_cases hc : o.type = .subcommand ∧ o.subOptions ≠ none
    · rw [if_pos hc] at h ⊢
      obtain ⟨c, h1, h2⟩ := Ends.bind_eq_some h
      obtain ⟨cs1, h3, h4⟩ := Ends.bind_eq_some h2
      simp only [Out.ok.injEq, Option.some.injEq] at h4; subst h4
      obtain ⟨r, h5, h6⟩ := hsub _ _ h1
      rw [h5]
      obtain ⟨r2, h7, h8⟩ := subLoop_status hsub os (st := check (r != Err.success) Err.malformedOption <|
            check (decide (depth + 1 > maxSubcommandDepth)) Err.malformedOption st) h3
      refine ⟨r2, h7, ?_⟩
      rw [h8, check_ok (by decide), check_ok (by decide), bne_eq_false_iff_eq, h6, List.append_eq_nil_iff,
        List.append_eq_nil_iff, List.map_eq_nil_iff, complain_nil]
      constructor
      · rintro ⟨⟨a, b, c⟩, d⟩; exact ⟨c, ⟨b, a⟩, d⟩
      · rintro ⟨c, ⟨b, a⟩, d⟩; exact ⟨⟨a, b, c⟩, d⟩
    · rw [if_neg hc] at h ⊢
      exact subLoop_status hsub os h

/-- A definition is refused iff there is a complaint. -/
theorem structureComplaints_status {W : World} {M : Wording} {prog : Str} {L : Nat → Nat → Site} {tables : List (List Opt)} :
    ∀ {fuel depth : Nat} {t : Option Nat} {cs : List (Nat × Complaint)},
    structureComplaints W M prog L tables fuel depth t = .ok (some cs) →
    ∃ st, validateStructure W tables fuel depth t = .ok (some st) ∧ (st = Err.success ↔ cs = [])
  | 0, _, _, _, h => by simp [structureComplaints] at h
  | fuel + 1, depth, none, cs, h => by simp [structureComplaints] at h
  | fuel + 1, depth, some k, cs, h => by
    unfold structureComplaints at h
    split at h
    · simp at h
    · rename_i os hos
      obtain ⟨c, h1, h2⟩ := Out.bind_eq_ok h
      obtain ⟨cs1, h3, h4⟩ := Ends.bind_eq_some h2
      simp only [Out.ok.injEq, Option.some.injEq] at h4; subst h4
      obtain ⟨f, h5, h6⟩ := (tableComplaints_mem h1).2
      unfold validateStructure
      simp only [hos, Out.ok_bind]
      rw [h5, Out.ok_bind]
      obtain ⟨r, h7, h8⟩ := subLoop_status (fun t c hc => structureComplaints_status hc) os
        (st := check (f != Err.success) Err.malformedOption <|
          check (validateNaming os != Err.success) Err.malformedOption <|
          check (validatePlacement os != Err.success) Err.malformedOption Err.success) h3
      refine ⟨r, h7, ?_⟩
      rw [h8, check_ok (by decide), check_ok (by decide), check_ok (by decide), bne_eq_false_iff_eq, bne_eq_false_iff_eq,
        bne_eq_false_iff_eq, List.append_eq_nil_iff, List.map_eq_nil_iff, ← h6]
      simp

end Argus
