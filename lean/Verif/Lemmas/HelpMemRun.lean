import Verif.Lemmas.HelpMemAdd

/-! # The whole of `organize_options`, and the release of its lists -/

set_option autoImplicit false

namespace Argus

theorem refused_succ (A : Nat → Bool) {c c' : Nat} (h : c ≤ c') :
    refused A c (c' + 1) = refused A c c' + if A c' then 0 else 1 := by
  unfold refused
  have e : c' + 1 - c = (c' - c) + 1 := by omega
  rw [e, List.range'_concat, List.countP_append]
  have e2 : c + 1 * (c' - c) = c' := by omega
  rw [e2]
  cases h : A c' <;> simp [h]

theorem refused_self (A : Nat → Bool) (c : Nat) : refused A c c = 0 := by simp [refused]

theorem refused_zero {A : Nat → Bool} {c c' : Nat} (h : ∀ n, c ≤ n → n < c' → A n = true) : refused A c c' = 0 := by
  unfold refused
  rw [List.countP_eq_zero]
  intro n hn
  rw [List.mem_range'] at hn
  obtain ⟨i, hi, rfl⟩ := hn
  have := h (c + i) (by omega) (by omega)
  simpa using this

/-! ### Lists with entries left out -/

theorem sum_modify : ∀ (gs : List (Str × List Nat)) (k i : Nat), k < gs.length →
    ((gs.modify k fun g => (g.1, g.2 ++ [i])).map fun g => g.2.length).sum = (gs.map fun g => g.2.length).sum + 1
  | [], _, _, h => by simp at h
  | g :: gs, 0, i, _ => by simp; omega
  | g :: gs, k + 1, i, h => by
    have := sum_modify gs k i (by simpa using h)
    simp only [List.modify_succ_cons, List.map_cons, List.sum_cons]
    omega

theorem HelpData.Within.length {d D : HelpData} (w : d.Within D) : d.groups.length = D.groups.length := by
  simpa using congrArg List.length w.titles

theorem findOrCreate_titles {gs gs' : List (Str × List Nat)} (h : gs.map (·.1) = gs'.map (·.1)) (name : Str) :
    (findOrCreateGroup gs name).2 = (findOrCreateGroup gs' name).2 ∧
    ((findOrCreateGroup gs name).1 = gs ∧ (findOrCreateGroup gs' name).1 = gs' ∨
      (findOrCreateGroup gs name).1 = gs ++ [(name, [])] ∧ (findOrCreateGroup gs' name).1 = gs' ++ [(name, [])]) := by
  have hl : gs.length = gs'.length := by simpa using congrArg List.length h
  have key : gs.findIdx? (fun g => strcmp g.1 name = 0) = gs'.findIdx? (fun g => strcmp g.1 name = 0) := by
    have e : ∀ l : List (Str × List Nat), l.findIdx? (fun g => strcmp g.1 name = 0) =
        (l.map (·.1)).findIdx? (fun t => strcmp t name = 0) := by
      intro l; rw [List.findIdx?_map]; rfl
    rw [e, e, h]
  unfold findOrCreateGroup
  rw [key]
  cases gs'.findIdx? (fun g => strcmp g.1 name = 0) with
  | none => exact ⟨hl, .inr ⟨rfl, rfl⟩⟩
  | some k => exact ⟨rfl, .inl ⟨rfl, rfl⟩⟩

theorem findOrCreate_lt (gs : List (Str × List Nat)) (name : Str) :
    (findOrCreateGroup gs name).2 < (findOrCreateGroup gs name).1.length := by
  unfold findOrCreateGroup
  split
  · rename_i k hk
    rw [List.findIdx?_eq_some_iff_getElem] at hk
    exact hk.1
  · simp

theorem HelpData.Within.addGroup {d D : HelpData} (w : d.Within D) (name : Str) :
    HelpData.Within { d with groups := d.groups ++ [(name, [])] } { D with groups := D.groups ++ [(name, [])] } := by
  refine ⟨w.positionals, w.ungrouped, w.subcommands, by simp [w.titles], fun k e E h1 h2 => ?_⟩
  have hl := w.length
  by_cases hk : k < d.groups.length
  · rw [List.getElem?_append_left hk] at h1
    rw [List.getElem?_append_left (by omega)] at h2
    exact w.entries k e E h1 h2
  · rw [List.getElem?_append_right (by omega)] at h1
    rw [List.getElem?_append_right (by omega), ← hl] at h2
    rw [h1] at h2
    cases h2
    exact List.Sublist.refl _

theorem HelpData.Within.addEntry {d D : HelpData} (w : d.Within D) (k i : Nat) (b : Bool) :
    HelpData.Within (if b then { d with groups := d.groups.modify k fun g => (g.1, g.2 ++ [i]) } else d)
      { D with groups := D.groups.modify k fun g => (g.1, g.2 ++ [i]) } := by
  cases b with
  | false =>
    refine ⟨w.positionals, w.ungrouped, w.subcommands, by simp [groups_modify_names, w.titles], fun j e E h1 h2 => ?_⟩
    simp only [List.getElem?_modify] at h2
    cases hE : D.groups[j]? with
    | none => rw [hE] at h2; simp at h2
    | some E0 =>
      rw [hE] at h2
      have hs := w.entries j e E0 h1 hE
      simp only [Option.map_eq_map, Option.map_some, Option.some.injEq] at h2
      subst h2
      split
      · exact hs.trans (List.sublist_append_left _ _)
      · exact hs
  | true =>
    refine ⟨w.positionals, w.ungrouped, w.subcommands, by simp [groups_modify_names, w.titles], fun j e E h1 h2 => ?_⟩
    simp only [if_true, List.getElem?_modify] at h1 h2
    cases hE : D.groups[j]? with
    | none => rw [hE] at h2; simp at h2
    | some E0 =>
      cases he : d.groups[j]? with
      | none => rw [he] at h1; simp at h1
      | some e0 =>
        rw [hE] at h2; rw [he] at h1
        have hs := w.entries j e0 E0 he hE
        simp only [Option.map_eq_map, Option.map_some, Option.some.injEq] at h1 h2
        subst h1; subst h2
        split
        · exact hs.append (List.Sublist.refl _)
        · exact hs

theorem sublist_add {l L : List Nat} (h : l.Sublist L) (i : Nat) (b : Bool) :
    (if b then l ++ [i] else l).Sublist (L ++ [i]) := by
  cases b
  · exact h.trans (List.sublist_append_left _ _)
  · exact h.append (List.Sublist.refl _)

/-- Lists as long as the complete ones are complete. -/
theorem HelpData.Within.eq {d D : HelpData} (w : d.Within D) (h : d.count = D.count) : d = D := by
  have hp := w.positionals.length_le
  have hu := w.ungrouped.length_le
  have hs := w.subcommands.length_le
  have key : ∀ (gs gs' : List (Str × List Nat)), gs.map (·.1) = gs'.map (·.1) →
      (∀ (k : Nat) (e E : Str × List Nat), gs[k]? = some e → gs'[k]? = some E → e.2.Sublist E.2) →
      (gs.map fun g => g.2.length).sum ≤ (gs'.map fun g => g.2.length).sum ∧
      ((gs.map fun g => g.2.length).sum = (gs'.map fun g => g.2.length).sum → gs = gs') := by
    intro gs
    induction gs with
    | nil =>
      intro gs' h1 _
      cases gs' with
      | nil => simp
      | cons a l => simp at h1
    | cons g gs ih =>
      intro gs' h1 h2
      cases gs' with
      | nil => simp at h1
      | cons g' gs' =>
        simp only [List.map_cons, List.cons.injEq] at h1
        obtain ⟨i1, i2⟩ := ih gs' h1.2 (fun k e E a b => h2 (k + 1) e E (by simpa using a) (by simpa using b))
        have h0 := h2 0 g g' (by simp) (by simp)
        have hl := h0.length_le
        simp only [List.map_cons, List.sum_cons]
        refine ⟨by omega, fun he => ?_⟩
        have h3 : g.2.length = g'.2.length := by omega
        rw [i2 (by omega)]
        have h4 := h0.eq_of_length h3
        rw [show g = g' from Prod.ext h1.1 h4]
  obtain ⟨g1, g2⟩ := key d.groups D.groups w.titles w.entries
  unfold HelpData.count at h
  have e1 := w.positionals.eq_of_length (by omega)
  have e2 := w.ungrouped.eq_of_length (by omega)
  have e3 := w.subcommands.eq_of_length (by omega)
  have e4 := g2 (by omega)
  cases d; cases D
  simp only at e1 e2 e3 e4
  subst e1; subst e2; subst e3; subst e4
  rfl

/-! ### The loop -/

/-- The state in memory and the state of Model/Display at the same point of the loop. -/
structure OrgRel (A : Nat → Bool) (m0 : HMem) (s : OrgMem) (S : OrgState) (d : HelpData) (own : Nat → Option Tag)
    (G : List GRec) : Prop where
  current : s.current = S.current
  rep : HRep m0 s.roots s.mem d own G
  within : d.Within S.data
  group : match S.group with
    | none => s.group = none
    | some k => ∃ g, G[k]? = some g ∧ s.group = some g.addr
  calls : m0.calls ≤ s.mem.calls
  count : d.count + refused A m0.calls s.mem.calls = S.data.count

theorem group_same {G G' : List GRec} (h : G'.map (·.addr) = G.map (·.addr)) {k : Nat} {q : Option Nat}
    (hg : ∃ g, G[k]? = some g ∧ q = some g.addr) : ∃ g, G'[k]? = some g ∧ q = some g.addr := by
  obtain ⟨g, h1, h2⟩ := hg
  have := congrArg (·[k]?) h
  simp only [List.getElem?_map, h1, Option.map_some] at this
  cases hk : G'[k]? with
  | none => rw [hk] at this; simp at this
  | some g' =>
    rw [hk] at this
    simp only [Option.map_some, Option.some.injEq] at this
    exact ⟨g', rfl, by rw [h2, this]⟩

variable {A : Nat → Bool} {m0 : HMem} {s : OrgMem} {S : OrgState} {d : HelpData} {own : Nat → Option Tag} {G : List GRec}

theorem step_positional (R : OrgRel A m0 s S d own G) (i : Nat) :
    ∃ s' d' own' G', s.add A .positionals i = .ok (some s') ∧
      OrgRel A m0 s' { S with data := { S.data with positionals := S.data.positionals ++ [i] } } d' own' G' := by
  obtain ⟨r', m', own', h1, h2, h3⟩ := add_positional R.rep A i
  refine ⟨{ s with roots := r', mem := m' }, _, own', G, by rw [OrgMem.add, h1, Ends.bind_ok], R.current, h3, ?_, R.group, ?_, ?_⟩
  · have h := sublist_add R.within.positionals i (A s.mem.calls)
    cases hA : A s.mem.calls <;> rw [hA] at h <;>
      exact ⟨h, R.within.ungrouped, R.within.subcommands, R.within.titles, R.within.entries⟩
  · show _ ≤ m'.calls
    rw [h2]; have := R.calls; omega
  · show _ + refused A m0.calls m'.calls = _
    rw [h2, refused_succ A R.calls]
    have := R.count
    simp only [HelpData.count] at this ⊢
    cases A s.mem.calls <;> simp <;> omega

theorem step_ungrouped (R : OrgRel A m0 s S d own G) (i : Nat) :
    ∃ s' d' own' G', s.add A .ungrouped i = .ok (some s') ∧
      OrgRel A m0 s' { S with data := { S.data with ungrouped := S.data.ungrouped ++ [i] } } d' own' G' := by
  obtain ⟨r', m', own', h1, h2, h3⟩ := add_ungrouped R.rep A i
  refine ⟨{ s with roots := r', mem := m' }, _, own', G, by rw [OrgMem.add, h1, Ends.bind_ok], R.current, h3, ?_, R.group, ?_, ?_⟩
  · have h := sublist_add R.within.ungrouped i (A s.mem.calls)
    cases hA : A s.mem.calls <;> rw [hA] at h <;>
      exact ⟨R.within.positionals, h, R.within.subcommands, R.within.titles, R.within.entries⟩
  · show _ ≤ m'.calls
    rw [h2]; have := R.calls; omega
  · show _ + refused A m0.calls m'.calls = _
    rw [h2, refused_succ A R.calls]
    have := R.count
    simp only [HelpData.count] at this ⊢
    cases A s.mem.calls <;> simp <;> omega

theorem step_subcommand (R : OrgRel A m0 s S d own G) (i : Nat) :
    ∃ s' d' own' G', s.add A .subcommands i = .ok (some s') ∧
      OrgRel A m0 s' { S with data := { S.data with subcommands := S.data.subcommands ++ [i] } } d' own' G' := by
  obtain ⟨r', m', own', h1, h2, h3⟩ := add_subcommand R.rep A i
  refine ⟨{ s with roots := r', mem := m' }, _, own', G, by rw [OrgMem.add, h1, Ends.bind_ok], R.current, h3, ?_, R.group, ?_, ?_⟩
  · have h := sublist_add R.within.subcommands i (A s.mem.calls)
    cases hA : A s.mem.calls <;> rw [hA] at h <;>
      exact ⟨R.within.positionals, R.within.ungrouped, h, R.within.titles, R.within.entries⟩
  · show _ ≤ m'.calls
    rw [h2]; have := R.calls; omega
  · show _ + refused A m0.calls m'.calls = _
    rw [h2, refused_succ A R.calls]
    have := R.count
    simp only [HelpData.count] at this ⊢
    cases A s.mem.calls <;> simp <;> omega

theorem step_entry (R : OrgRel A m0 s S d own G) (i : Nat) {k : Nat} {g : GRec} (hk : G[k]? = some g)
    (hS : S.group = some k) :
    ∃ s' d' own' G', s.add A (.options g.addr) i = .ok (some s') ∧
      OrgRel A m0 s' { S with data := { S.data with groups := S.data.groups.modify k fun g => (g.1, g.2 ++ [i]) } }
        d' own' G' := by
  obtain ⟨r', m', own', G', h1, h2, h4, h3⟩ := add_grouped R.rep A i hk
  have hkd : k < d.groups.length := by
    have hl := congrArg List.length R.rep.names
    simp only [List.length_map] at hl
    have := (List.getElem?_eq_some_iff.1 hk).1
    omega
  refine ⟨{ s with roots := r', mem := m' }, _, own', G', by rw [OrgMem.add, h1, Ends.bind_ok], R.current, h3, R.within.addEntry k i _, ?_, ?_, ?_⟩
  · have hg := R.group
    rw [hS] at hg
    show match S.group with
      | none => _
      | some k => _
    rw [hS]
    exact group_same h4 hg
  · show _ ≤ m'.calls
    rw [h2]; have := R.calls; omega
  · show _ + refused A m0.calls m'.calls = _
    rw [h2, refused_succ A R.calls]
    have h5 := R.count
    have h6 := sum_modify d.groups k i hkd
    have h7 := sum_modify S.data.groups k i (by rw [← R.within.length]; exact hkd)
    simp only [HelpData.count] at h5 ⊢
    rw [h7]
    cases A s.mem.calls
    · simp; omega
    · simp [h6]; omega

/-- One visible option. -/
theorem step_option (R : OrgRel A m0 s S d own G) (i : Nat) :
    (∃ s' d' own' G', organizeOptionM A s i = .ok (some s') ∧ OrgRel A m0 s' (organizeOption S i) d' own' G') ∨
    (organizeOptionM A s i = .ub .nullDeref ∧ (∃ n, m0.calls ≤ n ∧ A n = false) ∧ (organizeOption S i).data.groups ≠ []) := by
  obtain ⟨D, cur, kk⟩ := S
  have hcur := R.current
  have hg := R.group
  dsimp only at hcur hg
  unfold organizeOptionM organizeOption
  rw [hcur]
  cases cur with
  | none => exact .inl (step_ungrouped R i)
  | some name =>
    cases kk with
    | some k =>
      obtain ⟨g, hk, hsg⟩ := hg
      rw [hsg]
      exact .inl (step_entry R i hk rfl)
    | none =>
      dsimp only at hg
      rw [hg]
      obtain ⟨t1, t2⟩ := findOrCreate_titles R.within.titles name
      have hlt := findOrCreate_lt D.groups name
      rcases findOrCreate_rep R.rep A name with ⟨r', m', own', G', g, e1, e2, e3, e4⟩ | ⟨r', m', e1, e2⟩
      · left
        simp only [e1, Ends.bind_ok]
        have R' : OrgRel A m0 ⟨r', m', some name, some g.addr⟩
            ⟨{ D with groups := (findOrCreateGroup D.groups name).1 }, some name, some (findOrCreateGroup D.groups name).2⟩
            { d with groups := (findOrCreateGroup d.groups name).1 } own' G' := by
          refine ⟨rfl, e3, ?_, ⟨g, by rw [← t1]; exact e2, rfl⟩, ?_, ?_⟩
          · rcases t2 with ⟨a, b⟩ | ⟨a, b⟩
            · rw [a, b]; exact R.within
            · rw [a, b]; exact R.within.addGroup name
          · show _ ≤ m'.calls
            have := R.calls
            rcases e4 with ⟨_, h⟩ | ⟨_, h, _⟩ <;> rw [h] <;> omega
          · show _ + refused A m0.calls m'.calls = _
            have hcnt := R.count
            rcases e4 with ⟨h1, h⟩ | ⟨h1, h, hA⟩
            · rw [h]
              rcases t2 with ⟨a, b⟩ | ⟨a, b⟩
              · rw [a, b]; exact hcnt
              · rw [a] at h1
                have := congrArg List.length h1
                simp at this
            · rw [h, refused_succ A R.calls, hA]
              rcases t2 with ⟨a, b⟩ | ⟨a, b⟩
              · rw [a] at h1
                have := congrArg List.length h1
                simp at this
              · rw [a, b]
                simp only [HelpData.count, List.map_append, List.sum_append, List.map_cons, List.map_nil, List.sum_cons,
                  List.sum_nil, List.length_nil] at hcnt ⊢
                simpa using hcnt
        exact step_entry R' i (k := (findOrCreateGroup D.groups name).2) (by rw [← t1]; exact e2) rfl
      · right
        simp only [e1, Ends.bind_ok]
        refine ⟨trivial, ⟨s.mem.calls, R.calls, e2⟩, ?_⟩
        intro h
        have := congrArg List.length h
        simp only [List.length_modify, List.length_nil] at this
        omega

/-- One round. -/
theorem step_rel (R : OrgRel A m0 s S d own G) (i : Nat) (o : Opt) :
    (∃ s' d' own' G', organizeStepM A s i o = .ok (some s') ∧ OrgRel A m0 s' (organizeStep S i o) d' own' G') ∨
    (organizeStepM A s i o = .ub .nullDeref ∧ (∃ n, m0.calls ≤ n ∧ A n = false) ∧ (organizeStep S i o).data.groups ≠ []) := by
  unfold organizeStepM organizeStep
  cases o.type with
  | group => exact .inl ⟨_, d, own, G, rfl, rfl, R.rep, R.within, rfl, R.calls, R.count⟩
  | positional => exact .inl (step_positional R i)
  | subcommand => exact .inl (step_subcommand R i)
  | option =>
    simp only
    split
    · exact .inl ⟨s, d, own, G, rfl, R⟩
    · exact step_option R i

theorem organizeStep_groups (S : OrgState) (i : Nat) (o : Opt) (h : S.data.groups ≠ []) :
    (organizeStep S i o).data.groups ≠ [] := by
  unfold organizeStep
  cases o.type with
  | group => exact h
  | positional => exact h
  | subcommand => exact h
  | option =>
    simp only
    split
    · exact h
    · unfold organizeOption
      cases S.current with
      | none => exact h
      | some name =>
        simp only
        intro he
        have hl := congrArg List.length he
        simp only [List.length_modify, List.length_nil] at hl
        cases hS : S.group with
        | some k =>
          rw [hS] at hl
          exact h (List.length_eq_zero_iff.1 hl)
        | none =>
          rw [hS] at hl
          have := findOrCreate_lt S.data.groups name
          simp only at hl
          omega

theorem organizeLoop_groups : ∀ (os : List Opt) (i : Nat) (S : OrgState), S.data.groups ≠ [] →
    (organizeLoop i os S).data.groups ≠ []
  | [], _, _, h => h
  | o :: os, i, S, h => organizeLoop_groups os (i + 1) _ (organizeStep_groups S i o h)

theorem loop_rel : ∀ (os : List Opt) (i : Nat) {s : OrgMem} {S : OrgState} {d : HelpData} {own : Nat → Option Tag}
    {G : List GRec}, OrgRel A m0 s S d own G →
    (∃ s' d' own' G', organizeLoopM A i os s = .ok (some s') ∧ OrgRel A m0 s' (organizeLoop i os S) d' own' G') ∨
    (organizeLoopM A i os s = .ub .nullDeref ∧ (∃ n, m0.calls ≤ n ∧ A n = false) ∧ (organizeLoop i os S).data.groups ≠ [])
  | [], _, s, _, d, own, G, R => .inl ⟨s, d, own, G, rfl, R⟩
  | o :: os, i, s, S, d, own, G, R => by
    rcases step_rel R i o with ⟨s', d', own', G', e, R'⟩ | ⟨e, h1, h2⟩
    · rw [organizeLoopM, e, Ends.bind_ok]
      exact loop_rel os (i + 1) R'
    · right
      rw [organizeLoopM, e]
      exact ⟨rfl, h1, organizeLoop_groups os (i + 1) _ h2⟩

theorem start_rel (A : Nat → Bool) {m : HMem} (h : m.Sound) : OrgRel A m { mem := m } {} {} (fun _ => none) [] := by
  have hnil : ∀ t, ListOf (fun _ => none) m t none [] := fun t => ⟨[], .nil, by simp, by simp⟩
  exact ⟨rfl, ⟨hnil _, hnil _, hnil _, .nil, by simp, by simp, rfl, by simp, by simp, by simp, by simp, h, Nat.le_refl _⟩,
    ⟨.refl _, .refl _, .refl _, rfl, by simp⟩, rfl, Nat.le_refl _, by simp [refused_self]⟩

/-! ### Reading and releasing -/

theorem GChain.read {m : HMem} {p : Option Nat} {G : List GRec} (c : GChain m.live p G) :
    ∀ {gs : List (Str × List Nat)} {f : Nat}, G.length ≤ f → G.map (·.name) = gs.map (·.1) →
      (∀ (k : Nat) (g : GRec) (e : Str × List Nat), G[k]? = some g → gs[k]? = some e →
        readEntries m m.next g.root = .ok (some e.2)) → readGroups m f p = .ok (some gs) := by
  induction c with
  | nil =>
    intro gs f _ hn _
    cases gs with
    | nil => cases f <;> rfl
    | cons => simp at hn
  | @cons g nx G e _ ih =>
    intro gs f hf hn he
    obtain ⟨f, rfl⟩ : ∃ g, f = g + 1 := ⟨f - 1, by simp at hf; omega⟩
    cases gs with
    | nil => simp at hn
    | cons e0 gs =>
      simp only [List.map_cons, List.cons.injEq] at hn
      simp only [readGroups, e]
      rw [he 0 g e0 (by simp) (by simp), Ends.bind_ok,
        ih (f := f) (by simp at hf; omega) hn.2 (fun k g' e' a b => he (k + 1) g' e' (by simpa using a) (by simpa using b)),
        Ends.bind_ok, hn.1]

theorem ListOf.readAll {r : HelpRoots} {m : HMem} (R : HRep m0 r m d own G) {t : Tag} {p : Option Nat} {xs : List Nat}
    (h : ListOf own m t p xs) : readEntries m m.next p = .ok (some xs) := by
  obtain ⟨L, c, hn, hL⟩ := h
  exact c.read (ListOf.length_le R hn hL)

theorem HRep.read {r : HelpRoots} {m : HMem} (R : HRep m0 r m d own G) : readHelp r m = .ok (some d) := by
  unfold readHelp
  rw [R.pos.readAll R, Ends.bind_ok, R.spine.read R.length_le R.names fun k g e a b => (R.grp k g e a b).readAll R,
    Ends.bind_ok, R.ung.readAll R, Ends.bind_ok, R.sub.readAll R, Ends.bind_ok]

/-- Releasing one list. -/
theorem ListOf.release {m m1 : HMem} {t : Tag} {p : Option Nat} {xs : List Nat} (h : ListOf own m t p xs)
    (hb : ∀ a, own a = some t → a < m1.next) (hl : ∀ a, own a = some t → m1.live a = m.live a) :
    ∃ m2, freeEntries m1.next p m1 = .ok (some m2) ∧ m2.next = m1.next ∧
      ∀ a, m2.live a = if own a = some t then none else m1.live a := by
  obtain ⟨L, c, hn, hL⟩ := h
  obtain ⟨m2, h1, h2, _, h4⟩ := c.free (f := m1.next) (m := m1)
    (length_le_of_lt _ _ hn fun a ha => hb a ((hL a).2 ha)) hn (fun a ha => hl a ((hL a).2 ha))
  refine ⟨m2, h1, h2, fun a => ?_⟩
  rw [h4]
  by_cases ha : a ∈ L
  · rw [if_pos ha, if_pos ((hL a).2 ha)]
  · rw [if_neg ha, if_neg (fun e => ha ((hL a).1 e))]

/-- Releasing the groups. -/
theorem GChain.release {m : HMem} {p : Option Nat} {G : List GRec} (c : GChain m.live p G) :
    ∀ {f : Nat} {m1 : HMem}, G.length ≤ f → (G.map (·.addr)).Nodup →
      (∀ g ∈ G, own g.addr = some .spine) → (∀ g ∈ G, ∃ xs, ListOf own m (.grp g.addr) g.root xs) →
      (∀ a, own a ≠ none → a < m1.next) →
      (∀ g ∈ G, ∀ a, a = g.addr ∨ own a = some (.grp g.addr) → m1.live a = m.live a) →
      ∃ m2, freeGroups f p m1 = .ok (some m2) ∧ m2.next = m1.next ∧
        ∀ a, m2.live a = if ∃ g ∈ G, a = g.addr ∨ own a = some (.grp g.addr) then none else m1.live a := by
  induction c with
  | nil => intro f m1 _ _ _ _ _ _; exact ⟨m1, by cases f <;> rfl, rfl, by simp⟩
  | @cons g nx G e c ih =>
    intro f m1 hf hn hsp hx hb hl
    obtain ⟨f, rfl⟩ : ∃ g, f = g + 1 := ⟨f - 1, by simp at hf; omega⟩
    rw [List.map_cons] at hn
    have hn' := List.nodup_cons.1 hn
    have hgl : m1.live g.addr = some (.group g.name g.root nx) := by
      rw [hl g (by simp) g.addr (.inl rfl), e]
    obtain ⟨xs, hxs⟩ := hx g (by simp)
    obtain ⟨m2, f1, f2, f3⟩ := hxs.release (m1 := m1) (fun a ha => hb a (by simp [ha]))
      (fun a ha => hl g (by simp) a (.inr ha))
    have hgs : own g.addr ≠ some (.grp g.addr) := by rw [hsp g (by simp)]; simp
    have hg2 : m2.live g.addr = some (.group g.name g.root nx) := by rw [f3, if_neg hgs, hgl]
    have hne : ∀ g' ∈ G, g'.addr ≠ g.addr := fun g' hg' e => hn'.1 (by rw [← e]; exact List.mem_map_of_mem hg')
    obtain ⟨m3, k1, k2, k3⟩ := ih (f := f) (m1 := { m2 with live := upd m2.live g.addr none }) (by simp at hf; omega) hn'.2
      (fun g' hg' => hsp g' (by simp [hg'])) (fun g' hg' => hx g' (by simp [hg']))
      (fun a ha => by show a < m2.next; rw [f2]; exact hb a ha)
      (fun g' hg' a ha => by
        have hag : a ≠ g.addr := by
          rcases ha with rfl | ha
          · exact hne g' hg'
          · intro e; rw [e, hsp g (by simp)] at ha; simp at ha
        have hao : own a ≠ some (.grp g.addr) := by
          rcases ha with rfl | ha
          · rw [hsp g' (by simp [hg'])]; simp
          · rw [ha]; simpa using hne g' hg'
        show upd _ _ _ _ = _
        rw [upd_ne _ _ hag, f3, if_neg hao]
        exact hl g' (by simp [hg']) a ha)
    refine ⟨m3, ?_, by rw [k2]; exact f2, fun a => ?_⟩
    · simp only [freeGroups, hgl, f1, Ends.bind_ok, hg2, HMem.free, Out.bind]
      exact k1
    · rw [k3]
      simp only [List.mem_cons, exists_eq_or_imp]
      by_cases hG : ∃ g' ∈ G, a = g'.addr ∨ own a = some (.grp g'.addr)
      · rw [if_pos hG, if_pos (.inr hG)]
      · rw [if_neg hG]
        by_cases hag : a = g.addr
        · rw [if_pos (.inl (.inl hag)), hag]; simp [upd]
        · show upd _ _ _ _ = _
          rw [upd_ne _ _ hag, f3]
          by_cases hao : own a = some (.grp g.addr)
          · rw [if_pos hao, if_pos (.inl (.inr hao))]
          · rw [if_neg hao, if_neg (fun h => h.elim (fun h => h.elim hag hao) hG)]

/-- Everything is released. -/
theorem HRep.release {r : HelpRoots} {m : HMem} (R : HRep m0 r m d own G) :
    ∃ m1, freeHelp r m = .ok (some m1) ∧ m1.live = m0.live := by
  classical
  have hrange : ∀ a, own a ≠ none → a < m.next := fun a h => (R.range a h).2
  obtain ⟨m1, a1, a2, a3⟩ := R.spine.release (own := own) (m1 := m) R.length_le R.nodup
    (fun g hg => (R.spineOwn _).2 (List.mem_map_of_mem hg))
    (fun g hg => by
      obtain ⟨k, hk1, hk2⟩ := List.getElem_of_mem hg
      have hl : G.length = d.groups.length := by simpa using congrArg List.length R.names
      exact ⟨_, R.grp k g d.groups[k] (by rw [← hk2]; exact List.getElem?_eq_getElem hk1) (List.getElem?_eq_getElem (by omega))⟩)
    hrange (fun _ _ _ _ => rfl)
  have a4 : ∀ a, m1.live a = if own a = some .spine ∨ ∃ x, own a = some (.grp x) then none else m.live a := by
    intro a
    rw [a3]
    have hiff : (∃ g ∈ G, a = g.addr ∨ own a = some (.grp g.addr)) ↔ (own a = some .spine ∨ ∃ x, own a = some (.grp x)) := by
      constructor
      · rintro ⟨g, hg, rfl | h⟩
        · exact .inl ((R.spineOwn _).2 (List.mem_map_of_mem hg))
        · exact .inr ⟨_, h⟩
      · rintro (h | ⟨x, h⟩)
        · obtain ⟨g, hg, e⟩ := List.mem_map.1 ((R.spineOwn a).1 h)
          exact ⟨g, hg, .inl e.symm⟩
        · obtain ⟨g, hg, e⟩ := List.mem_map.1 (R.grpOwn a x h)
          exact ⟨g, hg, .inr (by rw [h, ← e])⟩
    by_cases hc : own a = some .spine ∨ ∃ x, own a = some (.grp x)
    · rw [if_pos hc, if_pos (hiff.2 hc)]
    · rw [if_neg hc, if_neg (fun h => hc (hiff.1 h))]
  have keep1 : ∀ {t : Tag}, t ≠ .spine → (∀ x, t ≠ .grp x) → ∀ a, own a = some t → m1.live a = m.live a := by
    intro t h1 h2 a ha
    rw [a4, if_neg]
    rw [ha]
    rintro (h | ⟨x, h⟩)
    · exact h1 (Option.some.inj h)
    · exact h2 x (Option.some.inj h)
  obtain ⟨m2, b1, b2, b3⟩ := R.ung.release (m1 := m1) (fun a ha => by rw [a2]; exact hrange a (by simp [ha]))
    (keep1 (by simp) (by simp))
  obtain ⟨m3, c1, c2, c3⟩ := R.pos.release (m1 := m2) (fun a ha => by rw [b2, a2]; exact hrange a (by simp [ha]))
    (fun a ha => by rw [b3, if_neg (by rw [ha]; simp)]; exact keep1 (by simp) (by simp) a ha)
  obtain ⟨m4, d1, d2, d3⟩ := R.sub.release (m1 := m3) (fun a ha => by rw [c2, b2, a2]; exact hrange a (by simp [ha]))
    (fun a ha => by
      rw [c3, if_neg (by rw [ha]; simp), b3, if_neg (by rw [ha]; simp)]; exact keep1 (by simp) (by simp) a ha)
  refine ⟨m4, by unfold freeHelp; rw [a1, Ends.bind_ok, b1, Ends.bind_ok, c1, Ends.bind_ok, d1], ?_⟩
  funext a
  rw [d3, c3, b3, a4]
  cases ho : own a with
  | none => simp [R.rest a ho]
  | some t =>
    have hm0 : m0.live a = none := R.sound a (R.range a (by simp [ho])).1
    rw [hm0]
    cases t <;> simp

end Argus
