import Verif.Lemmas.HelpMemRep
import Verif.Spec.HelpMem

/-! # Adding an entry or a group -/

set_option autoImplicit false

namespace Argus

variable {m0 : HMem} {r : HelpRoots} {m : HMem} {d : HelpData} {own : Nat → Option Tag} {G : List GRec}

theorem malloc_yes {A : Nat → Bool} (n : HNode) (h : A m.calls = true) : m.malloc A n = (some m.next, m.grown n) := by
  simp [HMem.malloc, h, HMem.grown]

theorem malloc_no {A : Nat → Bool} (n : HNode) (h : A m.calls = false) :
    m.malloc A n = (none, { m with calls := m.calls + 1 }) := by
  simp [HMem.malloc, h]

theorem grown_live (n : HNode) (x : Nat) (h : x ≠ m.next) : (m.grown n).live x = m.live x := upd_ne _ _ h

theorem grown_new (n : HNode) : (m.grown n).live m.next = some n := by simp [HMem.grown, upd]

/-- The head of a list of `data`, or its extension. -/
theorem addOption_root (R : HRep m0 r m d own G) {A : Nat → Bool} (i : Nat) (hA : A m.calls = true) {s : Slot} {t : Tag}
    {p : Option Nat} {xs : List Nat} (hr : ∀ m1, s.read r m1 = .ok p) {w : Option Nat → HelpRoots}
    (hw : ∀ q m1, s.write r m1 q = .ok (w q, m1)) (hw' : w p = r) (h : ListOf own m t p xs) :
    ∃ q m2, addOption A r m s i = .ok (some (w q, m2)) ∧ m2.next = m.next + 1 ∧ m2.calls = m.calls + 1 ∧
      (∀ x, x ≠ m.next → own x ≠ some t → m2.live x = m.live x) ∧ ListOf (upd own m.next (some t)) m2 t q (xs ++ [i]) := by
  unfold addOption
  rw [malloc_yes _ hA]
  simp only [hr]
  cases p with
  | none =>
    simp only [hw, Out.bind]
    exact ⟨some m.next, _, rfl, rfl, rfl, fun x hx _ => grown_live _ x hx, h.start (grown_new _)⟩
  | some p =>
    obtain ⟨l, m2, h1, h2, h3, h4, h5, h6⟩ := ListOf.extend R i h
    refine ⟨some p, m2, ?_, h3, h4, h5, h6⟩
    simp only
    rw [h1, Ends.bind_ok, h2, hw']
    rfl

theorem add_positional (R : HRep m0 r m d own G) (A : Nat → Bool) (i : Nat) :
    ∃ r' m' own', addOption A r m .positionals i = .ok (some (r', m')) ∧ m'.calls = m.calls + 1 ∧
      HRep m0 r' m' (if A m.calls then { d with positionals := d.positionals ++ [i] } else d) own' G := by
  cases hA : A m.calls with
  | false => exact ⟨r, _, own, by simp only [addOption, malloc_no _ hA], rfl, R.calls _⟩
  | true =>
    obtain ⟨q, m2, e, h1, h2, h3, h4⟩ := addOption_root (s := .positionals) (w := fun q => { r with positionals := q })
      R i hA (fun _ => rfl) (fun _ _ => rfl) rfl R.pos
    have h3' : ∀ x, x ≠ m.next → own x ≠ some .pos → own x ≠ some .spine → m2.live x = m.live x := fun x a b _ => h3 x a b
    refine ⟨_, m2, upd own m.next (some .pos), e, h2, ?_⟩
    rw [if_pos rfl]
    exact ⟨h4, R.others h3' (by simp) (by simp) R.ung, R.others h3' (by simp) (by simp) R.sub, R.spine' (by simp) h3, R.nodup,
      fun a => (upd_tag R.fresh (by simp) a).trans (R.spineOwn a), R.names,
      fun k g e hk he => R.others h3' (by simp) (by simp) (R.grp k g e hk he), R.grpOwn' (by simp), R.range' h1,
      R.rest' h3', R.sound, by rw [h1]; have := R.le; omega⟩

theorem add_ungrouped (R : HRep m0 r m d own G) (A : Nat → Bool) (i : Nat) :
    ∃ r' m' own', addOption A r m .ungrouped i = .ok (some (r', m')) ∧ m'.calls = m.calls + 1 ∧
      HRep m0 r' m' (if A m.calls then { d with ungrouped := d.ungrouped ++ [i] } else d) own' G := by
  cases hA : A m.calls with
  | false => exact ⟨r, _, own, by simp only [addOption, malloc_no _ hA], rfl, R.calls _⟩
  | true =>
    obtain ⟨q, m2, e, h1, h2, h3, h4⟩ := addOption_root (s := .ungrouped) (w := fun q => { r with ungrouped := q })
      R i hA (fun _ => rfl) (fun _ _ => rfl) rfl R.ung
    have h3' : ∀ x, x ≠ m.next → own x ≠ some .ung → own x ≠ some .spine → m2.live x = m.live x := fun x a b _ => h3 x a b
    refine ⟨_, m2, upd own m.next (some .ung), e, h2, ?_⟩
    rw [if_pos rfl]
    exact ⟨R.others h3' (by simp) (by simp) R.pos, h4, R.others h3' (by simp) (by simp) R.sub, R.spine' (by simp) h3, R.nodup,
      fun a => (upd_tag R.fresh (by simp) a).trans (R.spineOwn a), R.names,
      fun k g e hk he => R.others h3' (by simp) (by simp) (R.grp k g e hk he), R.grpOwn' (by simp), R.range' h1,
      R.rest' h3', R.sound, by rw [h1]; have := R.le; omega⟩

theorem add_subcommand (R : HRep m0 r m d own G) (A : Nat → Bool) (i : Nat) :
    ∃ r' m' own', addOption A r m .subcommands i = .ok (some (r', m')) ∧ m'.calls = m.calls + 1 ∧
      HRep m0 r' m' (if A m.calls then { d with subcommands := d.subcommands ++ [i] } else d) own' G := by
  cases hA : A m.calls with
  | false => exact ⟨r, _, own, by simp only [addOption, malloc_no _ hA], rfl, R.calls _⟩
  | true =>
    obtain ⟨q, m2, e, h1, h2, h3, h4⟩ := addOption_root (s := .subcommands) (w := fun q => { r with subcommands := q })
      R i hA (fun _ => rfl) (fun _ _ => rfl) rfl R.sub
    have h3' : ∀ x, x ≠ m.next → own x ≠ some .sub → own x ≠ some .spine → m2.live x = m.live x := fun x a b _ => h3 x a b
    refine ⟨_, m2, upd own m.next (some .sub), e, h2, ?_⟩
    rw [if_pos rfl]
    exact ⟨R.others h3' (by simp) (by simp) R.pos, R.others h3' (by simp) (by simp) R.ung, h4, R.spine' (by simp) h3, R.nodup,
      fun a => (upd_tag R.fresh (by simp) a).trans (R.spineOwn a), R.names,
      fun k g e hk he => R.others h3' (by simp) (by simp) (R.grp k g e hk he), R.grpOwn' (by simp), R.range' h1,
      R.rest' h3', R.sound, by rw [h1]; have := R.le; omega⟩

theorem map_addr_set {k : Nat} {g : GRec} (p : Option Nat) (h : G[k]? = some g) :
    (G.set k { g with root := p }).map (·.addr) = G.map (·.addr) ∧
    (G.set k { g with root := p }).map (·.name) = G.map (·.name) := by
  have hk := (List.getElem?_eq_some_iff.1 h)
  obtain ⟨hk1, hk2⟩ := hk
  constructor <;>
  · apply List.ext_getElem?
    intro j
    simp only [List.getElem?_map, List.getElem?_set]
    split
    · rename_i e; subst e; simp [hk1, hk2]
    · rfl

theorem groups_modify_names (gs : List (Str × List Nat)) (k i : Nat) :
    (gs.modify k fun g => (g.1, g.2 ++ [i])).map (·.1) = gs.map (·.1) := by
  apply List.ext_getElem?
  intro j
  simp only [List.getElem?_map, List.getElem?_modify]
  split <;> cases gs[j]? <;> rfl

theorem addr_inj (hn : (G.map (·.addr)).Nodup) {k j : Nat} {g e : GRec} (hk : G[k]? = some g) (hj : G[j]? = some e)
    (h : g.addr = e.addr) : k = j := by
  have hk' := List.getElem?_eq_some_iff.1 hk
  have hj' := List.getElem?_eq_some_iff.1 hj
  obtain ⟨a1, a2⟩ := hk'
  obtain ⟨b1, b2⟩ := hj'
  refine (List.getElem_inj (xs := G.map (·.addr)) (h₀ := by simpa using a1) (h₁ := by simpa using b1) hn).1 ?_
  simp [a2, b2, h]

theorem add_grouped (R : HRep m0 r m d own G) (A : Nat → Bool) (i : Nat) {k : Nat} {g : GRec} (hk : G[k]? = some g) :
    ∃ r' m' own' G', addOption A r m (.options g.addr) i = .ok (some (r', m')) ∧ m'.calls = m.calls + 1 ∧
      G'.map (·.addr) = G.map (·.addr) ∧
      HRep m0 r' m' (if A m.calls then { d with groups := d.groups.modify k fun g => (g.1, g.2 ++ [i]) } else d) own' G' := by
  cases hA : A m.calls with
  | false => exact ⟨r, _, own, G, by simp only [addOption, malloc_no _ hA], rfl, rfl, R.calls _⟩
  | true =>
    have hgm : g ∈ G := List.mem_of_getElem? hk
    have hga : g.addr ∈ G.map (·.addr) := List.mem_map_of_mem hgm
    have hgo := (R.spineOwn g.addr).2 hga
    have hgne : g.addr ≠ m.next := fun e => by rw [e, R.fresh] at hgo; simp at hgo
    obtain ⟨nx, hlive⟩ := R.spine.at hgm
    obtain ⟨e, he⟩ : ∃ e, d.groups[k]? = some e := by
      have hl := congrArg List.length R.names
      simp only [List.length_map] at hl
      have hk1 := (List.getElem?_eq_some_iff.1 hk).1
      exact ⟨d.groups[k], List.getElem?_eq_getElem (by omega)⟩
    have hlist := R.grp k g e hk he
    have hkind : ∀ q : Option Nat, ∀ m2 own', (∀ x, x ≠ m.next → own x ≠ some (.grp g.addr) → own x ≠ some .spine →
        m2.live x = m.live x) → own' = upd own m.next (some (.grp g.addr)) →
        ListOf own' m2 (.grp g.addr) q (e.2 ++ [i]) →
        ∀ (j : Nat) (g' : GRec) (e' : Str × List Nat), (G.set k { g with root := q })[j]? = some g' →
          (d.groups.modify k fun g => (g.1, g.2 ++ [i]))[j]? = some e' → ListOf own' m2 (.grp g'.addr) g'.root e'.2 := by
      intro q m2 own' h3 hown h4 j g' e' hj he'
      by_cases hjk : k = j
      · subst hjk
        rw [List.getElem?_set_self (List.getElem?_eq_some_iff.1 hk).1] at hj
        cases hj
        rw [List.getElem?_modify_eq, he] at he'
        cases he'
        exact h4
      · rw [List.getElem?_set_ne hjk] at hj
        simp [List.getElem?_modify, if_neg hjk] at he'
        have hne : Tag.grp g'.addr ≠ Tag.grp g.addr := fun e => hjk (addr_inj R.nodup hk hj (by simpa using e.symm))
        rw [hown]
        exact R.others h3 hne (by simp) (R.grp j g' e' hj he')
    unfold addOption
    rw [malloc_yes _ hA]
    have hread : Slot.read r (m.grown (.entry i none)) (.options g.addr) = .ok g.root := by
      simp [Slot.read, grown_live _ _ hgne, hlive]
    simp only [hread]
    cases hroot : g.root with
    | none =>
      rw [hroot] at hlive hlist
      have hw : Slot.write r (m.grown (.entry i none)) (some m.next) (.options g.addr) =
          .ok (r, { m.grown (.entry i none) with live := (upd (m.grown (.entry i none)).live g.addr
            (some (.group g.name (some m.next) nx))) }) := by
        simp [Slot.write, grown_live _ _ hgne, hlive]
      simp only [hw, Out.bind]
      have h3 : ∀ x, x ≠ m.next → own x ≠ some (.grp g.addr) → own x ≠ some .spine →
          upd (m.grown (.entry i none)).live g.addr (some (.group g.name (some m.next) nx)) x = m.live x := by
        intro x hx _ hs
        rw [upd_ne _ _ (fun e => hs (by rw [e]; exact hgo))]
        exact grown_live _ _ hx
      have h4 : ListOf (upd own m.next (some (.grp g.addr)))
          { m.grown (.entry i none) with live := (upd (m.grown (.entry i none)).live g.addr
            (some (.group g.name (some m.next) nx))) } (.grp g.addr) (some m.next) (e.2 ++ [i]) := by
        refine hlist.start ?_
        show upd _ _ _ _ = _
        rw [upd_ne _ _ hgne.symm]
        exact grown_new _
      refine ⟨r, _, upd own m.next (some (.grp g.addr)), G.set k { g with root := some m.next }, rfl, rfl,
        (map_addr_set _ hk).1, ?_⟩
      rw [if_pos trivial]
      refine ⟨R.others h3 (by simp) (by simp) R.pos, R.others h3 (by simp) (by simp) R.ung,
        R.others h3 (by simp) (by simp) R.sub, ?_, by rw [(map_addr_set _ hk).1]; exact R.nodup,
        fun a => by rw [(map_addr_set _ hk).1]; exact (upd_tag R.fresh (by simp) a).trans (R.spineOwn a),
        ?_, hkind _ _ _ h3 rfl h4, ?_, R.range' rfl, R.rest' h3, R.sound, ?_⟩
      · refine R.spine.setRoot (nx := nx) hk R.nodup (by rw [hroot]; exact hlive) (by simp [upd]) fun x hx hxe => ?_
        show upd _ _ _ _ = _
        rw [upd_ne _ _ hxe]
        refine grown_live _ _ fun e => ?_
        have := (R.spineOwn x.addr).2 (List.mem_map_of_mem hx)
        rw [e, R.fresh] at this; simp at this
      · rw [(map_addr_set _ hk).2, groups_modify_names]; exact R.names
      · rw [(map_addr_set _ hk).1]; exact R.grpOwn' (by rintro x h; cases h; exact hga)
      · show m0.next ≤ m.next + 1
        have := R.le; omega
    | some p =>
      rw [hroot] at hlist
      obtain ⟨l, m2, h1, h2, hn, h3, h4, h5⟩ := ListOf.extend R i hlist
      have h4' : ∀ x, x ≠ m.next → own x ≠ some (.grp g.addr) → own x ≠ some .spine → m2.live x = m.live x :=
        fun x a b _ => h4 x a b
      simp only
      rw [h1, Ends.bind_ok, h2]
      have hset : G.set k { g with root := some p } = G := by
        have hgg : ({ g with root := some p } : GRec) = g := by rw [← hroot]
        rw [hgg]
        obtain ⟨a1, a2⟩ := List.getElem?_eq_some_iff.1 hk
        rw [← a2]; exact List.set_getElem_self a1
      refine ⟨r, m2, upd own m.next (some (.grp g.addr)), G, rfl, h3, rfl, ?_⟩
      rw [if_pos trivial]
      have hkk := hkind (some p) m2 _ h4' rfl h5
      rw [hset] at hkk
      exact ⟨R.others h4' (by simp) (by simp) R.pos, R.others h4' (by simp) (by simp) R.ung,
        R.others h4' (by simp) (by simp) R.sub, R.spine' (by simp) h4, R.nodup,
        fun a => (upd_tag R.fresh (by simp) a).trans (R.spineOwn a), by rw [groups_modify_names]; exact R.names, hkk,
        R.grpOwn' (by rintro x h; cases h; exact hga), R.range' hn, R.rest' h4', R.sound, by rw [hn]; have := R.le; omega⟩

/-- source/display/help/help_organizer.c:46-73 on the lists and in memory. -/
theorem findOrCreate_rep (R : HRep m0 r m d own G) (A : Nat → Bool) (name : Str) :
    (∃ r' m' own' G' g, findOrCreateGroupM A r m name = .ok (some (some g.addr, r', m')) ∧
      G'[(findOrCreateGroup d.groups name).2]? = some g ∧
      HRep m0 r' m' { d with groups := (findOrCreateGroup d.groups name).1 } own' G' ∧
      ((findOrCreateGroup d.groups name).1 = d.groups ∧ m'.calls = m.calls ∨
        (findOrCreateGroup d.groups name).1 = d.groups ++ [(name, [])] ∧ m'.calls = m.calls + 1 ∧ A m.calls = true)) ∨
    (∃ r' m', findOrCreateGroupM A r m name = .ok (some (none, r', m')) ∧ A m.calls = false) := by
  have hlenG : G.length = d.groups.length := by simpa using congrArg List.length R.names
  have hnm : ∀ (k : Nat) (g : GRec) (e : Str × List Nat), G[k]? = some g → d.groups[k]? = some e → g.name = e.1 := by
    intro k g e h1 h2
    have := congrArg (·[k]?) R.names
    simp only [List.getElem?_map, h1, h2, Option.map_some, Option.some.injEq] at this
    exact this
  unfold findOrCreateGroupM
  rw [R.spine.search name R.length_le, Ends.bind_ok]
  cases hf : G.find? (fun g => strcmp g.name name = 0) with
  | some g =>
    left
    obtain ⟨hg1, k, hk, hk1, hk2⟩ := List.find?_eq_some_iff_getElem.1 hf
    have hfind : d.groups.findIdx? (fun g => strcmp g.1 name = 0) = some k := by
      rw [List.findIdx?_eq_some_iff_getElem]
      refine ⟨by omega, ?_, ?_⟩
      · have := hnm k g _ (by rw [← hk1]; exact List.getElem?_eq_getElem hk) (List.getElem?_eq_getElem (by omega))
        rw [← this]; exact hg1
      · intro j hj
        have hh := hk2 j hj
        have := hnm j G[j] d.groups[j] (List.getElem?_eq_getElem (by omega)) (List.getElem?_eq_getElem (by omega))
        rw [← this]
        simpa using hh
    refine ⟨r, m, own, G, g, rfl, ?_, ?_, ?_⟩
    · simp only [findOrCreateGroup, hfind]
      rw [← hk1]; exact List.getElem?_eq_getElem hk
    · simp only [findOrCreateGroup, hfind]; exact R
    · left; simp only [findOrCreateGroup, hfind]; exact ⟨trivial, trivial⟩
  | none =>
    have hfind : d.groups.findIdx? (fun g => strcmp g.1 name = 0) = none := by
      rw [List.findIdx?_eq_none_iff]
      intro e he
      obtain ⟨k, hk1, hk2⟩ := List.getElem_of_mem he
      have hh := List.find?_eq_none.1 hf G[k] (List.getElem_mem (by omega))
      have := hnm k G[k] d.groups[k] (List.getElem?_eq_getElem (by omega)) (List.getElem?_eq_getElem (by omega))
      rw [this, hk2] at hh
      simpa using hh
    simp only [findOrCreateGroup, hfind, Option.map_none]
    cases hA : A m.calls with
    | false => right; exact ⟨r, _, by rw [malloc_no _ hA], rfl⟩
    | true =>
      left
      rw [malloc_yes _ hA]
      have hfr : m.next ∉ G.map (·.addr) := fun hm => by
        have := (R.spineOwn _).2 hm
        rw [R.fresh] at this; simp at this
      have hnog : ∀ a, own a ≠ some (.grp m.next) := fun a h => hfr (R.grpOwn a _ h)
      have build : ∀ (q : Option Nat) (m2 : HMem), m2.next = m.next + 1 →
          (∀ x, x ≠ m.next → own x ≠ some .spine → m2.live x = m.live x) →
          GChain m2.live q (G ++ [⟨m.next, name, none⟩]) →
          HRep m0 { r with groups := q } m2 { d with groups := d.groups ++ [(name, [])] } (upd own m.next (some .spine))
            (G ++ [⟨m.next, name, none⟩]) := by
        intro q m2 hn hl hc
        have h3 : ∀ x, x ≠ m.next → own x ≠ some .spine → own x ≠ some .spine → m2.live x = m.live x := fun x a b _ => hl x a b
        refine ⟨R.others h3 (by simp) (by simp) R.pos, R.others h3 (by simp) (by simp) R.ung,
          R.others h3 (by simp) (by simp) R.sub, hc, ?_, ?_, by simp [R.names], ?_, ?_, R.range' hn, R.rest' h3, R.sound,
          by rw [hn]; have := R.le; omega⟩
        · rw [List.map_append, List.nodup_append]
          refine ⟨R.nodup, by simp, fun a ha b hb e => ?_⟩
          simp only [List.map_cons, List.map_nil, List.mem_singleton] at hb
          subst hb; subst e; exact hfr ha
        · intro a
          unfold upd
          split
          · simp [*]
          · rename_i hne
            rw [R.spineOwn a]; simp [hne]
        · intro k g e hk he
          by_cases hkl : k < G.length
          · rw [List.getElem?_append_left hkl] at hk
            rw [List.getElem?_append_left (by omega)] at he
            exact R.others h3 (by simp) (by simp) (R.grp k g e hk he)
          · have hkk : k = G.length := by
              have := (List.getElem?_eq_some_iff.1 hk).1
              simp at this; omega
            subst hkk
            rw [List.getElem?_append_right (by omega)] at hk
            rw [hlenG, List.getElem?_append_right (by omega)] at he
            simp only [Nat.sub_self, List.getElem?_cons_zero, Option.some.injEq] at hk he
            subst hk; subst he
            refine ⟨[], .nil, by simp, fun a => ?_⟩
            rw [upd_tag R.fresh (by simp)]
            simp [hnog a]
        · intro a x h
          rw [upd_tag R.fresh (by simp)] at h
          rw [List.map_append]
          exact List.mem_append_left _ (R.grpOwn a x h)
      have hget : (G ++ [(⟨m.next, name, none⟩ : GRec)])[d.groups.length]? = some ⟨m.next, name, none⟩ := by
        rw [← hlenG]; simp
      cases hr : r.groups with
      | none =>
        have hsp := R.spine
        rw [hr] at hsp
        have hG := hsp.isNone
        refine ⟨_, _, _, _, ⟨m.next, name, none⟩, rfl, hget, build (some m.next) (m.grown (.group name none none)) rfl
          (fun x hx _ => grown_live _ x hx) ?_, .inr ⟨trivial, rfl, rfl⟩⟩
        rw [hG]
        exact GChain.cons (g := ⟨m.next, name, none⟩) (grown_new _) .nil
      | some p =>
        have hsp := R.spine
        rw [hr] at hsp
        have hag : ∀ g ∈ G, (m.grown (.group name none none)).live g.addr = m.live g.addr := fun g hg =>
          grown_live _ _ fun e => hfr (by rw [← e]; exact List.mem_map_of_mem hg)
        obtain ⟨l, h1, h2, h3, h4⟩ := (hsp.congr hag).last (m := m.grown (.group name none none)) (f := m.next + 1)
          (by have := R.length_le; omega)
        have hlm : l.addr ∈ G.map (·.addr) := List.mem_map_of_mem h2
        have hlb : m.next ≠ l.addr := fun e => hfr (by rw [e]; exact hlm)
        have hbl : (lastGroup (m.grown (.group name none none)) (m.grown (.group name none none)).next p) = .ok (some l.addr) := h1
        simp only [hbl, Ends.bind_ok, linkGroup, h3, Out.bind]
        have hroot : ({ r with groups := some p } : HelpRoots) = r := by rw [← hr]
        refine ⟨_, _, upd own m.next (some .spine), _, ⟨m.next, name, none⟩, rfl, hget, ?_, .inr ⟨trivial, rfl, trivial⟩⟩
        have := build (some p) { m.grown (.group name none none) with
          live := (upd (m.grown (.group name none none)).live l.addr (some (.group l.name l.root (some m.next)))) } rfl ?_ ?_
        · rw [hroot] at this; exact this
        · intro x hx hs
          show upd _ _ _ _ = _
          rw [upd_ne _ _ (fun e => hs (by rw [e]; exact (R.spineOwn _).2 hlm))]
          exact grown_live _ _ hx
        · refine h4 R.nodup hfr (by simp [upd]) ?_ (fun x _ hx => upd_ne _ _ hx)
          show upd _ _ _ _ = _
          rw [upd_ne _ _ hlb]
          exact grown_new _

end Argus
