import Verif.Lemmas.HelpMem

/-! # What memory holds while the help is organised -/

set_option autoImplicit false

namespace Argus

/-- The lists a node may belong to. -/
inductive Tag where
  | pos
  | ung
  | sub
  | spine
  | grp (g : Nat)
  deriving DecidableEq

/-- A list of entries made of the nodes with tag `t`. -/
def ListOf (own : Nat → Option Tag) (m : HMem) (t : Tag) (p : Option Nat) (xs : List Nat) : Prop :=
  ∃ L, Chain m.live p L xs ∧ L.Nodup ∧ ∀ a, own a = some t ↔ a ∈ L

theorem ListOf.keep {own own' : Nat → Option Tag} {m m' : HMem} {t : Tag} {p : Option Nat} {xs : List Nat}
    (h : ListOf own m t p xs) (ho : ∀ a, own' a = some t ↔ own a = some t) (hl : ∀ a, own a = some t → m'.live a = m.live a) :
    ListOf own' m' t p xs := by
  obtain ⟨L, c, hn, hL⟩ := h
  exact ⟨L, c.congr fun a ha => hl a ((hL a).2 ha), hn, fun a => (ho a).trans (hL a)⟩

/-- Memory `m`, reached from `r`, holds the lists `d` and otherwise what `m0` held. -/
structure HRep (m0 : HMem) (r : HelpRoots) (m : HMem) (d : HelpData) (own : Nat → Option Tag) (G : List GRec) : Prop where
  pos : ListOf own m .pos r.positionals d.positionals
  ung : ListOf own m .ung r.ungrouped d.ungrouped
  sub : ListOf own m .sub r.subcommands d.subcommands
  spine : GChain m.live r.groups G
  nodup : (G.map (·.addr)).Nodup
  spineOwn : ∀ a, own a = some .spine ↔ a ∈ G.map (·.addr)
  names : G.map (·.name) = d.groups.map (·.1)
  grp : ∀ (k : Nat) (g : GRec) (e : Str × List Nat), G[k]? = some g → d.groups[k]? = some e →
    ListOf own m (.grp g.addr) g.root e.2
  grpOwn : ∀ a x, own a = some (.grp x) → x ∈ G.map (·.addr)
  range : ∀ a, own a ≠ none → m0.next ≤ a ∧ a < m.next
  rest : ∀ a, own a = none → m.live a = m0.live a
  sound : ∀ a, m0.next ≤ a → m0.live a = none
  le : m0.next ≤ m.next

theorem HRep.calls {m0 : HMem} {r : HelpRoots} {m : HMem} {d : HelpData} {own : Nat → Option Tag} {G : List GRec}
    (R : HRep m0 r m d own G) (c : Nat) : HRep m0 r { m with calls := c } d own G :=
  ⟨R.pos, R.ung, R.sub, R.spine, R.nodup, R.spineOwn, R.names, R.grp, R.grpOwn, R.range, R.rest, R.sound, R.le⟩

theorem HRep.fresh {m0 : HMem} {r : HelpRoots} {m : HMem} {d : HelpData} {own : Nat → Option Tag} {G : List GRec}
    (R : HRep m0 r m d own G) : own m.next = none := by
  cases h : own m.next with
  | none => rfl
  | some t => exact absurd (R.range m.next (by simp [h])).2 (by omega)

theorem ListOf.length_le {m0 : HMem} {r : HelpRoots} {m : HMem} {d : HelpData} {own : Nat → Option Tag} {G : List GRec}
    (R : HRep m0 r m d own G) {t : Tag} {L : List Nat} (hn : L.Nodup) (hL : ∀ a, own a = some t ↔ a ∈ L) : L.length ≤ m.next :=
  length_le_of_lt _ _ hn fun a ha => (R.range a (by rw [(hL a).2 ha]; simp)).2

theorem HRep.length_le {m0 : HMem} {r : HelpRoots} {m : HMem} {d : HelpData} {own : Nat → Option Tag} {G : List GRec}
    (R : HRep m0 r m d own G) : G.length ≤ m.next := by
  have := ListOf.length_le R R.nodup R.spineOwn
  simpa using this

/-- Memory after one more node. -/
def HMem.grown (m : HMem) (n : HNode) : HMem := ⟨upd m.live m.next (some n), m.next + 1, m.calls + 1⟩

theorem upd_tag {own : Nat → Option Tag} {b : Nat} (hb : own b = none) {t t' : Tag} (h : t' ≠ t) (a : Nat) :
    upd own b (some t) a = some t' ↔ own a = some t' := by
  unfold upd
  split
  · rename_i e; subst e; rw [hb]; simp [Ne.symm h]
  · rfl

/-- The other lists when a node is added with tag `t`. -/
theorem HRep.others {m0 : HMem} {r : HelpRoots} {m m2 : HMem} {d : HelpData} {own : Nat → Option Tag} {G : List GRec}
    (R : HRep m0 r m d own G) {t : Tag}
    (hl : ∀ x, x ≠ m.next → own x ≠ some t → own x ≠ some .spine → m2.live x = m.live x)
    {t' : Tag} (h1 : t' ≠ t) (h2 : t' ≠ .spine) {p : Option Nat} {xs : List Nat} (h : ListOf own m t' p xs) :
    ListOf (upd own m.next (some t)) m2 t' p xs :=
  h.keep (upd_tag R.fresh h1) fun a ha => hl a (fun e => by rw [e, R.fresh] at ha; simp at ha) (by rw [ha]; simpa using h1)
    (by rw [ha]; simpa using h2)

theorem HRep.range' {m0 : HMem} {r : HelpRoots} {m m2 : HMem} {d : HelpData} {own : Nat → Option Tag} {G : List GRec}
    (R : HRep m0 r m d own G) {t : Tag} (hn : m2.next = m.next + 1) (a : Nat) (h : upd own m.next (some t) a ≠ none) :
    m0.next ≤ a ∧ a < m2.next := by
  rw [hn]
  have := R.le
  unfold upd at h
  split at h
  · omega
  · have := R.range a h; omega

theorem HRep.rest' {m0 : HMem} {r : HelpRoots} {m m2 : HMem} {d : HelpData} {own : Nat → Option Tag} {G : List GRec}
    (R : HRep m0 r m d own G) {t : Tag}
    (hl : ∀ x, x ≠ m.next → own x ≠ some t → own x ≠ some .spine → m2.live x = m.live x) (a : Nat)
    (h : upd own m.next (some t) a = none) : m2.live a = m0.live a := by
  unfold upd at h
  split at h
  · simp at h
  · rename_i hne
    rw [hl a hne (by simp [h]) (by simp [h])]
    exact R.rest a h

/-- The spine when a node is added elsewhere. -/
theorem HRep.spine' {m0 : HMem} {r : HelpRoots} {m m2 : HMem} {d : HelpData} {own : Nat → Option Tag} {G : List GRec}
    (R : HRep m0 r m d own G) {t : Tag} (ht : t ≠ .spine)
    (hl : ∀ x, x ≠ m.next → own x ≠ some t → m2.live x = m.live x) : GChain m2.live r.groups G :=
  R.spine.congr fun g hg => by
    have ho := (R.spineOwn g.addr).2 (List.mem_map_of_mem hg)
    exact hl _ (fun e => by rw [e, R.fresh] at ho; simp at ho) (by rw [ho]; simpa using Ne.symm ht)

theorem HRep.grpOwn' {m0 : HMem} {r : HelpRoots} {m : HMem} {d : HelpData} {own : Nat → Option Tag} {G : List GRec}
    (R : HRep m0 r m d own G) {t : Tag} (ht : ∀ x, t = .grp x → x ∈ G.map (·.addr)) (a x : Nat)
    (h : upd own m.next (some t) a = some (.grp x)) : x ∈ G.map (·.addr) := by
  unfold upd at h
  split at h
  · exact ht x (Option.some.inj h)
  · exact R.grpOwn a x h

/-- The list that grows: first its head, when it was empty. -/
theorem ListOf.start {own : Nat → Option Tag} {m m2 : HMem} {t : Tag} {xs : List Nat} {b i : Nat}
    (h : ListOf own m t none xs) (hl : m2.live b = some (.entry i none)) :
    ListOf (upd own b (some t)) m2 t (some b) (xs ++ [i]) := by
  obtain ⟨L, c, _, hL⟩ := h
  obtain ⟨rfl, rfl⟩ := c.isNone
  refine ⟨[b], .cons hl .nil, by simp, fun a => ?_⟩
  unfold upd
  split
  · simp [*]
  · rename_i hne; simp [hne, hL a]

/-- The list that grows at its end. -/
theorem ListOf.extend {m0 : HMem} {r : HelpRoots} {m : HMem} {d : HelpData} {own : Nat → Option Tag} {G : List GRec}
    (R : HRep m0 r m d own G) {t : Tag} {p : Nat} {xs : List Nat} (i : Nat) (h : ListOf own m t (some p) xs) :
    ∃ l m2, lastEntry (m.grown (.entry i none)) (m.grown (.entry i none)).next p = .ok (some l) ∧
      linkEntry (m.grown (.entry i none)) l m.next = .ok m2 ∧ m2.next = m.next + 1 ∧ m2.calls = m.calls + 1 ∧
      (∀ x, x ≠ m.next → own x ≠ some t → m2.live x = m.live x) ∧
      ListOf (upd own m.next (some t)) m2 t (some p) (xs ++ [i]) := by
  obtain ⟨L, c, hn, hL⟩ := h
  have hb : m.next ∉ L := fun hm => by have := (hL _).2 hm; rw [R.fresh] at this; simp at this
  have hlen := ListOf.length_le R hn hL
  have hag : ∀ a ∈ L, (m.grown (.entry i none)).live a = m.live a := fun a ha =>
    upd_ne _ _ (fun e => hb (by rw [← e]; exact ha))
  obtain ⟨l, j, h1, h2, h3, h4⟩ := (c.congr hag).last (m := m.grown (.entry i none)) (f := m.next + 1) (by omega)
  have hlb : m.next ≠ l := fun e => hb (by rw [e]; exact h2)
  refine ⟨l, { m.grown (.entry i none) with live := upd (m.grown (.entry i none)).live l (some (.entry j (some m.next))) }, h1,
    by simp [linkEntry, h3], rfl, rfl, ?_, L ++ [m.next], ?_, ?_, ?_⟩
  · intro x hx hot
    have hxl : x ≠ l := fun e => hot ((hL x).2 (by rw [e]; exact h2))
    show upd _ _ _ x = _
    rw [upd_ne _ _ hxl]
    exact upd_ne _ _ hx
  · refine h4 hn hb (by simp [upd]) ?_ (fun x _ hx => upd_ne _ _ hx)
    show upd _ _ _ _ = _
    rw [upd_ne _ _ hlb]
    simp [HMem.grown, upd]
  · rw [List.nodup_append]
    exact ⟨hn, by simp, fun a ha b hb' e => by
      simp only [List.mem_singleton] at hb'
      subst hb'; subst e; exact hb ha⟩
  · intro a
    unfold upd
    split
    · simp [*]
    · rename_i hne; simp [hne, hL a]

end Argus
