import Verif.Model.Display
import Verif.Spec.Help
import Verif.Lemmas.Strings

/-! # The organisation of the help -/

set_option autoImplicit false

namespace Argus

theorem groupAt_append {pre : List Opt} {i : Nat} (os : List Opt) (h : i ≤ pre.length) :
    groupAt (pre ++ os) i = groupAt pre i := by
  unfold groupAt
  rw [List.take_append_of_le_length h]

theorem sectionOf_append {pre : List Opt} {i : Nat} (os : List Opt) (h : i < pre.length) :
    sectionOf (pre ++ os) i = sectionOf pre i := by
  unfold sectionOf
  rw [List.getElem?_append_left h, groupAt_append os (Nat.le_of_lt h)]

theorem groupAt_snoc (pre : List Opt) (o : Opt) :
    groupAt (pre ++ [o]) (pre ++ [o]).length = if o.type = .group then o.name else groupAt pre pre.length := by
  unfold groupAt
  rw [List.take_length, List.take_length, List.reverse_append]
  simp only [List.reverse_cons, List.reverse_nil, List.nil_append, List.cons_append, List.find?_cons]
  by_cases h : o.type = .group
  · simp [h]
  · rw [if_neg h, beq_eq_false_iff_ne.2 h]

theorem entriesOf_snoc (pre : List Opt) (o : Opt) (s : Section) :
    entriesOf (pre ++ [o]) s =
      entriesOf pre s ++ (if sectionOf (pre ++ [o]) pre.length = some s then [pre.length] else []) := by
  unfold entriesOf
  rw [List.length_append, List.length_singleton, List.range_succ, List.filter_append]
  congr 1
  · apply List.filter_congr
    intro i hi
    rw [sectionOf_append [o] (List.mem_range.1 hi)]
  · by_cases h : sectionOf (pre ++ [o]) pre.length = some s
    · simp [h]
    · simp [h]

theorem filterMap_congr' {α β : Type} {f g : α → Option β} : ∀ {l : List α}, (∀ x ∈ l, f x = g x) →
    l.filterMap f = l.filterMap g
  | [], _ => rfl
  | x :: l, h => by
    simp only [List.filterMap_cons, h x (by simp), filterMap_congr' (l := l) (fun y hy => h y (by simp [hy]))]

theorem snoc_induction {α : Type} {P : List α → Prop} (h0 : P []) (h1 : ∀ l a, P l → P (l ++ [a])) (l : List α) : P l := by
  have : ∀ l : List α, P l.reverse := by
    intro l
    induction l with
    | nil => exact h0
    | cons a l ih => rw [List.reverse_cons]; exact h1 _ _ ih
  have h := this l.reverse
  rwa [List.reverse_reverse] at h

theorem groupTitles_snoc (pre : List Opt) (o : Opt) :
    groupTitles (pre ++ [o]) =
      match (sectionOf (pre ++ [o]) pre.length).bind Section.title? with
      | some t => if t ∈ groupTitles pre then groupTitles pre else groupTitles pre ++ [t]
      | none => groupTitles pre := by
  unfold groupTitles
  rw [List.length_append, List.length_singleton, List.range_succ, List.filterMap_append]
  have h1 : (List.range pre.length).filterMap (fun i => (sectionOf (pre ++ [o]) i).bind Section.title?) =
      (List.range pre.length).filterMap (fun i => (sectionOf pre i).bind Section.title?) := by
    apply filterMap_congr'
    intro i hi
    rw [sectionOf_append [o] (List.mem_range.1 hi)]
  rw [h1, List.eraseDups_append]
  cases h : (sectionOf (pre ++ [o]) pre.length).bind Section.title? with
  | none => simp [h, List.removeAll]
  | some t =>
    simp only [List.filterMap_cons, List.filterMap_nil, h, List.mem_eraseDups]
    split
    · rename_i hm
      simp only [List.removeAll, List.filter_cons, List.filter_nil]
      rw [if_neg (by simpa using hm)]; simp
    · rename_i hm
      simp only [List.removeAll, List.filter_cons, List.filter_nil]
      rw [if_pos (by simpa using hm)]
      simp [List.eraseDups_cons]

theorem groupTitles_nodup (os : List Opt) : (groupTitles os).Nodup := by
  induction os using snoc_induction with
  | h0 => simp [groupTitles]
  | h1 pre o ih =>
    rw [groupTitles_snoc]
    split
    · split
      · exact ih
      · rename_i h
        rw [List.nodup_append]
        exact ⟨ih, by simp, by intro a ha b hb; simp at hb; subst hb; intro e; exact h (e ▸ ha)⟩
    · exact ih

/-- The groups as they should be. -/
def groupsOf (os : List Opt) : List (Str × List Nat) := (groupTitles os).map (fun t => (t, entriesOf os (.group t)))

/-- The state after the entries `pre`. -/
structure Organized (pre : List Opt) (s : OrgState) : Prop where
  data : s.data = ⟨entriesOf pre .arguments, groupsOf pre, entriesOf pre .options, entriesOf pre .commands⟩
  current : s.current = groupAt pre pre.length
  group : ∀ k, s.group = some k → ∃ n, s.current = some n ∧ (groupTitles pre)[k]? = some n

theorem modify_map_nodup {α : Type} (f g : Str → α) (h : α → α) : ∀ (l : List Str) (k : Nat) (n : Str), l.Nodup →
    l[k]? = some n → (∀ m ∈ l, m ≠ n → f m = g m) → h (f n) = g n → (l.map f).modify k h = l.map g
  | [], k, n, _, hk, _, _ => by simp at hk
  | x :: l, 0, n, hd, hk, hf, hg => by
    simp only [List.getElem?_cons_zero, Option.some.injEq] at hk
    subst hk
    rw [List.nodup_cons] at hd
    simp only [List.map_cons, List.modify_zero_cons, hg]
    congr 1
    apply List.map_congr_left
    intro m hm
    exact hf m (by simp [hm]) (by rintro rfl; exact hd.1 hm)
  | x :: l, k + 1, n, hd, hk, hf, hg => by
    rw [List.nodup_cons] at hd
    rw [List.getElem?_cons_succ] at hk
    simp only [List.map_cons, List.modify_succ_cons]
    rw [modify_map_nodup f g h l k n hd.2 hk (fun m hm => hf m (by simp [hm])) hg]
    congr 1
    refine hf x (by simp) ?_
    rintro rfl
    exact hd.1 (List.mem_of_getElem? hk)

theorem findOrCreateGroup_eq (pre : List Opt) (n : Str) :
    (∃ k, findOrCreateGroup (groupsOf pre) n = (groupsOf pre, k) ∧ (groupTitles pre)[k]? = some n) ∨
    (n ∉ groupTitles pre ∧
      findOrCreateGroup (groupsOf pre) n = (groupsOf pre ++ [(n, [])], (groupTitles pre).length)) := by
  unfold findOrCreateGroup
  cases h : (groupsOf pre).findIdx? (fun g => strcmp g.1 n = 0) with
  | some k =>
    left
    refine ⟨k, rfl, ?_⟩
    rw [List.findIdx?_eq_some_iff_getElem] at h
    obtain ⟨hk, h1, _⟩ := h
    have hk' : k < (groupTitles pre).length := by simpa [groupsOf] using hk
    rw [List.getElem?_eq_getElem hk']
    simp only [groupsOf, List.getElem_map, strcmp_eq_zero_iff, decide_eq_true_eq] at h1
    rw [h1]
  | none =>
    right
    rw [List.findIdx?_eq_none_iff] at h
    refine ⟨?_, by simp [groupsOf]⟩
    intro hm
    have := h (n, entriesOf pre (.group n)) (List.mem_map.2 ⟨n, hm, rfl⟩)
    simp [strcmp_self] at this

theorem sectionOf_last (pre : List Opt) (o : Opt) :
    sectionOf (pre ++ [o]) pre.length =
      match o.type with
      | .group => none
      | .positional => some .arguments
      | .subcommand => some .commands
      | .option =>
        if o.flags.has .hidden then none
        else
          match groupAt pre pre.length with
          | some title => some (.group title)
          | none => some .options := by
  unfold sectionOf
  rw [List.getElem?_append_right (Nat.le_refl _), Nat.sub_self, groupAt_append [o] (Nat.le_refl _)]
  rfl

theorem groupsOf_same {pre : List Opt} {o : Opt}
    (h : (sectionOf (pre ++ [o]) pre.length).bind Section.title? = none) : groupsOf (pre ++ [o]) = groupsOf pre := by
  unfold groupsOf
  rw [groupTitles_snoc, h]
  apply List.map_congr_left
  intro t _
  rw [entriesOf_snoc, if_neg, List.append_nil]
  intro e
  rw [e] at h
  exact absurd h (by simp [Section.title?])

theorem entriesOf_group_empty {pre : List Opt} {n : Str} (h : n ∉ groupTitles pre) :
    entriesOf pre (.group n) = [] := by
  unfold entriesOf
  rw [List.filter_eq_nil_iff]
  intro i hi e
  apply h
  unfold groupTitles
  rw [List.mem_eraseDups, List.mem_filterMap]
  refine ⟨i, hi, ?_⟩
  rw [of_decide_eq_true e]; rfl

theorem organizeStep_ok {pre : List Opt} {s : OrgState} (h : Organized pre s) (o : Opt) :
    Organized (pre ++ [o]) (organizeStep s pre.length o) := by
  have hl := sectionOf_last pre o
  have hc := groupAt_snoc pre o
  obtain ⟨d, cur, grp⟩ := s
  obtain ⟨hd, hcur, hgrp⟩ := h
  simp only at hd hcur hgrp
  unfold organizeStep
  cases ht : o.type with
  | group =>
    rw [ht] at hl hc
    simp only at hl
    rw [if_pos (by simp)] at hc
    refine ⟨?_, hc.symm, by simp⟩
    simp only [hd, entriesOf_snoc, hl, groupsOf_same (show (sectionOf (pre ++ [o]) pre.length).bind Section.title? = none
      by rw [hl]; rfl)]
    simp
  | positional =>
    rw [ht] at hl hc
    simp only at hl
    rw [if_neg (by simp)] at hc
    have hs : (sectionOf (pre ++ [o]) pre.length).bind Section.title? = none := by rw [hl]; rfl
    refine ⟨?_, by rw [hc]; exact hcur, ?_⟩
    · simp only [hd, entriesOf_snoc, hl, groupsOf_same hs]
      simp
    · rw [groupTitles_snoc, hs]; exact hgrp
  | subcommand =>
    rw [ht] at hl hc
    simp only at hl
    rw [if_neg (by simp)] at hc
    have hs : (sectionOf (pre ++ [o]) pre.length).bind Section.title? = none := by rw [hl]; rfl
    refine ⟨?_, by rw [hc]; exact hcur, ?_⟩
    · simp only [hd, entriesOf_snoc, hl, groupsOf_same hs]
      simp
    · rw [groupTitles_snoc, hs]; exact hgrp
  | option =>
    rw [ht] at hl hc
    simp only at hl ⊢
    rw [if_neg (by simp)] at hc
    split
    · rename_i hh
      rw [if_pos hh] at hl
      have hs : (sectionOf (pre ++ [o]) pre.length).bind Section.title? = none := by rw [hl]; rfl
      refine ⟨?_, by rw [hc]; exact hcur, ?_⟩
      · simp only [hd, entriesOf_snoc, hl, groupsOf_same hs]
        simp
      · rw [groupTitles_snoc, hs]; exact hgrp
    · rename_i hh
      rw [if_neg hh, ← hcur] at hl
      unfold organizeOption
      cases cur with
      | none =>
        simp only at hl ⊢
        have hs : (sectionOf (pre ++ [o]) pre.length).bind Section.title? = none := by rw [hl]; rfl
        refine ⟨?_, by rw [hc]; exact hcur, ?_⟩
        · simp only [hd, entriesOf_snoc, hl, groupsOf_same hs]
          simp
        · rw [groupTitles_snoc, hs]; exact hgrp
      | some n =>
        simp only at hl ⊢
        have hs : (sectionOf (pre ++ [o]) pre.length).bind Section.title? = some n := by rw [hl]; rfl
        have hnew : ∀ m, entriesOf (pre ++ [o]) (.group m) =
            entriesOf pre (.group m) ++ if m = n then [pre.length] else [] := by
          intro m
          rw [entriesOf_snoc, hl]
          by_cases e : m = n
          · simp [e]
          · rw [if_neg e, if_neg (by simpa using fun e' => e e'.symm)]
        have hother : ∀ sec, (∀ m, sec ≠ .group m) → entriesOf (pre ++ [o]) sec = entriesOf pre sec := by
          intro sec hsec
          rw [entriesOf_snoc, hl, if_neg (by simpa using fun e => hsec n e.symm), List.append_nil]
        -- the group exists already
        have hold : ∀ k, (groupTitles pre)[k]? = some n →
            (groupsOf pre).modify k (fun g => (g.1, g.2 ++ [pre.length])) = groupsOf (pre ++ [o]) ∧
            (groupTitles (pre ++ [o]))[k]? = some n := by
          intro k hk
          have hm := List.mem_of_getElem? hk
          have ht' : groupTitles (pre ++ [o]) = groupTitles pre := by
            rw [groupTitles_snoc, hs]; exact if_pos hm
          refine ⟨?_, by rw [ht']; exact hk⟩
          unfold groupsOf
          rw [ht']
          apply modify_map_nodup _ _ _ _ k n (groupTitles_nodup pre) hk
          · intro m _ hne
            rw [hnew, if_neg hne, List.append_nil]
          · rw [hnew, if_pos rfl]
        have hfresh : n ∉ groupTitles pre →
            (groupsOf pre ++ [(n, [])]).modify (groupTitles pre).length (fun g => (g.1, g.2 ++ [pre.length])) =
              groupsOf (pre ++ [o]) ∧ (groupTitles (pre ++ [o]))[(groupTitles pre).length]? = some n := by
          intro hn
          have ht' : groupTitles (pre ++ [o]) = groupTitles pre ++ [n] := by
            rw [groupTitles_snoc, hs]; exact if_neg hn
          refine ⟨?_, by rw [ht']; simp⟩
          have hlen : (groupTitles pre).length = (groupsOf pre).length := by simp [groupsOf]
          have h1 : groupsOf (pre ++ [o]) = groupsOf pre ++ [(n, [pre.length])] := by
            unfold groupsOf
            rw [ht', List.map_append]
            congr 1
            · apply List.map_congr_left
              intro m hm
              rw [hnew, if_neg (by rintro rfl; exact hn hm), List.append_nil]
            · simp only [List.map_cons, List.map_nil]
              rw [hnew, if_pos rfl, entriesOf_group_empty hn]; rfl
          rw [h1, hlen]
          apply List.ext_getElem?
          intro j
          rw [List.getElem?_modify]
          rcases Nat.lt_trichotomy j (groupsOf pre).length with hj | hj | hj
          · rw [List.getElem?_append_left hj, List.getElem?_append_left hj]
            have hne : ¬ (groupsOf pre).length = j := by omega
            simp [hne]
          · subst hj
            simp
          · rw [List.getElem?_eq_none (by simp; omega), List.getElem?_eq_none (by simp; omega)]; simp
        have fin : ∀ (gs : List (Str × List Nat)) (k : Nat),
            gs.modify k (fun g => (g.1, g.2 ++ [pre.length])) = groupsOf (pre ++ [o]) →
            (groupTitles (pre ++ [o]))[k]? = some n →
            Organized (pre ++ [o])
              { data := { d with groups := gs.modify k (fun g => (g.1, g.2 ++ [pre.length])) }
                current := some n, group := some k } := by
          intro gs k h1 h2
          refine ⟨?_, by rw [hc]; exact hcur, ?_⟩
          · simp only [h1, hd]
            rw [hother .arguments (by simp), hother .options (by simp), hother .commands (by simp)]
          · intro k' hk'
            simp only [Option.some.injEq] at hk'
            subst hk'
            exact ⟨n, rfl, h2⟩
        have hdg : d.groups = groupsOf pre := by rw [hd]
        cases grp with
        | some k =>
          obtain ⟨n', hn', hk⟩ := hgrp k rfl
          simp only [Option.some.injEq] at hn'
          subst hn'
          rw [hdg]
          exact fin _ k (hold k hk).1 (hold k hk).2
        | none =>
          simp only [hdg]
          rcases findOrCreateGroup_eq pre n with ⟨k, h1, hk⟩ | ⟨hn, h1⟩
          · rw [h1]
            exact fin _ k (hold k hk).1 (hold k hk).2
          · rw [h1]
            exact fin _ _ (hfresh hn).1 (hfresh hn).2

theorem organizeLoop_ok : ∀ (os pre : List Opt) (s : OrgState), Organized pre s →
    Organized (pre ++ os) (organizeLoop pre.length os s)
  | [], pre, s, h => by simpa [organizeLoop] using h
  | o :: os, pre, s, h => by
    have := organizeLoop_ok os (pre ++ [o]) _ (organizeStep_ok h o)
    rw [List.length_append, List.length_singleton, List.append_assoc] at this
    rw [organizeLoop]
    exact this

theorem organize_eq (os : List Opt) :
    organize os = ⟨entriesOf os .arguments, groupsOf os, entriesOf os .options, entriesOf os .commands⟩ := by
  have h : Organized [] ({} : OrgState) := ⟨rfl, rfl, by simp⟩
  have := (organizeLoop_ok os [] {} h).data
  exact this

end Argus
