import Verif.Lemmas.MapFlags
import Verif.Lemmas.ArrayFlags

/-! # Lemmas: the entries of a map option after any number of occurrences -/

set_option autoImplicit false

namespace Argus

theorem IsMapOption.types {o : Opt} {vt : ValueType} (h : IsMapOption o vt) :
    vt = .mapString ∨ vt = .mapInt ∨ vt = .mapFloat ∨ vt = .mapBool := by
  cases h <;> simp

theorem IsMapOption.run {W : World} {o : Opt} {vt : ValueType} (h : IsMapOption o vt) :
    ∃ h', o.handler = some h' ∧ ∀ (a : Argus) (q : Opt) (x : Option Str), runHandler W a h' q x =
      collect (setKvPair (convOf W vt)) (applyMapFlags W) q x := by
  cases h with
  | string h1 _ => exact ⟨_, h1, fun _ _ _ => rfl⟩
  | int h1 _ => exact ⟨_, h1, fun _ _ _ => rfl⟩
  | float h1 _ => exact ⟨_, h1, fun _ _ _ => rfl⟩
  | bool h1 _ => exact ⟨_, h1, fun _ _ _ => rfl⟩

theorem IsMapOption.of_meta {o o' : Opt} {vt : ValueType} (h : IsMapOption o vt) (hm : o'.meta = o.meta) :
    IsMapOption o' vt := by
  have m1 : o'.valueType = o.valueType := (congrArg Opt.valueType hm : o'.meta.valueType = o.meta.valueType)
  have m3 : o'.handler = o.handler := (congrArg Opt.handler hm : o'.meta.handler = o.meta.handler)
  cases h with
  | string h1 h2 => exact .string (m3.trans h1) (m1.trans h2)
  | int h1 h2 => exact .int (m3.trans h1) (m1.trans h2)
  | float h1 h2 => exact .float (m3.trans h1) (m1.trans h2)
  | bool h1 h2 => exact .bool (m3.trans h1) (m1.trans h2)

theorem MapS.mark {o : Opt} {es : List (Str × MVal)} (h : MapS o es) (hne : es ≠ []) : MapS o.markSet es := by
  have hl : es.length ≠ 0 := fun h => hne (List.length_eq_zero_iff.1 h)
  refine ⟨?_, h.val, h.nodup, h.typed⟩
  show (if o.valueCount = 0 then 1 else o.valueCount) = es.length
  rw [h.count, if_neg hl]

theorem put_ne_nil (es : List (Str × MVal)) (k : Str) (x : MVal) : put es k x ≠ [] := by
  unfold put
  split
  · rename_i h
    intro h'
    cases es with
    | nil => simp at h
    | cons e es => simp at h'
  · simp

theorem puts_ne_nil : ∀ (ps es : List (Str × MVal)), es ≠ [] ∨ ps ≠ [] → puts es ps ≠ []
  | [], es, h => by
    rcases h with h | h
    · exact h
    · exact absurd rfl h
  | p :: ps, es, _ => puts_ne_nil ps (put es p.1 p.2) (.inl (put_ne_nil es p.1 p.2))

/-- An occurrence whose text is a list of pairs. -/
theorem run_mapS (W : World) (a : Argus) {o : Opt} {h : Handler} {vt : ValueType} {es ps : List (Str × MVal)}
    {v : Str} (hm : IsMapOption o vt) (hh : o.handler = some h) (hs : MapS o es)
    (hp : PairTexts W vt (pieces v) ps) :
    ∃ o' es', runHandler W a h o (some v) = .ok (Err.success, o', []) ∧ MapS o' es' ∧
      (puts es ps ≠ [] → es' ≠ []) ∧ MapArrangedWeak o.flags (puts es ps) es' ∧
      ((∀ e ∈ puts es ps, e.2.Tame) → MapArranged o.flags (puts es ps) es') := by
  have ht := hm.type
  obtain ⟨h', hh', hr⟩ := hm.run (W := W)
  rw [hh] at hh'; cases hh'
  rw [← ht] at hp
  obtain ⟨o1, e1, e2, e3⟩ := storeParts_mapS hs hp
  have m1 : o1.valueType = o.valueType := (congrArg Opt.valueType e3 : o1.meta.valueType = o.meta.valueType)
  have m2 : o1.flags = o.flags := (congrArg Opt.flags e3 : o1.meta.flags = o.meta.flags)
  obtain ⟨k, hk⟩ := hm.kind
  obtain ⟨o2, es2, f1, f2, f3, f4, f5⟩ := applyMapFlags_mapS W e2 (k := k) (by rw [m1, ht]; exact hk)
  rw [m2] at f4 f5
  refine ⟨{ o2 with isAllocated := true }, es2, ?_, ⟨f2.count, f2.val, f2.nodup, f2.typed⟩, f3, f4, f5⟩
  rw [hr, collect]
  rw [← ht, e1]
  simp only [Out.ok_bind, ne_eq, not_true_eq_false, if_false, f1]

theorem give_mapS (W : World) {o : Opt} {vt : ValueType} {es ps : List (Str × MVal)} {v : Str}
    (hm : IsMapOption o vt) (hs : MapS o es) (hp : PairTexts W vt (pieces v) ps) (hne : es ≠ [] ∨ ps ≠ []) :
    ∃ o' es', o.give W (some v) = some o' ∧ MapS o' es' ∧ es' ≠ [] ∧
      MapArrangedWeak o.flags (puts es ps) es' ∧
      ((∀ e ∈ puts es ps, e.2.Tame) → MapArranged o.flags (puts es ps) es') := by
  obtain ⟨h, hh, _⟩ := hm.run (W := W)
  obtain ⟨o', es', e1, e2, e3, e4, e5⟩ := run_mapS W { tables := [] } hm hh hs hp
  exact ⟨o'.markSet, es', give_of_run hh e1, e2.mark (e3 (puts_ne_nil ps es hne)), e3 (puts_ne_nil ps es hne), e4, e5⟩

/-- An occurrence with a text that is not a list of pairs: the pairs before the bad piece are stored. -/
theorem run_bad (W : World) (a : Argus) {o : Opt} {h : Handler} {vt : ValueType} {es ps : List (Str × MVal)}
    {v bad : Str} {good rest : List Str} {st : Int} (hm : IsMapOption o vt) (hh : o.handler = some h)
    (hs : MapS o es) (hv : pieces v = good ++ bad :: rest) (hp : PairTexts W vt good ps)
    (hb : BadPair W vt bad st) :
    ∃ o', runHandler W a h o (some v) = .ok (st, o', [.error st]) ∧ MapS o' (puts es ps) ∧ o'.meta = o.meta := by
  have ht := hm.type
  have hst : st ≠ Err.success := by cases hb <;> decide
  obtain ⟨h', hh', hr⟩ := hm.run (W := W)
  rw [hh] at hh'; cases hh'
  rw [← ht] at hp hb
  obtain ⟨qs, h1, h2, h3⟩ := hp
  obtain ⟨o1, e1, e2, e3⟩ := setAll_mapS qs hs h3
  have m1 : o1.valueType = o.valueType := (congrArg Opt.valueType e3 : o1.meta.valueType = o.meta.valueType)
  refine ⟨o1, ?_, by rw [h2]; exact e2, e3⟩
  rw [hr, collect, storeParts_pieces, hv, ← ht]
  rw [← h1] at e1
  rw [setAll_append _ good _ o o1 e1, setAll]
  have hbad : setKvPair (convOf W o.valueType) o1 bad = .ok (st, o1, [.error st]) := by
    rw [← m1]
    exact setKvPair_bad (by rw [m1, ht]; exact hm.types) (by rw [m1]; exact hb)
  rw [hbad]
  simp only [Out.ok_bind, ne_eq, hst, not_false_eq_true, if_true]

theorem give_success_pairs (W : World) {o o' : Opt} {vt : ValueType} {es : List (Str × MVal)} {v : Str}
    (hm : IsMapOption o vt) (hs : MapS o es) (hg : o.give W (some v) = some o') :
    ∃ ps, PairTexts W vt (pieces v) ps := by
  rcases pairTexts_or W vt (pieces v) with h | ⟨good, rest, bad, ps, st, h1, h2, h3⟩
  · exact h
  · exfalso
    obtain ⟨h, hh, _⟩ := hm.run (W := W)
    obtain ⟨o1, e1, _⟩ := run_bad W { tables := [] } hm hh hs h1 h2 h3
    have hst : st ≠ Err.success := by cases h3 <;> decide
    unfold Opt.give at hg
    rw [hh] at hg
    simp only [e1, if_neg hst] at hg
    cases hg

/-! ### Histories -/

/-- `MapRuns` without what needs comparable values. -/
def MapRunsWeak (fl : Flags) : List (Str × MVal) → List (List (Str × MVal)) → List (Str × MVal) → Prop
  | before, [], after => after = before
  | before, new :: later, after => ∃ m, MapArrangedWeak fl (puts before new) m ∧ MapRunsWeak fl m later after

theorem puts_mem : ∀ (ps es : List (Str × MVal)) {e : Str × MVal}, e ∈ puts es ps → e ∈ es ∨ e ∈ ps
  | [], es, e, h => .inl h
  | p :: ps, es, e, h => by
    rcases puts_mem ps (put es p.1 p.2) h with h | h
    · rcases put_mem h with rfl | h
      · exact .inr (by simp)
      · exact .inl h
    · exact .inr (by simp [h])

theorem giveAll_mapS (W : World) {vt : ValueType} {fl : Flags} : ∀ (ts : List Str) (o o' : Opt)
    (es : List (Str × MVal)), IsMapOption o vt → o.flags = fl → MapS o es → (es ≠ [] ∨ StartsWell ts) →
    o.giveAll W (ts.map some) = some o' →
    ∃ (pss : List (List (Str × MVal))) (es' : List (Str × MVal)), OccurrencePairs W vt ts pss ∧ MapS o' es' ∧
      (es ≠ [] ∨ ts ≠ [] → es' ≠ []) ∧ MapRunsWeak fl es pss es' ∧
      ((∀ e ∈ es, e.2.Tame) → (∀ ps ∈ pss, ∀ e ∈ ps, e.2.Tame) → MapRuns fl es pss es')
  | [], o, o', es, _, _, hs, _, hg => by
    simp only [List.map_nil, Opt.giveAll, Option.some.injEq] at hg
    subst hg
    exact ⟨[], es, rfl, hs, fun h => h.resolve_right (fun h => h rfl), rfl, fun _ _ => rfl⟩
  | t :: ts, o, o', es, hm, hfl, hs, hw, hg => by
    simp only [List.map_cons, Opt.giveAll] at hg
    cases h1 : o.give W (some t) with
    | none => rw [h1] at hg; simp at hg
    | some o1 =>
      rw [h1, Option.bind_some] at hg
      obtain ⟨ps, hp⟩ := give_success_pairs W hm hs h1
      have hne : es ≠ [] ∨ ps ≠ [] := by
        rcases hw with h | h
        · exact .inl h
        · right
          rintro rfl
          obtain ⟨qs, g1, g2, _⟩ := hp
          have : qs = [] := by
            have := g2.symm
            simpa using this
          subst this
          exact h t (by simp) (by simpa using g1)
      obtain ⟨o2, es2, e1, e2, e3, e4, e5⟩ := give_mapS W hm hs hp hne
      rw [h1] at e1
      cases e1
      have hmeta := runHandler_keeps_meta h1
      have m2 : o1.flags = o.flags := (congrArg Opt.flags hmeta : o1.meta.flags = o.meta.flags)
      obtain ⟨pss, es', f1, f2, f3, f4, f5⟩ := giveAll_mapS W ts o1 o' es2 (hm.of_meta hmeta) (m2.trans hfl) e2
        (.inl e3) hg
      rw [hfl] at e4 e5
      refine ⟨ps :: pss, es', ⟨ps, pss, rfl, hp, f1⟩, f2, fun _ => f3 (.inl e3), ⟨es2, e4, f4⟩, fun hT1 hT2 => ?_⟩
      have hT : ∀ e ∈ puts es ps, e.2.Tame := by
        intro e he
        rcases puts_mem ps es he with h | h
        · exact hT1 e h
        · exact hT2 ps (by simp) e h
      have har := e5 hT
      exact ⟨es2, har, f5 (fun e he => hT e (har.sub e he)) (fun qs hq e he => hT2 qs (by simp [hq]) e he)⟩

/-- Texts that stand for pairs are accepted. -/
theorem giveAll_pairs (W : World) {vt : ValueType} : ∀ (ts : List Str) (o : Opt) (es : List (Str × MVal))
    (pss : List (List (Str × MVal))), IsMapOption o vt → MapS o es → (es ≠ [] ∨ StartsWell ts) →
    OccurrencePairs W vt ts pss → ∃ o', o.giveAll W (ts.map some) = some o'
  | [], o, es, _, _, _, _, _ => ⟨o, rfl⟩
  | t :: ts, o, es, _, hm, hs, hw, ⟨ps, pss', _, hp, hps⟩ => by
    have hne : es ≠ [] ∨ ps ≠ [] := by
      rcases hw with h | h
      · exact .inl h
      · right
        rintro rfl
        obtain ⟨qs, g1, g2, _⟩ := hp
        have : qs = [] := by
          have := g2.symm
          simpa using this
        subst this
        exact h t (by simp) (by simpa using g1)
    obtain ⟨o1, es1, e1, e2, e3, _⟩ := give_mapS W hm hs hp hne
    obtain ⟨o', ho'⟩ := giveAll_pairs W ts o1 es1 pss' (hm.of_meta (runHandler_keeps_meta e1)) e2 (.inl e3) hps
    exact ⟨o', by simp only [List.map_cons, Opt.giveAll, e1, Option.bind_some, ho']⟩

/-! ### Last write wins -/

theorem put_perm {es es' : List (Str × MVal)} (h : es.Perm es') (k : Str) (x : MVal) :
    (put es k x).Perm (put es' k x) := by
  unfold put
  have := (h.map Prod.fst).mem_iff (a := k)
  by_cases hk : k ∈ es.map Prod.fst
  · rw [if_pos hk, if_pos (this.1 hk)]; exact h.map _
  · rw [if_neg hk, if_neg (fun h' => hk (this.2 h'))]; exact h.append_right _

theorem puts_perm : ∀ (ps : List (Str × MVal)) {es es' : List (Str × MVal)}, es.Perm es' →
    (puts es ps).Perm (puts es' ps)
  | [], _, _, h => h
  | p :: ps, _, _, h => puts_perm ps (put_perm h p.1 p.2)

theorem puts_append (es ps qs : List (Str × MVal)) : puts es (ps ++ qs) = puts (puts es ps) qs := by
  unfold puts; rw [List.foldl_append]

theorem MapRunsWeak.perm {fl : Flags} (hu : fl.has .uniqueValue = false) :
    ∀ (pss : List (List (Str × MVal))) (es es' : List (Str × MVal)), MapRunsWeak fl es pss es' →
    es'.Perm (puts es pss.flatten)
  | [], es, es', h => by cases h; exact .refl _
  | ps :: pss, es, es', ⟨m, h1, h2⟩ => by
    rw [List.flatten_cons, puts_append]
    exact (MapRunsWeak.perm hu pss m es' h2).trans (puts_perm _ (h1.perm hu))

theorem MapRunsWeak.plain {fl : Flags} (hu : fl.has .uniqueValue = false) (h1 : fl.has .sortedKey = false)
    (h2 : fl.has .sortedValue = false) :
    ∀ (pss : List (List (Str × MVal))) (es es' : List (Str × MVal)), MapRunsWeak fl es pss es' →
    es' = puts es pss.flatten
  | [], es, es', h => h
  | ps :: pss, es, es', ⟨m, g1, g2⟩ => by
    rw [List.flatten_cons, puts_append, MapRunsWeak.plain hu h1 h2 pss m es' g2, g1.plain hu h1 h2]

theorem mem_put {es : List (Str × MVal)} {k k' : Str} {x v : MVal} :
    (k, v) ∈ put es k' x ↔ (k = k' ∧ v = x) ∨ (k ≠ k' ∧ (k, v) ∈ es) := by
  unfold put
  by_cases hk : k' ∈ es.map Prod.fst
  · rw [if_pos hk, List.mem_map]
    constructor
    · rintro ⟨e, he, heq⟩
      split at heq
      · cases heq; exact .inl ⟨rfl, rfl⟩
      · rename_i hn; subst heq; exact .inr ⟨hn, he⟩
    · rintro (⟨rfl, rfl⟩ | ⟨h1, h2⟩)
      · obtain ⟨e, he, hek⟩ := List.mem_map.1 hk
        exact ⟨e, he, by rw [if_pos hek]⟩
      · exact ⟨_, h2, by rw [if_neg h1]⟩
  · rw [if_neg hk, List.mem_append, List.mem_singleton]
    constructor
    · rintro (h | h)
      · refine .inr ⟨?_, h⟩
        rintro rfl
        exact hk (List.mem_map.2 ⟨_, h, rfl⟩)
      · cases h; exact .inl ⟨rfl, rfl⟩
    · rintro (⟨rfl, rfl⟩ | ⟨_, h⟩)
      · exact .inr rfl
      · exact .inl h

theorem lastFor_append (k : Str) (ps : List (Str × MVal)) (p : Str × MVal) :
    lastFor k (ps ++ [p]) = if p.1 = k then some p.2 else lastFor k ps := by
  unfold lastFor
  rw [List.reverse_append, List.reverse_singleton, List.singleton_append, List.find?_cons]
  by_cases h : p.1 = k <;> simp [h]

theorem puts_last : ∀ rs : List (Str × MVal), ∀ k v,
    (k, v) ∈ puts [] rs.reverse ↔ lastFor k rs.reverse = some v
  | [], k, v => by simp [puts, lastFor]
  | p :: rs, k, v => by
    rw [List.reverse_cons, puts_append, lastFor_append]
    show (k, v) ∈ put (puts [] rs.reverse) p.1 p.2 ↔ _
    rw [mem_put, puts_last rs k v]
    by_cases h : p.1 = k
    · simp only [h, ne_eq, not_true_eq_false, false_and, or_false, true_and, if_true, Option.some.injEq]
      exact eq_comm
    · simp [h, Ne.symm h]

theorem puts_keys : ∀ rs : List (Str × MVal),
    (puts [] rs.reverse).map Prod.fst = (rs.reverse.map Prod.fst).eraseDups
  | [] => by simp [puts]
  | p :: rs => by
    rw [List.reverse_cons, puts_append]
    show (put (puts [] rs.reverse) p.1 p.2).map Prod.fst = _
    rw [put_keys, puts_keys rs, List.map_append, List.eraseDups_append]
    have hmem : p.1 ∈ (rs.reverse.map Prod.fst).eraseDups ↔ p.1 ∈ rs.reverse.map Prod.fst := by
      rw [← eraseDups_str]; exact mem_eraseDups_iff
    by_cases h : p.1 ∈ rs.reverse.map Prod.fst
    · rw [if_pos (hmem.2 h)]
      simp only [List.map_cons, List.map_nil, List.removeAll, List.elem_eq_mem, List.filter_cons, h]
      simp
    · rw [if_neg (fun h' => h (hmem.1 h'))]
      simp only [List.map_cons, List.map_nil, List.removeAll, List.elem_eq_mem, List.filter_cons, h]
      simp only [decide_false, Bool.not_false, if_true, List.filter_nil]
      rw [List.eraseDups_cons]
      simp

/-! ### What the whole history guarantees -/

theorem MapRuns.last {fl : Flags} : ∀ (pss : List (List (Str × MVal))) (es es' : List (Str × MVal)), pss ≠ [] →
    MapRuns fl es pss es' → ∃ m, MapArranged fl m es'
  | [], _, _, h, _ => absurd rfl h
  | [ps], es, es', _, ⟨m, h1, h2⟩ => by cases h2; exact ⟨_, h1⟩
  | ps :: qs :: pss, es, es', _, ⟨m, _, h2⟩ => MapRuns.last (qs :: pss) m es' (by simp) h2

end Argus
