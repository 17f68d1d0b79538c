import Verif.Spec.Subprogram
import Verif.Lemmas.Between
import Verif.Lemmas.ReadBack
import Verif.Lemmas.FirstFaultLevel

/-! Lemmas: a subcommand as a program of its own. -/

set_option autoImplicit false

namespace Argus

theorem noEnter_of_entered {acts : List Act} (h : entered acts = []) (p : Ptr) : Act.enter p ∉ acts := by
  intro hm
  have : p ∈ entered acts := List.mem_filterMap.2 ⟨_, hm, rfl⟩
  rw [h] at this; cases this

/-- An argument that calls a command is followed by the arguments of that command. -/
theorem meaning_call {tables : List (List Opt)} {t : Option Nat} {pos : Nat} {only : Bool} {c : Str} {p : Ptr}
    (h : meaning tables t pos only false [c] = [.enter p]) (post : List Str) :
    meaning tables t pos only false (c :: post) = .enter p :: meaning tables (tableBelow tables p) 0 false false post := by
  have e : ∀ (rest : List Str), meaning tables t pos only false (c :: rest) = _ := fun rest => by conv => lhs; unfold meaning
  have enil : ∀ (t : Option Nat) (pos : Nat) (only skip : Bool), meaning tables t pos only skip [] = [] := fun _ _ _ _ => by
    unfold meaning; rfl
  by_cases h1 : argKind c = .dashes
  · rw [e, if_pos h1, enil] at h; cases h
  by_cases h2 : argKind c = .short [] ∧ only = false
  · rw [e, if_neg h1, if_pos h2, enil] at h; cases h
  rw [e, if_neg h1, if_neg h2] at h
  rw [e, if_neg h1, if_neg h2]
  cases t with
  | none => simp at h
  | some k =>
    cases hk : tables[k]? with
    | none => simp [hk] at h
    | some os =>
      simp only [Option.bind_some, hk] at h ⊢
      have no : ∀ (acts : List Act) (s : Bool), entered acts = [] → acts ++ meaning tables (some k) pos false s [] ≠ [.enter p] := by
        intro acts s ha hb
        rw [enil, List.append_nil] at hb
        exact noEnter_of_entered ha p (by rw [hb]; simp)
      have no' : ∀ (acts : List Act) (b : Bool), entered acts = [] → acts ++ meaning tables (some k) (pos + 1) b false [] ≠ [.enter p] := by
        intro acts b ha hb
        rw [enil, List.append_nil] at hb
        exact noEnter_of_entered ha p (by rw [hb]; simp)
      by_cases h3 : only = true
      · rw [if_pos h3] at h
        exact absurd h (no' _ _ (entered_posActs _ _ _ _))
      · rw [if_neg h3] at h ⊢
        cases ha : argKind c with
        | dashes => exact absurd ha h1
        | long n v =>
          simp only [ha] at h
          exact absurd h (no _ _ (entered_longActs _ _ _ _ _))
        | short cl =>
          simp only [ha] at h
          split at h
          · exact absurd h (no' _ _ (entered_posActs _ _ _ _))
          · exact absurd h (no _ _ (entered_shortActs _ _ _ _))
        | word =>
          simp only [ha] at h ⊢
          cases hs : subChoice os c with
          | none => rw [hs] at h; exact absurd h (no' _ _ (entered_posActs _ _ _ _))
          | some r =>
            cases r with
            | error d => rw [hs] at h; simp at h
            | ok x =>
              rw [hs] at h
              simp only [enil, List.cons.injEq, Act.enter.injEq, and_true] at h
              subst h
              obtain ⟨g1, _⟩ := subChoice_get hs
              have : tableBelow tables ⟨k, x.2⟩ = x.1.subOptions := by
                unfold tableBelow placeAt; rw [hk, Option.bind_some, g1, Option.bind_some]
              rw [this]

theorem CallsCommand.asks {a : Argus} {pre : List Str} {c : Str} {p : Ptr} {k : Nat} (h : CallsCommand a pre c p k)
    (post : List Str) : a.asks (pre ++ c :: post) = a.asks pre ++ .enter p :: (a.standAlone k).asks post := by
  obtain ⟨t', pos', only', h1⟩ := meaning_append a.tables pre.length pre (Nat.le_refl _) (some a.root) 0 false false
    (fun h => (nomatch h)) h.before
  have h2 : meaning a.tables t' pos' only' false [c] = [.enter p] := by
    have := h.calls
    unfold Argus.asks at this
    rw [h1 [c]] at this
    exact List.append_cancel_left this
  have h3 := meaning_call h2 post
  rw [h.table] at h3
  unfold Argus.asks
  rw [h1 (c :: post), h3]
  rfl

/-! ## Where things are -/

theorem entered_cons_enter (p : Ptr) (acts : List Act) : entered (.enter p :: acts) = p :: entered acts := by simp [entered]

theorem subChain_tables {tables : List (List Opt)} : ∀ (ps : List Ptr) {t : Option Nat}, SubChain tables t ps → ∀ q ∈ ps,
    q.tbl ∈ t.toList ++ ps.filterMap (tableBelow tables)
  | [], t, _, q, hq => by cases hq
  | p :: ps, t, h, q, hq => by
    obtain ⟨h1, os, o, h2, h3, _, h4⟩ := h
    rcases List.mem_cons.1 hq with rfl | hq
    · rw [h1]; simp
    · have hb : tableBelow tables p = o.subOptions := by
        unfold tableBelow placeAt; rw [h2, Option.bind_some, h3, Option.bind_some]
      have := subChain_tables ps h4 q hq
      rcases List.mem_append.1 this with h5 | h5
      · refine List.mem_append_right _ (List.mem_filterMap.2 ⟨p, by simp, ?_⟩)
        rw [hb]; simpa using h5
      · refine List.mem_append_right _ ?_
        rw [List.filterMap_cons]
        split
        · exact h5
        · exact List.mem_cons_of_mem _ h5

/-- A line asks something of the tables of the commands it calls only. -/
theorem asks_tables {a : Argus} {args : List Str} {q : Ptr} (h : (∃ x, Act.give q x ∈ a.asks args) ∨ Act.enter q ∈ a.asks args) :
    q.tbl ∈ pathTables a (entered (a.asks args)) := by
  rcases h with ⟨x, h⟩ | h
  · rcases meaning_given_below a.tables q args (some a.root) 0 false false x h with h1 | ⟨p, h1, h2⟩
    · simp only [Option.some.injEq] at h1
      rw [← h1]; simp [pathTables]
    · exact List.mem_cons_of_mem _ (List.mem_filterMap.2 ⟨p, h1, h2⟩)
  · have h1 : q ∈ entered (a.asks args) := List.mem_filterMap.2 ⟨_, h, rfl⟩
    have := subChain_tables _ (meaning_chain a.tables args (some a.root) 0 false false) q h1
    exact this

theorem change_untouched {W : World} {q : Ptr} : ∀ {acts : List Act}, (∀ x, Act.give q x ∉ acts) → Act.enter q ∉ acts →
    acts.filterMap (Act.change W q) = [] := by
  intro acts h1 h2
  refine List.filterMap_eq_nil_iff.2 fun x hx => ?_
  cases x with
  | give p y =>
    simp only [Act.change]
    rw [if_neg]
    rintro rfl
    exact h1 y hx
  | enter p =>
    simp only [Act.change]
    rw [if_neg]
    rintro rfl
    exact h2 hx
  | fail d => rfl
  | noTable => rfl

section
variable {W : World} {env : Env} {a : Argus} {pre post : List Str} {c : Str} {p : Ptr} {k : Nat}

theorem CallsCommand.outer (h : CallsCommand a pre c p k) {q : Ptr}
    (hq : (∃ x, Act.give q x ∈ a.asks pre ++ [.enter p]) ∨ Act.enter q ∈ a.asks pre ++ [.enter p]) : q.tbl ∈ a.outside pre := by
  have h1 := meaning_chain a.tables (pre ++ [c]) (some a.root) 0 false false
  rw [show meaning a.tables (some a.root) 0 false false (pre ++ [c]) = a.asks (pre ++ [c]) from rfl, h.calls,
    entered_append] at h1
  have key : ∀ (ps : List Ptr) (t : Option Nat), SubChain a.tables t (ps ++ [p]) →
      p.tbl ∈ t.toList ++ ps.filterMap (tableBelow a.tables) := by
    intro ps
    induction ps with
    | nil => intro t ht; rw [ht.1]; simp
    | cons r ps ih =>
      intro t ⟨g1, os, o, g2, g3, _, g4⟩
      have hb : tableBelow a.tables r = o.subOptions := by
        unfold tableBelow placeAt; rw [g2, Option.bind_some, g3, Option.bind_some]
      have := ih _ g4
      refine List.mem_append_right _ ?_
      rw [List.filterMap_cons, hb]
      cases hs : o.subOptions with
      | none => rw [hs] at this; simpa using this
      | some j => rw [hs] at this; simpa using this
  rcases hq with ⟨x, hq⟩ | hq
  · rcases List.mem_append.1 hq with hq | hq
    · exact asks_tables (.inl ⟨x, hq⟩)
    · simp at hq
  · rcases List.mem_append.1 hq with hq | hq
    · exact asks_tables (.inr hq)
    · simp only [List.mem_singleton, Act.enter.injEq] at hq
      subst hq
      exact key _ _ h1

/-- What is asked of entries outside. -/
theorem CallsCommand.change_outside (h : CallsCommand a pre c p k) (hap : Apart a pre k post) {q : Ptr} (hq : q.tbl ∈ a.outside pre) :
    (a.asks (pre ++ c :: post)).filterMap (Act.change W q) = (a.asks pre ++ [Act.enter p]).filterMap (Act.change W q) := by
  rw [h.asks post, show a.asks pre ++ .enter p :: (a.standAlone k).asks post =
    (a.asks pre ++ [.enter p]) ++ (a.standAlone k).asks post by simp, List.filterMap_append,
    change_untouched (acts := (a.standAlone k).asks post), List.append_nil]
  · exact fun x hx => hap _ hq (asks_tables (.inl ⟨x, hx⟩))
  · exact fun hx => hap _ hq (asks_tables (.inr hx))

/-- What is asked of entries that are not outside. -/
theorem CallsCommand.change_inside (h : CallsCommand a pre c p k) {q : Ptr} (hq : q.tbl ∉ a.outside pre) (done : List Act) :
    (a.asks pre ++ Act.enter p :: done).filterMap (Act.change W q) = done.filterMap (Act.change W q) := by
  rw [show a.asks pre ++ .enter p :: done = (a.asks pre ++ [.enter p]) ++ done by simp, List.filterMap_append,
    change_untouched (acts := a.asks pre ++ [Act.enter p]), List.nil_append]
  · exact fun x hx => hq (h.outer (.inl ⟨x, hx⟩))
  · exact fun hx => hq (h.outer (.inr hx))

theorem CallsCommand.entered (h : CallsCommand a pre c p k) (post : List Str) :
    entered (a.asks (pre ++ c :: post)) = entered (a.asks pre) ++ p :: entered ((a.standAlone k).asks post) := by
  rw [h.asks, entered_append, entered_cons_enter]

theorem CallsCommand.path (h : CallsCommand a pre c p k) (post : List Str) :
    pathTables a (Argus.entered (a.asks (pre ++ c :: post))) = a.outside pre ++ a.inside k post := by
  rw [h.entered]
  unfold Argus.outside Argus.inside pathTables
  rw [List.filterMap_append, List.filterMap_cons, h.table]
  rfl

theorem CallsCommand.count_outside (h : CallsCommand a pre c p k) (hap : Apart a pre k post) {j : Nat} (hj : j ∈ a.outside pre) :
    (pathTables a (Argus.entered (a.asks (pre ++ c :: post)))).count j = (a.outside pre).count j := by
  rw [h.path, List.count_append, List.count_eq_zero.2 (hap j hj), Nat.add_zero]

theorem CallsCommand.count_inside (h : CallsCommand a pre c p k) {j : Nat} (hj : j ∉ a.outside pre) :
    (pathTables a (Argus.entered (a.asks (pre ++ c :: post)))).count j = (a.inside k post).count j := by
  rw [h.path, List.count_append, List.count_eq_zero.2 hj, Nat.zero_add]

end

/-! ## Tables put together -/

/-- The tables `ks` of `A`, the others of `B`. -/
def pickTables (ks : List Nat) (A B : List (List Opt)) : List (List Opt) :=
  (List.range A.length).map (fun j => if j ∈ ks then A[j]?.getD [] else B[j]?.getD [])

theorem pick_get {ks : List Nat} {A B : List (List Opt)} (hl : A.length = B.length) (j : Nat) :
    (pickTables ks A B)[j]? = if j ∈ ks then A[j]? else B[j]? := by
  unfold pickTables
  rw [List.getElem?_map]
  by_cases hj : j < A.length
  · rw [List.getElem?_range hj, Option.map_some]
    have h1 : A[j]? = some A[j] := List.getElem?_eq_getElem hj
    have h2 : B[j]? = some (B[j]'(hl ▸ hj)) := List.getElem?_eq_getElem (hl ▸ hj)
    rw [h1, h2]
    split <;> rfl
  · rw [List.getElem?_eq_none (by simpa using hj), Option.map_none, List.getElem?_eq_none (by omega),
      List.getElem?_eq_none (by omega)]
    split <;> rfl

theorem pick_place {ks : List Nat} {A B : List (List Opt)} (hl : A.length = B.length) (q : Ptr) :
    placeAt (pickTables ks A B) q = if q.tbl ∈ ks then placeAt A q else placeAt B q := by
  unfold placeAt
  rw [pick_get hl]
  split <;> rfl

theorem pick_sizes {ks : List Nat} {A B C : List (List Opt)} (h1 : A.map List.length = C.map List.length)
    (h2 : B.map List.length = C.map List.length) : (pickTables ks A B).map List.length = C.map List.length := by
  have hl : A.length = B.length := by
    have := congrArg List.length (h1.trans h2.symm); simpa using this
  refine List.ext_getElem? fun j => ?_
  rw [List.getElem?_map, pick_get hl]
  split
  · rw [← h1, List.getElem?_map]
  · rw [← h2, List.getElem?_map]

theorem sizes_length {A C : List (List Opt)} (h1 : A.map List.length = C.map List.length) : A.length = C.length := by
  have := congrArg List.length h1; simpa using this

section
variable {W : World} {env : Env} {a : Argus} {pre post post1 post2 : List Str} {c : Str} {p : Ptr} {k : Nat}
  {T T1 T2 : List (List Opt)} {path path1 path2 : List Ptr}

theorem mem_inside_root (a : Argus) (k : Nat) (post : List Str) : k ∈ a.inside k post := by
  unfold Argus.inside pathTables; exact List.mem_cons_self ..

theorem mem_inside_below {q : Ptr} {j : Nat} (hq : q ∈ Argus.entered ((a.standAlone k).asks post)) (hj : tableBelow a.tables q = some j) :
    j ∈ a.inside k post := by
  unfold Argus.inside pathTables
  exact List.mem_cons_of_mem _ (List.mem_filterMap.2 ⟨q, hq, hj⟩)

theorem CallsCommand.readable_post (h : CallsCommand a pre c p k)
    (hr : ∀ x ∈ a.asks (pre ++ c :: post), x ≠ .noTable ∧ ∀ d, x ≠ .fail d) :
    ∀ x ∈ (a.standAlone k).asks post, x ≠ .noTable ∧ ∀ d, x ≠ .fail d :=
  fun x hx => hr x (by rw [h.asks]; simp [hx])

/-- What is accepted inside. -/
theorem CallsCommand.accepted_inside (h : CallsCommand a pre c p k) (hap : Apart a pre k post)
    (hacc : Accepted W env a (pre ++ c :: post) T path) :
    Accepted W env (a.standAlone k) post (pickTables (a.inside k post) T a.tables) (Argus.entered ((a.standAlone k).asks post)) := by
  have hl := sizes_length hacc.sizes
  have hpath : path = Argus.entered (a.asks (pre ++ c :: post)) := by rw [hacc.selected, h.fresh, List.nil_append]
  have hmem : ∀ q ∈ Argus.entered ((a.standAlone k).asks post), q ∈ path := by
    intro q hq; rw [hpath, h.entered]; simp [hq]
  refine ⟨h.readable_post hacc.readable, rfl, .inr ?_, pick_sizes hacc.sizes rfl, fun q o hq => ?_, ?_, fun q hq => ?_⟩
  · rcases hacc.depth with hd | hd
    · rw [h.entered] at hd; simp at hd
    · rw [hpath, h.entered] at hd
      simp only [List.length_append, List.length_cons] at hd
      omega
  · rw [pick_place hl]
    by_cases hin : q.tbl ∈ a.inside k post
    · rw [if_pos hin]
      have hout : q.tbl ∉ a.outside pre := fun ho => hap _ ho hin
      obtain ⟨o', g1, g2⟩ := hacc.entries q o hq
      rw [hpath, h.count_inside hout, h.asks, h.change_inside hout] at g2
      exact ⟨o', g1, g2⟩
    · rw [if_neg hin]
      refine ⟨o, hq, ?_⟩
      rw [change_untouched (fun x hx => hin (asks_tables (.inl ⟨x, hx⟩))) (fun hx => hin (asks_tables (.inr hx))),
        show (pathTables (a.standAlone k) (Argus.entered ((a.standAlone k).asks post))).count q.tbl = 0 from List.count_eq_zero.2 hin]
      rfl
  · obtain ⟨j, os, g1, g2, g3⟩ := hacc.levels p (by rw [hpath, h.entered]; simp)
    rw [h.table] at g1
    simp only [Option.some.injEq] at g1
    subst g1
    exact ⟨os, by rw [show (a.standAlone k).root = k from rfl, pick_get hl, if_pos (mem_inside_root a k post)]; exact g2, g3⟩
  · obtain ⟨j, os, g1, g2, g3⟩ := hacc.levels q (hmem q hq)
    exact ⟨j, os, g1, by rw [pick_get hl, if_pos (mem_inside_below hq g1)]; exact g2, g3⟩

/-- What is outside does not depend on the arguments of the command. -/
theorem CallsCommand.entries_outside (h : CallsCommand a pre c p k) (hap : Apart a pre k post1)
    (hacc : Accepted W env a (pre ++ c :: post1) T1 path1) (hap2 : Apart a pre k post2) {q : Ptr} {o : Opt}
    (hq : placeAt a.tables q = some o) (hout : q.tbl ∈ a.outside pre) : ∃ o', placeAt T1 q = some o' ∧
      Through ((a.asks (pre ++ c :: post2)).filterMap (Act.change W q) ++
        List.replicate ((pathTables a (Argus.entered (a.asks (pre ++ c :: post2)))).count q.tbl) (LooksUp W env a.envPrefix)) o o' := by
  have hpath : path1 = Argus.entered (a.asks (pre ++ c :: post1)) := by rw [hacc.selected, h.fresh, List.nil_append]
  obtain ⟨o', g1, g2⟩ := hacc.entries q o hq
  rw [hpath, h.count_outside hap hout, h.change_outside hap hout] at g2
  exact ⟨o', g1, by rw [h.count_outside hap2 hout, h.change_outside hap2 hout]; exact g2⟩

theorem CallsCommand.entries_inside (h : CallsCommand a pre c p k)
    (hacc : Taken W env (a.standAlone k) post2 T2 path2) {q : Ptr} {o : Opt}
    (hq : placeAt a.tables q = some o) (hout : q.tbl ∉ a.outside pre) : ∃ o', placeAt T2 q = some o' ∧
      Through ((a.asks (pre ++ c :: post2)).filterMap (Act.change W q) ++
        List.replicate ((pathTables a (Argus.entered (a.asks (pre ++ c :: post2)))).count q.tbl) (LooksUp W env a.envPrefix)) o o' := by
  have hpath : path2 = Argus.entered ((a.standAlone k).asks post2) := by rw [hacc.line.selected]; rfl
  obtain ⟨o', g1, g2⟩ := hacc.entries q o hq
  rw [hpath] at g2
  refine ⟨o', g1, ?_⟩
  rw [h.count_inside hout, h.asks, h.change_inside hout]
  exact g2

theorem CallsCommand.lineDone (h : CallsCommand a pre c p k) (hl : LineDone W (a.standAlone k) post2 path2)
    (hd : (Argus.entered (a.asks pre)).length + 1 + path2.length ≤ 8) :
    LineDone W a (pre ++ c :: post2) (Argus.entered (a.asks pre) ++ p :: path2) := by
  have hpath : path2 = Argus.entered ((a.standAlone k).asks post2) := by rw [hl.selected]; rfl
  refine ⟨fun x hx => ?_, ?_, .inr (by simp only [List.length_append, List.length_cons]; omega)⟩
  · rw [h.asks] at hx
    rcases List.mem_append.1 hx with hx | hx
    · exact h.before x hx
    · rcases List.mem_cons.1 hx with rfl | hx
      · simp
      · exact hl.readable x hx
  · rw [h.fresh, h.entered, List.nil_append, ← hpath]

/-- What is taken outside and inside is taken together. -/
theorem CallsCommand.taken_both (h : CallsCommand a pre c p k) (hap : Apart a pre k post1)
    (hacc : Accepted W env a (pre ++ c :: post1) T1 path1) (hap2 : Apart a pre k post2)
    (hacc2 : Taken W env (a.standAlone k) post2 T2 path2) (hd : (Argus.entered (a.asks pre)).length + 1 + path2.length ≤ 8) :
    Taken W env a (pre ++ c :: post2) (pickTables (a.outside pre) T1 T2) (Argus.entered (a.asks pre) ++ p :: path2) := by
  have hl1 := sizes_length hacc.sizes
  have hl2 : T2.length = a.tables.length := sizes_length hacc2.sizes
  have hl := hl1.trans hl2.symm
  have hdone := h.lineDone hacc2.line hd
  have hpath : Argus.entered (a.asks pre) ++ p :: path2 = Argus.entered (a.asks (pre ++ c :: post2)) := by
    rw [hdone.selected, h.fresh, List.nil_append]
  refine ⟨hdone, pick_sizes hacc.sizes hacc2.sizes, fun q o hq => ?_⟩
  rw [pick_place hl, hpath]
  by_cases hout : q.tbl ∈ a.outside pre
  · rw [if_pos hout]; exact h.entries_outside hap hacc hap2 hq hout
  · rw [if_neg hout]; exact h.entries_inside hacc2 hq hout

/-- The levels outside are in order. -/
theorem CallsCommand.levels_outside (h : CallsCommand a pre c p k) (hacc : Accepted W env a (pre ++ c :: post1) T1 path1)
    {j : Nat} (hj : j ∈ a.outside pre) : ∃ os, T1[j]? = some os ∧ LevelOk W os := by
  have hpath : path1 = Argus.entered (a.asks (pre ++ c :: post1)) := by rw [hacc.selected, h.fresh, List.nil_append]
  unfold Argus.outside pathTables at hj
  rcases List.mem_cons.1 hj with rfl | hj
  · exact hacc.root
  · obtain ⟨q, g1, g2⟩ := List.mem_filterMap.1 hj
    obtain ⟨j', os, g3, g4, g5⟩ := hacc.levels q (by rw [hpath, h.entered]; simp [g1])
    rw [g2] at g3
    simp only [Option.some.injEq] at g3
    subst g3
    exact ⟨os, g4, g5⟩

theorem CallsCommand.accepted_both (h : CallsCommand a pre c p k) (hap : Apart a pre k post1)
    (hacc : Accepted W env a (pre ++ c :: post1) T1 path1) (hap2 : Apart a pre k post2)
    (hacc2 : Accepted W env (a.standAlone k) post2 T2 path2) (hd : (Argus.entered (a.asks pre)).length + 1 + path2.length ≤ 8) :
    Accepted W env a (pre ++ c :: post2) (pickTables (a.outside pre) T1 T2) (Argus.entered (a.asks pre) ++ p :: path2) := by
  have hl1 := sizes_length hacc.sizes
  have hl2 : T2.length = a.tables.length := sizes_length hacc2.sizes
  have hl := hl1.trans hl2.symm
  have ht := h.taken_both hap hacc hap2 (accepted_taken hacc2) hd
  have hpath2 : path2 = Argus.entered ((a.standAlone k).asks post2) := by rw [hacc2.selected]; rfl
  refine ⟨ht.line.readable, ht.line.selected, ht.line.depth, ht.sizes, ht.entries, ?_, fun q hq => ?_⟩
  · rw [pick_get hl, if_pos (by unfold Argus.outside pathTables; exact List.mem_cons_self ..)]
    exact hacc.root
  · have inner : ∀ j, j ∈ a.inside k post2 → (∃ os, T2[j]? = some os ∧ LevelOk W os) →
        ∃ os, (pickTables (a.outside pre) T1 T2)[j]? = some os ∧ LevelOk W os := by
      rintro j hj ⟨os, g1, g2⟩
      exact ⟨os, by rw [pick_get hl, if_neg (fun ho => hap2 _ ho hj)]; exact g1, g2⟩
    rcases List.mem_append.1 hq with hq | hq
    · have hpath : path1 = Argus.entered (a.asks (pre ++ c :: post1)) := by rw [hacc.selected, h.fresh, List.nil_append]
      obtain ⟨j, os, g1, g2, g3⟩ := hacc.levels q (by rw [hpath, h.entered]; simp [hq])
      refine ⟨j, os, g1, ?_, g3⟩
      rw [pick_get hl, if_pos]
      · exact g2
      · unfold Argus.outside pathTables
        exact List.mem_cons_of_mem _ (List.mem_filterMap.2 ⟨q, hq, g1⟩)
    · rcases List.mem_cons.1 hq with rfl | hq
      · obtain ⟨os, g1, g2⟩ := inner k (mem_inside_root a k post2) hacc2.root
        exact ⟨k, os, h.table, g1, g2⟩
      · obtain ⟨j, os, g1, g2, g3⟩ := hacc2.levels q hq
        obtain ⟨os', g4, g5⟩ := inner j (mem_inside_below (by rw [← hpath2]; exact hq) g1) ⟨os, g2, g3⟩
        exact ⟨j, os', g1, g4, g5⟩

end

/-! ## Faults inside -/

theorem lookups_two (T : List (List Opt)) (ks js : List Nat) : lookups T (ks ++ js) = lookups T ks ++ lookups T js := by
  unfold lookups; rw [List.flatMap_append]

theorem lookups_tbl {T : List (List Opt)} {ks : List Nat} {q : Ptr} (h : q ∈ lookups T ks) : q.tbl ∈ ks := by
  unfold lookups at h
  obtain ⟨j, h1, h2⟩ := List.mem_flatMap.1 h
  obtain ⟨i, _, h3⟩ := List.mem_map.1 h2
  rw [← h3]; exact h1

theorem count_lookups {T : List (List Opt)} {q : Ptr} {o : Opt} (h : placeAt T q = some o) (ks : List Nat) :
    (lookups T ks).count q = ks.count q.tbl := by
  obtain ⟨n, h2, h3⟩ := placeAt_size h
  rw [← lookups_visitAll, count_visitAll q _ _ n h2 h3]

section
variable {W : World} {env : Env} {a : Argus} {pre post post1 : List Str} {c : Str} {p : Ptr} {k : Nat}
  {T1 : List (List Opt)} {path1 : List Ptr}

/-- What the words before ask of entries outside goes through. -/
theorem CallsCommand.through_outside (h : CallsCommand a pre c p k) (hap : Apart a pre k post1)
    (hacc : Accepted W env a (pre ++ c :: post1) T1 path1) {q : Ptr} {o : Opt} (hq : placeAt a.tables q = some o)
    (hout : q.tbl ∈ a.outside pre) : ∃ o', Through ((a.asks pre ++ [Act.enter p]).filterMap (Act.change W q) ++
      List.replicate ((a.outside pre).count q.tbl) (LooksUp W env a.envPrefix)) o o' := by
  have hpath : path1 = Argus.entered (a.asks (pre ++ c :: post1)) := by rw [hacc.selected, h.fresh, List.nil_append]
  obtain ⟨o', _, g2⟩ := hacc.entries q o hq
  rw [hpath, h.count_outside hap hout, h.change_outside hap hout] at g2
  exact ⟨o', g2⟩

theorem CallsCommand.lineStops (h : CallsCommand a pre c p k) (hap : Apart a pre k post1)
    (hacc : Accepted W env a (pre ++ c :: post1) T1 path1) (hap2 : Apart a pre k post)
    (hd : (Argus.entered (a.asks pre)).length + 1 + (Argus.entered ((a.standAlone k).asks post)).length ≤ 8) {st : Int}
    {done rest : List Act} {act : Act} (hl : LineStops W (a.standAlone k) post st done act rest) :
    LineStops W a (pre ++ c :: post) st (a.asks pre ++ .enter p :: done) act rest := by
  have hsub : ∀ x ∈ done, x ∈ (a.standAlone k).asks post := fun x hx => by rw [hl.split]; simp [hx]
  refine ⟨by rw [h.asks, hl.split]; simp, fun x hx => ?_, .inr ?_, fun q o hq => ?_, ?_⟩
  · rcases List.mem_append.1 hx with hx | hx
    · exact h.before x hx
    · rcases List.mem_cons.1 hx with rfl | hx
      · simp
      · exact hl.readable x hx
  · rw [h.fresh, List.nil_append, entered_append, entered_cons_enter]
    rw [hl.split, entered_append] at hd
    simp only [List.length_append, List.length_cons] at hd ⊢
    omega
  · by_cases hout : q.tbl ∈ a.outside pre
    · obtain ⟨o', g⟩ := h.through_outside hap hacc hq hout
      obtain ⟨o1, g1, _⟩ := (through_two _ _ _ _).1 g
      refine ⟨o1, ?_⟩
      rw [show a.asks pre ++ .enter p :: done = (a.asks pre ++ [.enter p]) ++ done by simp, List.filterMap_append,
        change_untouched (acts := done) (fun x hx => hap2 _ hout (asks_tables (.inl ⟨x, hsub _ hx⟩)))
          (fun hx => hap2 _ hout (asks_tables (.inr (hsub _ hx)))), List.append_nil]
      exact g1
    · rw [h.change_inside hout]
      exact hl.taken q o hq
  · rcases hl.stops with rfl | ⟨q, x, o, o', rfl, g2, g3, g4⟩
    · exact .inl rfl
    · refine .inr ⟨q, x, o, o', rfl, g2, ?_, g4⟩
      rw [h.change_inside (fun hout => hap2 _ hout (asks_tables (.inl ⟨x, by rw [hl.split]; simp⟩)))]
      exact g3

theorem CallsCommand.envStops (h : CallsCommand a pre c p k) (hap : Apart a pre k post1)
    (hacc : Accepted W env a (pre ++ c :: post1) T1 path1) (hap2 : Apart a pre k post)
    (hd : (Argus.entered (a.asks pre)).length + 1 + (Argus.entered ((a.standAlone k).asks post)).length ≤ 8) {st : Int}
    {path before after : List Ptr} {q : Ptr} (he : EnvStops W env (a.standAlone k) post st path before after q) :
    EnvStops W env a (pre ++ c :: post) st (Argus.entered (a.asks pre) ++ p :: path) (lookups a.tables (a.outside pre) ++ before)
      after q := by
  have hp : path = Argus.entered ((a.standAlone k).asks post) := by rw [he.line.selected]; rfl
  have hdone := h.lineDone he.line (by rw [hp]; exact hd)
  have hpt : pathTables a (Argus.entered (a.asks pre) ++ p :: path) = a.outside pre ++ a.inside k post := by
    rw [hp, ← h.entered, h.path]
  have hsplit : lookups a.tables (a.inside k post) = before ++ q :: after := by
    have := he.split
    rw [hp] at this
    exact this
  have hin : ∀ r ∈ before ++ q :: after, r.tbl ∈ a.inside k post := fun r hr => lookups_tbl (by rw [hsplit]; exact hr)
  have hcount : ∀ r : Ptr, r.tbl ∉ a.outside pre → (lookups a.tables (a.outside pre) ++ before).count r = before.count r := by
    intro r hr
    rw [List.count_append, List.count_eq_zero.2 (fun hm => hr (lookups_tbl hm)), Nat.zero_add]
  refine ⟨hdone, ?_, fun r o hr => ?_, ?_⟩
  · rw [hpt, lookups_two, hsplit, List.append_assoc]
  · by_cases hout : r.tbl ∈ a.outside pre
    · obtain ⟨o', g⟩ := h.through_outside hap hacc hr hout
      refine ⟨o', ?_⟩
      have hz : before.count r = 0 :=
        List.count_eq_zero.2 (fun hm => hap2 _ hout (hin r (List.mem_append_left _ hm)))
      rw [List.count_append, count_lookups hr, hz, Nat.add_zero, h.change_outside hap2 hout]
      exact g
    · rw [hcount r hout, h.asks, h.change_inside hout]
      exact he.taken r o hr
  · obtain ⟨o, o', n, v, g1, g2, g3⟩ := he.stops
    have hout : q.tbl ∉ a.outside pre := fun ho => hap2 _ ho (hin q (by simp))
    refine ⟨o, o', n, v, g1, ?_, g3⟩
    rw [hcount q hout, h.asks, h.change_inside hout]
    exact g2

theorem CallsCommand.levelStops (h : CallsCommand a pre c p k) (hap : Apart a pre k post1)
    (hacc : Accepted W env a (pre ++ c :: post1) T1 path1) (hap2 : Apart a pre k post)
    (hd : (Argus.entered (a.asks pre)).length + 1 + (Argus.entered ((a.standAlone k).asks post)).length ≤ 8) {st : Int}
    {T : List (List Opt)} {path : List Ptr} {before after : List Nat} {j : Nat}
    (he : LevelStops W env (a.standAlone k) post st T path before after j) :
    LevelStops W env a (pre ++ c :: post) st (pickTables (a.outside pre) T1 T) (Argus.entered (a.asks pre) ++ p :: path)
      (a.outside pre ++ before) after j := by
  have hp : path = Argus.entered ((a.standAlone k).asks post) := by rw [he.taken.line.selected]; rfl
  have hl1 := sizes_length hacc.sizes
  have hl2 : T.length = a.tables.length := sizes_length he.taken.sizes
  have hl := hl1.trans hl2.symm
  have hpt : pathTables a (Argus.entered (a.asks pre) ++ p :: path) = a.outside pre ++ a.inside k post := by
    rw [hp, ← h.entered, h.path]
  have hsplit : a.inside k post = before ++ j :: after := by
    have := he.split
    rw [hp] at this
    exact this
  have hno : ∀ i ∈ before ++ j :: after, i ∉ a.outside pre := fun i hi ho => hap2 i ho (by rw [hsplit]; exact hi)
  refine ⟨h.taken_both hap hacc hap2 he.taken (by rw [hp]; exact hd), by rw [hpt, hsplit, List.append_assoc], fun i hi => ?_, ?_⟩
  · by_cases ho : i ∈ a.outside pre
    · rw [pick_get hl, if_pos ho]
      exact h.levels_outside hacc ho
    · rw [pick_get hl, if_neg ho]
      rcases List.mem_append.1 hi with hi | hi
      · exact absurd hi ho
      · exact he.fine i hi
  · rw [pick_get hl, if_neg (hno j (by simp))]
    exact he.stops

/-- A fault inside is the fault of the whole. -/
theorem CallsCommand.fault_inside (h : CallsCommand a pre c p k) (hap : Apart a pre k post1)
    (hacc : Accepted W env a (pre ++ c :: post1) T1 path1) (hap2 : Apart a pre k post)
    (hd : (Argus.entered (a.asks pre)).length + 1 + (Argus.entered ((a.standAlone k).asks post)).length ≤ 8) {e : ParseEnd}
    (hf : FirstFault W env (a.standAlone k) post e) : FirstFault W env a (pre ++ c :: post) e := by
  cases hf with
  | exit done rest act g => exact .exit _ _ _ (h.lineStops hap hacc hap2 hd g)
  | line st done rest act hs g => exact .line st _ _ _ hs (h.lineStops hap hacc hap2 hd g)
  | env st path before after q g => exact .env st _ _ _ _ (h.envStops hap hacc hap2 hd g)
  | level st T path before after j g => exact .level st _ _ _ _ _ (h.levelStops hap hacc hap2 hd g)

end

end Argus
