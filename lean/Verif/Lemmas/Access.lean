import Verif.Lemmas.State
import Verif.Lemmas.Strings
import Verif.Lemmas.Maps
import Verif.Lemmas.Depth
import Verif.Lemmas.Validate
import Verif.Spec.Access

/-! Lookup by path, queries and iterators. -/

set_option autoImplicit false

namespace Argus

theorem findName_some {os : List Opt} {n : Str} {i : Nat} : findName os n = some i ↔
    ∃ pre o post, os = pre ++ o :: post ∧ pre.length = i ∧ o.name = some n ∧ ∀ x ∈ pre, x.name ≠ some n := by
  unfold findName
  induction os generalizing i with
  | nil => simp
  | cons x xs ih =>
    rw [List.findIdx?_cons]
    by_cases hx : x.name = some n
    · have hb : (x.name == some n) = true := by simp [hx]
      rw [if_pos hb, Option.some.injEq]
      constructor
      · rintro rfl; exact ⟨[], x, xs, rfl, rfl, hx, by simp⟩
      · rintro ⟨pre, o, post, h1, h2, h3, h4⟩
        cases pre with
        | nil => simpa using h2
        | cons y ys =>
          simp only [List.cons_append, List.cons.injEq] at h1
          exact absurd hx (h1.1 ▸ h4 y (by simp))
    · have hb : (x.name == some n) = false := by simp [hx]
      rw [hb]
      simp only [Bool.false_eq_true, if_false, Option.map_eq_some_iff]
      constructor
      · rintro ⟨j, hj, rfl⟩
        obtain ⟨pre, o, post, rfl, rfl, h3, h4⟩ := ih.1 hj
        refine ⟨x :: pre, o, post, rfl, rfl, h3, ?_⟩
        intro y hy
        rcases List.mem_cons.1 hy with rfl | hy
        · exact hx
        · exact h4 y hy
      · rintro ⟨pre, o, post, h1, h2, h3, h4⟩
        cases pre with
        | nil =>
          simp only [List.nil_append, List.cons.injEq] at h1
          exact absurd (h1.1 ▸ h3) hx
        | cons y ys =>
          simp only [List.cons_append, List.cons.injEq] at h1
          exact ⟨ys.length, ih.2 ⟨ys, o, post, h1.2, rfl, h3, fun z hz => h4 z (by simp [hz])⟩, h2⟩

theorem findName_none {os : List Opt} {n : Str} : findName os n = none ↔ ∀ x ∈ os, x.name ≠ some n := by
  unfold findName
  rw [List.findIdx?_eq_none_iff]
  simp

/-- Lookup in one existing table. -/
theorem findNameIn_cases {a : Argus} {k : Nat} {os : List Opt} (hk : a.tables[k]? = some os) (n : Str) :
    (∃ p, a.findNameIn (some k) n = .ok (some p) ∧ NameAt a k n p) ∨
      (a.findNameIn (some k) n = .ok none ∧ NoName a k n) := by
  unfold Argus.findNameIn
  rw [table_eq_ok.2 ⟨k, rfl, hk⟩, Out.ok_bind]
  cases hf : findName os n with
  | none => exact .inr ⟨rfl, os, hk, findName_none.1 hf⟩
  | some i =>
    obtain ⟨pre, o, post, h1, h2, h3, h4⟩ := findName_some.1 hf
    exact .inl ⟨⟨k, i⟩, rfl, rfl, pre, o, post, h1 ▸ hk, h2, h3, h4⟩

theorem NameAt.unique {a : Argus} {k : Nat} {n : Str} {p q : Ptr} (hp : NameAt a k n p)
    (hq : NameAt a k n q) : p = q := by
  obtain ⟨h1, pre, o, post, h2, h3, h4, h5⟩ := hp
  obtain ⟨g1, pre', o', post', g2, g3, g4, g5⟩ := hq
  rw [h2] at g2
  have e1 : findName (pre ++ o :: post) n = some p.idx := findName_some.2 ⟨pre, o, post, rfl, h3, h4, h5⟩
  have e2 : findName (pre ++ o :: post) n = some q.idx :=
    findName_some.2 ⟨pre', o', post', Option.some.inj g2, g3, g4, g5⟩
  rw [e1] at e2
  cases p; cases q
  simp only [Option.some.injEq] at *
  subst h1; subst g1; subst e2; rfl

theorem NameAt.not_noName {a : Argus} {k : Nat} {n : Str} {p : Ptr} (hp : NameAt a k n p)
    (hn : NoName a k n) : False := by
  obtain ⟨h1, pre, o, post, h2, h3, h4, h5⟩ := hp
  obtain ⟨os, g1, g2⟩ := hn
  rw [h2] at g1
  simp only [Option.some.injEq] at g1
  exact g2 o (by rw [← g1]; simp) h4

theorem findNameIn_some {a : Argus} {k : Nat} {os : List Opt} (hk : a.tables[k]? = some os) (n : Str)
    (p : Ptr) : a.findNameIn (some k) n = .ok (some p) ↔ NameAt a k n p := by
  rcases findNameIn_cases hk n with ⟨q, h1, h2⟩ | ⟨h1, h2⟩
  · rw [h1]
    simp only [Out.ok.injEq, Option.some.injEq]
    exact ⟨fun h => h ▸ h2, fun h => h2.unique h⟩
  · rw [h1]
    exact ⟨fun h => by simp at h, fun h => (h.not_noName h2).elim⟩

theorem findNameIn_none {a : Argus} {k : Nat} {os : List Opt} (hk : a.tables[k]? = some os) (n : Str) :
    a.findNameIn (some k) n = .ok none ↔ NoName a k n := by
  rcases findNameIn_cases hk n with ⟨q, h1, h2⟩ | ⟨h1, h2⟩
  · rw [h1]
    exact ⟨fun h => by simp at h, fun h => (h2.not_noName h).elim⟩
  · rw [h1]; exact ⟨fun _ => h2, fun _ => rfl⟩

theorem LevelsOf.append {a : Argus} : ∀ {xs ys : List Ptr} {lx ly : List (Str × Nat)}, LevelsOf a xs lx →
    LevelsOf a ys ly → LevelsOf a (xs ++ ys) (lx ++ ly)
  | [], _, [], _, _, h => h
  | _ :: _, _, (_, _) :: _, _, h1, h2 => ⟨h1.1, h1.2.append h2⟩

theorem LevelsOf.reverse {a : Argus} : ∀ {xs : List Ptr} {lx : List (Str × Nat)}, LevelsOf a xs lx →
    LevelsOf a xs.reverse lx.reverse
  | [], [], h => h
  | x :: xs, (n, k) :: lx, h => by
    rw [List.reverse_cons, List.reverse_cons]
    exact h.2.reverse.append ⟨h.1, trivial⟩

theorem LevelsOf.length {a : Argus} : ∀ {xs : List Ptr} {lx : List (Str × Nat)}, LevelsOf a xs lx →
    xs.length = lx.length
  | [], [], _ => rfl
  | _ :: _, (_, _) :: _, h => by simp [h.2.length]

/-- Lookup of a bare name, innermost level first. -/
theorem findRelative_cases {a : Argus} {os : List Opt} (hr : a.tables[a.root]? = some os) (n : Str) :
    ∀ (qs : List Ptr) (lv : List (Str × Nat)), LevelsOf a qs lv →
    (∃ p, a.findRelative n qs = .ok (some p) ∧ ∃ inner k outer,
        lv.map Prod.snd ++ [a.root] = inner ++ k :: outer ∧ NameAt a k n p ∧ ∀ j ∈ inner, NoName a j n) ∨
      (a.findRelative n qs = .ok none ∧ ∀ j ∈ lv.map Prod.snd ++ [a.root], NoName a j n)
  | [], [], _ => by
    unfold Argus.findRelative
    rcases findNameIn_cases hr n with ⟨p, h1, h2⟩ | ⟨h1, h2⟩
    · exact .inl ⟨p, h1, [], a.root, [], rfl, h2, by simp⟩
    · exact .inr ⟨h1, by simpa using h2⟩
  | q :: qs, (m, k) :: lv, h => by
    obtain ⟨⟨cmd, os1, g1, g2, g3, g4⟩, h2⟩ := h
    unfold Argus.findRelative
    rw [g1, Out.ok_bind, g3]
    rcases findNameIn_cases g4 n with ⟨p, e1, e2⟩ | ⟨e1, e2⟩
    · rw [e1, Out.ok_bind]
      exact .inl ⟨p, rfl, [], k, lv.map Prod.snd ++ [a.root], rfl, e2, by simp⟩
    · rw [e1, Out.ok_bind]
      rcases findRelative_cases hr n qs lv h2 with ⟨p, f1, inner, k', outer, f2, f3, f4⟩ | ⟨f1, f2⟩
      · refine .inl ⟨p, f1, k :: inner, k', outer, by simp [f2], f3, ?_⟩
        intro j hj
        rcases List.mem_cons.1 hj with rfl | hj
        · exact e2
        · exact f4 j hj
      · refine .inr ⟨f1, ?_⟩
        intro j hj
        simp only [List.map_cons, List.cons_append, List.mem_cons] at hj
        rcases hj with rfl | hj
        · exact e2
        · exact f2 j hj

theorem strncmpEq_prefix (c rest m : Str) : strncmpEq c.length (c ++ rest) m = true ↔ c <+: m := by
  rw [strncmpEq_iff, List.take_left]
  constructor
  · intro h; rw [h]; exact List.take_prefix _ _
  · rintro ⟨t, rfl⟩; rw [List.take_left]

theorem countComponents_path : ∀ (cs : List Str) (n : Str), (∀ c ∈ cs, (46 : Byte) ∉ c) → (46 : Byte) ∉ n →
    countComponents (pathText cs n) = cs.length
  | [], n, _, hn => by
    simp only [pathText, List.flatMap_nil, List.nil_append, countComponents, List.length_nil]
    rw [List.countP_eq_zero]
    intro b hb
    simp only [beq_iff_eq]
    rintro rfl; exact hn hb
  | c :: cs, n, hc, hn => by
    have ih := countComponents_path cs n (fun c' h => hc c' (by simp [h])) hn
    have h0 : countComponents c = 0 := by
      simp only [countComponents]
      rw [List.countP_eq_zero]
      intro b hb
      simp only [beq_iff_eq]
      rintro rfl; exact hc c (by simp) hb
    have e : pathText (c :: cs) n = c ++ [46] ++ pathText cs n := by simp [pathText]
    rw [e]
    simp only [countComponents, List.countP_append] at *
    rw [ih, h0]
    simp; omega

theorem findComponents_cases {a : Argus} (n : Str) : ∀ (cs : List Str)
    (qs : List Ptr) (lv : List (Str × Nat)) (k : Nat) (os : List Opt), LevelsOf a qs lv →
    (∀ c ∈ cs, (46 : Byte) ∉ c) → cs.length ≤ lv.length → a.tables[k]? = some os →
    (∃ p k', a.findComponents cs.length (pathText cs n) (some k) qs = .ok (some p) ∧
        Leads (· <+: ·) cs lv k k' ∧ NameAt a k' n p) ∨
      (a.findComponents cs.length (pathText cs n) (some k) qs = .ok none ∧
        ∀ k', Leads (· <+: ·) cs lv k k' → NoName a k' n)
  | [], qs, lv, k, os, _, _, _, hk => by
    have e : a.findComponents ([] : List Str).length (pathText [] n) (some k) qs =
        a.findNameIn (some k) n := by
      simp [Argus.findComponents, pathText]
    rw [e]
    rcases findNameIn_cases hk n with ⟨p, h1, h2⟩ | ⟨h1, h2⟩
    · exact .inl ⟨p, k, h1, .done lv k, h2⟩
    · exact .inr ⟨h1, fun k' h => by cases h; exact h2⟩
  | c :: cs, [], [], k, os, _, _, hlen, _ => by simp at hlen
  | c :: cs, q :: qs, (m, k1) :: lv, k, os, h, hc, hlen, hk => by
    obtain ⟨⟨cmd, os1, g1, g2, g3, g4⟩, h2⟩ := h
    have e : pathText (c :: cs) n = c ++ [46] ++ pathText cs n := by simp [pathText]
    simp only [List.length_cons]
    unfold Argus.findComponents
    rw [e, strchrSplit_pair 46 _ c (hc c (by simp))]
    simp only
    rw [g1, Out.ok_bind]
    simp only [g2]
    by_cases hp : c <+: m
    · have hs : strncmpEq c.length (c ++ [46] ++ pathText cs n) m = true := by
        rw [List.append_assoc]; exact (strncmpEq_prefix _ _ _).2 hp
      rw [if_pos hs, g3]
      simp only [List.length_cons] at hlen
      rcases findComponents_cases n cs qs lv k1 os1 h2 (fun c' h => hc c' (by simp [h])) (by omega) g4 with
        ⟨p, k', f1, f2, f3⟩ | ⟨f1, f2⟩
      · exact .inl ⟨p, k', f1, .step c cs m k1 lv k k' hp f2, f3⟩
      · refine .inr ⟨f1, fun k' hl => ?_⟩
        cases hl with
        | step _ _ _ _ _ _ _ _ hl => exact f2 k' hl
    · have hs : ¬ strncmpEq c.length (c ++ [46] ++ pathText cs n) m = true := by
        rw [List.append_assoc]; exact fun h => hp ((strncmpEq_prefix _ _ _).1 h)
      rw [if_neg hs]
      refine .inr ⟨rfl, fun k' hl => ?_⟩
      cases hl with
      | step _ _ _ _ _ _ _ h _ => exact absurd h hp

theorem Leads.length {R : Str → Str → Prop} {cs : List Str} {lv : List (Str × Nat)} {k k' : Nat}
    (h : Leads R cs lv k k') : cs.length ≤ lv.length := by
  induction h with
  | done => simp
  | step c cs n k' lv k k'' _ _ ih => simpa using ih

theorem Leads.mono {R S : Str → Str → Prop} (hRS : ∀ c n, R c n → S c n) {cs : List Str}
    {lv : List (Str × Nat)} {k k' : Nat} (h : Leads R cs lv k k') : Leads S cs lv k k' := by
  induction h with
  | done lv k => exact .done lv k
  | step c cs n k' lv k k'' h1 _ ih => exact .step c cs n k' lv k k'' (hRS _ _ h1) ih

theorem Leads.unique {R S : Str → Str → Prop} {cs : List Str} {lv : List (Str × Nat)} {k k1 k2 : Nat}
    (h1 : Leads R cs lv k k1) (h2 : Leads S cs lv k k2) : k1 = k2 := by
  induction h1 with
  | done lv k => cases h2; rfl
  | step c cs n k' lv k k'' _ _ ih =>
    cases h2 with
    | step _ _ _ _ _ _ _ _ h2 => exact ih h2

/-! ### The levels after a parse -/

theorem subChoice_mem {os : List Opt} {arg : Str} {x : Opt × Nat}
    (h : subChoice os arg = some (.ok x)) : x ∈ subMatches os arg := by
  unfold subChoice at h
  split at h
  · simp at h
  · rename_i y hy; simp only [Option.some.injEq, Except.ok.injEq] at h; subst h; rw [hy]; simp
  · rename_i y l hl hy
    split at h
    · simp only [Option.some.injEq, Except.ok.injEq] at h; subst h; rw [hy]; simp
    · simp at h

/-- Every selected subcommand has a name. -/
theorem meaning_named (tables : List (List Opt)) (q : Ptr) : ∀ (args : List Str) (t : Option Nat) (pos : Nat)
    (only skip : Bool), q ∈ entered (meaning tables t pos only skip args) →
    ∃ os o n, tables[q.tbl]? = some os ∧ os[q.idx]? = some o ∧ o.name = some n
  | [], t, pos, only, skip, h => by simp [meaning, entered] at h
  | arg :: rest, t, pos, only, true, h => by
    simp only [meaning] at h; exact meaning_named tables q rest _ _ _ _ h
  | arg :: rest, t, pos, only, false, h => by
    unfold meaning at h
    split at h
    · exact meaning_named tables q rest _ _ _ _ h
    · split at h
      · exact meaning_named tables q rest _ _ _ _ h
      · split at h
        · rename_i k os hk
          simp only [Option.bind_some] at hk
          split at h
          · rw [entered_append, entered_posActs, List.nil_append] at h
            exact meaning_named tables q rest _ _ _ _ h
          · split at h
            · simp [entered] at h
            · rw [entered_append, entered_longActs, List.nil_append] at h
              exact meaning_named tables q rest _ _ _ _ h
            · split at h
              · rw [entered_append, entered_posActs, List.nil_append] at h
                exact meaning_named tables q rest _ _ _ _ h
              · rw [entered_append, entered_shortActs, List.nil_append] at h
                exact meaning_named tables q rest _ _ _ _ h
            · split at h
              · rename_i y hy
                obtain ⟨h1, _, n, h3, _⟩ := mem_subMatches.1 (subChoice_mem hy)
                change q ∈ (⟨k, y.2⟩ : Ptr) :: entered _ at h
                rw [List.mem_cons] at h
                rcases h with rfl | h
                · exact ⟨os, y.1, n, hk, h1, h3⟩
                · exact meaning_named tables q rest _ _ _ _ h
              · simp [entered] at h
              · rw [entered_append, entered_posActs, List.nil_append] at h
                exact meaning_named tables q rest _ _ _ _ h
        · simp [entered] at h

theorem validateTable_table {W : World} {a : Argus} {t : Option Nat} {r : Int × Argus}
    (h : validateTable W a t = .ok r) : ∃ k os, t = some k ∧ a.tables[k]? = some os := by
  unfold validateTable at h
  obtain ⟨os, h1, _⟩ := Out.bind_eq_ok h
  obtain ⟨k, h2, h3⟩ := table_eq_ok.1 h1
  exact ⟨k, os, h2, h3⟩

theorem validateStack_tables {W : World} : ∀ (ps : List Ptr) {a a' : Argus},
    validateStack W a ps = .ok (Err.success, a') → ∀ q ∈ ps, ∃ cmd k os, a.getOpt q = .ok cmd ∧
      cmd.subOptions = some k ∧ a.tables[k]? = some os
  | [], a, a', h, q, hq => by cases hq
  | p :: ps, a, a', h, q, hq => by
    unfold validateStack at h
    obtain ⟨c, hc, h1⟩ := Out.bind_eq_ok h
    obtain ⟨r, hr, h2⟩ := Out.bind_eq_ok h1
    split at h2
    · rename_i hne
      simp only [Out.ok.injEq] at h2; subst h2; exact absurd rfl hne
    · rcases List.mem_cons.1 hq with rfl | hq
      · obtain ⟨k, os, h3, h4⟩ := validateTable_table hr
        exact ⟨c, k, os, hc, h3, h4⟩
      · obtain ⟨es, hes⟩ := validateTable_eq hr
        rw [hes] at h2
        have := validateStack_tables ps h2 q hq
        simpa using this

theorem levelsOf_of {a : Argus} : ∀ (ps : List Ptr), (∀ q ∈ ps, ∃ cmd n k os, a.getOpt q = .ok cmd ∧
    cmd.name = some n ∧ cmd.subOptions = some k ∧ a.tables[k]? = some os) → ∃ lv, LevelsOf a ps lv
  | [], _ => ⟨[], trivial⟩
  | p :: ps, h => by
    obtain ⟨lv, hl⟩ := levelsOf_of ps (fun q hq => h q (by simp [hq]))
    obtain ⟨cmd, n, k, os, h1, h2, h3, h4⟩ := h p (by simp)
    exact ⟨(n, k) :: lv, ⟨cmd, os, h1, h2, h3, h4⟩, hl⟩

/-- After a successful parse from a fresh context the root table exists, and every entry of the command stack
    is a named subcommand with its table. -/
theorem argusParse_levels {W : World} {env : Env} {a a' : Argus} {args : List Str}
    (h : argusParse W env a args = .ok (.returned Err.success, a')) (hfresh : a.stack = []) :
    (∃ os, a'.tables[a'.root]? = some os) ∧ ∃ lv, LevelsOf a' a'.stack lv := by
  obtain ⟨_, _, _, hf⟩ := argusParse_frame h
  obtain ⟨a1, a2, h1, h2, h3⟩ := argusParse_success h
  have e1 : a1.stack = entered (a.asks args) := by
    rw [parseArgs_run] at h1
    rw [run_stack _ h1 (asks_no_fail0 a args), hfresh, List.nil_append]
  have e2 : a2.stack = a1.stack := (loadEnvVars_frame h2).stack
  obtain ⟨es, hes⟩ := postValidation_eq h3
  simp only at hes
  have e3 : a'.stack = entered (a.asks args) := by rw [hes, emits_stack, e2, e1]
  unfold postValidation at h3
  obtain ⟨r, hr, h4⟩ := Out.bind_eq_ok h3
  split at h4
  · rename_i hne
    simp only [Out.ok.injEq] at h4; subst h4; exact absurd rfl hne
  · obtain ⟨k, os, g1, g2⟩ := validateTable_table hr
    obtain ⟨es1, hes1⟩ := validateTable_eq hr
    constructor
    · refine ⟨os, ?_⟩
      simp only [Option.some.injEq] at g1
      rw [hes]; simpa [g1] using g2
    · have hst := validateStack_tables _ h4
      refine levelsOf_of _ (fun q hq => ?_)
      have hq2 : q ∈ r.2.stack := by
        rw [hes1, emits_stack, e2, e1, ← e3]; exact hq
      obtain ⟨cmd, k1, os1, f1, f2, f3⟩ := hst q hq2
      rw [hes1] at f1 f3
      simp only [getOpt_emits, emits_tables] at f1 f3
      have f1' : a'.getOpt q = .ok cmd := by rw [hes]; simpa using f1
      rw [e3] at hq
      obtain ⟨os2, o2, n, b1, b2, b3⟩ := meaning_named _ q _ _ _ _ _ hq
      obtain ⟨o3, c1, c2⟩ := shape_getOpt hf.shape (getOpt_eq_ok.2 ⟨os2, b1, b2⟩)
      rw [f1'] at c1
      simp only [Out.ok.injEq] at c1; subst c1
      exact ⟨cmd, n, k1, os1, f1', (congrArg Opt.name c2 : cmd.meta.name = o2.meta.name).trans b3, f2,
        by rw [hes]; simpa using f3⟩

end Argus
