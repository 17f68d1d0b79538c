import Verif.Spec.ReadBack
import Verif.Lemmas.Access
import Verif.Lemmas.IsSet
import Verif.Lemmas.EnvLine
import Verif.Props.Access

/-!
# Lemmas about reading back
-/

set_option autoImplicit false

namespace Argus

/-- A text with a dot, not at its beginning, is a path of components. -/
theorem path_split : ∀ (s : Str), (46 : Byte) ∈ s → s.head? ≠ some 46 →
    ∃ c cs n, s = pathText (c :: cs) n ∧ (∀ x ∈ c :: cs, (46 : Byte) ∉ x) ∧ c ≠ [] ∧ (46 : Byte) ∉ n := by
  have key : ∀ (s : Str), ∃ cs n, s = pathText cs n ∧ (∀ x ∈ cs, (46 : Byte) ∉ x) ∧ (46 : Byte) ∉ n := by
    intro s
    induction s with
    | nil => exact ⟨[], [], rfl, by simp, by simp⟩
    | cons b s ih =>
      obtain ⟨cs, n, h1, h2, h3⟩ := ih
      by_cases hb : b = 46
      · subst hb
        refine ⟨[] :: cs, n, ?_, ?_, h3⟩
        · rw [h1]; simp [pathText]
        · intro x hx
          rcases List.mem_cons.1 hx with rfl | hx
          · simp
          · exact h2 x hx
      · cases cs with
        | nil =>
          refine ⟨[], b :: n, ?_, by simp, ?_⟩
          · rw [h1]; simp [pathText]
          · simp only [List.mem_cons, not_or]; exact ⟨fun h => hb h.symm, h3⟩
        | cons c cs =>
          refine ⟨(b :: c) :: cs, n, ?_, ?_, h3⟩
          · rw [h1]; simp [pathText]
          · intro x hx
            rcases List.mem_cons.1 hx with rfl | hx
            · have := h2 c (by simp)
              simp only [List.mem_cons, not_or]; exact ⟨fun h => hb h.symm, this⟩
            · exact h2 x (by simp [hx])
  intro s hs hh
  obtain ⟨cs, n, h1, h2, h3⟩ := key s
  cases cs with
  | nil => rw [h1] at hs; exact absurd (by simpa [pathText] using hs) h3
  | cons c cs =>
    refine ⟨c, cs, n, h1, h2, ?_, h3⟩
    rintro rfl
    rw [h1] at hh
    simp [pathText] at hh

theorem Leads.end_mem {R : Str → Str → Prop} {cs : List Str} {lv : List (Str × Nat)} {k k' : Nat}
    (h : Leads R cs lv k k') : k' ∈ k :: lv.map Prod.snd := by
  induction h with
  | done lv k => simp
  | step c cs n k' lv k k'' _ _ ih =>
    simp only [List.map_cons]
    exact List.mem_cons_of_mem _ ih

theorem leads_to {k' : Nat} : ∀ (lv : List (Str × Nat)) (k : Nat), k' ∈ lv.map Prod.snd →
    ∃ c cs, Leads (· = ·) (c :: cs) lv k k' ∧ ∀ x ∈ c :: cs, x ∈ lv.map Prod.fst
  | [], _, h => by simp at h
  | (n, j) :: lv, k, h => by
    simp only [List.map_cons, List.mem_cons] at h
    rcases h with rfl | h
    · exact ⟨n, [], .step n [] n _ lv k _ rfl (.done _ _), by simp⟩
    · obtain ⟨c, cs, h1, h2⟩ := leads_to lv j h
      refine ⟨n, c :: cs, .step n _ n j lv k _ rfl h1, ?_⟩
      intro x hx
      rcases List.mem_cons.1 hx with rfl | hx
      · simp
      · simp only [List.map_cons, List.mem_cons]; exact .inr (h2 x hx)

theorem LevelsOf.onPath {a : Argus} {lv : List (Str × Nat)} (h : LevelsOf a a.stack lv) (k : Nat) :
    a.OnPath k ↔ k ∈ a.root :: lv.map Prod.snd := by
  have key : ∀ (ps : List Ptr) (lv : List (Str × Nat)), LevelsOf a ps lv →
      ((∃ q ∈ ps, ∃ cmd, a.getOpt q = .ok cmd ∧ cmd.subOptions = some k) ↔ k ∈ lv.map Prod.snd) := by
    intro ps
    induction ps with
    | nil => intro lv h; cases lv with
      | nil => simp
      | cons x l => exact h.elim
    | cons q ps ih =>
      intro lv h
      cases lv with
      | nil => exact h.elim
      | cons x lv =>
        obtain ⟨n, j⟩ := x
        obtain ⟨⟨cmd, os, h1, h2, h3, h4⟩, h5⟩ := h
        simp only [List.map_cons, List.mem_cons]
        rw [← ih lv h5]
        constructor
        · rintro ⟨q', hq | hq, cmd', g1, g2⟩
          · subst hq
            rw [h1] at g1; cases g1
            rw [h3] at g2; cases g2
            exact .inl rfl
          · exact .inr ⟨q', hq, cmd', g1, g2⟩
        · rintro (rfl | ⟨q', hq, cmd', g1, g2⟩)
          · exact ⟨q, .inl rfl, cmd, h1, h3⟩
          · exact ⟨q', .inr hq, cmd', g1, g2⟩
  unfold Argus.OnPath
  rw [key a.stack lv h, List.mem_cons]

theorem LevelsOf.names {a : Argus} : ∀ {ps : List Ptr} {lv : List (Str × Nat)}, LevelsOf a ps lv →
    ∀ n ∈ lv.map Prod.fst, ∃ q ∈ ps, ∃ cmd, a.getOpt q = .ok cmd ∧ cmd.name = some n
  | [], [], _, n, hn => by simp at hn
  | q :: ps, (m, j) :: lv, h, n, hn => by
    simp only [List.map_cons, List.mem_cons] at hn
    rcases hn with rfl | hn
    · obtain ⟨⟨cmd, os, h1, h2, h3, h4⟩, _⟩ := h
      exact ⟨q, by simp, cmd, h1, h2⟩
    · obtain ⟨q', h1, h2⟩ := LevelsOf.names h.2 n hn
      exact ⟨q', by simp [h1], h2⟩

theorem nameAt_iff {a : Argus} {k : Nat} {n : Str} {p : Ptr} : NameAt a k n p ↔ p.tbl = k ∧ FirstOfName a.tables p n := by
  unfold NameAt FirstOfName
  constructor
  · rintro ⟨rfl, h⟩; exact ⟨rfl, h⟩
  · rintro ⟨rfl, h⟩; exact ⟨rfl, h⟩

/-- Which entries have a path. -/
theorem hasPath_iff {a : Argus} {os : List Opt} {lv : List (Str × Nat)} (hr : a.tables[a.root]? = some os)
    (hl : LevelsOf a a.stack lv) (p : Ptr) :
    (a.HasPath p → a.OnPath p.tbl ∧ ∃ n, FirstOfName a.tables p n ∧ (p.tbl = a.root ∨ (46 : Byte) ∉ n)) ∧
    ((∀ m ∈ lv.map Prod.fst, m ≠ [] ∧ (46 : Byte) ∉ m) → a.OnPath p.tbl →
      ∀ n, FirstOfName a.tables p n → (p.tbl = a.root ∨ (46 : Byte) ∉ n) → a.HasPath p) := by
  constructor
  · rintro ⟨path, h⟩
    by_cases hd : (46 : Byte) ∈ path
    · by_cases hh : path.head? = some 46
      · obtain ⟨n, rfl⟩ : ∃ n, path = 46 :: n := by
          cases path with
          | nil => simp at hh
          | cons b n => simp only [List.head?_cons, Option.some.injEq] at hh; exact ⟨n, by rw [hh]⟩
        have := nameAt_iff.1 (((C31_root a os n hr).1 p).1 h)
        exact ⟨.inl this.1, n, this.2, .inl this.1⟩
      · obtain ⟨c, cs, n, rfl, h2, h3, h4⟩ := path_split path hd hh
        obtain ⟨k, g1, g2⟩ := (C31_path_partial a lv os c cs n p hr hl h2 h3 h4).1 h
        have := nameAt_iff.1 g2
        exact ⟨(hl.onPath _).2 (this.1 ▸ g1.end_mem), n, this.2, .inr h4⟩
    · obtain ⟨outer, k, inner, g1, g2, _⟩ := (C31_bare a lv os path p hr hl hd).1 h
      have := nameAt_iff.1 g2
      exact ⟨(hl.onPath _).2 (by rw [g1, this.1]; simp), path, this.2, .inr hd⟩
  · intro hm hp n hn hor
    by_cases hroot : p.tbl = a.root
    · exact ⟨46 :: n, ((C31_root a os n hr).1 p).2 (nameAt_iff.2 ⟨hroot, hn⟩)⟩
    · have hdot : (46 : Byte) ∉ n := hor.resolve_left hroot
      have hk : p.tbl ∈ lv.map Prod.snd := by
        rcases List.mem_cons.1 ((hl.onPath _).1 hp) with h | h
        · exact absurd h hroot
        · exact h
      obtain ⟨c, cs, h1, h2⟩ := leads_to lv a.root hk
      exact ⟨pathText (c :: cs) n, C31_full_path a lv os c cs n p.tbl p hr hl (fun x hx => (hm x (h2 x hx)).2)
        (hm c (h2 c (by simp))).1 hdot h1 (nameAt_iff.2 ⟨rfl, hn⟩)⟩

theorem firstOfName_shape {a b : Argus} (h : b.shape = a.shape) {p : Ptr} {n : Str}
    (hf : FirstOfName a.tables p n) : FirstOfName b.tables p n := by
  obtain ⟨pre, o, post, h1, h2, h3, h4⟩ := hf
  obtain ⟨os, g1, g2⟩ := shape_table h (table_eq_ok.2 ⟨p.tbl, rfl, h1⟩)
  obtain ⟨k, e, g3⟩ := table_eq_ok.1 g1
  simp only [Option.some.injEq] at e
  subst e
  rw [List.map_append, List.map_cons] at g2
  obtain ⟨pre', post0, rfl, k1, k2⟩ := List.map_eq_append_iff.1 g2
  obtain ⟨o', post', rfl, k3, k4⟩ := List.map_eq_cons_iff.1 k2
  refine ⟨pre', o', post', g3, ?_, ?_, ?_⟩
  · have := congrArg List.length k1
    simp only [List.length_map] at this
    rw [this]; exact h2
  · have : o'.meta.name = o.meta.name := congrArg Opt.name k3
    exact this.trans h3
  · intro x hx he
    have : x.meta ∈ pre.map Opt.meta := by rw [← k1]; exact List.mem_map_of_mem hx
    obtain ⟨y, hy, hm⟩ := List.mem_map.1 this
    have : y.meta.name = x.meta.name := congrArg Opt.name hm
    exact h4 y hy ((this : y.name = x.name).trans he)

/-- What is given belongs to table `t` or to one that is entered. -/
def GivenBelow (tables : List (List Opt)) (p : Ptr) (t : Option Nat) (acts : List Act) : Prop :=
  ∀ x, Act.give p x ∈ acts → t = some p.tbl ∨ ∃ q ∈ entered acts, tableBelow tables q = some p.tbl

theorem GivenBelow.append {tables : List (List Opt)} {p : Ptr} {k : Nat} {l acts : List Act}
    (hl : ∀ x, Act.give p x ∈ l → k = p.tbl) (h : GivenBelow tables p (some k) acts) :
    GivenBelow tables p (some k) (l ++ acts) := by
  intro x hx
  rcases List.mem_append.1 hx with hx | hx
  · exact .inl (congrArg some (hl x hx))
  · rcases h x hx with h | ⟨q, h1, h2⟩
    · exact .inl h
    · exact .inr ⟨q, by rw [entered_append]; exact List.mem_append.2 (.inr h1), h2⟩

theorem posActs_table {p : Ptr} {k pos : Nat} {os : List Opt} {arg : Str} (x : Option Str)
    (h : Act.give p x ∈ posActs k os pos arg) : k = p.tbl := by
  unfold posActs at h
  split at h
  · simp only [List.mem_singleton, Act.give.injEq] at h; rw [h.1]
  · simp at h

theorem longActs_table {p : Ptr} {k : Nat} {os : List Opt} {n : Str} {v nx : Option Str} (x : Option Str)
    (h : Act.give p x ∈ (longActs k os n v nx).1) : k = p.tbl := by
  unfold longActs at h
  repeat' split at h
  all_goals first
    | (simp only [List.mem_singleton, Act.give.injEq] at h; rw [h.1])
    | simp at h

theorem shortActs_table {p : Ptr} {k : Nat} {os : List Opt} {nx : Option Str} (x : Option Str) : ∀ (cl : Str),
    Act.give p x ∈ (shortActs k os nx cl).1 → k = p.tbl
  | [], h => by simp [shortActs] at h
  | c :: cl, h => by
    unfold shortActs at h
    repeat' split at h
    all_goals first
      | (simp only [List.mem_singleton, Act.give.injEq] at h; rw [h.1])
      | (simp only [List.mem_cons, Act.give.injEq] at h
         rcases h with h | h
         · rw [h.1]
         · exact shortActs_table x _ h)
      | simp at h

theorem meaning_given_below (tables : List (List Opt)) (p : Ptr) : ∀ (args : List Str) (t : Option Nat) (pos : Nat)
    (only skip : Bool), GivenBelow tables p t (meaning tables t pos only skip args)
  | [], t, pos, only, skip => by intro x h; simp [meaning] at h
  | arg :: rest, t, pos, only, true => by
    simp only [meaning]; exact meaning_given_below tables p rest _ _ _ _
  | arg :: rest, t, pos, only, false => by
    unfold meaning
    split
    · exact meaning_given_below tables p rest _ _ _ _
    · split
      · exact meaning_given_below tables p rest _ _ _ _
      · split
        · rename_i k os hk
          simp only [Option.bind_some] at hk
          split
          · exact .append posActs_table (meaning_given_below tables p rest _ _ _ _)
          · split
            · intro x h; simp at h
            · exact .append longActs_table (meaning_given_below tables p rest _ _ _ _)
            · split
              · exact .append posActs_table (meaning_given_below tables p rest _ _ _ _)
              · exact .append (fun x => shortActs_table x _) (meaning_given_below tables p rest _ _ _ _)
            · split
              · rename_i y hy
                obtain ⟨h1, h2⟩ := subChoice_get hy
                intro x h
                simp only [List.mem_cons, reduceCtorEq, false_or] at h
                right
                have hb : tableBelow tables ⟨k, y.2⟩ = y.1.subOptions := by
                  unfold tableBelow placeAt; rw [hk, Option.bind_some, h1, Option.bind_some]
                rcases meaning_given_below tables p rest _ _ _ _ x h with h | ⟨q, g1, g2⟩
                · exact ⟨⟨k, y.2⟩, by simp [entered], hb.trans h⟩
                · refine ⟨q, ?_, g2⟩
                  show q ∈ (⟨k, y.2⟩ : Ptr) :: entered _
                  exact List.mem_cons_of_mem _ g1
              · intro x h; simp at h
              · exact .append posActs_table (meaning_given_below tables p rest _ _ _ _)
        · intro x h; simp at h

/-- Everything that is handed to an option comes through a table on the selected path. -/
theorem allTexts_onPath {W : World} {env : Env} {a a' : Argus} {args : List Str} {p : Ptr} {o : Opt}
    (hok : argusParse W env a args = .ok (.returned Err.success, a')) (h : allTexts env a args p o ≠ []) :
    a'.OnPath p.tbl := by
  rw [onPath_iff hok]
  by_cases ht : textsOf p (a.asks args) = []
  · unfold allTexts at h
    rw [ht, List.nil_append] at h
    unfold envGives at h
    split at h
    · simp at h
    · split at h
      · simp at h
      · split at h
        · refine List.count_pos_iff.1 (Nat.pos_of_ne_zero fun h0 => ?_)
          rw [h0] at h; simp at h
        · split at h
          · simp at h
          · rename_i hv
            refine List.count_pos_iff.1 (Nat.pos_of_ne_zero fun h0 => hv (.inr (.inr h0)))
  · obtain ⟨x, hx⟩ := List.exists_mem_of_ne_nil _ ht
    unfold textsOf at hx
    obtain ⟨act, h1, h2⟩ := List.mem_filterMap.1 hx
    have : ∃ y, Act.give p y ∈ a.asks args := by
      cases act with
      | give q y =>
        simp only at h2
        split at h2
        · rename_i hq; subst hq; exact ⟨y, h1⟩
        · simp at h2
      | enter q => simp at h2
      | fail c => simp at h2
      | noTable => simp at h2
    obtain ⟨y, hy⟩ := this
    unfold Argus.tablesUsed
    rcases meaning_given_below a.tables p args (some a.root) 0 false false y hy with h | ⟨q, g1, g2⟩
    · simp only [Option.some.injEq] at h; rw [h]; simp
    · refine List.mem_cons_of_mem _ (List.mem_filterMap.2 ⟨q, List.mem_append.2 (.inr g1), ?_⟩)
      unfold tableBelow placeAt at g2
      cases h1 : a.tables[q.tbl]? with
      | none => rw [h1] at g2; simp at g2
      | some os =>
        rw [h1, Option.bind_some] at g2
        cases h2 : os[q.idx]? with
        | none => rw [h2] at g2; simp at g2
        | some oq =>
          rw [h2, Option.bind_some] at g2
          rw [getOpt_eq_ok.2 ⟨os, h1, h2⟩]
          exact g2

end Argus
