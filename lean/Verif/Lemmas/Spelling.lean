import Verif.Spec.Spelling
import Verif.Lemmas.History
import Verif.Lemmas.Slots
import Verif.Lemmas.Commands

/-!
# Reading and writing are inverse to each other
-/

set_option autoImplicit false

namespace Argus

/-! ### Names -/

theorem findIdx?_first {os : List Opt} {P : Opt → Prop} [DecidablePred P] {i : Nat} :
    os.findIdx? (fun o => decide (P o)) = some i ↔ ∃ o, FirstWith os P i o := by
  rw [List.findIdx?_eq_some_iff_getElem]
  constructor
  · rintro ⟨hi, hp, hb⟩
    refine ⟨os[i], List.getElem?_eq_getElem hi, of_decide_eq_true hp, ?_⟩
    intro j o' hj ho' hP
    obtain ⟨hj', rfl⟩ := List.getElem?_eq_some_iff.1 ho'
    have := hb j hj
    simp [hP] at this
  · rintro ⟨o, ho, hP, hb⟩
    obtain ⟨hi, rfl⟩ := List.getElem?_eq_some_iff.1 ho
    refine ⟨hi, by simpa using hP, ?_⟩
    intro j hj
    have := hb j _ hj (List.getElem?_eq_getElem (Nat.lt_trans hj hi))
    simpa using this

theorem longIdx_called {os : List Opt} {n : Str} {i : Nat} : longIdx os n = some i ↔ ∃ o, CalledLong os n i o :=
  findIdx?_first (P := fun o => o.type = .option ∧ o.lname = some n)

theorem shortIdx_called {os : List Opt} {c : Byte} {i : Nat} : shortIdx os c = some i ↔ ∃ o, CalledShort os c i o :=
  findIdx?_first (P := fun o => o.type = .option ∧ o.sname = c)

theorem isFlagAt_of {os : List Opt} {i : Nat} {o : Opt} (h : os[i]? = some o) :
    isFlagAt os i = decide (o.valueType = .flag) := by
  simp [isFlagAt, h]

theorem beginsSub_iff (arg : Str) (o : Opt) :
    (o.type = .subcommand ∧ o.name.any (fun n => arg.isPrefixOf n) = true) ↔ BeginsSub arg o := by
  unfold BeginsSub
  constructor
  · rintro ⟨h1, h2⟩
    refine ⟨h1, ?_⟩
    cases hn : o.name with
    | none => rw [hn] at h2; simp at h2
    | some n =>
      rw [hn] at h2
      simp only [Option.any_some, List.isPrefixOf_iff_prefix] at h2
      obtain ⟨r, hr⟩ := h2
      exact ⟨r, by rw [hr]⟩
  · rintro ⟨h1, r, hr⟩
    refine ⟨h1, ?_⟩
    rw [hr]
    simp

theorem subMatches_begins {os : List Opt} {arg : Str} {x : Opt × Nat} :
    x ∈ subMatches os arg ↔ os[x.2]? = some x.1 ∧ BeginsSub arg x.1 := by
  unfold subMatches
  rw [List.mem_filter, decide_eq_true_eq, beginsSub_iff, ← List.mk_mem_zipIdx_iff_getElem?]

theorem subChoice_none {os : List Opt} {arg : Str} :
    subChoice os arg = none ↔ ∀ o ∈ os, ¬ BeginsSub arg o := by
  have h1 : subChoice os arg = none ↔ subMatches os arg = [] := by
    unfold subChoice
    split
    · rename_i h; simp [h]
    · rename_i h; simp [h]
    · rename_i h; rw [h]; split <;> simp
  rw [h1]
  constructor
  · intro h o ho hb
    obtain ⟨i, hi⟩ := List.mem_iff_getElem?.1 ho
    have : (o, i) ∈ subMatches os arg := subMatches_begins.2 ⟨hi, hb⟩
    rw [h] at this
    simp at this
  · intro h
    cases hs : subMatches os arg with
    | nil => rfl
    | cons x l =>
      have : x ∈ subMatches os arg := by rw [hs]; simp
      obtain ⟨h2, h3⟩ := subMatches_begins.1 this
      exact absurd h3 (h _ (List.mem_of_getElem? h2))

theorem subChoice_meant {os : List Opt} {arg : Str} {x : Opt × Nat} :
    subChoice os arg = some (.ok x) ↔ MeantSub os arg x.2 x.1 := by
  have hs := subMatches_sorted os arg
  constructor
  · intro h
    have hfirst : ∃ l, subMatches os arg = x :: l ∧ (x.1.name = some arg ∨ l = []) := by
      unfold subChoice at h
      split at h
      · simp at h
      · rename_i y hy; simp only [Option.some.injEq, Except.ok.injEq] at h; subst h; exact ⟨[], hy, .inr rfl⟩
      · rename_i y l hl hy
        split at h
        · rename_i hn
          simp only [Option.some.injEq, Except.ok.injEq] at h; subst h; exact ⟨l, hy, .inl hn⟩
        · simp at h
    obtain ⟨l, hl, hn⟩ := hfirst
    have hx : x ∈ subMatches os arg := by rw [hl]; simp
    obtain ⟨h1, h2⟩ := subMatches_begins.1 hx
    refine ⟨⟨h1, h2, ?_⟩, ?_⟩
    · intro j o' hj ho' hb
      have hm : (o', j) ∈ subMatches os arg := subMatches_begins.2 ⟨ho', hb⟩
      rw [hl] at hm hs
      rcases List.mem_cons.1 hm with hm | hm
      · rw [← hm] at hj; simp at hj
      · have := (List.pairwise_cons.1 hs).1 _ hm
        simp only at this
        omega
    · rcases hn with hn | hn
      · exact .inl hn
      · right
        intro j o' ho' hb
        have hm : (o', j) ∈ subMatches os arg := subMatches_begins.2 ⟨ho', hb⟩
        rw [hl, hn] at hm
        simp only [List.mem_singleton] at hm
        rw [← hm]
  · rintro ⟨⟨h1, h2, h3⟩, h4⟩
    have hx : x ∈ subMatches os arg := subMatches_begins.2 ⟨h1, h2⟩
    cases hl : subMatches os arg with
    | nil => rw [hl] at hx; simp at hx
    | cons y l =>
      have hy : y ∈ subMatches os arg := by rw [hl]; simp
      obtain ⟨hy1, hy2⟩ := subMatches_begins.1 hy
      have hxy : y = x := by
        rw [hl] at hx hs
        rcases List.mem_cons.1 hx with hm | hm
        · exact hm.symm
        · have := (List.pairwise_cons.1 hs).1 _ hm
          exact absurd hy2 (h3 _ _ this hy1)
      subst hxy
      unfold subChoice
      rw [hl]
      cases l with
      | nil => rfl
      | cons z l =>
        simp only
        rcases h4 with h4 | h4
        · rw [if_pos h4]
        · exfalso
          have hz : z ∈ subMatches os arg := by rw [hl]; simp
          obtain ⟨hz1, hz2⟩ := subMatches_begins.1 hz
          have := h4 _ _ hz1 hz2
          rw [hl] at hs
          have := (List.pairwise_cons.1 hs).1 z (by simp)
          omega

theorem negNumber_iff {os : List Opt} {pos : Nat} {cluster : Str} :
    negNumber os pos cluster = true ↔ NumberHere os pos (45 :: cluster) := by
  unfold negNumber NumberHere NumericSlot
  rw [Bool.and_eq_true, looksNumeric_iff]
  apply and_congr Iff.rfl
  cases h : slotAt os pos with
  | none => simp
  | some x =>
    obtain ⟨o, i⟩ := x
    simp only [Option.any_some, decide_eq_true_eq, Option.some.injEq, Prod.mk.injEq]
    constructor
    · intro hv; exact ⟨o, i, ⟨rfl, rfl⟩, hv⟩
    · rintro ⟨o', i', ⟨rfl, rfl⟩, hv⟩; exact hv

/-! ### Spelling of an argument -/

theorem argKind_long {r : Str} (hr : r ≠ []) (h : (61 : Byte) ∉ r) : argKind (45 :: 45 :: r) = .long (r.take 63) none := by
  unfold argKind
  split
  · rename_i h1; simp at h1; exact absurd h1 hr
  · rename_i h1 h2; simp only [List.cons.injEq, true_and] at h2; subst h2; rw [if_neg h]
  · rename_i h1 h2 h3; simp only [List.cons.injEq, true_and] at h3; exact absurd h3.symm (h2 r)
  · rename_i h1 h2 h3; exact absurd rfl (h3 _)

theorem argKind_attached {n v : Str} (h : (61 : Byte) ∉ n) :
    argKind (45 :: 45 :: (n ++ 61 :: v)) = .long (n.take 63) (some v) := by
  have ht : ∀ x ∈ n, (x != 61) = true := by
    intro x hx
    simp only [bne_iff_ne, ne_eq]
    rintro rfl
    exact h hx
  have h1 : (n ++ 61 :: v).takeWhile (· != 61) = n := by
    rw [List.takeWhile_append_of_pos ht]
    simp
  have h2 : (n ++ 61 :: v).dropWhile (· != 61) = 61 :: v := by
    rw [List.dropWhile_append_of_pos ht]
    simp
  unfold argKind
  split
  · rename_i h3; simp at h3
  · rename_i h3 h4; simp only [List.cons.injEq, true_and] at h4; subst h4; rw [if_pos (by simp), h1, h2]; rfl
  · rename_i h4 h5 h6; simp only [List.cons.injEq, true_and] at h6; exact absurd h6.symm (h5 _)
  · rename_i h3 h4 h5; exact absurd rfl (h5 _)

theorem argKind_dashes : argKind [45, 45] = .dashes := rfl

theorem argKind_short {cl : Str} (h : cl.head? ≠ some 45) : argKind (45 :: cl) = .short cl := by
  cases cl with
  | nil => rfl
  | cons c cs =>
    simp only [List.head?_cons, ne_eq, Option.some.injEq] at h
    unfold argKind
    split
    · rename_i h1; simp at h1; exact absurd h1.1 h
    · rename_i h1 h2; simp at h2; exact absurd h2.1 h
    · rename_i h1 h2 h3; simp only [List.cons.injEq, true_and] at h3; rw [h3]
    · rename_i h1 h2 h3; exact absurd rfl (h3 _)

theorem argKind_word {arg : Str} (h : arg.head? ≠ some 45) : argKind arg = .word := by
  cases arg with
  | nil => rfl
  | cons c cs =>
    simp only [List.head?_cons, ne_eq, Option.some.injEq] at h
    unfold argKind
    split
    · rename_i h1; simp at h1; exact absurd h1.1 h
    · rename_i h1 h2; simp at h2; exact absurd h2.1 h
    · rename_i h1 h2 h3; simp at h3; exact absurd h3.1 h
    · rfl

/-- The four spellings. -/
inductive Spelling (arg : Str) : Prop
  | dashes : arg = [45, 45] → Spelling arg
  | long (name : Str) : arg = 45 :: 45 :: name → name ≠ [] → (61 : Byte) ∉ name → Spelling arg
  | attached (name value : Str) : arg = 45 :: 45 :: (name ++ 61 :: value) → (61 : Byte) ∉ name → Spelling arg
  | short (cl : Str) : arg = 45 :: cl → cl.head? ≠ some 45 → Spelling arg
  | word : arg.head? ≠ some 45 → Spelling arg

theorem split_at_eq : ∀ (r : Str), (61 : Byte) ∈ r → ∃ n v, r = n ++ 61 :: v ∧ (61 : Byte) ∉ n
  | [], h => by simp at h
  | b :: bs, h => by
    by_cases hb : b = 61
    · subst hb; exact ⟨[], bs, rfl, by simp⟩
    · have : (61 : Byte) ∈ bs := by
        rcases List.mem_cons.1 h with h | h
        · exact absurd h.symm hb
        · exact h
      obtain ⟨n, v, h1, h2⟩ := split_at_eq bs this
      refine ⟨b :: n, v, by rw [h1]; rfl, ?_⟩
      intro hm
      rcases List.mem_cons.1 hm with hm | hm
      · exact hb hm.symm
      · exact h2 hm

/-- The text before the first `=` is unique. -/
theorem eq_before : ∀ {n m v w : Str}, m ++ ([61] ++ w) = n ++ ([61] ++ v) → (61 : Byte) ∉ n → (61 : Byte) ∉ m → n = m
  | [], [], _, _, _, _, _ => rfl
  | [], b :: m, v, w, h, _, h2 => by
    simp only [List.cons_append, List.nil_append, List.cons.injEq] at h
    exact absurd (by rw [h.1]; simp) h2
  | b :: n, [], v, w, h, h1, _ => by
    simp only [List.cons_append, List.nil_append, List.cons.injEq] at h
    exact absurd (by rw [← h.1]; simp) h1
  | b :: n, c :: m, v, w, h, h1, h2 => by
    simp only [List.cons_append, List.cons.injEq] at h
    rw [h.1, eq_before h.2 (fun hm => h1 (by simp [hm])) (fun hm => h2 (by simp [hm]))]

theorem spelling (arg : Str) : Spelling arg := by
  cases arg with
  | nil => exact .word (by simp)
  | cons c r =>
    by_cases hc : c = 45
    · subst hc
      cases r with
      | nil => exact .short [] rfl (by simp)
      | cons d r =>
        by_cases hd : d = 45
        · subst hd
          by_cases hr : r = []
          · subst hr; exact .dashes rfl
          · by_cases he : (61 : Byte) ∈ r
            · obtain ⟨n, v, h1, h2⟩ := split_at_eq r he
              exact .attached n v (by rw [h1]) h2
            · exact .long r rfl hr he
        · exact .short (d :: r) rfl (by simp [hd])
    · exact .word (by simp [hc])

/-! ### Reading, one argument at a time -/

variable {tables : List (List Opt)} {t : Option Nat} {k pos : Nat} {os : List Opt} {arg : Str} {rest : List Str}

theorem meaning_dashes (only : Bool) :
    meaning tables t pos only false ([45, 45] :: rest) = meaning tables t pos true false rest := by
  simp [meaning, argKind_dashes]

theorem meaning_dash :
    meaning tables t pos false false ([45] :: rest) = meaning tables t pos false false rest := by
  simp [meaning, argKind]

theorem meaning_only (hk : tables[k]? = some os) (h : arg ≠ [45, 45]) :
    meaning tables (some k) pos true false (arg :: rest) =
      posActs k os pos arg ++ meaning tables (some k) (pos + 1) true false rest := by
  have : argKind arg ≠ .dashes := by
    rcases argKind_cases arg with h1 | ⟨_, r, _, h1⟩ | ⟨_, _, r, _, h1⟩ | ⟨_, _, _, h1⟩
    · exact absurd h1.1 h
    all_goals rw [h1]; simp
  simp [meaning, this, hk]

theorem meaning_long {n : Str} {v : Option Str} (hk : tables[k]? = some os) (h : argKind arg = .long n v) :
    meaning tables (some k) pos false false (arg :: rest) = (longActs k os n v rest.head?).1 ++
      meaning tables (some k) pos false (longActs k os n v rest.head?).2 rest := by
  simp [meaning, h, hk]

theorem meaning_short {cl : Str} (hk : tables[k]? = some os) (h : argKind arg = .short cl) (hne : cl ≠ []) :
    meaning tables (some k) pos false false (arg :: rest) =
      if negNumber os pos cl then posActs k os pos arg ++ meaning tables (some k) (pos + 1) false false rest
      else (shortActs k os rest.head? cl).1 ++ meaning tables (some k) pos false (shortActs k os rest.head? cl).2 rest := by
  simp [meaning, h, hk, hne]

theorem meaning_word (hk : tables[k]? = some os) (h : argKind arg = .word) :
    meaning tables (some k) pos false false (arg :: rest) =
      match subChoice os arg with
      | some (.ok x) => .enter ⟨k, x.2⟩ :: meaning tables x.1.subOptions 0 false false rest
      | some (.error c) => [.fail c]
      | none => posActs k os pos arg ++ meaning tables (some k) (pos + 1) false false rest := by
  simp only [meaning, h, hk, Option.bind_some, reduceCtorEq, if_false, false_and, Bool.false_eq_true]
  rcases subChoice os arg with _ | _ | _ <;> rfl

theorem meaning_noTable {only : Bool} (hk : t.bind (fun k => tables[k]?) = none) (h1 : arg ≠ [45, 45])
    (h2 : arg = [45] → only = true) : meaning tables t pos only false (arg :: rest) = [.noTable] := by
  have ha : argKind arg ≠ .dashes := by
    rcases argKind_cases arg with h | ⟨_, r, _, h⟩ | ⟨_, _, r, _, h⟩ | ⟨_, _, _, h⟩
    · exact absurd h.1 h1
    all_goals rw [h]; simp
  have hb : ¬ (argKind arg = .short [] ∧ only = false) := by
    rintro ⟨h, ho⟩
    rcases spelling arg with hs | ⟨n, hs, hn, he⟩ | ⟨n, v, hs, he⟩ | ⟨cl, hs, hc⟩ | hs
    · exact h1 hs
    · rw [hs, argKind_long hn he] at h; simp at h
    · rw [hs, argKind_attached he] at h; simp at h
    · rw [hs, argKind_short hc] at h
      simp only [ArgKind.short.injEq] at h
      rw [h] at hs
      rw [h2 hs] at ho
      simp at ho
    · rw [argKind_word hs] at h; simp at h
  unfold meaning
  rw [if_neg ha, if_neg hb, hk]
  cases t <;> rfl

/-! ### Acts that are not errors -/

/-- Something the user wants. -/
def Act.Wish : Act → Prop
  | .give _ _ => True
  | .enter _ => True
  | .fail _ => False
  | .noTable => False

/-- All are wishes. -/
def AllWishes (acts : List Act) : Prop := ∀ x ∈ acts, x.Wish

theorem AllWishes.nil : AllWishes [] := by intro x hx; simp at hx

theorem AllWishes.cons {x : Act} {xs : List Act} : AllWishes (x :: xs) ↔ x.Wish ∧ AllWishes xs := by
  simp [AllWishes]

theorem AllWishes.append {xs ys : List Act} : AllWishes (xs ++ ys) ↔ AllWishes xs ∧ AllWishes ys := by
  unfold AllWishes
  constructor
  · intro h
    exact ⟨fun x hx => h x (by simp [hx]), fun x hx => h x (by simp [hx])⟩
  · rintro ⟨h1, h2⟩ x hx
    rcases List.mem_append.1 hx with hx | hx
    · exact h1 x hx
    · exact h2 x hx

theorem posActs_wish {acts : List Act} (h : AllWishes (posActs k os pos arg ++ acts)) :
    ∃ o i, slotAt os pos = some (o, i) ∧ posActs k os pos arg = [.give ⟨k, i⟩ (some arg)] ∧ AllWishes acts := by
  obtain ⟨h1, h2⟩ := AllWishes.append.1 h
  unfold posActs at h1 ⊢
  split at h1
  · rename_i o i hs
    exact ⟨o, i, hs, rfl, h2⟩
  · exact absurd (h1 _ (List.mem_singleton.2 rfl)) (fun h => h)

theorem posActs_slot {o : Opt} {i : Nat} (h : slotAt os pos = some (o, i)) :
    posActs k os pos arg = [.give ⟨k, i⟩ (some arg)] := by
  simp [posActs, h]

/-! ### Bundles of short options -/

theorem shortActs_bundle {cl : Str} {extra : List Str} {acts : List Act} (h : Bundle k os cl extra acts) :
    shortActs k os (extra ++ rest).head? cl = (acts, decide (extra ≠ [])) ∧ AllWishes acts ∧ cl ≠ [] ∧
      ∀ b, meaning tables t pos b (decide (extra ≠ [])) (extra ++ rest) = meaning tables t pos b false rest := by
  induction h with
  | flag c i o hc hf =>
    refine ⟨?_, by simp [AllWishes, Act.Wish], by simp, fun b => rfl⟩
    unfold shortActs
    rw [shortIdx_called.2 ⟨o, hc⟩]
    simp [isFlagAt_of hc.1, hf, shortActs]
  | flags c i o cs extra acts hc hf _ ih =>
    refine ⟨?_, AllWishes.cons.2 ⟨trivial, ih.2.1⟩, by simp, ih.2.2.2⟩
    unfold shortActs
    rw [shortIdx_called.2 ⟨o, hc⟩]
    simp only [isFlagAt_of hc.1, hf, decide_true, if_true]
    rw [ih.1]
  | attached c i o v hc hf hv =>
    refine ⟨?_, by simp [AllWishes, Act.Wish], by simp, fun b => rfl⟩
    unfold shortActs
    rw [shortIdx_called.2 ⟨o, hc⟩]
    simp only [isFlagAt_of hc.1, hf, decide_false]
    cases v with
    | nil => exact absurd rfl hv
    | cons d v => simp
  | separate c i o v hc hf =>
    refine ⟨?_, by simp [AllWishes, Act.Wish], by simp, fun b => by simp [meaning]⟩
    unfold shortActs
    rw [shortIdx_called.2 ⟨o, hc⟩]
    simp [isFlagAt_of hc.1, hf]

theorem bundle_of_shortActs : ∀ (cl : Str), cl ≠ [] → AllWishes (shortActs k os rest.head? cl).1 →
    ∃ extra rest', rest = extra ++ rest' ∧ Bundle k os cl extra (shortActs k os rest.head? cl).1 ∧
      (shortActs k os rest.head? cl).2 = decide (extra ≠ [])
  | [], h, _ => absurd rfl h
  | c :: cs, _, hw => by
    unfold shortActs at hw ⊢
    cases hs : shortIdx os c with
    | none =>
      rw [hs] at hw
      exact absurd (hw _ (List.mem_singleton.2 rfl)) (fun h => h)
    | some i =>
      obtain ⟨o, hc⟩ := shortIdx_called.1 hs
      simp only [hs] at hw ⊢
      rw [isFlagAt_of hc.1] at hw ⊢
      by_cases hf : o.valueType = .flag
      · simp only [hf, decide_true, if_true] at hw ⊢
        by_cases hcs : cs = []
        · subst hcs
          exact ⟨[], rest, rfl, .flag c i o hc hf, by simp [shortActs]⟩
        · obtain ⟨extra, rest', h1, h2, h3⟩ := bundle_of_shortActs cs hcs (AllWishes.cons.1 hw).2
          exact ⟨extra, rest', h1, .flags c i o cs extra _ hc hf h2, h3⟩
      · simp only [hf, decide_false, Bool.false_eq_true, if_false] at hw ⊢
        cases cs with
        | cons d ds => exact ⟨[], rest, rfl, .attached c i o _ hc hf (by simp), by simp⟩
        | nil =>
          cases rest with
          | nil => exact absurd (hw _ (List.mem_singleton.2 rfl)) (fun h => h)
          | cons v rest => exact ⟨[v], rest, rfl, .separate c i o v hc hf, by simp⟩

/-! ### From writing to reading -/

theorem take_self {name : Str} (h : name.length ≤ 63) : name.take 63 = name := List.take_of_length_le h

theorem Written.reads {drop : Prop} {only : Bool} {args : List Str} {acts : List Act}
    (h : Written drop tables t pos only args acts) :
    meaning tables t pos only false args = acts ∧ AllWishes acts := by
  induction h with
  | done t pos only => exact ⟨by cases only <;> rfl, AllWishes.nil⟩
  | stop t pos rest acts _ ih => exact ⟨(meaning_dashes false).trans ih.1, ih.2⟩
  | longFlag t pos os name i o rest acts hk hc hf hne hl he _ ih =>
    refine ⟨?_, AllWishes.cons.2 ⟨trivial, ih.2⟩⟩
    rw [show c!"--" ++ name = 45 :: 45 :: name from rfl, meaning_long hk (argKind_long hne he), take_self hl]
    unfold longActs
    rw [longIdx_called.2 ⟨o, hc⟩]
    simp only [isFlagAt_of hc.1, hf, decide_true, if_true]
    rw [ih.1]
    rfl
  | longAttached t pos os name value i o rest acts hk hc hf hl he _ ih =>
    refine ⟨?_, AllWishes.cons.2 ⟨trivial, ih.2⟩⟩
    rw [show c!"--" ++ name ++ c!"=" ++ value = 45 :: 45 :: (name ++ 61 :: value) by simp,
      meaning_long hk (argKind_attached he), take_self hl]
    unfold longActs
    rw [longIdx_called.2 ⟨o, hc⟩]
    simp only [isFlagAt_of hc.1, hf, decide_false, Bool.false_eq_true, if_false]
    rw [ih.1]
    rfl
  | longSeparate t pos os name value i o rest acts hk hc hf hne hl he _ ih =>
    refine ⟨?_, AllWishes.cons.2 ⟨trivial, ih.2⟩⟩
    rw [show c!"--" ++ name = 45 :: 45 :: name from rfl, meaning_long hk (argKind_long hne he), take_self hl]
    unfold longActs
    rw [longIdx_called.2 ⟨o, hc⟩]
    simp only [isFlagAt_of hc.1, hf, decide_false, Bool.false_eq_true, if_false, List.head?_cons]
    rw [show meaning tables (some t) pos false true (value :: rest) = meaning tables (some t) pos false false rest by
      simp [meaning], ih.1]
    rfl
  | short t pos os cluster extra rest acts1 acts hk hb hd hn _ ih =>
    obtain ⟨h1, h2, h3, h4⟩ := shortActs_bundle (tables := tables) (t := some t) (pos := pos) (rest := rest) hb
    refine ⟨?_, AllWishes.append.2 ⟨h2, ih.2⟩⟩
    have hneg : negNumber os pos cluster = false := by
      cases hx : negNumber os pos cluster with
      | false => rfl
      | true => exact absurd (negNumber_iff.1 hx) hn
    rw [show c!"-" ++ cluster = 45 :: cluster from rfl, meaning_short hk (argKind_short hd) h3, hneg]
    simp only [Bool.false_eq_true, if_false]
    rw [h1]
    simp only
    rw [h4, ih.1]
  | command t pos os arg i o rest acts hk hd hm _ ih =>
    refine ⟨?_, AllWishes.cons.2 ⟨trivial, ih.2⟩⟩
    rw [meaning_word hk (argKind_word hd), (subChoice_meant (x := (o, i))).2 hm]
    simp only
    rw [ih.1]
  | word t pos os arg i o rest acts hk hd hn hs _ ih =>
    refine ⟨?_, AllWishes.cons.2 ⟨trivial, ih.2⟩⟩
    rw [meaning_word hk (argKind_word hd), subChoice_none.2 hn]
    simp only
    rw [ih.1, posActs_slot hs]
    rfl
  | number t pos os arg i o rest acts hk hn hs _ ih =>
    refine ⟨?_, AllWishes.cons.2 ⟨trivial, ih.2⟩⟩
    have hcl : ∃ cl, arg = 45 :: cl ∧ cl.head? ≠ some 45 ∧ cl ≠ [] := by
      obtain ⟨⟨d, r, hd, h | h⟩, _⟩ := hn
      · refine ⟨d :: r, h, ?_, by simp⟩
        simp only [List.head?_cons, ne_eq, Option.some.injEq]
        rintro rfl
        simp [isDigit] at hd
      · exact ⟨46 :: d :: r, h, by simp, by simp⟩
    obtain ⟨cl, rfl, h1, h2⟩ := hcl
    rw [meaning_short hk (argKind_short h1) h2, negNumber_iff.2 hn]
    simp only [if_true]
    rw [ih.1, posActs_slot hs]
    rfl
  | after t pos os arg i o rest acts hk hd hs _ ih =>
    refine ⟨?_, AllWishes.cons.2 ⟨trivial, ih.2⟩⟩
    rw [meaning_only hk hd, ih.1, posActs_slot hs]
    rfl
  | dropDash t pos rest acts _ _ ih => exact ⟨meaning_dash.trans ih.1, ih.2⟩
  | dropStop t pos rest acts _ _ ih => exact ⟨(meaning_dashes true).trans ih.1, ih.2⟩
  | dropValue t pos os name value i o rest acts _ hk hc hf hl he _ ih =>
    refine ⟨?_, AllWishes.cons.2 ⟨trivial, ih.2⟩⟩
    rw [show c!"--" ++ name ++ c!"=" ++ value = 45 :: 45 :: (name ++ 61 :: value) by simp,
      meaning_long hk (argKind_attached he), take_self hl]
    unfold longActs
    rw [longIdx_called.2 ⟨o, hc⟩]
    simp only [isFlagAt_of hc.1, hf, decide_true, if_true]
    rw [ih.1]
    rfl
  | dropName t pos os name tail text i o rest acts _ hk hc hl he hne ht _ htext ih =>
    refine ⟨?_, ih.2⟩
    rw [← ih.1]
    have hn : name ≠ [] := by rintro rfl; simp at hl
    have hnt : (61 : Byte) ∉ name ++ tail := by
      intro hm
      rcases List.mem_append.1 hm with hm | hm
      · exact he hm
      · exact ht hm
    have htake : (name ++ tail).take 63 = name := by rw [← hl]; simp
    have hself : name.take 63 = name := take_self (by omega)
    rcases htext with rfl | ⟨v, rfl⟩
    · rw [show c!"--" ++ name ++ tail ++ [] = 45 :: 45 :: (name ++ tail) by simp,
        show c!"--" ++ name ++ [] = 45 :: 45 :: name by simp,
        meaning_long hk (argKind_long (by simp [hn]) hnt), meaning_long hk (argKind_long hn he), htake, hself]
    · rw [show c!"--" ++ name ++ tail ++ (c!"=" ++ v) = 45 :: 45 :: ((name ++ tail) ++ 61 :: v) by simp,
        show c!"--" ++ name ++ (c!"=" ++ v) = 45 :: 45 :: (name ++ 61 :: v) by simp,
        meaning_long hk (argKind_attached hnt), meaning_long hk (argKind_attached he), htake, hself]

/-! ### From reading to writing -/

/-- What follows the name in the argument. -/
def valuePart : Option Str → Str
  | none => []
  | some v => c!"=" ++ v

theorem written_long {name : Str} {value : Option Str} (hk : tables[k]? = some os) (hl : name.length ≤ 63)
    (he : (61 : Byte) ∉ name) (hne : value = none → name ≠ [])
    (hw : AllWishes ((longActs k os name value rest.head?).1 ++
      meaning tables (some k) pos false (longActs k os name value rest.head?).2 rest))
    (ih : ∀ rest' : List Str, rest'.length ≤ rest.length → AllWishes (meaning tables (some k) pos false false rest') →
      Written True tables (some k) pos false rest' (meaning tables (some k) pos false false rest')) :
    (∃ i o, CalledLong os name i o) ∧
    Written True tables (some k) pos false ((c!"--" ++ name ++ valuePart value) :: rest)
      ((longActs k os name value rest.head?).1 ++
        meaning tables (some k) pos false (longActs k os name value rest.head?).2 rest) := by
  unfold longActs at hw ⊢
  cases hi : longIdx os name with
  | none =>
    rw [hi] at hw
    exact absurd ((AllWishes.append.1 hw).1 _ (List.mem_singleton.2 rfl)) (fun h => h)
  | some i =>
    obtain ⟨o, hc⟩ := longIdx_called.1 hi
    refine ⟨⟨i, o, hc⟩, ?_⟩
    simp only [hi] at hw ⊢
    rw [isFlagAt_of hc.1] at hw ⊢
    by_cases hf : o.valueType = .flag
    · simp only [hf, decide_true, if_true] at hw ⊢
      have := ih rest (Nat.le_refl _) (AllWishes.append.1 hw).2
      cases value with
      | none =>
        simp only [valuePart, List.append_nil]
        exact .longFlag k pos os name i o rest _ hk hc hf (hne rfl) hl he this
      | some v =>
        simp only [valuePart, ← List.append_assoc]
        exact .dropValue k pos os name v i o rest _ trivial hk hc hf hl he this
    · simp only [hf, decide_false, Bool.false_eq_true, if_false] at hw ⊢
      cases value with
      | some v =>
        simp only [valuePart, ← List.append_assoc] at hw ⊢
        exact .longAttached k pos os name v i o rest _ hk hc hf hl he (ih rest (Nat.le_refl _) (AllWishes.append.1 hw).2)
      | none =>
        cases rest with
        | nil => exact absurd ((AllWishes.append.1 hw).1 _ (List.mem_singleton.2 rfl)) (fun h => h)
        | cons v rest =>
          simp only [valuePart, List.head?_cons, List.append_nil] at hw ⊢
          have hm : meaning tables (some k) pos false true (v :: rest) = meaning tables (some k) pos false false rest := by
            simp [meaning]
          rw [hm] at hw ⊢
          exact .longSeparate k pos os name v i o rest _ hk hc hf (hne rfl) hl he
            (ih rest (by simp) (AllWishes.append.1 hw).2)

theorem written_of_meaning : ∀ (n : Nat) (args : List Str), args.length ≤ n → ∀ (t : Option Nat) (pos : Nat) (only : Bool),
    AllWishes (meaning tables t pos only false args) →
    Written True tables t pos only args (meaning tables t pos only false args)
  | _, [], _, t, pos, only, _ => by
    rw [show meaning tables t pos only false [] = [] by cases only <;> rfl]
    exact .done t pos only
  | 0, _ :: _, hn, _, _, _, _ => by simp at hn
  | n + 1, arg :: rest, hn, t, pos, only, hw => by
    have hlen : rest.length ≤ n := by simpa using hn
    have ih := fun (rest' : List Str) (h : rest'.length ≤ rest.length) => written_of_meaning n rest' (by omega)
    by_cases hdd : arg = [45, 45]
    · subst hdd
      rw [meaning_dashes] at hw ⊢
      cases only with
      | false => exact .stop t pos rest _ (ih rest (Nat.le_refl _) t pos true hw)
      | true => exact .dropStop t pos rest _ trivial (ih rest (Nat.le_refl _) t pos true hw)
    by_cases hd : arg = [45] ∧ only = false
    · obtain ⟨rfl, rfl⟩ := hd
      rw [meaning_dash] at hw ⊢
      exact .dropDash t pos rest _ trivial (ih rest (Nat.le_refl _) t pos false hw)
    cases hk : t.bind (fun k => tables[k]?) with
    | none =>
      rw [meaning_noTable hk hdd (fun h => by
        cases only with
        | true => rfl
        | false => exact absurd ⟨h, rfl⟩ hd)] at hw
      exact absurd (hw _ (List.mem_singleton.2 rfl)) (fun h => h)
    | some os =>
      cases t with
      | none => simp at hk
      | some k =>
        simp only [Option.bind_some] at hk
        cases only with
        | true =>
          rw [meaning_only hk hdd] at hw ⊢
          obtain ⟨o, i, h1, h2, h3⟩ := posActs_wish hw
          rw [h2]
          exact .after k pos os arg i o rest _ hk hdd h1 (ih rest (Nat.le_refl _) _ _ _ h3)
        | false =>
          have long : ∀ (name : Str) (value : Option Str), (61 : Byte) ∉ name → (value = none → name ≠ []) →
              arg = c!"--" ++ name ++ valuePart value →
              argKind arg = .long (name.take 63) value →
              Written True tables (some k) pos false (arg :: rest) (meaning tables (some k) pos false false (arg :: rest)) := by
            intro name value he hne harg hkind
            rw [meaning_long hk hkind] at hw ⊢
            have hsub : (61 : Byte) ∉ name.take 63 := fun h => he (List.mem_of_mem_take h)
            have hne' : value = none → name.take 63 ≠ [] := by
              intro hv h
              have := hne hv
              cases name with
              | nil => exact this rfl
              | cons _ _ => simp at h
            obtain ⟨⟨i, o, hc⟩, h1⟩ := written_long (pos := pos) hk (List.length_take_le 63 name) hsub hne' hw
              (fun rest' h hw' => ih rest' h (some k) pos false hw')
            by_cases hl : name.length ≤ 63
            · rw [take_self hl] at h1 ⊢
              rw [harg]
              exact h1
            · have htail : name.drop 63 ≠ [] := by
                intro h
                have := congrArg List.length h
                simp at this
                omega
              have h63 : (name.take 63).length = 63 := by rw [List.length_take]; omega
              have := Written.dropName k pos os (name.take 63) (name.drop 63)
                (valuePart value) i o rest _ trivial hk hc h63 hsub htail
                (fun h => he (List.mem_of_mem_drop h)) h1 (by
                  cases value with
                  | none => exact .inl rfl
                  | some v => exact .inr ⟨v, rfl⟩)
              rw [harg]
              rw [List.append_assoc c!"--", List.take_append_drop] at this
              exact this
          rcases spelling arg with hs | ⟨name, hs, hne, he⟩ | ⟨name, v, hs, he⟩ | ⟨cl, hs, hc⟩ | hs
          · exact absurd hs hdd
          · exact long name none he (fun _ => hne) (by rw [hs]; simp [valuePart]) (by rw [hs]; exact argKind_long hne he)
          · exact long name (some v) he (by simp) (by rw [hs]; simp [valuePart]) (by rw [hs]; exact argKind_attached he)
          · have hcl : cl ≠ [] := by
              rintro rfl
              exact hd ⟨hs, rfl⟩
            have hkind : argKind arg = .short cl := by rw [hs]; exact argKind_short hc
            rw [meaning_short hk hkind hcl] at hw ⊢
            cases hneg : negNumber os pos cl with
            | true =>
              rw [hneg] at hw
              simp only [if_true] at hw ⊢
              obtain ⟨o, i, h1, h2, h3⟩ := posActs_wish hw
              rw [h2]
              exact .number k pos os arg i o rest _ hk (hs ▸ negNumber_iff.1 hneg) h1 (ih rest (Nat.le_refl _) _ _ _ h3)
            | false =>
              rw [hneg] at hw
              simp only [Bool.false_eq_true, if_false] at hw ⊢
              obtain ⟨extra, rest', h1, h2, h3⟩ := bundle_of_shortActs (rest := rest) cl hcl (AllWishes.append.1 hw).1
              rw [h3] at hw ⊢
              have h4 := (shortActs_bundle (tables := tables) (t := some k) (pos := pos) (rest := rest') h2).2.2.2 false
              rw [← h1] at h4
              rw [h4] at hw ⊢
              have h5 := ih rest' (by rw [h1]; simp) _ _ _ (AllWishes.append.1 hw).2
              have h6 := Written.short k pos os cl extra rest' _ _ hk h2 hc
                (fun h => by rw [(negNumber_iff (cluster := cl)).2 h] at hneg; simp at hneg) h5
              rw [← h1] at h6
              rw [hs]
              exact h6
          · rw [meaning_word hk (argKind_word hs)] at hw ⊢
            cases hch : subChoice os arg with
            | none =>
              rw [hch] at hw
              simp only at hw ⊢
              obtain ⟨o, i, h1, h2, h3⟩ := posActs_wish hw
              rw [h2]
              exact .word k pos os arg i o rest _ hk hs (subChoice_none.1 hch) h1 (ih rest (Nat.le_refl _) _ _ _ h3)
            | some e =>
              cases e with
              | error c =>
                rw [hch] at hw
                exact absurd (hw _ (List.mem_singleton.2 rfl)) (fun h => h)
              | ok x =>
                rw [hch] at hw
                simp only at hw ⊢
                exact .command k pos os arg x.2 x.1 rest _ hk hs (subChoice_meant.1 hch)
                  (ih rest (Nat.le_refl _) _ _ _ (AllWishes.cons.1 hw).2)



/-! ### Nothing dropped -/

/-- Without the things that can be dropped nothing is dropped. -/
theorem Written.strict {drop : Prop} {only : Bool} {args : List Str} {acts : List Act}
    (h : Written drop tables t pos only args acts) (h1 : c!"-" ∉ args) (h2 : args.count c!"--" ≤ 1)
    (h3 : only = true → c!"--" ∉ args)
    (h4 : ∀ (name value : Str), (61 : Byte) ∉ name → (c!"--" ++ name ++ c!"=" ++ value) ∈ args →
      ∀ os ∈ tables, ∀ o ∈ os, o.lname = some name → o.valueType ≠ .flag)
    (h5 : ∀ (name text : Str), (61 : Byte) ∉ name → (c!"--" ++ name ++ text) ∈ args → name.length ≤ 63) :
    Written False tables t pos only args acts := by
  have tail : ∀ {x : Str} {xs : List Str}, (x :: xs).count c!"--" ≤ 1 → xs.count c!"--" ≤ 1 := by
    intro x xs h
    rw [List.count_cons] at h
    omega
  induction h with
  | done t pos only => exact .done t pos only
  | stop t pos rest acts _ ih =>
    have hc : c!"--" ∉ rest := by
      rw [List.count_cons_self] at h2
      exact List.count_eq_zero.1 (by omega)
    exact .stop t pos rest acts (ih (fun h => h1 (by simp [h])) (tail h2) (fun _ => hc)
      (fun n v hn hm => h4 n v hn (List.mem_cons_of_mem _ hm)) (fun n v hn hm => h5 n v hn (List.mem_cons_of_mem _ hm)))
  | longFlag t pos os name i o rest acts hk hc hf hne hl he _ ih =>
    exact .longFlag t pos os name i o rest acts hk hc hf hne hl he (ih (fun h => h1 (by simp [h])) (tail h2) (by simp)
      (fun n v hn hm => h4 n v hn (List.mem_cons_of_mem _ hm)) (fun n v hn hm => h5 n v hn (List.mem_cons_of_mem _ hm)))
  | longAttached t pos os name value i o rest acts hk hc hf hl he _ ih =>
    exact .longAttached t pos os name value i o rest acts hk hc hf hl he (ih (fun h => h1 (by simp [h])) (tail h2) (by simp)
      (fun n v hn hm => h4 n v hn (List.mem_cons_of_mem _ hm)) (fun n v hn hm => h5 n v hn (List.mem_cons_of_mem _ hm)))
  | longSeparate t pos os name value i o rest acts hk hc hf hne hl he _ ih =>
    exact .longSeparate t pos os name value i o rest acts hk hc hf hne hl he (ih (fun h => h1 (by simp [h]))
      (tail (tail h2)) (by simp) (fun n v hn hm => h4 n v hn (List.mem_cons_of_mem _ (List.mem_cons_of_mem _ hm))) (fun n v hn hm => h5 n v hn (List.mem_cons_of_mem _ (List.mem_cons_of_mem _ hm))))
  | short t pos os cluster extra rest acts1 acts hk hb hd hn _ ih =>
    have hcount : rest.count c!"--" ≤ 1 := by
      have := tail h2
      rw [List.count_append] at this
      omega
    exact .short t pos os cluster extra rest acts1 acts hk hb hd hn (ih (fun h => h1 (by simp [h])) hcount (by simp)
      (fun n v hn hm => h4 n v hn (List.mem_cons_of_mem _ (List.mem_append_right _ hm))) (fun n v hn hm => h5 n v hn (List.mem_cons_of_mem _ (List.mem_append_right _ hm))))
  | command t pos os arg i o rest acts hk hd hm _ ih =>
    exact .command t pos os arg i o rest acts hk hd hm (ih (fun h => h1 (by simp [h])) (tail h2) (by simp)
      (fun n v hn hm => h4 n v hn (List.mem_cons_of_mem _ hm)) (fun n v hn hm => h5 n v hn (List.mem_cons_of_mem _ hm)))
  | word t pos os arg i o rest acts hk hd hn hs _ ih =>
    exact .word t pos os arg i o rest acts hk hd hn hs (ih (fun h => h1 (by simp [h])) (tail h2) (by simp)
      (fun n v hn hm => h4 n v hn (List.mem_cons_of_mem _ hm)) (fun n v hn hm => h5 n v hn (List.mem_cons_of_mem _ hm)))
  | number t pos os arg i o rest acts hk hn hs _ ih =>
    exact .number t pos os arg i o rest acts hk hn hs (ih (fun h => h1 (by simp [h])) (tail h2) (by simp)
      (fun n v hn hm => h4 n v hn (List.mem_cons_of_mem _ hm)) (fun n v hn hm => h5 n v hn (List.mem_cons_of_mem _ hm)))
  | after t pos os arg i o rest acts hk hd hs _ ih =>
    exact .after t pos os arg i o rest acts hk hd hs (ih (fun h => h1 (by simp [h])) (tail h2)
      (fun _ hm => h3 rfl (by simp [hm]))
      (fun n v hn hm => h4 n v hn (List.mem_cons_of_mem _ hm)) (fun n v hn hm => h5 n v hn (List.mem_cons_of_mem _ hm)))
  | dropDash t pos rest acts _ _ _ => exact absurd (by simp) h1
  | dropStop t pos rest acts _ _ _ => exact absurd (by simp) (h3 rfl)
  | dropValue t pos os name value i o rest acts _ hk hc hf hl he _ _ =>
    exact absurd hf (h4 name value he (by simp) os (List.mem_of_getElem? hk) o (List.mem_of_getElem? hc.1) hc.2.1.2)
  | dropName t pos os name tail text i o rest acts _ hk hc hl he hne ht _ htext _ =>
    exfalso
    have hnt : (61 : Byte) ∉ name ++ tail := by
      intro hm
      rcases List.mem_append.1 hm with hm | hm
      · exact he hm
      · exact ht hm
    have := h5 (name ++ tail) text hnt (by rw [← List.append_assoc]; simp)
    rw [List.length_append] at this
    have : tail.length ≠ 0 := by simpa using hne
    omega

/-- A run that succeeds contains no error. -/
theorem run_success_wishes (W : World) : ∀ (acts : List Act) (a a' : Argus), run W a acts = .ok (Err.success, a') →
    Act.fail Err.success ∉ acts → AllWishes acts
  | [], _, _, _, _ => AllWishes.nil
  | .give p x :: acts, a, a', h, hf => by
    unfold run at h
    obtain ⟨r, hr, h1⟩ := Out.bind_eq_ok h
    split at h1
    · rename_i hne; simp only [Out.ok.injEq] at h1; rw [h1] at hne; exact absurd rfl hne
    · exact AllWishes.cons.2 ⟨trivial, run_success_wishes W acts _ _ h1 (fun hm => hf (by simp [hm]))⟩
  | .enter p :: acts, a, a', h, hf => by
    unfold run at h
    obtain ⟨e, he, h1⟩ := Out.bind_eq_ok h
    exact AllWishes.cons.2 ⟨trivial, run_success_wishes W acts _ _ h1 (fun hm => hf (by simp [hm]))⟩
  | .fail c :: acts, a, a', h, hf => by
    simp only [run, Out.ok.injEq, Prod.mk.injEq] at h
    exact absurd (by rw [h.1]; simp) hf
  | .noTable :: acts, a, a', h, hf => by simp [run] at h

end Argus
