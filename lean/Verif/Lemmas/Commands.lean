import Verif.Lemmas.History

/-! Lemmas on the choice of subcommands. -/

set_option autoImplicit false

namespace Argus

/-- Prefixes of a command line compose. -/
theorem runPrefix_append {W : World} : ∀ (pre more : List Str) {s s1 s2 : PState},
    runPrefix W s pre = some s1 → runPrefix W s1 more = some s2 → (pre = [] → s.skip = false) →
    runPrefix W s (pre ++ more) = some s2
  | [], more, s, s1, s2, h1, h2, _ => by
    simp only [runPrefix, Option.some.injEq] at h1; subst h1; exact h2
  | arg :: rest, more, s, s1, s2, h1, h2, _ => by
    simp only [List.cons_append]
    unfold runPrefix at h1 ⊢
    split at h1
    · rename_i hs
      rw [if_pos hs]
      exact runPrefix_append rest more h1 h2 (fun _ => rfl)
    · rename_i hs
      rw [if_neg hs]
      split at h1
      · rename_i a pos only used hst
        have hu : rest = [] → used = false := by
          rintro rfl; exact parseStep_used hst
        rw [parseStep_append hst (.inr trivial) more]
        exact runPrefix_append rest more h1 h2 hu
      · rename_i t a hst
        rw [parseStep_append hst (.inr trivial) more]
        exact runPrefix_append rest more h1 h2 (fun _ => rfl)
      · simp at h1

theorem Reach.append {W : World} {a : Argus} {pre more : List Str} {s s' : PState}
    (h : Reach W a pre s) (h2 : runPrefix W s more = some s') : Reach W a (pre ++ more) s' :=
  runPrefix_append pre more h h2 (fun _ => rfl)

theorem eq_singleton {α : Type} {l : List α} {x : α} (hn : l.Nodup) (h : ∀ y ∈ l, y = x) (hx : x ∈ l) :
    l = [x] := by
  match l, hn, h, hx with
  | [], _, _, hx => simp at hx
  | [y], _, h, _ => rw [h y (by simp)]
  | y :: z :: l, hn, h, _ =>
    have h1 := h y (by simp)
    have h2 := h z (by simp)
    subst h1; rw [h2] at hn; simp at hn

theorem zipIdx_sorted {α : Type} (l : List α) :
    (l.zipIdx).Pairwise (fun x y => x.2 < y.2) := by
  rw [List.pairwise_iff_getElem]
  intro i j hi hj hij
  simp; omega

theorem subMatches_sorted (os : List Opt) (arg : Str) :
    (subMatches os arg).Pairwise (fun x y => x.2 < y.2) :=
  (zipIdx_sorted os).sublist List.filter_sublist

theorem mem_subMatches {os : List Opt} {arg : Str} {x : Opt × Nat} :
    x ∈ subMatches os arg ↔ os[x.2]? = some x.1 ∧ x.1.type = .subcommand ∧
      ∃ n, x.1.name = some n ∧ arg <+: n := by
  unfold subMatches
  rw [List.mem_filter]
  constructor
  · rintro ⟨h1, h2⟩
    have h3 := of_decide_eq_true h2
    refine ⟨List.mk_mem_zipIdx_iff_getElem?.1 h1, h3.1, ?_⟩
    have h4 := h3.2
    rw [Option.any_eq_true] at h4
    obtain ⟨n, hn, hp⟩ := h4
    exact ⟨n, hn, List.isPrefixOf_iff_prefix.1 hp⟩
  · rintro ⟨h1, h2, n, hn, hp⟩
    refine ⟨List.mk_mem_zipIdx_iff_getElem?.2 h1, ?_⟩
    refine decide_eq_true ⟨h2, ?_⟩
    rw [Option.any_eq_true]
    exact ⟨n, hn, List.isPrefixOf_iff_prefix.2 hp⟩

theorem subMatches_nodup (os : List Opt) (arg : Str) : (subMatches os arg).Nodup :=
  (subMatches_sorted os arg).imp (fun {x y} h => by rintro rfl; omega)

/-- One single subcommand begins with the argument. -/
theorem subChoice_unique {os : List Opt} {arg n : Str} {o : Opt} {i : Nat} (hi : os[i]? = some o)
    (ht : o.type = .subcommand) (hn : o.name = some n) (hp : arg <+: n)
    (hu : ∀ (j : Nat) (o' : Opt) (n' : Str), os[j]? = some o' → o'.type = .subcommand → o'.name = some n' →
      arg <+: n' → j = i) : subChoice os arg = some (.ok (o, i)) := by
  have : subMatches os arg = [(o, i)] := by
    refine eq_singleton (subMatches_nodup _ _) (fun y hy => ?_) (mem_subMatches.2 ⟨hi, ht, n, hn, hp⟩)
    obtain ⟨h1, h2, n', h3, h4⟩ := mem_subMatches.1 hy
    have hj := hu y.2 y.1 n' h1 h2 h3 h4
    rw [hj, hi] at h1
    exact Prod.ext (Option.some.inj h1).symm hj
  unfold subChoice
  rw [this]

/-- The first subcommand that begins with the argument is spelled out by it. -/
theorem subChoice_exact {os : List Opt} {arg : Str} {o : Opt} {i : Nat} (hi : os[i]? = some o)
    (ht : o.type = .subcommand) (hn : o.name = some arg)
    (hu : ∀ (j : Nat) (o' : Opt) (n' : Str), os[j]? = some o' → o'.type = .subcommand → o'.name = some n' →
      arg <+: n' → i ≤ j) : subChoice os arg = some (.ok (o, i)) := by
  have hm := mem_subMatches.2 (⟨hi, ht, arg, hn, List.prefix_rfl⟩ : os[(o, i).2]? = some (o, i).1 ∧ _)
  have hs := subMatches_sorted os arg
  unfold subChoice
  match hl : subMatches os arg with
  | [] => rw [hl] at hm; simp at hm
  | [x] => rw [hl] at hm; simp only [List.mem_singleton] at hm; rw [hm]
  | x :: y :: l =>
    have hx : x = (o, i) := by
      rw [hl] at hm hs
      rcases List.mem_cons.1 hm with h | h
      · exact h.symm
      · have h1 := (List.pairwise_cons.1 hs).1 _ h
        have h2 := mem_subMatches.1 (show x ∈ subMatches os arg by rw [hl]; simp)
        obtain ⟨g1, g2, n', g3, g4⟩ := h2
        have := hu x.2 x.1 n' g1 g2 g3 g4
        simp only at h1; omega
    simp only [hx, hn, if_true]

/-- Several subcommands begin with the argument, and the first of them is longer. -/
theorem subChoice_ambiguous {os : List Opt} {arg n n' : Str} {o o' : Opt} {i j : Nat} (hij : i ≠ j)
    (hi : os[i]? = some o) (ht : o.type = .subcommand) (hn : o.name = some n) (hp : arg <+: n)
    (hj : os[j]? = some o') (ht' : o'.type = .subcommand) (hn' : o'.name = some n') (hp' : arg <+: n')
    (hf : ∀ (k : Nat) (q : Opt), os[k]? = some q → q.type = .subcommand → q.name = some arg →
      ∃ (m : Nat) (q' : Opt) (n'' : Str), m < k ∧ os[m]? = some q' ∧ q'.type = .subcommand ∧
        q'.name = some n'' ∧ arg <+: n'') :
    subChoice os arg = some (.error Err.ambiguousSubcommand) := by
  have h1 := mem_subMatches.2 (⟨hi, ht, n, hn, hp⟩ : os[(o, i).2]? = some (o, i).1 ∧ _)
  have h2 := mem_subMatches.2 (⟨hj, ht', n', hn', hp'⟩ : os[(o', j).2]? = some (o', j).1 ∧ _)
  have hs := subMatches_sorted os arg
  unfold subChoice
  match hl : subMatches os arg with
  | [] => rw [hl] at h1; simp at h1
  | [x] =>
    rw [hl] at h1 h2; simp only [List.mem_singleton] at h1 h2
    exact absurd (congrArg Prod.snd (h1.trans h2.symm)) hij
  | x :: y :: l =>
    simp only
    rw [if_neg]
    intro he
    obtain ⟨g1, g2, n'', g3, g4⟩ := mem_subMatches.1 (show x ∈ subMatches os arg by rw [hl]; simp)
    obtain ⟨m, q', n3, hm, hq1, hq2, hq3, hq4⟩ := hf x.2 x.1 g1 g2 he
    have hmem := mem_subMatches.2 (⟨hq1, hq2, n3, hq3, hq4⟩ : os[(q', m).2]? = some (q', m).1 ∧ _)
    rw [hl] at hmem hs
    rcases List.mem_cons.1 hmem with h | h
    · rw [← h] at hm; simp at hm
    · have := (List.pairwise_cons.1 hs).1 _ h
      simp only at this; omega

theorem head_word {arg : Str} (h : arg.head? ≠ some 45) :
    arg ≠ [45, 45] ∧ startsWith [45, 45] arg = none ∧ startsWith [45] arg = none :=
  ⟨by rintro rfl; exact h rfl, startsWith_dash_none rfl h, startsWith_dash_none rfl h⟩

/-- What the parser does with a word that selects a subcommand. -/
theorem parseStep_enter {W : World} {k i : Nat} {a : Argus} {pos : Nat} {arg : Str} {os : List Opt}
    {o : Opt} (ht : a.table (some k) = .ok os) (hd : arg.head? ≠ some 45)
    (hc : subChoice os arg = some (.ok (o, i))) (hdepth : a.stack.length < 8) (rest : List Str) :
    parseStep W (some k) a pos false arg rest =
      .ok (.enter o.subOptions { a.setOpt ⟨k, i⟩ { o with isSet := true } with
        stack := a.stack ++ [⟨k, i⟩] }) := by
  obtain ⟨h1, h2, h3⟩ := head_word hd
  have hi := (subChoice_get hc).1
  unfold parseStep enterSub
  rw [if_neg h1, h2, h3, ht]
  simp only [Bool.false_eq_true, if_false, Out.ok_bind, findSub_choice, hc, ne_eq, not_true_eq_false]
  rw [table_getOpt ht hi]
  simp only [Out.ok_bind]
  rw [if_neg (by unfold maxDepth; omega)]
  rfl

theorem parseStep_ambiguous {W : World} {k : Nat} {a : Argus} {pos : Nat} {arg : Str} {os : List Opt}
    {c : Int} (ht : a.table (some k) = .ok os) (hd : arg.head? ≠ some 45)
    (hc : subChoice os arg = some (.error c)) (rest : List Str) :
    parseStep W (some k) a pos false arg rest = .ok (.done c (a.report c)) := by
  obtain ⟨h1, h2, h3⟩ := head_word hd
  unfold parseStep
  rw [if_neg h1, h2, h3, ht]
  have := subChoice_error hc
  simp only [Bool.false_eq_true, if_false, Out.ok_bind, findSub_choice, hc, this]
  rfl

end Argus
