import Verif.Spec.Advice
import Verif.Lemmas.EnvLine
import Verif.Lemmas.Order
import Verif.Lemmas.SafeRun
import Verif.Lemmas.FrameApi
import Verif.Lemmas.MessagesRun
import Verif.Lemmas.CommandList
import Verif.Lemmas.History

/-!
# Lemmas about the advice to ask for help
-/

set_option autoImplicit false

namespace Argus

/-- A run, successful or not, has entered the first of the subcommands asked for. -/
theorem run_stack_prefix {W : World} : ∀ (acts : List Act) {a a' : Argus} {st : Int},
    run W a acts = .ok (st, a') → ∃ xs, xs <+: entered acts ∧ a'.stack = a.stack ++ xs
  | [], a, a', st, h => by
    simp only [run, Out.ok.injEq, Prod.mk.injEq] at h
    exact ⟨[], List.nil_prefix, by rw [← h.2]; simp⟩
  | .give q x :: acts, a, a', st, h => by
    unfold run at h
    obtain ⟨r, hr, h1⟩ := Out.bind_eq_ok h
    have hst := (execCallbacks_one hr).stack
    split at h1
    · simp only [Out.ok.injEq] at h1
      refine ⟨[], List.nil_prefix, ?_⟩
      rw [← hst, h1]; simp
    · obtain ⟨xs, h2, h3⟩ := run_stack_prefix acts h1
      exact ⟨xs, by simpa [entered] using h2, by rw [h3, hst]⟩
  | .enter q :: acts, a, a', st, h => by
    unfold run at h
    obtain ⟨e, he, h1⟩ := Out.bind_eq_ok h
    obtain ⟨xs, h2, h3⟩ := run_stack_prefix acts h1
    have : e.2.stack = a.stack ++ [q] := by
      unfold enterSub at he
      obtain ⟨o, _, h2⟩ := Out.bind_eq_ok he
      split at h2
      · simp at h2
      · simp only [Out.ok.injEq] at h2; rw [← h2]; rfl
    refine ⟨q :: xs, ?_, by rw [h3, this]; simp⟩
    show q :: xs <+: q :: entered acts
    exact List.cons_prefix_cons.2 ⟨rfl, h2⟩
  | .fail c :: acts, a, a', st, h => by
    simp only [run, Out.ok.injEq, Prod.mk.injEq] at h
    exact ⟨[], List.nil_prefix, by rw [← h.2]; simp⟩
  | .noTable :: acts, a, a', st, h => by simp [run] at h

theorem SubChain.mono {tables : List (List Opt)} : ∀ {ps xs : List Ptr} {t : Option Nat},
    SubChain tables t ps → xs <+: ps → SubChain tables t xs
  | _, [], _, _, _ => trivial
  | [], x :: xs, _, _, h => absurd h (by simp)
  | p :: ps, x :: xs, t, hc, h => by
    obtain ⟨rfl, h2⟩ := List.cons_prefix_cons.1 h
    obtain ⟨e, os, o, h3, h4, h5, h6⟩ := hc
    exact ⟨e, os, o, h3, h4, h5, SubChain.mono h6 h2⟩

/-- A subcommand that was selected by an abbreviation is selected by its full name. -/
theorem subChoice_full {os : List Opt} {arg : Str} {y : Opt × Nat} (h : subChoice os arg = some (.ok y)) :
    ∃ n, y.1.name = some n ∧ arg <+: n ∧ ∀ (j : Nat) (o' : Opt) (n' : Str), os[j]? = some o' → o'.type = .subcommand →
      o'.name = some n' → n <+: n' → y.2 ≤ j := by
  have hs := subMatches_sorted os arg
  unfold subChoice at h
  split at h
  · simp at h
  · rename_i x hx
    simp only [Option.some.injEq, Except.ok.injEq] at h
    subst h
    obtain ⟨h1, h2, n, h3, h4⟩ := mem_subMatches.1 (show x ∈ subMatches os arg by rw [hx]; simp)
    refine ⟨n, h3, h4, fun j o' n' g1 g2 g3 g4 => ?_⟩
    have := mem_subMatches.2 (⟨g1, g2, n', g3, h4.trans g4⟩ : os[(o', j).2]? = some (o', j).1 ∧ _)
    rw [hx, List.mem_singleton] at this
    rw [← this]; exact Nat.le_refl _
  · rename_i x l hl hx
    split at h
    · rename_i hn
      simp only [Option.some.injEq, Except.ok.injEq] at h
      subst h
      refine ⟨arg, hn, List.prefix_rfl, fun j o' n' g1 g2 g3 g4 => ?_⟩
      have := mem_subMatches.2 (⟨g1, g2, n', g3, g4⟩ : os[(o', j).2]? = some (o', j).1 ∧ _)
      rw [hx] at this hs
      rcases List.mem_cons.1 this with h | h
      · rw [← h]; exact Nat.le_refl _
      · exact Nat.le_of_lt ((List.pairwise_cons.1 hs).1 _ h)
    · simp at h

/-- The names of the subcommands that a line selects, typed in full, select them too. -/
theorem meaning_chain_named {tables : List (List Opt)} (hd : NoDashCommands tables) : ∀ (args : List Str) (t : Option Nat) (pos : Nat)
    (only skip : Bool), ∃ ns, NamesChain tables t (entered (meaning tables t pos only skip args)) ns
  | [], t, pos, only, skip => ⟨[], by simp [meaning, entered, NamesChain]⟩
  | arg :: rest, t, pos, only, true => by
    simp only [meaning]; exact meaning_chain_named hd rest _ _ _ _
  | arg :: rest, t, pos, only, false => by
    unfold meaning
    split
    · exact meaning_chain_named hd rest _ _ _ _
    · split
      · exact meaning_chain_named hd rest _ _ _ _
      · split
        · rename_i k os hk
          simp only [Option.bind_some] at hk
          split
          · rw [entered_append, entered_posActs, List.nil_append]
            exact meaning_chain_named hd rest _ _ _ _
          · split
            · exact ⟨[], trivial⟩
            · rw [entered_append, entered_longActs, List.nil_append]
              exact meaning_chain_named hd rest _ _ _ _
            · split
              · rw [entered_append, entered_posActs, List.nil_append]
                exact meaning_chain_named hd rest _ _ _ _
              · rw [entered_append, entered_shortActs, List.nil_append]
                exact meaning_chain_named hd rest _ _ _ _
            · split
              · rename_i y hy
                obtain ⟨h1, h2⟩ := subChoice_get hy
                obtain ⟨n, h3, _, h4⟩ := subChoice_full hy
                obtain ⟨ns, h5⟩ := meaning_chain_named hd rest y.1.subOptions 0 false false
                exact ⟨n :: ns, rfl, os, y.1, hk, h1, h2, h3,
                  hd os (List.mem_of_getElem? hk) y.1 (List.mem_of_getElem? h1) h2 n h3, h4, h5⟩
              · exact ⟨[], trivial⟩
              · rw [entered_append, entered_posActs, List.nil_append]
                exact meaning_chain_named hd rest _ _ _ _
        · exact ⟨[], trivial⟩

theorem NamesChain.mono {tables : List (List Opt)} : ∀ {ps xs : List Ptr} {ns : List Str} {t : Option Nat},
    NamesChain tables t ps ns → xs <+: ps → ∃ ms, ms <+: ns ∧ NamesChain tables t xs ms
  | _, [], _, _, _, _ => ⟨[], List.nil_prefix, trivial⟩
  | [], _ :: _, _, _, _, h => absurd h (by simp)
  | _ :: _, _ :: _, [], _, hc, _ => absurd hc (by simp [NamesChain])
  | p :: ps, x :: xs, n :: ns, t, hc, h => by
    obtain ⟨rfl, h2⟩ := List.cons_prefix_cons.1 h
    obtain ⟨e, os, o, h3, h4, h5, h6, h7, h8, h9⟩ := hc
    obtain ⟨ms, k1, k2⟩ := NamesChain.mono h9 h2
    exact ⟨n :: ms, List.cons_prefix_cons.2 ⟨rfl, k1⟩, e, os, o, h3, h4, h5, h6, h7, h8, k2⟩

/-- The names of a chain are what is printed for it, whatever the values of the options are. -/
theorem NamesChain.printed {a b : Argus} (hs : b.shape = a.shape) : ∀ {ps : List Ptr} {ns : List Str} {t : Option Nat},
    NamesChain a.tables t ps ns → stackNames b ps = .ok (ns.flatMap (fun n => c!" " ++ n))
  | [], [], _, _ => rfl
  | [], _ :: _, t, h => absurd h (by simp [NamesChain])
  | _ :: _, [], t, h => absurd h (by simp [NamesChain])
  | p :: ps, n :: ns, t, h => by
    obtain ⟨_, os, o, h1, h2, _, h4, _, _, h7⟩ := h
    obtain ⟨o', h8, h9⟩ := shape_getOpt hs (getOpt_eq_ok.2 ⟨os, h1, h2⟩)
    have hn : o'.name = some n := by
      have : o'.meta.name = o.meta.name := congrArg Opt.name h9
      exact this.trans h4
    unfold stackNames
    rw [h8, Out.ok_bind, hn, NamesChain.printed hs h7]
    simp [nameText]

theorem chainEnd_last (tables : List (List Opt)) (p : Ptr) : ∀ (ps : List Ptr) (t : Option Nat),
    chainEnd tables t (ps ++ [p]) = tableBelow tables p
  | [], _ => rfl
  | _ :: ps, _ => chainEnd_last tables p ps _

/-- A chain leads to a table. -/
theorem SubChain.end {tables : List (List Opt)}
    (hsub : ∀ os ∈ tables, ∀ o ∈ os, o.type = .subcommand → ∃ k, o.subOptions = some k ∧ k < tables.length) :
    ∀ {ps : List Ptr} {j : Nat}, j < tables.length → SubChain tables (some j) ps →
      ∃ k, chainEnd tables (some j) ps = some k ∧ k < tables.length
  | [], j, hj, _ => ⟨j, rfl, hj⟩
  | p :: ps, j, hj, h => by
    obtain ⟨_, os, o, h3, h4, h5, h6⟩ := h
    obtain ⟨k, hk, hk2⟩ := hsub os (List.mem_of_getElem? h3) o (List.mem_of_getElem? h4) h5
    rw [hk] at h6
    obtain ⟨k', h7, h8⟩ := SubChain.end hsub hk2 h6
    refine ⟨k', ?_, h8⟩
    have : tableBelow tables p = some k := by
      unfold tableBelow placeAt; rw [h3, Option.bind_some, h4, Option.bind_some, hk]
    unfold chainEnd
    rw [this, h7]

/-- Each command of a chain has a table. -/
theorem SubChain.below {a : Argus}
    (hsub : ∀ os ∈ a.tables, ∀ o ∈ os, o.type = .subcommand → ∃ k, o.subOptions = some k ∧ k < a.tables.length) :
    ∀ {ps : List Ptr} {t : Option Nat}, SubChain a.tables t ps → ∀ q ∈ ps, ∀ o, a.getOpt q = .ok o →
      ∃ k, o.subOptions = some k ∧ k < a.tables.length
  | [], _, _, q, hq, _, _ => by simp at hq
  | p :: ps, t, h, q, hq, o, ho => by
    obtain ⟨_, os, o1, h3, h4, h5, h6⟩ := h
    rcases List.mem_cons.1 hq with rfl | hq
    · rw [getOpt_eq_ok.2 ⟨os, h3, h4⟩] at ho
      cases ho
      exact hsub os (List.mem_of_getElem? h3) _ (List.mem_of_getElem? h4) h5
    · exact SubChain.below hsub h6 q hq o ho

/-- `b` is `a` with the subcommands `ps` entered. -/
structure Entered (a b : Argus) (ps : List Ptr) : Prop where
  stack : b.stack = a.stack ++ ps
  out : b.out = a.out
  cfg : b.cfg = a.cfg
  shape : b.shape = a.shape
  alloc : ∀ (p : Ptr) (o' : Opt), b.getOpt p = .ok o' → ∃ o, a.getOpt p = .ok o ∧ o'.isAllocated = o.isAllocated

theorem run_enters_ok {W : World} : ∀ (ps : List Ptr) (a : Argus),
    (∀ p ∈ ps, ∃ o, a.getOpt p = .ok o) → a.stack.length + ps.length ≤ 8 →
    ∃ b, run W a (ps.map Act.enter) = .ok (Err.success, b) ∧ Entered a b ps
  | [], a, _, _ => ⟨a, rfl, by simp, rfl, rfl, rfl, fun _ o h => ⟨o, h, rfl⟩⟩
  | p :: ps, a, hp, h => by
    obtain ⟨o, ho⟩ := hp p (by simp)
    have h8 : ¬ maxDepth ≤ a.stack.length := by unfold maxDepth; simp at h; omega
    have he : enterSub a p = .ok (o.subOptions,
        { a.setOpt p { o with isSet := true } with stack := (a.setOpt p { o with isSet := true }).stack ++ [p] }) := by
      unfold enterSub
      rw [ho, Out.ok_bind, if_neg h8]
    have hg : ∀ q, ({ a.setOpt p { o with isSet := true } with
        stack := (a.setOpt p { o with isSet := true }).stack ++ [p] } : Argus).getOpt q =
          (a.setOpt p { o with isSet := true }).getOpt q := fun _ => rfl
    obtain ⟨b, h1, h2⟩ := run_enters_ok (W := W) ps { a.setOpt p { o with isSet := true } with
        stack := (a.setOpt p { o with isSet := true }).stack ++ [p] } (fun q hq => by
      obtain ⟨oq, hoq⟩ := hp q (by simp [hq])
      by_cases hqp : q = p
      · subst hqp; exact ⟨_, getOpt_setOpt_self ho⟩
      · exact ⟨oq, by rw [hg, getOpt_setOpt_ne hqp]; exact hoq⟩) (by simp at h ⊢; omega)
    have hf := (enterSub_frame he).1
    refine ⟨b, ?_, ?_, h2.out, h2.cfg, h2.shape.trans hf.shape, ?_⟩
    · simp only [List.map_cons, run, he, Out.ok_bind]
      exact h1
    · rw [h2.stack]; simp
    · intro q o' hq
      obtain ⟨o1, h3, h4⟩ := h2.alloc q o' hq
      rw [hg] at h3
      by_cases hqp : q = p
      · subst hqp
        rw [getOpt_setOpt_self ho] at h3
        cases h3
        exact ⟨o, ho, h4⟩
      · rw [getOpt_setOpt_ne hqp] at h3
        exact ⟨o1, h3, h4⟩

theorem Entered.active {a b : Argus} {ps : List Ptr} (h : Entered a b ps) (hfresh : a.stack = [])
    (hp : ∀ p ∈ ps, ∃ o, a.getOpt p = .ok o) :
    b.activeOptions = .ok (chainEnd a.tables (some a.root) ps) := by
  have hst := h.stack
  rw [hfresh, List.nil_append] at hst
  unfold Argus.activeOptions
  rw [hst]
  rcases List.eq_nil_or_concat ps with rfl | ⟨l, p, rfl⟩
  · have : b.root = a.root := congrArg (fun c => c.1) h.cfg
    simp [chainEnd, this]
  · rw [List.concat_eq_append, chainEnd_last, List.getLast?_append]
    obtain ⟨o, ho⟩ := hp p (by simp)
    obtain ⟨o', h1, h2⟩ := shape_getOpt h.shape ho
    have h3 : o'.subOptions = o.subOptions := (congrArg Opt.subOptions h2 : o'.meta.subOptions = o.meta.subOptions)
    obtain ⟨os, h4, h5⟩ := getOpt_eq_ok.1 ho
    simp only [List.getLast?_singleton, Option.some_or, h1, Out.ok_bind, h3]
    unfold tableBelow placeAt
    rw [h4, Option.bind_some, h5, Option.bind_some]

/-- Asking for help after the names of subcommands. -/
theorem parse_help {W : World} {env : Env} {a : Argus} {ps : List Ptr} {ns : List Str} (hfresh : a.stack = [])
    (hh : a.Helpful) (hns : NamesChain a.tables (some a.root) ps ns) (hch : SubChain a.tables (some a.root) ps)
    (hlen : ps.length ≤ 8) :
    ∃ a2 t, chainEnd a.tables (some a.root) ps = some t ∧
      argusParse W env a (ns ++ [c!"--help"]) = .ok (.exited, a2) ∧
      a2.out = a.out ++ [.usage (some t), .help (some t)] ∧ a2.stack = ps := by
  obtain ⟨t, ht, htl⟩ := SubChain.end hh.subs hh.root hch
  obtain ⟨b, hb, he⟩ := run_enters_ok (W := W) ps a hns.getOpt (by rw [hfresh]; simpa using hlen)
  obtain ⟨l, o, r, e1, e2, e3, e4, e5, e6, e7, e8⟩ := hh.help _ (List.getElem_mem htl)
  have hk : a.tables[t]? = some (l ++ o :: r) := by rw [← e1]; simp [htl]
  have hi : longIdx (l ++ o :: r) c!"help" = some l.length := longIdx_first e3 e4 e2
  have ho : a.getOpt ⟨t, l.length⟩ = .ok o := getOpt_eq_ok.2 ⟨_, hk, by simp⟩
  have hask : a.asks (ns ++ [c!"--help"]) = ps.map Act.enter ++ [.give ⟨t, l.length⟩ none] := by
    have := meaning_names_then hns [c!"--help"]
    unfold Argus.asks
    rw [this, ht]
    have h2 := meaning_alone (rest := []) 0 hk hi (by simp [isFlagAt, e5]) (by simp) (by decide) (by decide)
    rw [show c!"--help" = c!"--" ++ c!"help" from rfl, h2]
    simp [meaning]
  obtain ⟨o', g1, g2⟩ := shape_getOpt he.shape ho
  have hm : o'.handler = some .help ∧ o'.flags.has .exit = true ∧ ∀ v ∈ o'.validators.getD [], v.order = .post := by
    have g3 : o'.meta.handler = o.meta.handler := congrArg Opt.handler g2
    have g4 : o'.meta.flags = o.meta.flags := congrArg Opt.flags g2
    have g5 : o'.meta.validators = o.meta.validators := congrArg Opt.validators g2
    exact ⟨g3.trans e6, by rw [show o'.flags = o.flags from g4]; exact e7,
      by rw [show o'.validators = o.validators from g5]; exact e8⟩
  have hrun : runHandler W b .help o' none = .ok (Err.success, o', [.usage (some t), .help (some t)]) := by
    simp [runHandler, he.active hfresh hns.getOpt, ht]
  have hex := execCallbacks_exit g1 hm.1 hm.2.2 hm.2.1 hrun
  have hpa : parseArgs W a (some a.root) (ns ++ [c!"--help"]) = .ok (Err.shouldExit,
      (b.emits [.usage (some t), .help (some t)]).setOpt ⟨t, l.length⟩ o'.markSet) := by
    rw [parseArgs_run, hask, run_append _ _ _ (fun c hc h0 => asks_no_fail0 a (ns ++ [c!"--help"]) (by
      rw [hask]; simp [← h0, hc])), hb]
    simp only [Out.ok_bind, ne_eq, not_true_eq_false, if_false, run, hex]
    rfl
  have hfree : Freeable { (b.emits [.usage (some t), .help (some t)]).setOpt ⟨t, l.length⟩ o'.markSet with
      errorCode := Err.shouldExit } := by
    have hl : b.tables.length = a.tables.length := by
      have := congrArg List.length he.shape
      simpa [Argus.shape] using this
    have hget : ∀ q x, ({ (b.emits [.usage (some t), .help (some t)]).setOpt ⟨t, l.length⟩ o'.markSet with
        errorCode := Err.shouldExit } : Argus).getOpt q = .ok x → ∃ y, a.getOpt q = .ok y ∧ x.isAllocated = y.isAllocated := by
      intro q x hq
      have hq : ((b.emits [.usage (some t), .help (some t)]).setOpt ⟨t, l.length⟩ o'.markSet).getOpt q = .ok x := hq
      by_cases hqp : q = ⟨t, l.length⟩
      · subst hqp
        rw [getOpt_setOpt_self (o := o') (by rw [getOpt_emits]; exact g1)] at hq
        cases hq
        exact he.alloc _ o' g1
      · rw [getOpt_setOpt_ne hqp, getOpt_emits] at hq
        exact he.alloc _ _ hq
    refine ⟨?_, ?_, ?_⟩
    · intro q x hq
      obtain ⟨y, h1, h2⟩ := hget q x hq
      obtain ⟨os, h3, h4⟩ := getOpt_eq_ok.1 h1
      have h5 := hh.unallocated os (List.mem_of_getElem? h3) y (List.mem_of_getElem? h4)
      exact ⟨x, by unfold freeOptionValue; rw [if_pos (h2.trans h5)]⟩
    · show (b.emits _).root < ((b.emits _).setOpt _ _).tables.length
      have : b.root = a.root := congrArg (fun c => c.1) he.cfg
      simp [Argus.setOpt, this, hl, hh.root]
    · intro q hq
      have hq : q ∈ ps := by
        have hq : q ∈ (b.emits [.usage (some t), .help (some t)]).stack := hq
        rw [emits_stack, he.stack, hfresh] at hq
        simpa using hq
      obtain ⟨oq, k1⟩ := hns.getOpt q hq
      have k2 : ({ (b.emits [.usage (some t), .help (some t)]).setOpt ⟨t, l.length⟩ o'.markSet with
        errorCode := Err.shouldExit } : Argus).shape = a.shape := by
        show ((b.emits [.usage (some t), .help (some t)]).setOpt ⟨t, l.length⟩ o'.markSet).shape = a.shape
        have k0 : (b.emits [.usage (some t), .help (some t)]).getOpt ⟨t, l.length⟩ = .ok o' := by
          rw [getOpt_emits]; exact g1
        rw [shape_setOpt k0 (o' := o'.markSet) rfl, shape_emits]
        exact he.shape
      obtain ⟨x, k3, k4⟩ := shape_getOpt k2 k1
      obtain ⟨j, k5, k6⟩ := hch.below hh.subs q hq oq k1
      refine ⟨x, j, k3, ?_, ?_⟩
      · exact (congrArg Opt.subOptions k4 : x.meta.subOptions = oq.meta.subOptions).trans k5
      · show j < ((b.emits _).setOpt _ _).tables.length
        simp [Argus.setOpt, hl, k6]
  obtain ⟨a2, h1, -⟩ := argusFree_freeable hfree
  refine ⟨a2, t, ht, ?_, ?_, ?_⟩
  · rw [argusParse_exit hpa, h1]; rfl
  · rw [argusFree_out h1]
    obtain ⟨c, hc⟩ := emits_eq b [.usage (some t), .help (some t)]
    show (b.emits _).out = _
    rw [hc, ← he.out]
  · rw [(argusFree_frame h1).stack]
    show (b.emits _).stack = ps
    rw [emits_stack, he.stack, hfresh, List.nil_append]

end Argus
