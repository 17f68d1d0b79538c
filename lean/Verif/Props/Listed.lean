import Verif.Props.CommandList
import Verif.Props.HelpNames
import Verif.Lemmas.Outcome
import Verif.Props.Structure

/-!
# C108: a command that is listed can be called as it is listed

A program called without a command prints its commands (`display_all_commands`, source/display/command_display.c). The lists are
built from the names of the tables; the parser finds a command by comparing beginnings of names
(`find_subcommand`), so a listed name need not select the command it stands for.
-/

set_option autoImplicit false

namespace Argus

/-- Words as they are listed: a space before each. -/
def spaced (ws : List Str) : Str := ws.flatMap (fun w => 32 :: w)

/-- The names of all subcommands are words: without a space, not beginning with a dash, and no subcommand declared before
    has a name that begins with it. -/
def CallableNames (tables : List (List Opt)) : Prop :=
  ∀ (t : Nat) (os : List Opt), tables[t]? = some os → ∀ (i : Nat) (o : Opt), os[i]? = some o → o.type = .subcommand →
    ∃ n, o.name = some n ∧ OwnCommand os i n ∧ (32 : Byte) ∉ n

/-- The names of commands. -/
def Argus.namesOf (a : Argus) (ps : List Ptr) : List (Option Str) := ps.map (fun p => (a.getOpt p).toOption.bind (·.name))

theorem NamesChain.names {a : Argus} : ∀ {ps : List Ptr} {ns : List Str} {t : Option Nat},
    NamesChain a.tables t ps ns → a.namesOf ps = ns.map some
  | [], [], _, _ => rfl
  | [], _ :: _, _, h => absurd h (by simp [NamesChain])
  | _ :: _, [], _, h => absurd h (by simp [NamesChain])
  | p :: ps, n :: ns, t, h => by
    obtain ⟨_, os, o, h1, h2, _, h4, _, _, h7⟩ := h
    have := NamesChain.names h7
    unfold Argus.namesOf at this ⊢
    rw [List.map_cons, List.map_cons, this, getOpt_eq_ok.2 ⟨os, h1, h2⟩]
    simp [Out.toOption, h4]

theorem spaced_words : ∀ (ws ws' : List Str), (∀ w ∈ ws, (32 : Byte) ∉ w) → (∀ w ∈ ws', (32 : Byte) ∉ w) →
    spaced ws = spaced ws' → ws = ws'
  | [], [], _, _, _ => rfl
  | [], w :: ws, _, _, h => by simp [spaced] at h
  | w :: ws, [], _, _, h => by simp [spaced] at h
  | w :: ws, w' :: ws', h1, h2, h => by
    simp only [spaced, List.flatMap_cons, List.cons_append, List.cons.injEq, true_and] at h
    have hd : ∀ us : List Str, (List.flatMap (fun w : Str => (32 : Byte) :: w) us).takeWhile (· != 32) = [] := by
      intro us; cases us <;> simp
    have ht : ∀ (u : Str) (us : List Str), (32 : Byte) ∉ u →
        (u ++ List.flatMap (fun w : Str => (32 : Byte) :: w) us).takeWhile (· != 32) = u := by
      intro u us hu
      rw [List.takeWhile_append_of_pos, hd, List.append_nil]
      intro x hx
      simp only [bne_iff_ne, ne_eq]
      rintro rfl
      exact hu hx
    have hw : w = w' := by
      rw [← ht w ws (h1 w (by simp)), h, ht w' ws' (h2 w' (by simp))]
    subst hw
    have := List.append_cancel_left h
    rw [spaced_words ws ws' (fun x hx => h1 x (by simp [hx])) (fun x hx => h2 x (by simp [hx])) this]

theorem NamesChain.append {tables : List (List Opt)} : ∀ {ps qs : List Ptr} {ns ms : List Str} {t : Option Nat},
    NamesChain tables t ps ns →
    (∀ t', (∀ p, ps.getLast? = some p → ∃ os o, tables[p.tbl]? = some os ∧ os[p.idx]? = some o ∧ t' = o.subOptions) →
      (ps = [] → t' = t) → NamesChain tables t' qs ms) → NamesChain tables t (ps ++ qs) (ns ++ ms)
  | [], _, [], _, t, _, h => h t (by simp) (fun _ => rfl)
  | [], _, _ :: _, _, _, h, _ => absurd h (by simp [NamesChain])
  | _ :: _, _, [], _, _, h, _ => absurd h (by simp [NamesChain])
  | p :: ps, qs, n :: ns, ms, t, h, hq => by
    obtain ⟨h1, os, o, h2, h3, h4, h5, h6, h7, h8⟩ := h
    refine ⟨h1, os, o, h2, h3, h4, h5, h6, h7, h8.append (fun t' g1 g2 => hq t' ?_ (by simp))⟩
    intro q hl
    cases ps with
    | nil =>
      simp only [List.getLast?_singleton, Option.some.injEq] at hl
      subst hl
      exact ⟨os, o, h2, h3, g2 rfl⟩
    | cons p' ps => exact g1 q (by simpa using hl)

/-- Entering subcommands one inside the other. -/
theorem run_enters {W : World} : ∀ (ps : List Ptr) (a : Argus), (∀ p ∈ ps, ∃ o, a.getOpt p = .ok o) →
    a.stack.length + ps.length ≤ 8 →
    ∃ a', run W a (ps.map Act.enter) = .ok (Err.success, a') ∧ a'.stack = a.stack ++ ps ∧
      a'.programName = a.programName ∧ a'.root = a.root ∧
      (∀ p o, a.getOpt p = .ok o → ∃ o', a'.getOpt p = .ok o' ∧ o'.meta = o.meta)
  | [], a, _, _ => ⟨a, rfl, by simp, rfl, rfl, fun p o h => ⟨o, h, rfl⟩⟩
  | p :: ps, a, hp, hl => by
    obtain ⟨o, ho⟩ := hp p (by simp)
    have h8 : ¬ 8 ≤ a.stack.length := by simp at hl; omega
    have hget : ∀ q oq, a.getOpt q = .ok oq →
        ∃ o', (a.setOpt p { o with isSet := true }).getOpt q = .ok o' ∧ o'.meta = oq.meta := by
      intro q oq hq
      by_cases hqp : q = p
      · subst hqp
        rw [ho] at hq; cases hq
        exact ⟨_, getOpt_setOpt_self ho, rfl⟩
      · exact ⟨oq, by rw [getOpt_setOpt_ne hqp]; exact hq, rfl⟩
    obtain ⟨a', h1, h2, h3, h4, h5⟩ := run_enters (W := W) ps
      ({ a.setOpt p { o with isSet := true } with stack := a.stack ++ [p] } : Argus)
      (fun q hq => by
        obtain ⟨oq, hoq⟩ := hp q (by simp [hq])
        obtain ⟨o', ho', _⟩ := hget q oq hoq
        exact ⟨o', ho'⟩)
      (by simp at hl ⊢; omega)
    refine ⟨a', ?_, by rw [h2]; simp, h3, h4, fun q oq hq => ?_⟩
    · simp only [List.map_cons, run]
      rw [enterSub_eq ho, if_neg h8]
      exact h1
    · obtain ⟨o', ho', hm⟩ := hget q oq hq
      obtain ⟨o'', ho'', hm'⟩ := h5 q o' ho'
      exact ⟨o'', ho'', hm'.trans hm⟩

/-- **C108** Names of nested commands, typed one after the other, select these commands. Afterwards the usage line shows them as
    they were typed. -/
theorem C108_call (W : World) (a : Argus) (ps : List Ptr) (ns : List Str)
    (h : NamesChain a.tables (some a.root) ps ns) (hs : a.stack = []) (hl : ps.length ≤ 8) :
    ∃ a', parseArgs W a (some a.root) ns = .ok (Err.success, a') ∧ a'.stack = ps ∧
      (∀ p o, a.getOpt p = .ok o → ∃ o', a'.getOpt p = .ok o' ∧ o'.meta = o.meta) ∧
      (∀ u, displayUsage a' = .ok u → c!"Usage: " ++ a.programName ++ spaced ns ++ c!" [OPTIONS]" <+: u) := by
  obtain ⟨a', h1, h2, h3, _, h5⟩ := run_enters (W := W) ps a h.getOpt (by rw [hs]; simpa using hl)
  rw [hs, List.nil_append] at h2
  refine ⟨a', ?_, h2, h5, fun u hu => ?_⟩
  · unfold parseArgs
    rw [parseLoop_run, meaning_names h 0]
    exact h1
  · have hnames : ∀ (ps : List Ptr) (ns : List Str) (t : Option Nat), NamesChain a.tables t ps ns →
        stackNames a' ps = .ok (spaced ns) := by
      intro ps
      induction ps with
      | nil =>
        intro ns t h
        cases ns with
        | nil => rfl
        | cons n ns => exact absurd h (by simp [NamesChain])
      | cons p ps ih =>
        intro ns t h
        cases ns with
        | nil => exact absurd h (by simp [NamesChain])
        | cons n ns =>
          obtain ⟨_, os, o, g1, g2, _, g4, _, _, g7⟩ := h
          obtain ⟨o', ho', hm⟩ := h5 p o (getOpt_eq_ok.2 ⟨os, g1, g2⟩)
          have hn : o'.name = some n := (congrArg Opt.name hm : o'.meta.name = o.meta.name).trans g4
          unfold stackNames
          rw [ho']
          simp only [Out.ok_bind, hn, nameText, ih ns _ g7]
          rfl
    unfold displayUsage at hu
    obtain ⟨t, _, hu⟩ := Out.bind_eq_ok hu
    obtain ⟨os, _, hu⟩ := Out.bind_eq_ok hu
    rw [h2, hnames ps ns _ h] at hu
    simp only [Out.ok_bind] at hu
    obtain ⟨q, _, hu⟩ := Out.bind_eq_ok hu
    simp only [Out.ok.injEq] at hu
    rw [← hu, h3]
    exact ⟨q ++ usageCommand os ++ c!"\n", by simp⟩

/-- What is listed below a table is a chain of names. -/
theorem below_chain {a : Argus} (hp : CallableNames a.tables) : ∀ (d : Nat) (path : Str) (k : Option Nat) (c : Str × Option Str),
    c ∈ a.below d path k →
    ∃ ps ns p o, NamesChain a.tables k ps ns ∧ ps.length ≤ d ∧ (∀ w ∈ ns, (32 : Byte) ∉ w) ∧ c.1 = path ++ spaced ns ∧
      ps.getLast? = some p ∧ a.getOpt p = .ok o ∧ c.2 = o.help
  | 0, path, k, c, h => by simp [Argus.below] at h
  | d + 1, path, k, c, h => by
    unfold Argus.below at h
    rw [List.mem_flatMap] at h
    obtain ⟨o, ho, hc⟩ := h
    by_cases ht : o.type = .subcommand
    · rw [if_pos (by rw [ht]; rfl)] at hc
      cases k with
      | none => simp [Argus.entries] at ho
      | some t =>
        cases hos : a.tables[t]? with
        | none => simp [Argus.entries, hos] at ho
        | some os =>
          simp only [Argus.entries, hos, Option.getD_some] at ho
          obtain ⟨i, hi⟩ := List.getElem?_of_mem ho
          obtain ⟨n, hn, ⟨g1, g2⟩, g3⟩ := hp t os hos i o hi ht
          have hfirst : ∀ (j : Nat) (o' : Opt) (n' : Str), os[j]? = some o' → o'.type = .subcommand → o'.name = some n' →
              n <+: n' → i ≤ j := by
            intro j o' n' e1 e2 e3 e4
            by_cases hj : j < i
            · exact absurd e4 (g2 j hj o' n' e1 e2 e3)
            · omega
          rw [hn] at hc
          rcases List.mem_cons.1 hc with rfl | hc
          · refine ⟨[⟨t, i⟩], [n], ⟨t, i⟩, o, ⟨rfl, os, o, hos, hi, ht, hn, g1, hfirst, trivial⟩, by simp, ?_, ?_, rfl,
              getOpt_eq_ok.2 ⟨os, hos, hi⟩, rfl⟩
            · intro w hw; simp only [List.mem_singleton] at hw; subst hw; exact g3
            · simp [spaced]
          · obtain ⟨ps, ns, p, o', e1, e2, e3, e4, e5, e6, e7⟩ := below_chain hp d _ _ c hc
            refine ⟨⟨t, i⟩ :: ps, n :: ns, p, o', ⟨rfl, os, o, hos, hi, ht, hn, g1, hfirst, e1⟩, by simpa using e2, ?_, ?_, ?_, e6, e7⟩
            · intro w hw
              rcases List.mem_cons.1 hw with rfl | hw
              · exact g3
              · exact e3 w hw
            · rw [e4]; simp [spaced]
            · cases ps with
              | nil => simp at e5
              | cons q qs => simpa using e5
    · rw [if_neg (by simpa using ht)] at hc
      simp at hc

/-- What is listed as executable is a chain of names, and the last has an action. -/
theorem executables_chain {a : Argus} (hp : CallableNames a.tables) : ∀ (d : Nat) (path : Str) (k : Option Nat)
    (c : Str × Option Str), c ∈ a.executables d path k →
    ∃ ps ns p o f, NamesChain a.tables k ps ns ∧ ps.length ≤ d ∧ (∀ w ∈ ns, (32 : Byte) ∉ w) ∧ c.1 = path ++ spaced ns ∧
      ps.getLast? = some p ∧ a.getOpt p = .ok o ∧ c.2 = o.help ∧ o.action = some f
  | 0, path, k, c, h => by simp [Argus.executables] at h
  | d + 1, path, k, c, h => by
    unfold Argus.executables at h
    rw [List.mem_flatMap] at h
    obtain ⟨o, ho, hc⟩ := h
    by_cases ht : o.type = .subcommand
    · rw [if_pos (by rw [ht]; rfl)] at hc
      cases k with
      | none => simp [Argus.entries] at ho
      | some t =>
        cases hos : a.tables[t]? with
        | none => simp [Argus.entries, hos] at ho
        | some os =>
          simp only [Argus.entries, hos, Option.getD_some] at ho
          obtain ⟨i, hi⟩ := List.getElem?_of_mem ho
          obtain ⟨n, hn, ⟨g1, g2⟩, g3⟩ := hp t os hos i o hi ht
          have hfirst : ∀ (j : Nat) (o' : Opt) (n' : Str), os[j]? = some o' → o'.type = .subcommand → o'.name = some n' →
              n <+: n' → i ≤ j := by
            intro j o' n' e1 e2 e3 e4
            by_cases hj : j < i
            · exact absurd e4 (g2 j hj o' n' e1 e2 e3)
            · omega
          rw [hn] at hc
          rcases List.mem_append.1 hc with hc | hc
          · cases hact : o.action with
            | none => rw [hact] at hc; simp at hc
            | some f =>
              rw [hact] at hc
              simp only [Option.isSome_some, if_true, List.mem_singleton] at hc
              subst hc
              refine ⟨[⟨t, i⟩], [n], ⟨t, i⟩, o, f, ⟨rfl, os, o, hos, hi, ht, hn, g1, hfirst, trivial⟩, by simp, ?_, ?_, rfl,
                getOpt_eq_ok.2 ⟨os, hos, hi⟩, rfl, hact⟩
              · intro w hw; simp only [List.mem_singleton] at hw; subst hw; exact g3
              · simp [spaced]
          · obtain ⟨ps, ns, p, o', f, e1, e2, e3, e4, e5, e6, e7, e8⟩ := executables_chain hp d _ _ c hc
            refine ⟨⟨t, i⟩ :: ps, n :: ns, p, o', f, ⟨rfl, os, o, hos, hi, ht, hn, g1, hfirst, e1⟩, by simpa using e2, ?_, ?_, ?_,
              e6, e7, e8⟩
            · intro w hw
              rcases List.mem_cons.1 hw with rfl | hw
              · exact g3
              · exact e3 w hw
            · rw [e4]; simp [spaced]
            · cases ps with
              | nil => simp at e5
              | cons q qs => simpa using e5
    · rw [if_neg (by simpa using ht)] at hc
      simp at hc

/-- **C108** The claim for accepted definitions: the words with which a command is listed, typed, call this command. -/
def C108_claim : Prop :=
  ∀ (W : World) (fuel : Nat) (tables : List (List Opt)) (prog : Str) (version : Option Str) (a : Argus),
    argusInitValidate W fuel tables prog version = .ok (some (some a)) →
    ∀ c ∈ a.executables 2 a.programName (some a.root), ∀ words : List Str, (∀ w ∈ words, (32 : Byte) ∉ w) →
      c.1 = a.programName ++ spaced words →
      ∃ a' f, parseArgs W a (some a.root) words = .ok (Err.success, a') ∧ a.namesOf a'.stack = words.map some ∧
        argusExec W a' = .ok (W.action f a', some f, [])

/-- **C108** Every line of the overview of commands shows the program and the words to type. Typed, they are accepted, the
    command whose help the line shows is the one selected, `argus_exec` calls its action, and the usage line repeats the words.
    Full statement: `C108_claim`, without `CallableNames`. Missing: definitions with other names are accepted
    (`C108_claim_false`, `C108_space_case`), and paths of 512 bytes and more are cut. -/
theorem C108_overview_partial (W : World) (a : Argus) (out : Str) (h : displayAllCommands a = .ok out)
    (hp : CallableNames a.tables) (hs : a.stack = [])
    (hl : ∀ c ∈ a.executables 2 a.programName (some a.root), c.1.length < 512) :
    ∃ blocks : List (List Str),
      out = c!"No command specified.\n\nAvailable commands:\n" ++ inBlocks blocks ++ c!"\nRun '" ++ a.programName ++
        c!" COMMAND --help' for more information on a specific command.\n" ∧
      ∀ line ∈ blocks.flatten, ∃ (words : List Str) (help : Option Str),
        line = listLine a.helper.descriptionColumn (a.programName ++ spaced words, help) ∧ (∀ w ∈ words, (32 : Byte) ∉ w) ∧
        ∃ a' p o f, parseArgs W a (some a.root) words = .ok (Err.success, a') ∧ a.namesOf a'.stack = words.map some ∧
          a'.stack.getLast? = some p ∧
          a.getOpt p = .ok o ∧ o.help = help ∧ o.action = some f ∧
          argusExec W a' = .ok (W.action f a', some f, []) ∧
          ∀ u, displayUsage a' = .ok u → c!"Usage: " ++ a.programName ++ spaced words ++ c!" [OPTIONS]" <+: u := by
  obtain ⟨blocks, h1, h2⟩ := C56_all_commands_partial a out h hl
  refine ⟨blocks, h1, fun line hline => ?_⟩
  obtain ⟨c, hc, rfl⟩ := List.mem_map.1 (h2.mem_iff.1 hline)
  obtain ⟨ps, ns, p, o, f, e1, e2, e3, e4, e5, e6, e7, e8⟩ := executables_chain hp 2 _ _ c hc
  obtain ⟨a', g1, g2, g3, g4⟩ := C108_call W a ps ns e1 hs (by omega)
  obtain ⟨o', ho', hm⟩ := g3 p o e6
  have hact : o'.action = some f := (congrArg Opt.action hm : o'.meta.action = o.meta.action).trans e8
  refine ⟨ns, c.2, by rw [← e4], e3, a', p, o, f, g1, by rw [g2]; exact e1.names, by rw [g2]; exact e5, e6, e7.symm, e8, ?_, g4⟩
  unfold argusExec
  rw [g2, e5]
  simp only [ho', Out.ok_bind, hact]

/-- **C108** After a command that cannot be executed itself, the commands below it are listed. Each line shows the words to
    type from this command on; typed after the words before it, they select, below this command, the command whose help
    the line shows (if the list ends and nothing is nested deeper than eight levels). `b` is the program before the first
    call, `a` the one that prints the list. -/
theorem C108_available_partial (W : World) (a b : Argus) (fuel : Nat) (ps : List Ptr) (p : Ptr) (ns : List Str) (name out : Str)
    (command : Opt) (hbs : b.stack = []) (ha : parseArgs W b (some b.root) (ns ++ [name]) = .ok (Err.success, a))
    (hb : NamesChain a.tables (some b.root) (ps ++ [p]) (ns ++ [name])) (hp : CallableNames a.tables)
    (hc : a.getOpt p = .ok command) (hn : command.name = some name)
    (h : displayAvailable a fuel command = .ok (some out)) (h8 : (ps ++ [p]).length + fuel ≤ 8)
    (hl : ∀ d, ∀ c ∈ a.below d name command.subOptions, c.1.length < 512) :
    ∃ lines : List Str,
      out = c!"The '" ++ name ++ c!"' command cannot be executed by itself.\n\nAvailable commands:\n" ++ lines.flatten ++
        (c!"\nRun '" ++ b.programName ++ spaced (ns ++ [name]) ++ c!" SUBCOMMAND --help' for more information.\n") ∧
      a.stack = ps ++ [p] ∧
      ∀ line ∈ lines, ∃ (words : List Str) (help : Option Str),
        line = listLine a.helper.descriptionColumn (name ++ spaced words, help) ∧ (∀ w ∈ words, (32 : Byte) ∉ w) ∧
        ∃ a' q o, parseArgs W b (some b.root) (ns ++ name :: words) = .ok (Err.success, a') ∧
          a.namesOf a'.stack = (ns ++ name :: words).map some ∧ a'.stack.getLast? = some q ∧ a.stack <+: a'.stack ∧
          a.getOpt q = .ok o ∧ o.help = help := by
  have hshape : a.shape = b.shape := by
    unfold parseArgs at ha
    obtain ⟨_, _, _, hf⟩ := parseLoop_frame _ ha
    exact hf.shape
  have call : ∀ (qs : List Ptr) (ms : List Str), NamesChain a.tables (some b.root) qs ms → qs.length ≤ 8 →
      ∃ a', parseArgs W b (some b.root) ms = .ok (Err.success, a') ∧ a'.stack = qs ∧ a'.programName = b.programName := by
    intro qs ms hq hlen
    obtain ⟨a', h1, h2, h3, _⟩ := run_enters (W := W) qs b (fun q hm => by
      obtain ⟨o, ho⟩ := hq.getOpt q hm
      obtain ⟨o', ho', _⟩ := shape_getOpt hshape.symm ho
      exact ⟨o', ho'⟩) (by rw [hbs]; simpa using hlen)
    refine ⟨a', ?_, by rw [h2, hbs]; rfl, h3⟩
    unfold parseArgs
    rw [parseLoop_run, ← meaning_congr hshape, meaning_names hq 0]
    exact h1
  obtain ⟨a1, e1, e2, e3⟩ := call _ _ hb (by omega)
  rw [ha] at e1
  simp only [Out.ok.injEq, Prod.mk.injEq, true_and] at e1
  subst e1
  have hcs : ∀ (qs : List Ptr) (ms : List Str) (t : Option Nat), NamesChain a.tables t qs ms →
      ∃ cs : List (Ptr × Str), cs.map (·.1) = qs ∧ cs.flatMap (fun c => 32 :: c.2) = spaced ms ∧
        ∀ c ∈ cs, ∃ o, a.getOpt c.1 = .ok o ∧ o.name = some c.2 := by
    intro qs
    induction qs with
    | nil =>
      intro ms t h
      cases ms with
      | nil => exact ⟨[], rfl, rfl, by simp⟩
      | cons n ns => exact absurd h (by simp [NamesChain])
    | cons q qs ih =>
      intro ms t h
      cases ms with
      | nil => exact absurd h (by simp [NamesChain])
      | cons n ns =>
        obtain ⟨_, os, o, g1, g2, _, g4, _, _, g7⟩ := h
        obtain ⟨cs, k1, k2, k3⟩ := ih ns _ g7
        refine ⟨(q, n) :: cs, by simp [k1], by rw [List.flatMap_cons, k2]; rfl, ?_⟩
        intro c hc
        rcases List.mem_cons.1 hc with rfl | hc
        · exact ⟨o, getOpt_eq_ok.2 ⟨os, g1, g2⟩, g4⟩
        · exact k3 c hc
  obtain ⟨cs, k1, k2, k3⟩ := hcs _ _ _ hb
  have hout := C57_available_partial a fuel command name out cs hn (k1.trans e2.symm) k3 h hl fuel (Nat.le_refl _)
  refine ⟨_, by rw [hout, k2, e3], e2, fun line hline => ?_⟩
  obtain ⟨c, hcm, rfl⟩ := List.mem_map.1 hline
  obtain ⟨qs, ms, q, o, f1, f2, f3, f4, f5, f6, f7⟩ := below_chain hp fuel _ _ c hcm
  have hchain : NamesChain a.tables (some b.root) ((ps ++ [p]) ++ qs) ((ns ++ [name]) ++ ms) := by
    refine hb.append (fun t' g1 _ => ?_)
    obtain ⟨os, o1, m1, m2, m3⟩ := g1 p (by simp)
    have : o1 = command := by
      have := getOpt_eq_ok.2 ⟨os, m1, m2⟩
      rw [hc] at this
      exact (Out.ok.inj this).symm
    rw [m3, this]
    exact f1
  obtain ⟨a', j1, j2, _⟩ := call _ _ hchain (by rw [List.length_append]; omega)
  refine ⟨ms, c.2, by rw [← f4], f3, a', q, o, ?_, ?_, ?_, ?_, f6, f7.symm⟩
  · rw [← j1]; simp
  · rw [j2, hchain.names]; simp
  · rw [j2, List.getLast?_append, f5]; rfl
  · rw [j2, e2]; exact ⟨qs, rfl⟩

namespace Sample

/-- `install` is declared before `in`, and one name has a space. -/
def listedCommands : List (List Opt) :=
  [[helpOption, (subcommand c!"install" 1 (some 1)).withHelp c!"h", (subcommand c!"in" 1 (some 2)).withHelp c!"h",
    (subcommand c!"a b" 1 (some 3)).withHelp c!"h"], [helpOption]]

end Sample

/-- **C108** fails: with `install` before `in`, debug mode accepts the program, the list shows `prog in`, and `prog in` is refused
    as ambiguous. -/
theorem C108_claim_false : ¬ C108_claim := by
  intro h
  obtain ⟨a', f, h1, _⟩ := h Sample.world 9 Sample.listedCommands c!"prog" none (argusInit Sample.listedCommands c!"prog" none) rfl
    (c!"prog in", some c!"h") (by decide +kernel) [c!"in"] (by decide) (by decide +kernel)
  have h2 := congrArg (fun x => x.toOption.map (·.1)) h1
  revert h2
  show ¬ (_ = some Err.success)
  decide +kernel

/-- **C108** What happens there: the listed `prog in` is ambiguous; and `prog a b` is listed, but the words `a` and `b` are
    refused. -/
theorem C108_space_case : ∃ a : Argus, argusInitValidate Sample.world 9 Sample.listedCommands c!"prog" none = .ok (some (some a)) ∧
    (c!"prog in", some c!"h") ∈ a.executables 2 a.programName (some a.root) ∧
    (c!"prog a b", some c!"h") ∈ a.executables 2 a.programName (some a.root) ∧
    (∃ r, parseArgs Sample.world a (some a.root) [c!"in"] = .ok r ∧ r.1 = Err.ambiguousSubcommand) ∧
    ∃ r, parseArgs Sample.world a (some a.root) [c!"a", c!"b"] = .ok r ∧ r.1 = Err.invalidArgument :=
  ⟨_, rfl, by decide +kernel, by decide +kernel, ⟨_, rfl, by decide +kernel⟩, _, rfl, by decide +kernel⟩

theorem callableNames_of {tables : List (List Opt)}
    (h : ∀ os ∈ tables, ∀ x ∈ os.zipIdx, x.1.type = .subcommand → x.1.name.any (fun n => decide (n.head? ≠ some 45 ∧
      (32 : Byte) ∉ n ∧ ∀ o' ∈ os.take x.2, o'.type = .subcommand → o'.name.all (fun n' => !n.isPrefixOf n') = true)) = true) :
    CallableNames tables := by
  intro t os hos i o hi ht
  have h1 := h os (List.mem_of_getElem? hos) (o, i) (List.mk_mem_zipIdx_iff_getElem?.2 hi) ht
  rw [Option.any_eq_true] at h1
  obtain ⟨n, h2, h3⟩ := h1
  obtain ⟨g1, g2, g3⟩ := of_decide_eq_true h3
  refine ⟨n, h2, ⟨g1, fun j hj o' n' e1 e2 e3 e4 => ?_⟩, g2⟩
  have hm : o' ∈ os.take i := by
    refine List.mem_of_getElem? (i := j) ?_
    rw [List.getElem?_take_of_lt hj]; exact e1
  have := g3 o' hm e2
  rw [e3] at this
  simp only [Option.all_some, Bool.not_eq_true'] at this
  rw [List.isPrefixOf_iff_prefix.2 e4] at this
  simp at this

/-- The sample of `C56`: `C108_overview_partial` applies, `prog db migrate` is listed, and the words `db migrate` run the command. -/
example : CallableNames Sample.commandTree.tables ∧ Sample.commandTree.stack = [] ∧
    (∀ c ∈ Sample.commandTree.executables 2 Sample.commandTree.programName (some Sample.commandTree.root), c.1.length < 512) ∧
    displayAllCommands Sample.commandTree = .ok (c!"No command specified.\n\nAvailable commands:\n" ++
      c!"  prog run                      \n\n  prog db migrate               \n" ++
      c!"\nRun 'prog COMMAND --help' for more information on a specific command.\n") ∧
    (∃ a' s, parseArgs Sample.world Sample.commandTree (some 0) [c!"db", c!"migrate"] = .ok (Err.success, a') ∧
      argusExec Sample.world a' = .ok (s, some 2, []) ∧
      displayUsage a' = .ok c!"Usage: prog db migrate [OPTIONS]\n") :=
  ⟨callableNames_of (by decide +kernel), rfl, by decide +kernel, by decide +kernel, _, _, rfl, rfl, by decide +kernel⟩

/-- After `prog db` the list shows `db user add`, and `prog db user add` selects it: `C108_available_partial` applies. -/
example : ∃ a command, parseArgs Sample.world Sample.commandTree (some 0) [c!"db"] = .ok (Err.success, a) ∧
    CallableNames a.tables ∧ NamesChain a.tables (some 0) [⟨0, 0⟩] [c!"db"] ∧ a.getOpt ⟨0, 0⟩ = .ok command ∧
    displayAvailable a 3 command = .ok (some (c!"The 'db' command cannot be executed by itself.\n\nAvailable commands:\n" ++
      c!"  db migrate                    \n  db user                       \n  db user add                   \n" ++
      c!"\nRun 'prog db SUBCOMMAND --help' for more information.\n")) ∧
    ∃ a', parseArgs Sample.world Sample.commandTree (some 0) [c!"db", c!"user", c!"add"] = .ok (Err.success, a') ∧
      a'.stack = [⟨0, 0⟩, ⟨1, 1⟩, ⟨2, 0⟩] :=
  ⟨_, _, rfl, callableNames_of (by decide +kernel),
    ⟨rfl, _, _, rfl, rfl, rfl, rfl, by decide, fun _ _ _ _ _ _ _ => Nat.zero_le _, trivial⟩, rfl, by decide +kernel, _, rfl, rfl⟩

end Argus
