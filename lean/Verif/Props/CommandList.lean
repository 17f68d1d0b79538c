import Verif.Spec.Sample
import Verif.Lemmas.CommandList

/-!
# C55, C56, C57: the usage line and the lists of commands

`executables`, `below`, `listLine`, `inBlocks` and `bracketed` are in Spec/CommandList.
-/

set_option autoImplicit false

namespace Argus

/-- **C56** (two levels of commands) A program run without a command prints one line for every executable command of the
    first two levels, each exactly once, in blocks separated by empty lines. Paths are cut to what the buffers hold. -/
theorem C56_cut_partial (a : Argus) (out : Str) (h : displayAllCommands a = .ok out) :
    ∃ blocks : List (List Str),
      out = c!"No command specified.\n\nAvailable commands:\n" ++ inBlocks blocks ++ c!"\nRun '" ++ a.programName ++
        c!" COMMAND --help' for more information on a specific command.\n" ∧
      blocks.flatten.Perm (a.overview.map (listLine a.helper.descriptionColumn)) := by
  unfold displayAllCommands at h
  obtain ⟨os, hos, h⟩ := Out.bind_eq_ok h
  obtain ⟨s, hs, h⟩ := Out.bind_eq_ok h
  obtain ⟨f, hf, h⟩ := Out.bind_eq_ok h
  simp only [Out.ok.injEq] at h
  have hex : a.overview = os.flatMap (fun o => simplePart a o ++ familyPart a o) := by
    rw [Argus.overview, table_entries hos]
    congr 1
    funext o
    exact parts_perm a o
  rw [hex]
  have hperm := flatMap_append_perm' (simplePart a) (familyPart a) os
  obtain ⟨h1, h2⟩ := simpleCommands_ok a os s hs
  obtain ⟨bs, hb1, hb2⟩ := commandFamilies_ok a os s.2 f hf
  have hsplit : ∃ blocks : List (List Str), s.1 ++ f = inBlocks blocks ∧
      blocks.flatten = (os.flatMap (simplePart a)).map (listLine a.helper.descriptionColumn) ++ bs.flatten := by
    cases hs2 : s.2 with
    | false =>
      have he : os.flatMap (simplePart a) = [] := by
        cases hc : os.flatMap (simplePart a) with
        | nil => rfl
        | cons c cs =>
          have := h2.2 (by rw [hc]; simp)
          rw [hs2] at this; simp at this
      refine ⟨bs, ?_, by rw [he]; rfl⟩
      rw [h1, he, hb1, hs2]
      unfold afterBlank
      cases bs <;> simp [inBlocks]
    | true =>
      refine ⟨(os.flatMap (simplePart a)).map (listLine a.helper.descriptionColumn) :: bs, ?_, by simp⟩
      rw [inBlocks_cons, h1, hb1, hs2]
  obtain ⟨blocks, hb3, hb4⟩ := hsplit
  refine ⟨blocks, ?_, ?_⟩
  · rw [← h, ← hb3]; simp
  · rw [hb4, hb2, ← List.map_append]
    exact (hperm.map _).symm

/-- **C56** (two levels of commands) Paths below 512 bytes are shown in full: the lines are those of the executable
    commands of the first two levels, each exactly once. -/
theorem C56_all_commands_partial (a : Argus) (out : Str) (h : displayAllCommands a = .ok out)
    (hl : ∀ c ∈ a.executables 2 a.programName (some a.root), c.1.length < 512) :
    ∃ blocks : List (List Str),
      out = c!"No command specified.\n\nAvailable commands:\n" ++ inBlocks blocks ++ c!"\nRun '" ++ a.programName ++
        c!" COMMAND --help' for more information on a specific command.\n" ∧
      blocks.flatten.Perm
        ((a.executables 2 a.programName (some a.root)).map (listLine a.helper.descriptionColumn)) := by
  rw [← overview_short a hl]
  exact C56_cut_partial a out h

namespace Sample

/-- `db` runs nothing itself; `db migrate` and, two levels down, `db user add` run something. -/
def commandTree : Argus :=
  argusInit [[subcommand c!"db" 1 none, subcommand c!"run" 3 (some 1)],
    [subcommand c!"migrate" 3 (some 2), subcommand c!"user" 2 none], [subcommand c!"add" 3 (some 3)], []] c!"prog" none

end Sample

example : displayAllCommands Sample.commandTree = .ok (c!"No command specified.\n\nAvailable commands:\n" ++
      c!"  prog run                      \n\n  prog db migrate               \n" ++
      c!"\nRun 'prog COMMAND --help' for more information on a specific command.\n") ∧
    (∀ c ∈ Sample.commandTree.executables 2 Sample.commandTree.programName (some Sample.commandTree.root), c.1.length < 512) ∧
    Sample.commandTree.executables 2 Sample.commandTree.programName (some Sample.commandTree.root) =
      [(c!"prog db migrate", none), (c!"prog run", none)] := by decide +kernel

/-- **C56** fails from the third level on: `prog db user add` can be executed and is not listed. -/
theorem C56_third_level : ∃ (a : Argus) (c : Str × Option Str) (out : Str),
    c ∈ a.executables 3 a.programName (some a.root) ∧ displayAllCommands a = .ok out ∧
    ¬ listLine a.helper.descriptionColumn c <:+: out := by
  refine ⟨Sample.commandTree, (c!"prog db user add", none), c!"No command specified.\n\nAvailable commands:\n" ++
      c!"  prog run                      \n\n  prog db migrate               \n" ++
      c!"\nRun 'prog COMMAND --help' for more information on a specific command.\n", ?_⟩
  decide +kernel

/-! ## Available subcommands -/

/-- **C57** (if the listing ends) A command that cannot be executed itself is explained by one line for every subcommand
    below it, at any depth `d`, each followed by its own subcommands, in the order of their declaration. The lines show
    the first 511 bytes of what is to be typed. -/
theorem C57_cut_partial (a : Argus) (fuel : Nat) (command : Opt) (name out : Str) (cs : List (Ptr × Str))
    (hn : command.name = some name) (hs : cs.map (·.1) = a.stack)
    (hc : ∀ c ∈ cs, ∃ o, a.getOpt c.1 = .ok o ∧ o.name = some c.2)
    (h : displayAvailable a fuel command = .ok (some out)) :
    ∀ d, fuel ≤ d →
      out = c!"The '" ++ name ++ c!"' command cannot be executed by itself.\n\nAvailable commands:\n" ++
        ((a.below d name command.subOptions).map fun c => listLine a.helper.descriptionColumn (c.1.take 511, c.2)).flatten ++
        (c!"\nRun '" ++ a.programName ++ cs.flatMap (fun c => 32 :: c.2) ++
          c!" SUBCOMMAND --help' for more information.\n") := by
  unfold displayAvailable at h
  rw [hn] at h
  simp only [nameText, Out.ok_bind, stackNames_eq a _ cs hs hc] at h
  obtain ⟨s1, t1, e1, h1, rfl⟩ := Text.cat_some h
  obtain ⟨s2, t2, e2, h2, rfl⟩ := Text.cat_some h1
  simp only [Text.lit, Out.ok.injEq, Option.some.injEq] at e1 h2
  intro d hd
  have e3 : s2 = (((a.below d name command.subOptions).map cutPath).map (listLine a.helper.descriptionColumn)).flatten := by
    cases hk : command.subOptions with
    | none =>
      rw [hk] at e2
      simp only [Text.lit, Out.ok.injEq, Option.some.injEq] at e2
      rw [below_none, ← e2]; rfl
    | some k =>
      rw [hk] at e2
      exact subcommandPaths_ok a fuel d name k s2 hd e2
  rw [List.map_map] at e3
  rw [← e1, ← h2, e3]
  simp only [List.append_assoc]
  rfl

/-- **C57** (if the listing ends) Paths below 512 bytes are shown in full. -/
theorem C57_available_partial (a : Argus) (fuel : Nat) (command : Opt) (name out : Str) (cs : List (Ptr × Str))
    (hn : command.name = some name) (hs : cs.map (·.1) = a.stack)
    (hc : ∀ c ∈ cs, ∃ o, a.getOpt c.1 = .ok o ∧ o.name = some c.2)
    (h : displayAvailable a fuel command = .ok (some out))
    (hl : ∀ d, ∀ c ∈ a.below d name command.subOptions, c.1.length < 512) :
    ∀ d, fuel ≤ d →
      out = c!"The '" ++ name ++ c!"' command cannot be executed by itself.\n\nAvailable commands:\n" ++
        ((a.below d name command.subOptions).map (listLine a.helper.descriptionColumn)).flatten ++
        (c!"\nRun '" ++ a.programName ++ cs.flatMap (fun c => 32 :: c.2) ++
          c!" SUBCOMMAND --help' for more information.\n") := by
  intro d hd
  have := C57_cut_partial a fuel command name out cs hn hs hc h d hd
  rw [List.map_congr_left (g := listLine a.helper.descriptionColumn) (fun c hc => by
    rw [List.take_of_length_le (by have := hl d c hc; omega)])] at this
  exact this

/-- **C57** The listing ends exactly if the subcommands below the command are nested to some finite depth, for tables
    that exist and subcommands that have names. -/
theorem C57_ends_iff (a : Argus) (command : Opt) (name : Str) (k : Nat) (cs : List (Ptr × Str))
    (hn : command.name = some name) (hk : command.subOptions = some k) (hlt : k < a.tables.length)
    (hs : cs.map (·.1) = a.stack) (hc : ∀ c ∈ cs, ∃ o, a.getOpt c.1 = .ok o ∧ o.name = some c.2)
    (hw : ∀ os ∈ a.tables, ∀ o ∈ os, o.type = .subcommand →
      o.name ≠ none ∧ ∀ j, o.subOptions = some j → j < a.tables.length) :
    (∃ fuel out, displayAvailable a fuel command = .ok (some out)) ↔ ∃ d, DepthAtMost a.tables (some k) d := by
  have hd : ∀ fuel, (∃ out, displayAvailable a fuel command = .ok (some out)) ↔
      ∃ out, subcommandPaths a fuel name k = .ok (some out) := by
    intro fuel
    unfold displayAvailable
    rw [hn, hk]
    simp only [nameText, Out.ok_bind, stackNames_eq a _ cs hs hc]
    constructor
    · rintro ⟨out, h⟩
      obtain ⟨_, t1, _, h1, _⟩ := Text.cat_some h
      obtain ⟨s2, _, e2, _, _⟩ := Text.cat_some h1
      exact ⟨s2, e2⟩
    · rintro ⟨out, h⟩
      rw [h]
      exact ⟨_, rfl⟩
  constructor
  · rintro ⟨fuel, h⟩
    obtain ⟨out, h⟩ := (hd fuel).1 h
    exact ⟨fuel, paths_depth a fuel name k out h⟩
  · rintro ⟨d, h⟩
    exact ⟨d + 1, (hd _).2 (paths_end a hw d name k hlt h)⟩

/-- `C57_ends_iff` applies to `db`, whose subcommands are nested less than four deep. -/
example : (∀ os ∈ Sample.commandTree.tables, ∀ o ∈ os, o.type = .subcommand →
      o.name ≠ none ∧ ∀ j, o.subOptions = some j → j < Sample.commandTree.tables.length) ∧
    DepthAtMost Sample.commandTree.tables (some 1) 3 := by
  constructor
  · have h : ∀ os ∈ Sample.commandTree.tables, ∀ o ∈ os, o.type = .subcommand →
        o.name ≠ none ∧ ∀ j ∈ o.subOptions, j < Sample.commandTree.tables.length := by decide +kernel
    exact fun os hos o ho ht => ⟨(h os hos o ho ht).1, fun j hj => (h os hos o ho ht).2 j hj⟩
  · exact paths_depth Sample.commandTree 3 c!"db" 1
      c!"  db migrate                    \n  db user                       \n  db user add                   \n" (by decide +kernel)

namespace Sample

/-- A command with a name of 600 bytes. -/
def longCommand : Argus :=
  argusInit [[subcommand c!"db" 1 none], [subcommand (List.replicate 600 120) 2 none], []] c!"prog" none

end Sample

/-- **C57** Of a longer path only 511 bytes are shown, which cannot be typed to select the command. -/
theorem C57_path_cut : ∃ out, displayAvailable Sample.longCommand 2 (subcommand c!"db" 1 none) = .ok (some out) ∧
    out = c!"The 'db' command cannot be executed by itself.\n\nAvailable commands:\n" ++
      (c!"  db " ++ List.replicate 508 120 ++ c!"  \n") ++ c!"\nRun 'prog SUBCOMMAND --help' for more information.\n" :=
  ⟨_, by decide +kernel, rfl⟩

/-- The subcommands of `db`: three levels are enough. -/
example : displayAvailable { Sample.commandTree with stack := [⟨0, 0⟩] } 3 (subcommand c!"db" 1 none) = .ok (some
    (c!"The 'db' command cannot be executed by itself.\n\nAvailable commands:\n" ++
     c!"  db migrate                    \n  db user                       \n  db user add                   \n" ++
     c!"\nRun 'prog db SUBCOMMAND --help' for more information.\n")) := by decide +kernel

/-- **C57** A table that contains itself is walked without end. -/
theorem C57_endless : ∃ (a : Argus) (command : Opt), ∀ fuel, displayAvailable a fuel command = .ok none := by
  refine ⟨argusInit [[subcommand c!"x" 0 none]] c!"prog" none, subcommand c!"x" 0 none, fun fuel => ?_⟩
  have h : ∀ (fuel : Nat) (base : Str),
      subcommandPaths (argusInit [[subcommand c!"x" 0 none]] c!"prog" none) fuel base 0 = .ok none := by
    intro fuel
    induction fuel with
    | zero => intro base; rfl
    | succ f ih =>
      intro base
      rw [subcommandPaths]
      simp only [argusInit, subcommand, Argus.table, List.getElem?_cons_zero, Out.ok_bind, pathsLoop, if_true, nameText]
      have := ih (snprintf 512 (base ++ c!" " ++ c!"x"))
      simp only [argusInit, subcommand] at this
      rw [this]
      rfl
  have h' := h fuel c!"x"
  unfold displayAvailable
  simp only [subcommand, nameText, Out.ok_bind]
  simp only [subcommand] at h'
  rw [h']
  rfl

/-! ## Usage -/

/-- **C55** The usage line: the program, the commands entered so far, `[OPTIONS]`, the positionals of the present level
    in the order of their declaration, and `COMMAND` if there are subcommands. -/
theorem C55_usage (a : Argus) (cs : List (Ptr × Str)) (t : Nat) (os : List Opt) (hs : cs.map (·.1) = a.stack)
    (hc : ∀ c ∈ cs, ∃ o, a.getOpt c.1 = .ok o ∧ o.name = some c.2)
    (ha : a.activeOptions = .ok (some t)) (ht : a.tables[t]? = some os)
    (hp : ∀ o ∈ os, o.type = .positional → o.name ≠ none) :
    displayUsage a = .ok (c!"Usage: " ++ a.programName ++ cs.flatMap (fun c => 32 :: c.2) ++ c!" [OPTIONS]" ++
      (os.filter (fun o => o.type == .positional)).flatMap (fun o => 32 :: bracketed o) ++
      (if ∃ o ∈ os, o.type = .subcommand then c!" COMMAND" else []) ++ c!"\n") := by
  unfold displayUsage
  rw [ha]
  simp only [Out.ok_bind, Argus.table, ht, stackNames_eq a _ cs hs hc, usagePositionals_eq os hp]
  have : usageCommand os = if ∃ o ∈ os, o.type = .subcommand then c!" COMMAND" else [] := by
    unfold usageCommand
    by_cases h : ∃ o ∈ os, o.type = .subcommand
    · rw [if_pos h, if_pos (by rw [List.any_eq_true]; obtain ⟨o, h1, h2⟩ := h; exact ⟨o, h1, beq_iff_eq.2 h2⟩)]
    · rw [if_neg h, if_neg (by
        rw [List.any_eq_true]; rintro ⟨o, h1, h2⟩; exact h ⟨o, h1, beq_iff_eq.1 h2⟩)]
  rw [this]

/-- After `prog add`. -/
example : displayUsage { Sample.prog with stack := [⟨0, 8⟩] } =
    .ok c!"Usage: prog add [OPTIONS] <count> <names...>\n" ∧
    displayUsage Sample.prog = .ok c!"Usage: prog [OPTIONS] [file] COMMAND\n" := by decide +kernel

end Argus
