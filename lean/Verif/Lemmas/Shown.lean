import Verif.Model.Display
import Verif.Lemmas.State
import Verif.Lemmas.Frame

/-! # Lemmas: what is displayed depends on the declarations only -/

set_option autoImplicit false

namespace Argus

/-- The context without values, messages and error code. -/
def Argus.bare (a : Argus) : Argus := { a with tables := a.shape, errorCode := 0, out := [] }

theorem bare_eq {a b : Argus} (hs : b.shape = a.shape) (hc : b.cfg = a.cfg) :
    b.bare = ({ a with stack := b.stack } : Argus).bare := by
  simp only [Argus.cfg, Prod.mk.injEq] at hc
  obtain ⟨h1, h2, h3, h4, h5, h6⟩ := hc
  have h7 : ({ a with stack := b.stack } : Argus).shape = a.shape := rfl
  unfold Argus.bare
  rw [hs, h1, h2, h3, h4, h5, h6, h7]

theorem bare_table (a : Argus) (t : Option Nat) :
    a.bare.table t = (do let os ← a.table t; .ok (os.map Opt.meta)) := by
  unfold Argus.table Argus.bare Argus.shape
  cases t with
  | none => rfl
  | some k =>
    simp only [List.getElem?_map]
    cases a.tables[k]? <;> rfl

theorem bare_getOpt (a : Argus) (p : Ptr) : a.bare.getOpt p = (do let o ← a.getOpt p; .ok o.meta) := by
  unfold Argus.getOpt Argus.bare Argus.shape
  simp only [List.getElem?_map]
  cases a.tables[p.tbl]? with
  | none => rfl
  | some os =>
    simp only [Option.map_some, List.getElem?_map]
    cases os[p.idx]? <;> rfl

theorem bare_activeOptions (a : Argus) : a.bare.activeOptions = a.activeOptions := by
  unfold Argus.activeOptions
  rw [show a.bare.stack = a.stack from rfl, show a.bare.root = a.root from rfl]
  split
  · rw [bare_getOpt]
    cases a.getOpt _ <;> rfl
  · rfl

theorem bare_stackNames (a : Argus) : ∀ ps : List Ptr, stackNames a.bare ps = stackNames a ps
  | [] => rfl
  | p :: ps => by
    rw [stackNames, stackNames, bare_getOpt, bare_stackNames a ps]
    cases a.getOpt p <;> rfl

theorem meta_organizeLoop : ∀ (os : List Opt) (i : Nat) (s : OrgState),
    organizeLoop i (os.map Opt.meta) s = organizeLoop i os s
  | [], _, _ => rfl
  | o :: os, i, s => by
    rw [List.map_cons, organizeLoop, organizeLoop, meta_organizeLoop os]
    rfl

theorem meta_printList (p q : Opt → Text) (h : ∀ o, q o.meta = p o) (os : List Opt) (is : List Nat) :
    printList q (os.map Opt.meta) is = printList p os is := by
  unfold printList
  congr 1
  apply List.map_congr_left
  intro i _
  rw [List.getElem?_map]
  cases os[i]? with
  | none => rfl
  | some o => exact h o

theorem bare_printOption (F : Fmt) (a : Argus) (o : Opt) : printOption F a.bare o.meta = printOption F a o := rfl
theorem bare_printPositional (F : Fmt) (a : Argus) (o : Opt) :
    printPositional F a.bare o.meta = printPositional F a o := rfl
theorem bare_printSubcommand (F : Fmt) (a : Argus) (o : Opt) :
    printSubcommand F a.bare o.meta = printSubcommand F a o := rfl

theorem bare_helpSections (F : Fmt) (a : Argus) (os : List Opt) (d : HelpData) :
    helpSections F a.bare (os.map Opt.meta) d = helpSections F a os d := by
  unfold helpSections
  rw [meta_printList _ _ (bare_printPositional F a), meta_printList _ _ (bare_printOption F a),
    meta_printList _ _ (bare_printSubcommand F a)]
  have h1 : commandHint a.bare = commandHint a := by
    unfold commandHint
    rw [show a.bare.stack = a.stack from rfl, bare_stackNames]
    rfl
  rw [h1]
  congr 3
  apply List.map_congr_left
  intro g _
  rw [meta_printList _ _ (bare_printOption F a)]

theorem bare_displayHelp (F : Fmt) (a : Argus) : displayHelp F a.bare = displayHelp F a := by
  unfold displayHelp
  rw [bare_activeOptions]
  cases a.activeOptions with
  | ub u => rfl
  | ok t =>
    simp only [Out.ok_bind, bare_table]
    cases a.table t with
    | ub u => rfl
    | ok os =>
      simp only [Out.ok_bind]
      rw [show organize (os.map Opt.meta) = organize os from by unfold organize; rw [meta_organizeLoop],
        bare_helpSections]

theorem meta_usagePositionals : ∀ os : List Opt, usagePositionals (os.map Opt.meta) = usagePositionals os
  | [] => rfl
  | o :: os => by
    rw [List.map_cons, usagePositionals, usagePositionals, meta_usagePositionals os]
    rfl

theorem bare_displayUsage (a : Argus) : displayUsage a.bare = displayUsage a := by
  unfold displayUsage
  rw [bare_activeOptions]
  cases a.activeOptions with
  | ub u => rfl
  | ok t =>
    simp only [Out.ok_bind, bare_table]
    cases a.table t with
    | ub u => rfl
    | ok os =>
      simp only [Out.ok_bind]
      rw [show a.bare.stack = a.stack from rfl, bare_stackNames, meta_usagePositionals,
        show usageCommand (os.map Opt.meta) = usageCommand os from by
          unfold usageCommand; rw [List.any_map]; rfl]
      rfl

theorem bare_hasExecutable (a : Argus) (o : Opt) : hasExecutable a.bare o.meta = hasExecutable a o := by
  unfold hasExecutable
  rw [show o.meta.subOptions = o.subOptions from rfl]
  cases o.subOptions with
  | none => rfl
  | some k =>
    simp only [bare_table]
    cases a.table (some k) with
    | ub u => rfl
    | ok os => simp only [Out.ok_bind, List.any_map]; rfl

theorem bare_simpleCommands (a : Argus) : ∀ os : List Opt, simpleCommands a.bare (os.map Opt.meta) = simpleCommands a os
  | [] => rfl
  | o :: os => by
    rw [List.map_cons, simpleCommands, simpleCommands, bare_simpleCommands a os,
      show isSimpleCommand a.bare o.meta = isSimpleCommand a o from by
        unfold isSimpleCommand; rw [bare_hasExecutable]; rfl]
    rfl

theorem meta_familyLines (cfg : HelperConfig) (base : Str) : ∀ os : List Opt,
    familyLines cfg base (os.map Opt.meta) = familyLines cfg base os
  | [] => rfl
  | o :: os => by
    rw [List.map_cons, familyLines, familyLines, meta_familyLines cfg base os]
    rfl

theorem bare_commandFamilies (a : Argus) : ∀ (os : List Opt) (b : Bool),
    commandFamilies a.bare b (os.map Opt.meta) = commandFamilies a b os
  | [], _ => rfl
  | o :: os, b => by
    rw [List.map_cons, commandFamilies, commandFamilies, bare_commandFamilies a os, bare_commandFamilies a os,
      show isFamily a.bare o.meta = isFamily a o from by unfold isFamily; rw [bare_hasExecutable]; rfl,
      show o.meta.subOptions = o.subOptions from rfl, bare_table]
    cases a.table o.subOptions with
    | ub u => rfl
    | ok subs =>
      simp only [Out.ok_bind, meta_familyLines]
      rfl

theorem bare_displayAllCommands (a : Argus) : displayAllCommands a.bare = displayAllCommands a := by
  unfold displayAllCommands
  rw [show a.bare.root = a.root from rfl, bare_table]
  cases a.table (some a.root) with
  | ub u => rfl
  | ok os =>
    simp only [Out.ok_bind, bare_simpleCommands, bare_commandFamilies]
    rfl

theorem bare_pathsLoop (a : Argus) (n n' : Str → Nat → Text) (hn : ∀ s k, n' s k = n s k) (base : Str) :
    ∀ (os : List Opt) (b : Bool), pathsLoop a.bare n' base b (os.map Opt.meta) = pathsLoop a n base b os
  | [], _ => rfl
  | o :: os, b => by
    have : n' = n := funext fun s => funext fun k => hn s k
    rw [List.map_cons, pathsLoop, pathsLoop, bare_pathsLoop a n n' hn base os, bare_pathsLoop a n n' hn base os, this]
    rfl

theorem bare_subcommandPaths (a : Argus) : ∀ (fuel : Nat) (base : Str) (k : Nat),
    subcommandPaths a.bare fuel base k = subcommandPaths a fuel base k
  | 0, _, _ => rfl
  | fuel + 1, base, k => by
    rw [subcommandPaths, subcommandPaths, bare_table]
    cases a.table (some k) with
    | ub u => rfl
    | ok os =>
      simp only [Out.ok_bind]
      exact bare_pathsLoop a _ _ (bare_subcommandPaths a fuel) base os false

theorem bare_displayAvailable (a : Argus) (fuel : Nat) (o : Opt) :
    displayAvailable a.bare fuel o.meta = displayAvailable a fuel o := by
  unfold displayAvailable
  rw [show a.bare.stack = a.stack from rfl, bare_stackNames, show o.meta.subOptions = o.subOptions from rfl]
  simp only [bare_subcommandPaths]
  rfl

end Argus
