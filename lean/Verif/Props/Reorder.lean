import Verif.Lemmas.Reorder
import Verif.Props.Outcome

/-!
# C81: the order of declarations

`Reordered T T'`: the options arrays `T'` declare the same as `T` in another order, where group headers stay, and
positionals and subcommands stay among themselves.
-/

set_option autoImplicit false

namespace Argus

theorem helpExits_exch {k i : Nat} {T T' : List (List Opt)} (h : TabExch k i T T') (hx : HelpExits T) : HelpExits T' := by
  intro p o ho
  rw [h.place'] at ho
  exact hx _ o ho

theorem allNamed_exch {k i : Nat} {T T' : List (List Opt)} (h : TabExch k i T T') (hn : ∀ os ∈ T, AllNamed os) :
    ∀ os ∈ T', AllNamed os := by
  intro os hos o ho
  obtain ⟨j, hj⟩ := List.mem_iff_getElem?.1 hos
  by_cases e : j = k
  · subst e
    obtain ⟨o1, o2, h1, h2, h3⟩ := h.row_self
    rw [h2] at hj; cases hj
    exact hn o1 (List.mem_of_getElem? h1) o ((h3.mem o).1 ho)
  · rw [h.row_other e] at hj
    exact hn os (List.mem_of_getElem? hj) o ho

theorem tabExch_of {T : List (List Opt)} {k : Nat} {pre post : List Opt} {x y : Opt}
    (h : T[k]? = some (pre ++ x :: y :: post)) (hm : MayExchange x y) :
    TabExch k pre.length T (T.set k (pre ++ y :: x :: post)) :=
  ⟨_, _, h, ⟨pre, x, y, post, rfl, rfl, rfl, hm⟩, rfl⟩

theorem reordered_of_tabExch {k i : Nat} {T T' : List (List Opt)} (h : TabExch k i T T') : Reordered T T' := by
  obtain ⟨_, _, h1, ⟨pre, x, y, post, -, rfl, rfl, hm⟩, rfl⟩ := h
  exact .exchange T k pre post x y h1 hm

/-- Being declared in another order goes both ways. -/
theorem reordered_symm {T T' : List (List Opt)} (h : Reordered T T') : Reordered T' T := by
  induction h with
  | same T => exact .same T
  | exchange T k pre post x y h hm => exact reordered_of_tabExch (tabExch_of h hm).symm
  | trans T T' T'' _ _ ih1 ih2 => exact .trans _ _ _ ih2 ih1

theorem reordered_kept {T T' : List (List Opt)} (h : Reordered T T') :
    (HelpExits T → HelpExits T') ∧ ((∀ os ∈ T, AllNamed os) → ∀ os ∈ T', AllNamed os) := by
  induction h with
  | same T => exact ⟨id, id⟩
  | exchange T k pre post x y h hm => exact ⟨helpExits_exch (tabExch_of h hm), allNamed_exch (tabExch_of h hm)⟩
  | trans T T' T'' _ _ ih1 ih2 => exact ⟨ih2.1 ∘ ih1.1, ih2.2 ∘ ih1.2⟩

/-- **C81** The order in which options are declared does not matter: a command line that a program accepts is accepted
    by the program with the declarations in another order. The options end the same: they are those of the first
    program in the other order, every path leads to the same option with the same value, and the same commands are
    selected. -/
theorem C81_any_order (W : World) (env : Env) (a : Argus) (T' : List (List Opt)) (args : List Str)
    (hstack : a.stack = []) (hx : HelpExits a.tables) (hn : ∀ os ∈ a.tables, AllNamed os)
    (h0 : ∀ arg ∈ args, (0 : Byte) ∉ arg) (ht : Reordered a.tables T') (b : Argus)
    (h : argusParse W env a args = .ok (.returned Err.success, b)) :
    ∃ b', argusParse W env { a with tables := T' } args = .ok (.returned Err.success, b') ∧
      Reordered b.tables b'.tables ∧ (∀ path, b'.lookup path = b.lookup path) ∧
      b'.stack.map b'.getOpt = b.stack.map b.getOpt := by
  generalize hT : a.tables = T at ht
  induction ht generalizing a b with
  | same T => subst hT; exact ⟨b, h, .same _, fun _ => rfl, rfl⟩
  | exchange T k pre post x y h1 hm =>
    subst hT
    have hex := tabExch_of h1 hm
    have hacc := (C75_success_iff W env a args _ _ hx hn).1 ⟨b, h, rfl, rfl⟩
    obtain ⟨R', hR⟩ := tabExch_result hex hacc.sizes (fun p o o' h1 h2 => accepted_meta hacc h1 h2)
    obtain ⟨b', h2, h3, h4⟩ := (C75_success_iff W env { a with tables := _ } args _ _ (helpExits_exch hex hx)
      (allNamed_exch hex hn)).2 (accepted_exch hstack h0 hex hR hacc)
    have hr : b'.root = b.root := by
      obtain ⟨_, _, _, f1⟩ := argusParse_frame h2
      obtain ⟨_, _, _, f2⟩ := argusParse_frame h
      exact f1.root.trans f2.root.symm
    rw [← h3] at hR
    refine ⟨b', h2, reordered_of_tabExch hR, lookup_exch hR hr h4, ?_⟩
    rw [h4, List.map_map]
    exact List.map_congr_left (fun p _ => getOpt_exch hR p)
  | trans T T1 T2 hr1 _ ih1 ih2 =>
    subst hT
    obtain ⟨b1, h1, h2, h3, h4⟩ := ih1 a hstack hx hn b h rfl
    obtain ⟨b2, h5, h6, h7, h8⟩ := ih2 { a with tables := T1 } hstack ((reordered_kept hr1).1 hx)
      ((reordered_kept hr1).2 hn) b1 h1 rfl
    exact ⟨b2, h5, .trans _ _ _ h2 h6, fun p => (h7 p).trans (h3 p), h8.trans h4⟩

/-- **C81** So exactly the same command lines are accepted. -/
theorem C81_same_lines (W : World) (env : Env) (a : Argus) (T' : List (List Opt)) (args : List Str)
    (hstack : a.stack = []) (hx : HelpExits a.tables) (hn : ∀ os ∈ a.tables, AllNamed os)
    (h0 : ∀ arg ∈ args, (0 : Byte) ∉ arg) (ht : Reordered a.tables T') :
    (∃ b, argusParse W env { a with tables := T' } args = .ok (.returned Err.success, b)) ↔
      ∃ b, argusParse W env a args = .ok (.returned Err.success, b) := by
  constructor
  · rintro ⟨b, h⟩
    obtain ⟨b', h1, _⟩ := C81_any_order W env { a with tables := T' } a.tables args hstack ((reordered_kept ht).1 hx)
      ((reordered_kept ht).2 hn) h0 (reordered_symm ht) b h
    exact ⟨b', h1⟩
  · rintro ⟨b, h⟩
    obtain ⟨b', h1, _⟩ := C81_any_order W env a T' args hstack hx hn h0 ht b h
    exact ⟨b', h1⟩

theorem reordered_section {mid mid' : List Opt} (hp : mid.Perm mid') : ∀ {T : List (List Opt)} {k : Nat}
    {pre post : List Opt}, mid.Pairwise MayExchange → T[k]? = some (pre ++ mid ++ post) →
    Reordered T (T.set k (pre ++ mid' ++ post)) := by
  have hset : ∀ (T : List (List Opt)) (k : Nat) (os : List Opt), T[k]? = some os → T.set k os = T := by
    intro T k os h
    apply List.ext_getElem?
    intro j
    rw [List.getElem?_set]
    split
    · rename_i e; subst e
      rw [if_pos (List.getElem?_eq_some_iff.1 h).1, h]
    · rfl
  induction hp with
  | nil => intro T k pre post _ h; rw [hset T k _ h]; exact .same T
  | cons x _ ih =>
    intro T k pre post hm h
    have := ih (T := T) (k := k) (pre := pre ++ [x]) (post := post) (List.pairwise_cons.1 hm).2 (by simpa using h)
    simpa using this
  | swap x y l =>
    intro T k pre post hm h
    have hxy := (List.pairwise_cons.1 hm).1 x (by simp)
    have := Reordered.exchange T k pre (l ++ post) y x (by simpa using h) hxy
    simpa using this
  | trans h1 _ ih1 ih2 =>
    intro T k pre post hm h
    rename_i l1 l2 l3 _
    have e1 := ih1 (T := T) (k := k) (pre := pre) (post := post) hm h
    have hk : (T.set k (pre ++ l2 ++ post))[k]? = some (pre ++ l2 ++ post) := by
      rw [List.getElem?_set, if_pos rfl, if_pos (List.getElem?_eq_some_iff.1 h).1]
    have e2 := ih2 (T := T.set k (pre ++ l2 ++ post)) (k := k) (pre := pre) (post := post)
      ((h1.pairwise_iff (fun h => MayExchange.symm h)).1 hm) hk
    rw [List.set_set] at e2
    exact .trans _ _ _ e1 e2

/-- **C81** In particular the entries of a section may be permuted in any way, if no two of them are positionals or
    subcommands or have a name in common, and none is a group header. -/
theorem C81_permuted (W : World) (env : Env) (a : Argus) (k : Nat) (pre mid mid' post : List Opt) (args : List Str)
    (hstack : a.stack = []) (hx : HelpExits a.tables) (hn : ∀ os ∈ a.tables, AllNamed os)
    (h0 : ∀ arg ∈ args, (0 : Byte) ∉ arg) (hk : a.tables[k]? = some (pre ++ mid ++ post)) (hm : mid.Pairwise MayExchange)
    (hp : mid.Perm mid') (b : Argus) (h : argusParse W env a args = .ok (.returned Err.success, b)) :
    ∃ b', argusParse W env { a with tables := a.tables.set k (pre ++ mid' ++ post) } args =
        .ok (.returned Err.success, b') ∧
      (∀ path, b'.lookup path = b.lookup path) ∧ b'.stack.map b'.getOpt = b.stack.map b.getOpt := by
  obtain ⟨b', h1, _, h3⟩ := C81_any_order W env a _ args hstack hx hn h0 (reordered_section hp hm hk) b h
  exact ⟨b', h1, h3⟩

theorem mayExchange_options {x y : Opt} (hx : x.type = .option) (hy : y.type = .option)
    (h : x.name ≠ none ∧ x.name ≠ y.name ∧ x.lname ≠ none ∧ x.lname ≠ y.lname ∧ x.sname ≠ y.sname) :
    MayExchange x y := by
  obtain ⟨_, h2, _, h4, h5⟩ := h
  refine ⟨by simp [hx, hy], by simp [hx], by simp [hx], fun n h1 h3 => h2 (h1.trans h3.symm),
    fun _ _ n h1 h3 => h4 (h1.trans h3.symm), fun _ _ h1 => absurd h1 h5⟩

/-- The sample program with `--num`, `--verbose`, `--output` in place of `--verbose`, `--output`, `--num`, and what
    becomes of `prog -v --output x --num 5 add 3 a`. -/
example :
    let mid := [optFlag 118 (some c!"verbose"), optString 111 (some c!"output"), optInt 110 (some c!"num")]
    let mid' := [optInt 110 (some c!"num"), optFlag 118 (some c!"verbose"), optString 111 (some c!"output")]
    Sample.prog.tables[0]? = some ([helpOption] ++ mid ++ Sample.root.drop 4) ∧ mid.Pairwise MayExchange ∧ mid.Perm mid' ∧
    (∀ arg ∈ [c!"-v", c!"--output", c!"x", c!"--num", c!"5", c!"add", c!"3", c!"a"], (0 : Byte) ∉ arg) ∧
    (argusParse Sample.world Sample.noEnv Sample.prog
      [c!"-v", c!"--output", c!"x", c!"--num", c!"5", c!"add", c!"3", c!"a"]).toOption.map (·.1) =
        some (.returned Err.success) ∧
    (argusParse Sample.world Sample.noEnv
      { Sample.prog with tables := Sample.prog.tables.set 0 ([helpOption] ++ mid' ++ Sample.root.drop 4) }
      [c!"-v", c!"--output", c!"x", c!"--num", c!"5", c!"add", c!"3", c!"a"]).toOption.map (·.1) =
        some (.returned Err.success) := by
  refine ⟨by decide +kernel, ?_, by decide, by decide, by decide +kernel, by decide +kernel⟩
  simp only [List.pairwise_cons, List.mem_cons, List.not_mem_nil, or_false]
  refine ⟨fun y hy => ?_, fun y hy => ?_, by simp⟩
  · rcases hy with rfl | rfl
    · exact mayExchange_options rfl rfl (by decide)
    · exact mayExchange_options rfl rfl (by decide)
  · subst hy
    exact mayExchange_options rfl rfl (by decide)

/-- Two positionals, an int and a string. -/
def Sample.twoSlots (x y : Opt) : Argus := argusInit [[x, y]] c!"prog" none

/-- **C81** Positionals are filled in the order of their declarations, so `prog 5 a` gives another `count` if the two are
    exchanged. -/
theorem C81_positionals_stay :
    let one := argusParse Sample.world Sample.noEnv (Sample.twoSlots (posInt c!"count") (posString c!"name")) [c!"5", c!"7"]
    let two := argusParse Sample.world Sample.noEnv (Sample.twoSlots (posString c!"name") (posInt c!"count")) [c!"5", c!"7"]
    one.toOption.map (fun r => (r.2.lookup c!"count").toOption.map (·.map (·.value))) =
      some (some (some (.word (.bits 5#64)))) ∧
    two.toOption.map (fun r => (r.2.lookup c!"count").toOption.map (·.map (·.value))) =
      some (some (some (.word (.bits 7#64)))) := by
  decide +kernel

/-- **C81** The order of subcommands has a meaning, too: `prog add` calls `add` if it is declared before `addition`, and
    is ambiguous if it is declared after it. -/
theorem C81_subcommands_stay :
    let one := argusInit [[subcommand c!"add" 1, subcommand c!"addition" 1], [helpOption]] c!"prog" none
    let two := argusInit [[subcommand c!"addition" 1, subcommand c!"add" 1], [helpOption]] c!"prog" none
    (argusParse Sample.world Sample.noEnv one [c!"add"]).toOption.map (·.1) = some (.returned Err.success) ∧
    (argusParse Sample.world Sample.noEnv two [c!"add"]).toOption.map (·.1) =
      some (.returned Err.ambiguousSubcommand) := by
  decide +kernel

/-- **C81** Only what is accepted does not depend on the order. Which of two faults is reported does. -/
theorem C81_first_fault :
    let x : Opt := { optInt 120 (some c!"x") with validators := some [vRange 1 9] }
    let y : Opt := { optInt 121 (some c!"y") with require := some [c!"z"] }
    let z := optInt 122 (some c!"z")
    let one := argusInit [[x, y, z]] c!"prog" none
    let two := argusInit [[y, x, z]] c!"prog" none
    (argusParse Sample.world Sample.noEnv one [c!"-x", c!"0", c!"-y", c!"1"]).toOption.map (·.1) =
      some (.returned Err.invalidRange) ∧
    (argusParse Sample.world Sample.noEnv two [c!"-x", c!"0", c!"-y", c!"1"]).toOption.map (·.1) =
      some (.returned Err.missingRequired) := by
  decide +kernel

end Argus
