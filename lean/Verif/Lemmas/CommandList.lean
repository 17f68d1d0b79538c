import Verif.Model.Display
import Verif.Spec.CommandList
import Verif.Spec.Depth
import Verif.Lemmas.State

/-! # The usage line and the lists of commands -/

set_option autoImplicit false

namespace Argus

theorem commandLine_eq (cfg : HelperConfig) (path : Str) (help : Option Str) :
    commandLine cfg path help = listLine cfg.descriptionColumn (path, help) := by
  unfold commandLine listLine spaces
  have : (if cfg.descriptionColumn > path.length + 2 then cfg.descriptionColumn - path.length - 2 else 2) =
      (if path.length + 2 < cfg.descriptionColumn then cfg.descriptionColumn - (path.length + 2) else 2) := by
    split
    · omega
    · rfl
  rw [this]
  cases help <;> rfl

theorem nameText_ok {n : Option Str} {s : Str} (h : nameText n = .ok s) : n = some s := by
  cases n <;> simp_all [nameText]

theorem table_entries {a : Argus} {k : Option Nat} {os : List Opt} (h : a.table k = .ok os) : a.entries k = os := by
  unfold Argus.table at h
  unfold Argus.entries
  cases k with
  | none => simp at h
  | some k =>
    simp only at h ⊢
    cases ht : a.tables[k]? with
    | none => rw [ht] at h; simp at h
    | some l => rw [ht] at h; simp only [Out.ok.injEq] at h; simpa using h

theorem hasExecutable_ok {a : Argus} {o : Opt} {e : Bool} (h : hasExecutable a o = .ok e) :
    e = (a.entries o.subOptions).any Opt.executable := by
  unfold hasExecutable at h
  cases hk : o.subOptions with
  | none => rw [hk] at h; simp only [Out.ok.injEq] at h; rw [← h]; rfl
  | some k =>
    rw [hk] at h
    obtain ⟨os, hos, h⟩ := Out.bind_eq_ok h
    rw [table_entries hos]
    simp only [Out.ok.injEq] at h
    exact h.symm

/-- The command lines of one entry of the first level, in the part for single commands. -/
def simplePart (a : Argus) (o : Opt) : List (Str × Option Str) :=
  if o.type == .subcommand && o.action.isSome && !(a.entries o.subOptions).any Opt.executable then
    [((a.programName ++ [32] ++ o.name.getD []).take 511, o.help)] else []

/-- The command lines of one entry of the first level, in the part for families. -/
def familyPart (a : Argus) (o : Opt) : List (Str × Option Str) :=
  if o.type == .subcommand && (a.entries o.subOptions).any Opt.executable then
    (if o.action.isSome then [((a.programName ++ [32] ++ o.name.getD []).take 511, o.help)] else []) ++
      ((a.entries o.subOptions).filter Opt.executable).map (fun s =>
        (((a.programName ++ [32] ++ o.name.getD []).take 511 ++ [32] ++ s.name.getD []).take 1023, s.help)) else []

theorem executables_one (a : Argus) (path : Str) (k : Option Nat) :
    a.executables 1 path k =
      ((a.entries k).filter Opt.executable).map (fun s => (path ++ [32] ++ s.name.getD [], s.help)) := by
  simp only [Argus.executables, List.append_nil]
  induction a.entries k with
  | nil => rfl
  | cons o os ih =>
    rw [List.flatMap_cons, ih, List.filter_cons]
    unfold Opt.executable
    by_cases h1 : o.type = .subcommand
    · cases h2 : o.action.isSome <;> simp [h1]
    · simp [h1]

theorem parts_perm (a : Argus) (o : Opt) :
    (if o.type == .subcommand then
      (if o.action.isSome then [((a.programName ++ [32] ++ o.name.getD []).take 511, o.help)] else []) ++
        ((a.entries o.subOptions).filter Opt.executable).map (fun s =>
          (((a.programName ++ [32] ++ o.name.getD []).take 511 ++ [32] ++ s.name.getD []).take 1023, s.help))
     else []) = simplePart a o ++ familyPart a o := by
  unfold simplePart familyPart
  by_cases h1 : o.type = .subcommand
  · cases he : (a.entries o.subOptions).any Opt.executable with
    | true => simp [h1]
    | false =>
      have : (a.entries o.subOptions).filter Opt.executable = [] := by
        rw [List.filter_eq_nil_iff]
        intro s hs e
        have := List.any_eq_false.1 he s hs
        exact this e
      rw [this]
      cases o.action.isSome <;> simp [h1]
  · simp [h1]

/-- Short paths are not cut. -/
theorem overview_short (a : Argus) (hl : ∀ c ∈ a.executables 2 a.programName (some a.root), c.1.length < 512) :
    a.overview = a.executables 2 a.programName (some a.root) := by
  unfold Argus.overview
  rw [Argus.executables] at hl ⊢
  generalize a.entries (some a.root) = os at hl ⊢
  induction os with
  | nil => rfl
  | cons o os ih =>
    rw [List.flatMap_cons] at hl ⊢
    rw [List.flatMap_cons, ih (fun c hc => hl c (List.mem_append_right _ hc))]
    congr 1
    have hl := fun c hc => hl c (List.mem_append_left _ hc)
    by_cases h1 : o.type = .subcommand
    · simp only [h1, beq_self_eq_true, if_true] at hl ⊢
      rw [executables_one] at hl ⊢
      have hb : o.action.isSome = true ∨ (∃ s, s ∈ (a.entries o.subOptions).filter Opt.executable) →
          (a.programName ++ [32] ++ o.name.getD []).take 511 = a.programName ++ [32] ++ o.name.getD [] := by
        intro h
        apply List.take_of_length_le
        rcases h with h | ⟨s, h⟩
        · have := hl (a.programName ++ [32] ++ o.name.getD [], o.help) (by simp [h])
          simp only at this
          omega
        · have := hl (a.programName ++ [32] ++ o.name.getD [] ++ [32] ++ s.name.getD [], s.help)
            (List.mem_append_right _ (List.mem_map.2 ⟨s, h, rfl⟩))
          simp only [List.length_append] at this ⊢
          omega
      congr 1
      · cases ha : o.action.isSome with
        | false => rfl
        | true => simp only [if_true]; rw [hb (.inl ha)]
      · apply List.map_congr_left
        intro s hs
        rw [hb (.inr ⟨s, hs⟩), List.take_of_length_le]
        have := hl (a.programName ++ [32] ++ o.name.getD [] ++ [32] ++ s.name.getD [], s.help)
            (List.mem_append_right _ (List.mem_map.2 ⟨s, hs, rfl⟩))
        simp only at this
        omega
    · simp [h1]

theorem snprintf_fits {n : Nat} {s : Str} (h : s.length < n) : snprintf n s = s := by
  unfold snprintf
  exact List.take_of_length_le (by omega)

theorem snprintf_take (n : Nat) (s : Str) : snprintf (n + 1) s = s.take n := rfl

theorem simpleCommands_ok (a : Argus) : ∀ (os : List Opt) (r : Str × Bool), simpleCommands a os = .ok r →
    r.1 = ((os.flatMap (simplePart a)).map (listLine a.helper.descriptionColumn)).flatten ∧
    (r.2 = true ↔ os.flatMap (simplePart a) ≠ [])
  | [], r, h => by
    simp only [simpleCommands, Out.ok.injEq] at h
    subst h
    simp
  | o :: os, r, h => by
    rw [simpleCommands] at h
    obtain ⟨e, he, h⟩ := Out.bind_eq_ok h
    have he' : e = (o.type == .subcommand && o.action.isSome && !(a.entries o.subOptions).any Opt.executable) := by
      unfold isSimpleCommand at he
      split at he
      · rename_i hc
        obtain ⟨b, hb, he⟩ := Out.bind_eq_ok he
        rw [hasExecutable_ok hb] at he
        simp only [Out.ok.injEq] at he
        rw [← he]; simp [hc.1, hc.2]
      · rename_i hc
        simp only [Out.ok.injEq] at he
        rw [← he]
        by_cases h1 : o.type = .subcommand
        · cases h2 : o.action.isSome
          · simp
          · exact absurd ⟨h1, h2⟩ hc
        · simp [h1]
    rw [List.flatMap_cons]
    split at h
    · rename_i hc
      rw [he'] at hc
      obtain ⟨n, hn, h⟩ := Out.bind_eq_ok h
      obtain ⟨r2, hr, h⟩ := Out.bind_eq_ok h
      simp only [Out.ok.injEq] at h
      subst h
      have ih := simpleCommands_ok a os r2 hr
      have hp : simplePart a o = [((a.programName ++ [32] ++ n).take 511, o.help)] := by
        unfold simplePart
        rw [if_pos hc, nameText_ok hn]; rfl
      rw [hp, ih.1, commandLine_eq, snprintf_take]
      simp
    · rename_i hc
      rw [he'] at hc
      have hp : simplePart a o = [] := if_neg hc
      rw [hp]
      exact simpleCommands_ok a os r h

theorem familyLines_ok (cfg : HelperConfig) (base : Str) : ∀ (os : List Opt) (r : Str),
    familyLines cfg base os = .ok r →
    r = ((os.filter Opt.executable).map
      (fun s => listLine cfg.descriptionColumn ((base ++ [32] ++ s.name.getD []).take 1023, s.help))).flatten
  | [], r, h => by
    simp only [familyLines, Out.ok.injEq] at h
    simp [h]
  | o :: os, r, h => by
    rw [familyLines] at h
    rw [List.filter_cons]
    have hiff : o.executable = true ↔ (o.type = .subcommand ∧ o.action.isSome = true) := by
      unfold Opt.executable
      rw [Bool.and_eq_true, beq_iff_eq]
    split at h
    · rename_i hc
      rw [if_pos (hiff.2 hc)]
      obtain ⟨n, hn, h⟩ := Out.bind_eq_ok h
      obtain ⟨r2, hr, h⟩ := Out.bind_eq_ok h
      simp only [Out.ok.injEq] at h
      have ih := familyLines_ok cfg base os r2 hr
      rw [← h, ih, commandLine_eq, List.map_cons, List.flatten_cons, nameText_ok hn]
      rfl
    · rename_i hc
      rw [if_neg (fun e => hc (hiff.1 e))]
      exact familyLines_ok cfg base os r h

/-- Blocks with an empty line before each, the first one only if `blank`. -/
def afterBlank (blank : Bool) (bs : List (List Str)) : Str :=
  if bs = [] then [] else (if blank then [10] else []) ++ inBlocks bs

theorem inBlocks_cons (b : List Str) (bs : List (List Str)) : inBlocks (b :: bs) = b.flatten ++ afterBlank true bs := by
  unfold afterBlank
  cases bs with
  | nil => simp [inBlocks]
  | cons c cs => simp [inBlocks]

theorem commandFamilies_ok (a : Argus) : ∀ (os : List Opt) (blank : Bool) (r : Str),
    commandFamilies a blank os = .ok r →
    ∃ bs : List (List Str), r = afterBlank blank bs ∧
      bs.flatten = (os.flatMap (familyPart a)).map (listLine a.helper.descriptionColumn)
  | [], blank, r, h => by
    simp only [commandFamilies, Out.ok.injEq] at h
    exact ⟨[], by simp [afterBlank, h], rfl⟩
  | o :: os, blank, r, h => by
    rw [commandFamilies] at h
    obtain ⟨e, he, h⟩ := Out.bind_eq_ok h
    have he' : e = (o.type == .subcommand && (a.entries o.subOptions).any Opt.executable) := by
      unfold isFamily at he
      split at he
      · rename_i hc
        rw [hasExecutable_ok he]; simp [hc]
      · rename_i hc
        simp only [Out.ok.injEq] at he
        rw [← he]; simp [hc]
    rw [List.flatMap_cons]
    split at h
    · rename_i hc
      rw [he'] at hc
      obtain ⟨n, hn, h⟩ := Out.bind_eq_ok h
      obtain ⟨subs, hs, h⟩ := Out.bind_eq_ok h
      obtain ⟨lines, hli, h⟩ := Out.bind_eq_ok h
      obtain ⟨r2, hr, h⟩ := Out.bind_eq_ok h
      simp only [Out.ok.injEq] at h
      obtain ⟨bs, hb1, hb2⟩ := commandFamilies_ok a os true r2 hr
      have hp : familyPart a o = (if o.action.isSome then [((a.programName ++ [32] ++ n).take 511, o.help)] else []) ++
          (subs.filter Opt.executable).map (fun s =>
            (((a.programName ++ [32] ++ n).take 511 ++ [32] ++ s.name.getD []).take 1023, s.help)) := by
        unfold familyPart
        rw [if_pos hc, nameText_ok hn, table_entries hs]; rfl
      have hbase' : snprintf 512 (a.programName ++ c!" " ++ n) = (a.programName ++ [32] ++ n).take 511 := rfl
      rw [hbase'] at hli h
      have hfl := familyLines_ok _ _ _ _ hli
      refine ⟨((familyPart a o).map (listLine a.helper.descriptionColumn)) :: bs, ?_, ?_⟩
      · rw [← h, hb1, hfl, commandLine_eq, hp]
        unfold afterBlank
        rw [if_neg (by simp : ¬ _ :: bs = []), inBlocks_cons]
        cases o.action.isSome <;> simp [afterBlank, Function.comp_def]
      · rw [List.flatten_cons, hb2, List.map_append]
    · rename_i hc
      rw [he'] at hc
      have hp : familyPart a o = [] := if_neg hc
      rw [hp]
      exact commandFamilies_ok a os blank r h

theorem flatMap_append_perm' {α β : Type} (f g : α → List β) : ∀ l : List α,
    (l.flatMap (fun x => f x ++ g x)).Perm (l.flatMap f ++ l.flatMap g)
  | [] => .refl _
  | x :: l => by
    simp only [List.flatMap_cons]
    have ih := flatMap_append_perm' f g l
    have h1 : (f x ++ g x ++ l.flatMap (fun x => f x ++ g x)).Perm (f x ++ g x ++ (l.flatMap f ++ l.flatMap g)) :=
      ih.append_left _
    refine h1.trans ?_
    rw [List.append_assoc, List.append_assoc]
    refine List.Perm.append_left _ ?_
    rw [← List.append_assoc, ← List.append_assoc]
    exact List.Perm.append_right _ List.perm_append_comm

theorem stackNames_eq (a : Argus) : ∀ (ps : List Ptr) (cs : List (Ptr × Str)), cs.map (·.1) = ps →
    (∀ c ∈ cs, ∃ o, a.getOpt c.1 = .ok o ∧ o.name = some c.2) →
    stackNames a ps = .ok (cs.flatMap (fun c => 32 :: c.2))
  | ps, [], h, _ => by
    simp only [List.map_nil] at h
    subst h; rfl
  | ps, c :: cs, h, hc => by
    simp only [List.map_cons] at h
    subst h
    obtain ⟨o, h1, h2⟩ := hc c (by simp)
    rw [stackNames, h1]
    simp only [Out.ok_bind, h2, nameText]
    rw [stackNames_eq a _ cs rfl (fun x hx => hc x (by simp [hx]))]
    simp

theorem below_none (a : Argus) : ∀ (d : Nat) (path : Str), a.below d path none = []
  | 0, _ => rfl
  | _ + 1, _ => rfl

theorem Text.cat_some {x y : Text} {out : Str} (h : x.cat y = .ok (some out)) :
    ∃ s t, x = .ok (some s) ∧ y = .ok (some t) ∧ out = s ++ t := by
  unfold Text.cat at h
  obtain ⟨b, hb, h⟩ := Out.bind_eq_ok h
  cases b with
  | none => simp at h
  | some s =>
    simp only at h
    obtain ⟨c, hc, h⟩ := Out.bind_eq_ok h
    simp only [Out.ok.injEq, Option.map_eq_some_iff] at h
    obtain ⟨t, rfl, ht⟩ := h
    exact ⟨s, t, hb, hc, ht.symm⟩

theorem take_cut (p q : Str) : ((p.take 511) ++ q).take 511 = (p ++ q).take 511 := by
  rw [List.take_append, List.take_append, List.take_take, Nat.min_self]
  by_cases h : p.length ≤ 511
  · rw [List.take_of_length_le h]
  · rw [show (511 - (p.take 511).length) = 0 by simp; omega, show 511 - p.length = 0 by omega]

/-- Cutting the path above does not show once the paths themselves are cut. -/
theorem below_cut (a : Argus) : ∀ (d : Nat) (p : Str) (k : Option Nat),
    (a.below d (p.take 511) k).map cutPath = (a.below d p k).map cutPath
  | 0, _, _ => rfl
  | d + 1, p, k => by
    rw [Argus.below, Argus.below]
    induction a.entries k with
    | nil => rfl
    | cons o os ih =>
      rw [List.flatMap_cons, List.flatMap_cons, List.map_append, List.map_append, ih]
      congr 1
      split
      · rw [List.map_cons, List.map_cons]
        congr 1
        · simp only [cutPath, List.append_assoc, take_cut]
        · rw [← below_cut a d (p.take 511 ++ [32] ++ o.name.getD []), ← below_cut a d (p ++ [32] ++ o.name.getD []),
            List.append_assoc, List.append_assoc, take_cut]
      · rfl

theorem pathsLoop_ok (a : Argus) (nested : Str → Nat → Text) (base : Str) (f : Str → Option Nat → List (Str × Option Str))
    (hnone : ∀ p, f p none = []) (hcut : ∀ p k, (f (p.take 511) k).map cutPath = (f p k).map cutPath)
    (hf : ∀ p k out, nested p k = .ok (some out) →
      out = (((f p (some k)).map cutPath).map (listLine a.helper.descriptionColumn)).flatten) :
    ∀ (os : List Opt) (out : Str),
      pathsLoop a nested base false os = .ok (some out) →
      out = (((os.flatMap (fun o => if o.type == .subcommand then
        (base ++ [32] ++ o.name.getD [], o.help) :: f (base ++ [32] ++ o.name.getD []) o.subOptions else [])).map cutPath).map
        (listLine a.helper.descriptionColumn)).flatten
  | [], out, h => by
    simp only [pathsLoop, Text.lit, Out.ok.injEq, Option.some.injEq] at h
    simp [← h]
  | o :: os, out, h => by
    have ih := pathsLoop_ok a nested base f hnone hcut hf os
    rw [List.flatMap_cons]
    rw [pathsLoop] at h
    split at h
    · rename_i ht
      have ht' : (o.type == OptType.subcommand) = true := beq_iff_eq.2 ht
      simp only [ht', if_true]
      obtain ⟨n, hn, h⟩ := Out.bind_eq_ok h
      rw [nameText_ok hn]
      simp only [Option.getD_some]
      obtain ⟨s1, t1, e1, h1, rfl⟩ := Text.cat_some h
      obtain ⟨s2, t2, e2, h2, rfl⟩ := Text.cat_some h1
      have hfit : snprintf 512 (base ++ c!" " ++ n) = (base ++ [32] ++ n).take 511 := rfl
      rw [hfit] at e1 e2
      simp only [Text.lit, Bool.false_eq_true, if_false, List.nil_append, Out.ok.injEq, Option.some.injEq] at e1
      have e2' : s2 = (((f (base ++ [32] ++ n) o.subOptions).map cutPath).map (listLine a.helper.descriptionColumn)).flatten := by
        cases hk : o.subOptions with
        | none =>
          rw [hk] at e2
          simp only [Text.lit, Out.ok.injEq, Option.some.injEq] at e2
          rw [hnone, ← e2]; rfl
        | some k =>
          rw [hk] at e2
          rw [hf _ _ _ e2, hcut]
      rw [← e1, commandLine_eq, e2', ih t2 h2]
      simp [cutPath]
    · rename_i ht
      have ht' : (o.type == OptType.subcommand) = false := beq_eq_false_iff_ne.2 ht
      simp only [ht', Bool.false_eq_true, if_false, List.nil_append]
      exact ih out h

theorem subcommandPaths_ok (a : Argus) : ∀ (fuel d : Nat) (base : Str) (k : Nat) (out : Str), fuel ≤ d →
    subcommandPaths a fuel base k = .ok (some out) →
    out = (((a.below d base (some k)).map cutPath).map (listLine a.helper.descriptionColumn)).flatten
  | 0, d, base, k, out, _, h => by simp [subcommandPaths] at h
  | fuel + 1, 0, base, k, out, hd, h => by omega
  | fuel + 1, d + 1, base, k, out, hd, h => by
    rw [subcommandPaths] at h
    obtain ⟨os, hos, h⟩ := Out.bind_eq_ok h
    rw [Argus.below, table_entries hos]
    exact pathsLoop_ok a (subcommandPaths a fuel) base (a.below d) (below_none a d) (below_cut a d)
      (fun p k out h => subcommandPaths_ok a fuel d p k out (by omega) h) os out h

theorem usagePositionals_eq : ∀ os : List Opt, (∀ o ∈ os, o.type = .positional → o.name ≠ none) →
    usagePositionals os = .ok ((os.filter (fun o => o.type == .positional)).flatMap (fun o => 32 :: bracketed o))
  | [], _ => rfl
  | o :: os, h => by
    have ih := usagePositionals_eq os (fun x hx => h x (by simp [hx]))
    rw [usagePositionals, List.filter_cons]
    by_cases ht : o.type = .positional
    · rw [if_pos ht, if_pos (beq_iff_eq.2 ht), ih]
      cases hn : o.name with
      | none => exact absurd hn (h o (by simp) ht)
      | some n =>
        simp only [nameText, Out.ok_bind, List.flatMap_cons]
        congr 1
        unfold bracketed positionalName
        rw [hn]
        cases o.flags.has .required <;> cases o.valueType.isVariadic <;> simp
    · rw [if_neg ht, if_neg (by simpa using ht), ih]

/-! ### The end of the listing -/

theorem pathsLoop_visits (a : Argus) (nested : Str → Nat → Text) (base : Str) : ∀ (os : List Opt) (blank : Bool) (out : Str),
    pathsLoop a nested base blank os = .ok (some out) → ∀ o ∈ os, o.type = .subcommand → ∀ k, o.subOptions = some k →
    ∃ p s, nested p k = .ok (some s)
  | [], _, _, _, o, ho, _, _, _ => by simp at ho
  | x :: os, blank, out, h, o, ho, ht, k, hk => by
    rw [pathsLoop] at h
    split at h
    · obtain ⟨n, hn, h⟩ := Out.bind_eq_ok h
      obtain ⟨s1, t1, e1, h1, rfl⟩ := Text.cat_some h
      obtain ⟨s2, t2, e2, h2, rfl⟩ := Text.cat_some h1
      rcases List.mem_cons.1 ho with rfl | ho
      · rw [hk] at e2
        exact ⟨_, _, e2⟩
      · exact pathsLoop_visits a nested base os _ _ h2 o ho ht k hk
    · rename_i hx
      rcases List.mem_cons.1 ho with rfl | ho
      · exact absurd ht hx
      · exact pathsLoop_visits a nested base os _ _ h o ho ht k hk

theorem paths_depth (a : Argus) : ∀ (fuel : Nat) (base : Str) (k : Nat) (out : Str),
    subcommandPaths a fuel base k = .ok (some out) → DepthAtMost a.tables (some k) fuel
  | 0, _, _, _, h => by simp [subcommandPaths] at h
  | fuel + 1, base, k, out, h => by
    rw [subcommandPaths] at h
    obtain ⟨os, hos, h⟩ := Out.bind_eq_ok h
    intro ps hps
    cases ps with
    | nil => simp
    | cons p ps =>
      obtain ⟨h1, os', o, h2, h3, h4, h5⟩ := hps
      simp only [Option.some.injEq] at h1
      rw [List.length_cons]
      have hos' : os = os' := by
        unfold Argus.table at hos
        rw [h1] at hos
        simp only [h2, Out.ok.injEq] at hos
        exact hos.symm
      subst hos'
      cases hk : o.subOptions with
      | none =>
        rw [hk] at h5
        cases ps with
        | nil => simp
        | cons q qs => exact absurd h5.1 (by simp)
      | some j =>
        rw [hk] at h5
        obtain ⟨q, s, h6⟩ := pathsLoop_visits a _ base os _ out h o (List.mem_of_getElem? h3) h4 j hk
        have := paths_depth a fuel q j s h6 ps h5
        omega

theorem pathsLoop_end (a : Argus) (nested : Str → Nat → Text) (base : Str) : ∀ (os : List Opt) (blank : Bool),
    (∀ o ∈ os, o.type = .subcommand → o.name ≠ none ∧ ∀ k, o.subOptions = some k → ∀ p, ∃ s, nested p k = .ok (some s)) →
    ∃ out, pathsLoop a nested base blank os = .ok (some out)
  | [], _, _ => ⟨_, rfl⟩
  | o :: os, blank, h => by
    rw [pathsLoop]
    split
    · rename_i ht
      obtain ⟨hn, hk⟩ := h o (by simp) ht
      obtain ⟨s, hs⟩ := pathsLoop_end a nested base os false (fun x hx => h x (by simp [hx]))
      cases hm : o.name with
      | none => exact absurd hm hn
      | some n =>
        simp only [nameText, Out.ok_bind]
        cases hj : o.subOptions with
        | none => simp only [hs]; exact ⟨_, rfl⟩
        | some k =>
          obtain ⟨s2, h2⟩ := hk k hj (snprintf 512 (base ++ c!" " ++ n))
          simp only [hs, h2]
          exact ⟨_, rfl⟩
    · exact pathsLoop_end a nested base os blank (fun x hx => h x (by simp [hx]))

theorem paths_end (a : Argus) (hw : ∀ os ∈ a.tables, ∀ o ∈ os, o.type = .subcommand →
      o.name ≠ none ∧ ∀ j, o.subOptions = some j → j < a.tables.length) :
    ∀ (d : Nat) (base : Str) (k : Nat), k < a.tables.length → DepthAtMost a.tables (some k) d →
    ∃ out, subcommandPaths a (d + 1) base k = .ok (some out)
  | d, base, k, hk, h => by
    have htab : a.tables[k]? = some a.tables[k] := List.getElem?_eq_getElem hk
    rw [subcommandPaths]
    have : a.table (some k) = .ok a.tables[k] := by
      unfold Argus.table
      simp only [htab]
    rw [this, Out.ok_bind]
    refine pathsLoop_end a _ base _ false (fun o ho ht => ?_)
    obtain ⟨h1, h2⟩ := hw _ (List.getElem_mem hk) o ho ht
    refine ⟨h1, fun j hj p => ?_⟩
    obtain ⟨i, hi, he⟩ := List.getElem_of_mem ho
    have hlong : ∀ ps, SubChain a.tables o.subOptions ps → ps.length + 1 ≤ d := fun ps hps =>
      h (⟨k, i⟩ :: ps) ⟨rfl, _, o, htab, by rw [List.getElem?_eq_getElem hi, he], ht, hps⟩
    cases d with
    | zero => exact absurd (hlong [] (by simp [SubChain])) (by simp)
    | succ d =>
      exact paths_end a hw d p j (h2 j hj) (fun ps hps => by
        have := hlong ps (by rw [hj]; exact hps)
        omega)
termination_by d => d

end Argus
