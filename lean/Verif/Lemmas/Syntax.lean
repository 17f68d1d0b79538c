import Verif.Lemmas.Prefix

/-! One round of the parser for each spelling of an argument. -/

set_option autoImplicit false

namespace Argus

theorem startsWith_dd_long (r : Str) : startsWith [45, 45] (45 :: 45 :: r) = some r :=
  startsWith_append [45, 45] r

theorem startsWith_d (r : Str) : startsWith [45] (45 :: r) = some r := startsWith_append [45] r

theorem startsWith_dd_none {c : Byte} (h : c ≠ 45) (r : Str) :
    startsWith [45, 45] (45 :: c :: r) = none := by
  rw [startsWith_eq_none_iff]
  rintro ⟨x, hx⟩
  simp only [List.cons_append, List.nil_append, List.cons.injEq, true_and] at hx
  exact h hx.1.symm

theorem startsWith_dd_dash : startsWith [45, 45] [45] = none := by decide

theorem longParts_cut {name value : Str} (h1 : (61 : Byte) ∉ name) :
    longParts (name ++ 61 :: value) = (name.take 63, some value) := by
  unfold longParts
  rw [(strchrSplit_some_iff 61 _ name value).2 ⟨rfl, h1⟩]

theorem longParts_cut_none {name : Str} (h1 : (61 : Byte) ∉ name) :
    longParts name = (name.take 63, none) := by
  unfold longParts
  rw [(strchrSplit_none_iff 61 name).2 h1]

theorem longParts_eq {name value : Str} (h1 : (61 : Byte) ∉ name) (h2 : name.length ≤ 63) :
    longParts (name ++ 61 :: value) = (name, some value) := by
  rw [longParts_cut h1, List.take_of_length_le h2]

theorem longParts_none {name : Str} (h1 : (61 : Byte) ∉ name) (h2 : name.length ≤ 63) :
    longParts name = (name, none) := by
  rw [longParts_cut_none h1, List.take_of_length_le h2]

theorem parseStep_long {W : World} {t : Option Nat} {a : Argus} {pos : Nat} {arg : Str}
    (h : arg ≠ []) (rest : List Str) : parseStep W t a pos false (45 :: 45 :: arg) rest =
      (do let r ← handleLong W a t arg rest
          .ok (r.step pos)) := by
  unfold parseStep
  have : (45 :: 45 :: arg : Str) ≠ [45, 45] := by simpa using h
  rw [if_neg this, startsWith_dd_long]; rfl

theorem parseStep_short {W : World} {t : Option Nat} {a : Argus} {pos : Nat} {c : Byte} {cs : Str}
    {os : List Opt} (ht : a.table t = .ok os) (hc : c ≠ 45)
    (hneg : (looksNumeric (c :: cs) && (slotOf (positionals os) pos).any (fun o => o.valueType.isNumeric))
      = false) (rest : List Str) : parseStep W t a pos false (45 :: c :: cs) rest =
      (do let r ← handleShort W t rest a (c :: cs)
          .ok (r.step pos)) := by
  unfold parseStep
  have : (45 :: c :: cs : Str) ≠ [45, 45] := by
    intro h; simp only [List.cons.injEq, true_and] at h; exact hc h.1
  rw [if_neg this, startsWith_dd_none hc, startsWith_d]
  simp only [Bool.false_eq_true, if_false, isNegNumber_eq ht, hneg, Out.ok_bind]

theorem parseStep_ub {W : World} {t : Option Nat} {a : Argus} {pos : Nat} {c : Byte} {cs : Str}
    {u : Ub} (ht : a.table t = .ub u) (hc : c ≠ 45) (rest : List Str) :
    parseStep W t a pos false (45 :: c :: cs) rest = .ub u := by
  unfold parseStep
  have : (45 :: c :: cs : Str) ≠ [45, 45] := by
    intro h; simp only [List.cons.injEq, true_and] at h; exact hc h.1
  rw [if_neg this, startsWith_dd_none hc, startsWith_d]
  simp only [Bool.false_eq_true, if_false]
  unfold isNegNumber
  split
  · rw [ht]; rfl
  · simp only [Out.ok_bind, Bool.false_eq_true, if_false]
    unfold handleShort
    rw [ht]; rfl

theorem parseLoop_skip (W : World) (t : Option Nat) (a : Argus) (pos : Nat) (only : Bool) (v : Str)
    (rest : List Str) :
    parseLoop W t a pos only true (v :: rest) = parseLoop W t a pos only false rest := by
  simp only [parseLoop]

/-- Metadata decides lookups. -/
theorem byLong_meta {os os' : List Opt} (h : os'.map Opt.meta = os.map Opt.meta) (n : Str) :
    (byLong os' n).map Opt.meta = (byLong os n).map Opt.meta := by
  have key : ∀ l : List Opt, (byLong l n).map Opt.meta = byLong (l.map Opt.meta) n := by
    intro l; unfold byLong
    rw [List.find?_map]; rfl
  rw [key, key, h]

theorem byShort_meta {os os' : List Opt} (h : os'.map Opt.meta = os.map Opt.meta) (c : Byte) :
    (byShort os' c).map Opt.meta = (byShort os c).map Opt.meta := by
  have key : ∀ l : List Opt, (byShort l c).map Opt.meta = byShort (l.map Opt.meta) c := by
    intro l; unfold byShort
    rw [List.find?_map]; rfl
  rw [key, key, h]

theorem slot_meta {os os' : List Opt} (h : os'.map Opt.meta = os.map Opt.meta) (k : Nat) :
    (slotOf (positionals os') k).map Opt.meta = (slotOf (positionals os) k).map Opt.meta := by
  have key : ∀ l : List Opt, (slotOf (positionals l) k).map Opt.meta =
      slotOf (positionals (l.map Opt.meta)) k := by
    intro l
    unfold slotOf positionals
    rw [List.filter_map, slotBy_map]; rfl
  rw [key, key, h]

theorem slot_numeric_meta {os os' : List Opt} (h : os'.map Opt.meta = os.map Opt.meta) (k : Nat) :
    (slotOf (positionals os') k).any (fun o => o.valueType.isNumeric) =
      (slotOf (positionals os) k).any (fun o => o.valueType.isNumeric) := by
  have := slot_meta h k
  cases h1 : slotOf (positionals os') k with
  | none =>
    rw [h1] at this
    cases h2 : slotOf (positionals os) k with
    | none => rfl
    | some o => rw [h2] at this; simp at this
  | some o' =>
    rw [h1] at this
    cases h2 : slotOf (positionals os) k with
    | none => rw [h2] at this; simp at this
    | some o =>
      rw [h2] at this
      simp only [Option.map_some, Option.some.injEq] at this
      have hv := congrArg Opt.valueType this
      change o'.valueType = o.valueType at hv
      simp [hv]

end Argus
