import Verif.Model.Access

/-! Reading and writing options in the context. -/

set_option autoImplicit false

namespace Argus

theorem Out.bind_eq_ok {α β : Type} {x : Out α} {f : α → Out β} {b : β}
    (h : (x >>= f) = .ok b) : ∃ a, x = .ok a ∧ f a = .ok b := by
  cases x with
  | ok a => exact ⟨a, rfl, h⟩
  | ub u => simp at h

@[simp] theorem Out.ok_ne_ub {α : Type} (a : α) (u : Ub) : (Out.ok a = .ub u) = False := by simp

theorem getOpt_eq_ok {a : Argus} {p : Ptr} {o : Opt} :
    a.getOpt p = .ok o ↔ ∃ os, a.tables[p.tbl]? = some os ∧ os[p.idx]? = some o := by
  unfold Argus.getOpt
  constructor
  · intro h
    split at h
    · rename_i os h1
      split at h
      · rename_i o' h2
        simp only [Out.ok.injEq] at h
        exact ⟨os, h1, h ▸ h2⟩
      · simp at h
    · simp at h
  · rintro ⟨os, h1, h2⟩
    simp [h1, h2]

theorem table_eq_ok {a : Argus} {t : Option Nat} {os : List Opt} :
    a.table t = .ok os ↔ ∃ k, t = some k ∧ a.tables[k]? = some os := by
  unfold Argus.table
  constructor
  · intro h
    split at h
    · simp at h
    · rename_i k
      split at h
      · rename_i os' h1
        simp only [Out.ok.injEq] at h
        exact ⟨k, rfl, h ▸ h1⟩
      · simp at h
  · rintro ⟨k, rfl, h⟩
    simp [h]

theorem getOpt_setOpt_self {a : Argus} {p : Ptr} {o o' : Opt} (h : a.getOpt p = .ok o) :
    (a.setOpt p o').getOpt p = .ok o' := by
  obtain ⟨os, h1, h2⟩ := getOpt_eq_ok.1 h
  refine getOpt_eq_ok.2 ⟨os.set p.idx o', ?_, ?_⟩
  · simp [Argus.setOpt, List.getElem?_modify, h1]
  · have := (List.getElem?_eq_some_iff.1 h2).1
    simp [this]

theorem getOpt_setOpt_ne {a : Argus} {p q : Ptr} {o' : Opt} (h : q ≠ p) :
    (a.setOpt p o').getOpt q = a.getOpt q := by
  unfold Argus.getOpt Argus.setOpt
  simp only [List.getElem?_modify]
  by_cases ht : p.tbl = q.tbl
  · have hi : p.idx ≠ q.idx := by
      intro e; apply h; cases p; cases q; simp_all
    cases h1 : a.tables[q.tbl]? with
    | none => simp
    | some os => simp [ht, List.getElem?_set_ne hi]
  · simp only [ht, if_false]
    cases h1 : a.tables[q.tbl]? with
    | none => simp
    | some os => simp

@[simp] theorem emit_tables (a : Argus) (e : Event) : (a.emit e).tables = a.tables := rfl
@[simp] theorem emit_stack (a : Argus) (e : Event) : (a.emit e).stack = a.stack := rfl
@[simp] theorem emit_root (a : Argus) (e : Event) : (a.emit e).root = a.root := rfl
@[simp] theorem emit_envPrefix (a : Argus) (e : Event) : (a.emit e).envPrefix = a.envPrefix := rfl
@[simp] theorem report_tables (a : Argus) (c : Int) : (a.report c).tables = a.tables := rfl
@[simp] theorem report_stack (a : Argus) (c : Int) : (a.report c).stack = a.stack := rfl
@[simp] theorem report_root (a : Argus) (c : Int) : (a.report c).root = a.root := rfl
@[simp] theorem report_envPrefix (a : Argus) (c : Int) :
    (a.report c).envPrefix = a.envPrefix := rfl

theorem emits_eq (a : Argus) (es : List Event) : ∃ c, a.emits es =
    { a with errorCode := c, out := a.out ++ es } := by
  induction es generalizing a with
  | nil => exact ⟨a.errorCode, by simp [Argus.emits]⟩
  | cons e es ih =>
    obtain ⟨c, hc⟩ := ih (a.emit e)
    refine ⟨c, ?_⟩
    have : a.emits (e :: es) = (a.emit e).emits es := rfl
    rw [this, hc]
    simp [Argus.emit]

@[simp] theorem emits_nil (a : Argus) : a.emits [] = a := rfl

@[simp] theorem emits_tables (a : Argus) (es : List Event) : (a.emits es).tables = a.tables := by
  obtain ⟨c, h⟩ := emits_eq a es; rw [h]
@[simp] theorem emits_stack (a : Argus) (es : List Event) : (a.emits es).stack = a.stack := by
  obtain ⟨c, h⟩ := emits_eq a es; rw [h]
@[simp] theorem emits_root (a : Argus) (es : List Event) : (a.emits es).root = a.root := by
  obtain ⟨c, h⟩ := emits_eq a es; rw [h]
@[simp] theorem emits_envPrefix (a : Argus) (es : List Event) :
    (a.emits es).envPrefix = a.envPrefix := by
  obtain ⟨c, h⟩ := emits_eq a es; rw [h]
@[simp] theorem emits_out (a : Argus) (es : List Event) : (a.emits es).out = a.out ++ es := by
  obtain ⟨c, h⟩ := emits_eq a es; rw [h]

theorem getOpt_congr {a b : Argus} (h : a.tables = b.tables) (p : Ptr) :
    a.getOpt p = b.getOpt p := by
  unfold Argus.getOpt; rw [h]

theorem table_congr {a b : Argus} (h : a.tables = b.tables) (t : Option Nat) :
    a.table t = b.table t := by
  unfold Argus.table; rw [h]

@[simp] theorem getOpt_emits (a : Argus) (es : List Event) (p : Ptr) :
    (a.emits es).getOpt p = a.getOpt p := getOpt_congr (emits_tables a es) p
@[simp] theorem table_emits (a : Argus) (es : List Event) (t : Option Nat) :
    (a.emits es).table t = a.table t := table_congr (emits_tables a es) t
@[simp] theorem getOpt_report (a : Argus) (c : Int) (p : Ptr) :
    (a.report c).getOpt p = a.getOpt p := rfl
@[simp] theorem table_report (a : Argus) (c : Int) (t : Option Nat) :
    (a.report c).table t = a.table t := rfl

@[simp] theorem setOpt_stack (a : Argus) (p : Ptr) (o : Opt) : (a.setOpt p o).stack = a.stack := rfl
@[simp] theorem setOpt_root (a : Argus) (p : Ptr) (o : Opt) : (a.setOpt p o).root = a.root := rfl
@[simp] theorem setOpt_envPrefix (a : Argus) (p : Ptr) (o : Opt) :
    (a.setOpt p o).envPrefix = a.envPrefix := rfl

theorem setOpt_tables (a : Argus) (p : Ptr) (o : Opt) :
    (a.setOpt p o).tables = a.tables.modify p.tbl (fun os => os.set p.idx o) := rfl

/-! ### Metadata -/

/-- An option without what parsing may change. -/
def Opt.meta (o : Opt) : Opt :=
  { o with value := .null, isAllocated := false, valueCount := 0, valueCapacity := 0, isSet := false }

/-- The metadata of all options. -/
def Argus.shape (a : Argus) : List (List Opt) := a.tables.map (·.map Opt.meta)

theorem shape_congr {a b : Argus} (h : a.tables = b.tables) : a.shape = b.shape := by
  unfold Argus.shape; rw [h]

@[simp] theorem shape_emits (a : Argus) (es : List Event) : (a.emits es).shape = a.shape :=
  shape_congr (emits_tables a es)
@[simp] theorem shape_report (a : Argus) (c : Int) : (a.report c).shape = a.shape := rfl
@[simp] theorem shape_emit (a : Argus) (e : Event) : (a.emit e).shape = a.shape := rfl

theorem shape_setOpt {a : Argus} {p : Ptr} {o o' : Opt} (h : a.getOpt p = .ok o)
    (hm : o'.meta = o.meta) : (a.setOpt p o').shape = a.shape := by
  obtain ⟨os, h1, h2⟩ := getOpt_eq_ok.1 h
  unfold Argus.shape Argus.setOpt
  apply List.ext_getElem?
  intro i
  simp only [List.getElem?_map, List.getElem?_modify]
  by_cases hi : p.tbl = i
  · subst hi
    simp only [h1, if_true, Option.map_eq_map, Option.map_some, Option.some.injEq]
    apply List.ext_getElem?
    intro j
    simp only [List.getElem?_map, List.getElem?_set]
    by_cases hj : p.idx = j
    · subst hj
      have h3 := List.getElem?_eq_some_iff.1 h2
      rw [if_pos rfl, if_pos h3.1, h2]
      simp [hm]
    · simp [hj]
  · simp [hi]

/-- Equal metadata: equal option tables up to values. -/
theorem shape_table {a b : Argus} (h : b.shape = a.shape) {t : Option Nat} {os : List Opt}
    (ht : a.table t = .ok os) :
    ∃ os', b.table t = .ok os' ∧ os'.map Opt.meta = os.map Opt.meta := by
  obtain ⟨k, rfl, hk⟩ := table_eq_ok.1 ht
  have : (b.shape)[k]? = some (os.map Opt.meta) := by
    rw [h]; simp [Argus.shape, hk]
  simp only [Argus.shape, List.getElem?_map, Option.map_eq_some_iff] at this
  obtain ⟨os', h1, h2⟩ := this
  exact ⟨os', table_eq_ok.2 ⟨k, rfl, h1⟩, h2⟩

theorem shape_getOpt {a b : Argus} (h : b.shape = a.shape) {p : Ptr} {o : Opt}
    (ho : a.getOpt p = .ok o) : ∃ o', b.getOpt p = .ok o' ∧ o'.meta = o.meta := by
  obtain ⟨os, h1, h2⟩ := getOpt_eq_ok.1 ho
  obtain ⟨os', h3, h4⟩ := shape_table h (table_eq_ok.2 ⟨p.tbl, rfl, h1⟩)
  obtain ⟨k, hk, h5⟩ := table_eq_ok.1 h3
  simp only [Option.some.injEq] at hk
  subst hk
  have h6 : (os'.map Opt.meta)[p.idx]? = some o.meta := by rw [h4]; simp [h2]
  simp only [List.getElem?_map, Option.map_eq_some_iff] at h6
  obtain ⟨o', h7, h8⟩ := h6
  exact ⟨o', getOpt_eq_ok.2 ⟨os', h5, h7⟩, h8⟩

end Argus
