import Verif.Spec.Reorder
import Verif.Lemmas.Relax

/-!
# Lemmas on the order of declarations
-/

set_option autoImplicit false

namespace Argus

theorem MayExchange.symm {x y : Opt} (h : MayExchange x y) : MayExchange y x :=
  ⟨⟨h.noGroup.2, h.noGroup.1⟩, fun ⟨a, b⟩ => h.positionals ⟨b, a⟩, fun ⟨a, b⟩ => h.subcommands ⟨b, a⟩,
    fun n a b => h.name n b a, fun a b n c d => h.long b a n d c, fun a b c => by rw [c]; exact h.short b a c.symm⟩

theorem MayExchange.of_meta {x y x' y' : Opt} (h : MayExchange x y) (hx : x'.meta = x.meta) (hy : y'.meta = y.meta) :
    MayExchange x' y' := by
  cases x; cases y; cases x'; cases y'
  simp only [Opt.meta, Opt.mk.injEq] at hx hy
  obtain ⟨h1, h2, h3, h4, h5, h6⟩ := h
  constructor <;> simp_all

/-- Where the entry with index `j` is after the exchange of the neighbours `i` and `i + 1`. -/
def exch (i j : Nat) : Nat := if j = i then i + 1 else if j = i + 1 then i else j

theorem exch_exch (i j : Nat) : exch i (exch i j) = j := by unfold exch; split <;> split <;> (try split) <;> omega

/-- The same for places of array `k`. -/
def Ptr.exch (k i : Nat) (p : Ptr) : Ptr := if p.tbl = k then ⟨k, Argus.exch i p.idx⟩ else p

theorem Ptr.exch_tbl (k i : Nat) (p : Ptr) : (p.exch k i).tbl = p.tbl := by
  unfold Ptr.exch; split
  · rename_i h; exact h.symm
  · rfl

theorem Ptr.exch_exch (k i : Nat) (p : Ptr) : (p.exch k i).exch k i = p := by
  unfold Ptr.exch
  by_cases h : p.tbl = k
  · subst h; simp [Argus.exch_exch]
  · simp [h]

theorem Ptr.exch_inj {k i : Nat} {p q : Ptr} (h : p.exch k i = q.exch k i) : p = q := by
  have := congrArg (Ptr.exch k i) h
  rwa [Ptr.exch_exch, Ptr.exch_exch] at this

/-- `os'` is `os` with the entries `i` and `i + 1` exchanged, whose order has no meaning. -/
def RowExch (i : Nat) (os os' : List Opt) : Prop :=
  ∃ pre x y post, pre.length = i ∧ os = pre ++ x :: y :: post ∧ os' = pre ++ y :: x :: post ∧ MayExchange x y

theorem RowExch.symm {i : Nat} {os os' : List Opt} (h : RowExch i os os') : RowExch i os' os := by
  obtain ⟨pre, x, y, post, h1, h2, h3, h4⟩ := h
  exact ⟨pre, y, x, post, h1, h3, h2, h4.symm⟩

theorem RowExch.length {i : Nat} {os os' : List Opt} (h : RowExch i os os') : os'.length = os.length := by
  obtain ⟨pre, x, y, post, -, rfl, rfl, -⟩ := h
  simp

theorem RowExch.mem {i : Nat} {os os' : List Opt} (h : RowExch i os os') (o : Opt) : o ∈ os' ↔ o ∈ os := by
  obtain ⟨pre, x, y, post, -, rfl, rfl, -⟩ := h
  simp only [List.mem_append, List.mem_cons]
  constructor <;> (rintro (h | h | h | h) <;> simp [h])

theorem RowExch.get {i : Nat} {os os' : List Opt} (h : RowExch i os os') (j : Nat) : os'[exch i j]? = os[j]? := by
  obtain ⟨pre, x, y, post, rfl, rfl, rfl, -⟩ := h
  unfold exch
  split
  · rename_i e; subst e; simp
  split
  · rename_i e; subst e; simp
  · by_cases hj : j < pre.length
    · rw [List.getElem?_append_left hj, List.getElem?_append_left hj]
    · obtain ⟨m, rfl⟩ : ∃ m, j = pre.length + (m + 2) := ⟨j - pre.length - 2, by omega⟩
      rw [List.getElem?_append_right (by omega), List.getElem?_append_right (by omega)]
      simp

theorem RowExch.findIdx {i : Nat} {os os' : List Opt} (h : RowExch i os os') (q : Opt → Bool)
    (hq : ∀ x y, MayExchange x y → ¬ (q x = true ∧ q y = true)) : os'.findIdx? q = (os.findIdx? q).map (exch i) := by
  obtain ⟨pre, x, y, post, rfl, rfl, rfl, hm⟩ := h
  have := hq x y hm
  rw [List.findIdx?_append, List.findIdx?_append]
  cases hp : pre.findIdx? q with
  | some j =>
    have hj : j < pre.length := (List.findIdx?_eq_some_iff_findIdx_eq.1 hp).1
    simp only [Option.some_or, Option.map_some, Option.some.injEq]
    unfold exch
    rw [if_neg (by omega), if_neg (by omega)]
  | none =>
    simp only [Option.none_or, List.findIdx?_cons]
    cases hx : q x <;> cases hy : q y
    · simp only [if_false, Bool.false_eq_true]
      cases post.findIdx? q with
      | none => rfl
      | some m =>
        simp only [Option.map_some, Option.some.injEq]
        unfold exch
        rw [if_neg (by omega), if_neg (by omega)]
    · simp [exch, Nat.add_comm]
    · simp [exch, Nat.add_comm]
    · exact absurd ⟨hx, hy⟩ this

theorem RowExch.filter {i : Nat} {os os' : List Opt} (h : RowExch i os os') (q : Opt → Bool)
    (hq : ∀ x y, MayExchange x y → ¬ (q x = true ∧ q y = true)) :
    os'.zipIdx.filter (fun e => q e.1) = (os.zipIdx.filter (fun e => q e.1)).map (fun e => (e.1, exch i e.2)) := by
  obtain ⟨pre, x, y, post, rfl, rfl, rfl, hm⟩ := h
  have hxy := hq x y hm
  have h1 : ∀ l : List (Opt × Nat), (∀ e ∈ l, e.2 < pre.length ∨ pre.length + 2 ≤ e.2) →
      (l.filter (fun e => q e.1)).map (fun e => (e.1, exch pre.length e.2)) = l.filter (fun e => q e.1) := by
    intro l hl
    rw [List.map_congr_left (g := id), List.map_id]
    intro e he
    have := hl e (List.mem_filter.1 he).1
    unfold exch
    rw [if_neg (by omega), if_neg (by omega)]; rfl
  have hpre : ∀ e ∈ pre.zipIdx, e.2 < pre.length ∨ pre.length + 2 ≤ e.2 := by
    intro e he
    have := List.mem_zipIdx (x := e.1) (i := e.2) he
    exact .inl (by omega)
  have hpost : ∀ e ∈ post.zipIdx (pre.length + 1 + 1), e.2 < pre.length ∨ pre.length + 2 ≤ e.2 := by
    intro e he
    have := List.mem_zipIdx (x := e.1) (i := e.2) he
    exact .inr (by omega)
  simp only [List.zipIdx_append, List.zipIdx_cons, List.filter_append, List.filter_cons, List.map_append, Nat.zero_add,
    h1 _ hpre]
  congr 1
  cases hx : q x <;> cases hy : q y
  · simp only [if_false, Bool.false_eq_true]; exact (h1 _ hpost).symm
  · simp only [if_false, Bool.false_eq_true, if_true, List.map_cons, h1 _ hpost]
    simp [exch]
  · simp only [if_false, Bool.false_eq_true, if_true, List.map_cons, h1 _ hpost]
    simp [exch]
  · exact absurd ⟨hx, hy⟩ hxy

/-! ### Reading a line -/

/-- What is asked for, after the exchange. -/
def Act.exch (k i : Nat) : Act → Act
  | .give p x => .give (p.exch k i) x
  | .enter p => .enter (p.exch k i)
  | .fail c => .fail c
  | .noTable => .noTable

section

variable {i : Nat} {os os' : List Opt} (h : RowExch i os os')
include h

theorem longIdx_exch (n : Str) : longIdx os' n = (longIdx os n).map (exch i) := by
  refine h.findIdx _ (fun x y hm ⟨h1, h2⟩ => ?_)
  simp only [decide_eq_true_eq] at h1 h2
  exact hm.long h1.1 h2.1 n h1.2 h2.2

theorem shortIdx_exch {c : Byte} (hc : c ≠ 0) : shortIdx os' c = (shortIdx os c).map (exch i) := by
  refine h.findIdx _ (fun x y hm ⟨h1, h2⟩ => ?_)
  simp only [decide_eq_true_eq] at h1 h2
  exact hc (h1.2 ▸ hm.short h1.1 h2.1 (h1.2.trans h2.2.symm))

theorem findName_exch (n : Str) : findName os' n = (findName os n).map (exch i) := by
  refine h.findIdx _ (fun x y hm ⟨h1, h2⟩ => ?_)
  simp only [beq_iff_eq] at h1 h2
  exact hm.name n h1 h2

theorem isFlagAt_exch (j : Nat) : isFlagAt os' (exch i j) = isFlagAt os j := by
  unfold isFlagAt; rw [h.get]

theorem slotAt_exch (k : Nat) : slotAt os' k = (slotAt os k).map (fun e => (e.1, exch i e.2)) := by
  unfold slotAt
  rw [h.filter (fun o => decide (o.type = .positional)) (fun x y hm ⟨h1, h2⟩ => by
    simp only [decide_eq_true_eq] at h1 h2; exact hm.positionals ⟨h1, h2⟩), slotBy_map]
  rfl

theorem subMatches_exch (arg : Str) : subMatches os' arg = (subMatches os arg).map (fun e => (e.1, exch i e.2)) := by
  unfold subMatches
  exact h.filter (fun o => decide (o.type = .subcommand ∧ (o.name.any (fun n => arg.isPrefixOf n)) = true))
    (fun x y hm ⟨h1, h2⟩ => by simp only [decide_eq_true_eq] at h1 h2; exact hm.subcommands ⟨h1.1, h2.1⟩)

theorem subChoice_exch (arg : Str) : subChoice os' arg =
    (subChoice os arg).map (fun e => e.map (fun x => (x.1, exch i x.2))) := by
  unfold subChoice
  rw [subMatches_exch h]
  match subMatches os arg with
  | [] => rfl
  | [x] => rfl
  | x :: y :: l =>
    simp only [List.map_cons]
    by_cases h : x.1.name = some arg
    · simp only [h, if_true]; rfl
    · simp only [h, if_false]; rfl

theorem negNumber_exch (pos : Nat) (cl : Str) : negNumber os' pos cl = negNumber os pos cl := by
  unfold negNumber; rw [slotAt_exch h, Option.any_map]

theorem posActs_exch (k pos : Nat) (arg : Str) :
    posActs k os' pos arg = (posActs k os pos arg).map (Act.exch k i) := by
  unfold posActs
  rw [slotAt_exch h]
  cases slotAt os pos with
  | none => rfl
  | some e => simp [Act.exch, Ptr.exch]

theorem longActs_exch (k : Nat) (name : Str) (v n : Option Str) : longActs k os' name v n =
    ((longActs k os name v n).1.map (Act.exch k i), (longActs k os name v n).2) := by
  unfold longActs
  rw [longIdx_exch h]
  cases longIdx os name with
  | none => rfl
  | some j =>
    simp only [Option.map_some, isFlagAt_exch h]
    split
    · simp [Act.exch, Ptr.exch]
    · cases v <;> cases n <;> simp [Act.exch, Ptr.exch]

theorem shortActs_exch (k : Nat) (n : Option Str) : ∀ cs : Str, (0 : Byte) ∉ cs → shortActs k os' n cs =
    ((shortActs k os n cs).1.map (Act.exch k i), (shortActs k os n cs).2)
  | [], _ => rfl
  | c :: cs, hc => by
    have h0 : c ≠ 0 := fun e => hc (by simp [e])
    have ih := shortActs_exch k n cs (fun e => hc (by simp [e]))
    unfold shortActs
    rw [shortIdx_exch h h0]
    cases shortIdx os c with
    | none => rfl
    | some j =>
      simp only [Option.map_some, isFlagAt_exch h, ih]
      split
      · simp [Act.exch, Ptr.exch]
      · cases cs <;> cases n <;> simp [Act.exch, Ptr.exch]

end

theorem exch_other {k i j : Nat} (h : j ≠ k) (l : List Act) (hl : ∀ x ∈ l, ∀ p, (x = .enter p ∨ ∃ t, x = .give p t) →
    p.tbl = j) : l.map (Act.exch k i) = l := by
  rw [List.map_congr_left (g := id), List.map_id]
  intro x hx
  cases x with
  | give p t =>
    have := hl _ hx p (.inr ⟨t, rfl⟩)
    simp [Act.exch, Ptr.exch, this, h]
  | enter p =>
    have := hl _ hx p (.inl rfl)
    simp [Act.exch, Ptr.exch, this, h]
  | fail c => rfl
  | noTable => rfl

theorem posActs_tbl (k : Nat) (os : List Opt) (pos : Nat) (arg : Str) : ∀ x ∈ posActs k os pos arg, ∀ p,
    (x = .enter p ∨ ∃ t, x = .give p t) → p.tbl = k := by
  unfold posActs
  intro x hx p hp
  cases hs : slotAt os pos <;> rw [hs] at hx <;> simp only [List.mem_singleton] at hx <;> subst hx <;>
    rcases hp with hp | ⟨t, hp⟩ <;> cases hp
  rfl

theorem longActs_tbl (k : Nat) (os : List Opt) (name : Str) (v n : Option Str) : ∀ x ∈ (longActs k os name v n).1, ∀ p,
    (x = .enter p ∨ ∃ t, x = .give p t) → p.tbl = k := by
  unfold longActs
  intro x hx p hp
  split at hx
  · simp only [List.mem_singleton] at hx; subst hx
    rcases hp with hp | ⟨t, hp⟩ <;> cases hp
  · split at hx
    · simp only [List.mem_singleton] at hx; subst hx
      rcases hp with hp | ⟨t, hp⟩ <;> cases hp
      rfl
    · split at hx <;> simp only [List.mem_singleton] at hx <;> subst hx <;> rcases hp with hp | ⟨t, hp⟩ <;> cases hp <;> rfl

theorem shortActs_tbl (k : Nat) (os : List Opt) (n : Option Str) : ∀ (cs : Str), ∀ x ∈ (shortActs k os n cs).1, ∀ p,
    (x = .enter p ∨ ∃ t, x = .give p t) → p.tbl = k
  | [], x, hx, _, _ => by simp [shortActs] at hx
  | c :: cs, x, hx, p, hp => by
    unfold shortActs at hx
    split at hx
    · simp only [List.mem_singleton] at hx; subst hx
      rcases hp with hp | ⟨t, hp⟩ <;> cases hp
    · split at hx
      · simp only [List.mem_cons] at hx
        rcases hx with rfl | hx
        · rcases hp with hp | ⟨t, hp⟩ <;> cases hp
          rfl
        · exact shortActs_tbl k os n cs x hx p hp
      · split at hx <;> simp only [List.mem_singleton] at hx <;> subst hx <;> rcases hp with hp | ⟨t, hp⟩ <;> cases hp <;> rfl

/-- The tables after the exchange of `i` and `i + 1` in table `k`. -/
def TabExch (k i : Nat) (T T' : List (List Opt)) : Prop :=
  ∃ os os', T[k]? = some os ∧ RowExch i os os' ∧ T' = T.set k os'

namespace TabExch

variable {k i : Nat} {T T' : List (List Opt)}

theorem row_self (h : TabExch k i T T') : ∃ os os', T[k]? = some os ∧ T'[k]? = some os' ∧ RowExch i os os' := by
  obtain ⟨os, os', h1, h2, rfl⟩ := h
  refine ⟨os, os', h1, ?_, h2⟩
  rw [List.getElem?_set, if_pos rfl, if_pos (List.getElem?_eq_some_iff.1 h1).1]

theorem row_other (h : TabExch k i T T') {j : Nat} (hj : j ≠ k) : T'[j]? = T[j]? := by
  obtain ⟨os, os', h1, h2, rfl⟩ := h
  rw [List.getElem?_set, if_neg (fun e => hj e.symm)]

theorem symm (h : TabExch k i T T') : TabExch k i T' T := by
  obtain ⟨os, os', h1, h2, h3⟩ := h.row_self
  refine ⟨os', os, h2, h3.symm, ?_⟩
  apply List.ext_getElem?
  intro j
  by_cases e : j = k
  · subst e
    rw [h1, List.getElem?_set, if_pos rfl, if_pos (List.getElem?_eq_some_iff.1 h2).1]
  · rw [List.getElem?_set, if_neg (fun x => e x.symm), h.row_other e]

theorem place (h : TabExch k i T T') (p : Ptr) : placeAt T' (p.exch k i) = placeAt T p := by
  unfold placeAt
  by_cases e : p.tbl = k
  · obtain ⟨os, os', h1, h2, h3⟩ := h.row_self
    unfold Ptr.exch
    rw [if_pos e]
    simp only [e, h1, h2, Option.bind_some]
    exact h3.get p.idx
  · unfold Ptr.exch
    rw [if_neg e, h.row_other e]

theorem place' (h : TabExch k i T T') (p : Ptr) : placeAt T' p = placeAt T (p.exch k i) := by
  rw [← h.place, Ptr.exch_exch]

theorem sizes (h : TabExch k i T T') : T'.map List.length = T.map List.length := by
  apply List.ext_getElem?
  intro j
  simp only [List.getElem?_map]
  by_cases e : j = k
  · subst e
    obtain ⟨os, os', h1, h2, h3⟩ := h.row_self
    rw [h1, h2, Option.map_some, Option.map_some, h3.length]
  · rw [h.row_other e]

/-- A line is read the same, up to the exchange. -/
theorem meaning (h : TabExch k i T T') : ∀ (args : List Str) (t : Option Nat) (pos : Nat) (only skip : Bool),
    (∀ arg ∈ args, (0 : Byte) ∉ arg) → Argus.meaning T' t pos only skip args =
      (Argus.meaning T t pos only skip args).map (Act.exch k i)
  | [], _, _, _, skip, _ => by cases skip <;> rfl
  | arg :: rest, t, pos, only, true, hn => by
    unfold Argus.meaning; exact meaning h rest t pos only false (fun x hx => hn x (by simp [hx]))
  | arg :: rest, t, pos, only, false, hn => by
    have ih := fun t pos only skip => meaning h rest t pos only skip (fun x hx => hn x (by simp [hx]))
    unfold Argus.meaning
    split
    · exact ih t pos true false
    split
    · exact ih t pos only false
    · cases t with
      | none => rfl
      | some j =>
        simp only [Option.bind_some]
        by_cases e : j = k
        · subst e
          obtain ⟨os, os', h1, h2, h3⟩ := h.row_self
          rw [h1, h2]
          simp only [posActs_exch h3, longActs_exch h3, negNumber_exch h3, subChoice_exch h3, ih]
          split
          · simp
          · split
            · rfl
            · simp
            · rename_i cl hcl
              have h0 : (0 : Byte) ∉ cl := by
                intro hc
                refine hn arg (by simp) ?_
                unfold argKind at hcl
                split at hcl
                · cases hcl
                · split at hcl <;> cases hcl
                · cases hcl; simp [hc]
                · cases hcl
              rw [shortActs_exch h3 _ _ cl h0]
              split <;> simp
            · cases subChoice os arg with
              | none => simp
              | some x =>
                cases x with
                | error c => rfl
                | ok x => simp [Except.map, Act.exch, Ptr.exch]
        · rw [h.row_other e]
          cases T[j]? with
          | none => rfl
          | some os =>
            have f1 := exch_other (i := i) e _ (posActs_tbl j os pos arg)
            have f2 := fun name v n => exch_other (i := i) e _ (longActs_tbl j os name v n)
            have f3 := fun cl n => exch_other (i := i) e _ (shortActs_tbl j os n cl)
            simp only [ih]
            split
            · simp only [List.map_append, f1]
            · split
              · rfl
              · simp only [List.map_append, f2]
              · split
                · simp only [List.map_append, f1]
                · simp only [List.map_append, f3]
              · cases subChoice os arg with
                | none => simp only [List.map_append, f1]
                | some x =>
                  cases x with
                  | error c => rfl
                  | ok x => simp [Act.exch, Ptr.exch, e]

end TabExch

/-! ### What is declared -/

theorem refers_exch {i : Nat} {os os' : List Opt} (h : RowExch i os os') {n : Str} {r : Opt} (hr : Refers os' n r) :
    Refers os n r := by
  obtain ⟨pre, x, y, post, -, rfl, rfl, hm⟩ := h
  obtain ⟨p, q, h1, h2, h3⟩ := hr
  rcases List.append_eq_append_iff.1 h1 with ⟨l, rfl, h4⟩ | ⟨l, rfl, h4⟩
  · -- the exchanged entries come before the place, or contain it
    match l, h4 with
    | [], h4 =>
      simp only [List.nil_append, List.cons.injEq] at h4
      obtain ⟨rfl, rfl⟩ := h4
      refine ⟨pre ++ [x], post, by simp, h2, fun z hz => ?_⟩
      rcases List.mem_append.1 hz with hz | hz
      · exact h3 z (by simp [hz])
      · rw [List.mem_singleton.1 hz]; exact fun e => hm.name n e h2
    | [_], h4 =>
      simp only [List.cons_append, List.nil_append, List.cons.injEq] at h4
      obtain ⟨rfl, rfl, rfl⟩ := h4
      exact ⟨pre, y :: post, rfl, h2, fun z hz => h3 z (by simp [hz])⟩
    | a :: b :: l, h4 =>
      simp only [List.cons_append, List.cons.injEq] at h4
      obtain ⟨rfl, rfl, rfl⟩ := h4
      refine ⟨pre ++ x :: y :: l, q, by simp, h2, fun z hz => h3 z ?_⟩
      simp only [List.mem_append, List.mem_cons] at hz ⊢
      rcases hz with hz | hz | hz | hz <;> simp [hz]
  · cases l with
    | nil =>
      simp only [List.nil_append, List.cons.injEq] at h4
      obtain ⟨rfl, rfl⟩ := h4
      refine ⟨p ++ [x], post, by simp, h2, fun z hz => ?_⟩
      rcases List.mem_append.1 hz with hz | hz
      · exact h3 z hz
      · rw [List.mem_singleton.1 hz]; exact fun e => hm.name n e h2
    | cons a l =>
      simp only [List.cons_append, List.cons.injEq] at h4
      obtain ⟨rfl, rfl⟩ := h4
      exact ⟨p, l ++ x :: y :: post, by simp, h2, h3⟩

theorem groupAt_exch {i : Nat} {os os' : List Opt} (h : RowExch i os os') {g : Opt} {mid' : List Opt}
    (hg : GroupAt os' g mid') : ∃ mid, GroupAt os g mid ∧
      (mid'.filter (·.isSet)).length ≤ (mid.filter (·.isSet)).length := by
  obtain ⟨pre, x, y, post, -, rfl, rfl, hm⟩ := h
  obtain ⟨h1, h2, p, q, h3⟩ := hg
  rcases List.append_eq_append_iff.1 h3 with ⟨l, rfl, h4⟩ | ⟨l, rfl, h4⟩
  · match l, h4 with
    | [], h4 =>
      simp only [List.nil_append, List.cons.injEq] at h4
      exact absurd h1 (h4.1 ▸ hm.noGroup.2)
    | [_], h4 =>
      simp only [List.cons_append, List.nil_append, List.cons.injEq] at h4
      exact absurd h1 (h4.2.1 ▸ hm.noGroup.1)
    | a :: b :: l, h4 =>
      simp only [List.cons_append, List.cons.injEq] at h4
      obtain ⟨rfl, rfl, rfl⟩ := h4
      exact ⟨mid', ⟨h1, h2, pre ++ x :: y :: l, q, by simp⟩, Nat.le_refl _⟩
  · cases l with
    | nil =>
      simp only [List.nil_append, List.cons.injEq] at h4
      exact absurd h1 (h4.1 ▸ hm.noGroup.2)
    | cons a l =>
      simp only [List.cons_append, List.cons.injEq] at h4
      obtain ⟨rfl, h4⟩ := h4
      rcases List.append_eq_append_iff.1 h4 with ⟨m, rfl, h5⟩ | ⟨m, rfl, h5⟩
      · exact ⟨mid', ⟨h1, h2, p, m ++ x :: y :: post, by simp⟩, Nat.le_refl _⟩
      · match m, h5 with
        | [], h5 =>
          refine ⟨l, ⟨h1, fun z hz => h2 z (by simp [hz]), p, x :: y :: post, by simp⟩, by simp⟩
        | [_], h5 =>
          simp only [List.cons_append, List.nil_append, List.cons.injEq] at h5
          obtain ⟨rfl, rfl⟩ := h5
          refine ⟨l ++ [x, y], ⟨h1, fun z hz => ?_, p, post, by simp⟩, ?_⟩
          · simp only [List.mem_append, List.mem_cons, List.not_mem_nil, or_false] at hz
            rcases hz with hz | rfl | rfl
            · exact h2 z (by simp [hz])
            · exact hm.noGroup.1
            · exact hm.noGroup.2
          · simp only [List.filter_append, List.length_append, List.filter_cons, List.filter_nil]
            cases x.isSet <;> cases y.isSet <;> simp
        | a :: b :: m, h5 =>
          simp only [List.cons_append, List.cons.injEq] at h5
          obtain ⟨rfl, rfl, rfl⟩ := h5
          refine ⟨l ++ x :: y :: m, ⟨h1, fun z hz => h2 z ?_, p, q, by simp⟩, ?_⟩
          · simp only [List.mem_append, List.mem_cons] at hz ⊢
            rcases hz with hz | hz | hz | hz <;> simp [hz]
          · simp only [List.filter_append, List.length_append, List.filter_cons]
            cases x.isSet <;> cases y.isSet <;> simp

theorem levelOk_exch {W : World} {i : Nat} {os os' : List Opt} (h : RowExch i os os') (hl : LevelOk W os) :
    LevelOk W os' := by
  refine ⟨fun o ho => hl.positionals o ((h.mem o).1 ho), fun o ho => hl.validators o ((h.mem o).1 ho),
    fun o ho ht hs n hn r hr => hl.requires o ((h.mem o).1 ho) ht hs n hn r (refers_exch h hr),
    fun o ho ht hs n hn r hr => hl.conflicts o ((h.mem o).1 ho) ht hs n hn r (refers_exch h hr), fun g mid hg hx => ?_⟩
  obtain ⟨mid', h1, h2⟩ := groupAt_exch h hg
  exact Nat.le_trans h2 (hl.exclusive g mid' h1 hx)

theorem TabExch.level {W : World} {k i : Nat} {T T' : List (List Opt)} (h : TabExch k i T T') {j : Nat} {os : List Opt}
    (hj : T[j]? = some os) (hl : LevelOk W os) : ∃ os', T'[j]? = some os' ∧ LevelOk W os' := by
  by_cases e : j = k
  · subst e
    obtain ⟨o1, o2, h1, h2, h3⟩ := h.row_self
    rw [h1] at hj; cases hj
    exact ⟨o2, h2, levelOk_exch h3 hl⟩
  · exact ⟨os, by rw [h.row_other e, hj], hl⟩

/-! ### The outcome -/

theorem change_exch (W : World) (k i : Nat) (p : Ptr) (x : Act) :
    (x.exch k i).change W (p.exch k i) = x.change W p := by
  cases x with
  | give q t =>
    simp only [Act.exch, Act.change]
    by_cases e : q = p
    · rw [if_pos e, if_pos (by rw [e])]
    · rw [if_neg e, if_neg (fun h => e (Ptr.exch_inj h))]
  | enter q =>
    simp only [Act.exch, Act.change]
    by_cases e : q = p
    · rw [if_pos e, if_pos (by rw [e])]
    · rw [if_neg e, if_neg (fun h => e (Ptr.exch_inj h))]
  | fail c => rfl
  | noTable => rfl

theorem entered_exch (k i : Nat) (l : List Act) : entered (l.map (Act.exch k i)) = (entered l).map (Ptr.exch k i) := by
  unfold entered
  rw [List.filterMap_map, List.map_filterMap]
  congr 1
  funext x
  cases x <;> rfl

theorem through_meta : ∀ (rs : List (Opt → Opt → Prop)), (∀ r ∈ rs, ∀ o o', r o o' → o'.meta = o.meta) →
    ∀ o o', Through rs o o' → o'.meta = o.meta
  | [], _, o, o', h => by have : o' = o := h; rw [this]
  | r :: rs, hr, o, o', h => by
    obtain ⟨o1, h1, h2⟩ := h
    rw [through_meta rs (fun r h => hr r (by simp [h])) o1 o' h2, hr r (by simp) o o1 h1]

/-- What a parse leaves in a place is declared as before. -/
theorem accepted_meta {W : World} {env : Env} {a : Argus} {args : List Str} {T : List (List Opt)} {path : List Ptr}
    (h : Accepted W env a args T path) {p : Ptr} {o o' : Opt} (h1 : placeAt a.tables p = some o)
    (h2 : placeAt T p = some o') : o'.meta = o.meta := by
  obtain ⟨x, h3, h4⟩ := h.entries p o h1
  rw [h2] at h3; cases h3
  refine through_meta _ (fun r hr y y' hy => ?_) _ _ h4
  rcases List.mem_append.1 hr with hr | hr
  · obtain ⟨act, -, ha⟩ := List.mem_filterMap.1 hr
    cases act with
    | give q t =>
      simp only [Act.change] at ha
      split at ha
      · cases ha; exact runHandler_keeps_meta hy.handled
      · cases ha
    | enter q =>
      simp only [Act.change] at ha
      split at ha
      · cases ha; rw [hy]; rfl
      · cases ha
    | fail c => cases ha
    | noTable => cases ha
  · rw [List.eq_of_mem_replicate hr] at hy
    exact looksUp_meta hy

theorem tabExch_result {k i : Nat} {T T' R : List (List Opt)} (h : TabExch k i T T')
    (hs : R.map List.length = T.map List.length)
    (hm : ∀ p o o', placeAt T p = some o → placeAt R p = some o' → o'.meta = o.meta) : ∃ R', TabExch k i R R' := by
  obtain ⟨os, os', h1, ⟨pre, x, y, post, h2, rfl, rfl, h3⟩, rfl⟩ := h
  obtain ⟨r, h4, h5⟩ := lengths_getElem hs h1
  have hlen : i + 2 ≤ r.length := by rw [h5]; simp; omega
  obtain ⟨x', hx'⟩ : ∃ x', r[i]? = some x' := ⟨r[i], List.getElem?_eq_getElem (by omega)⟩
  obtain ⟨y', hy'⟩ : ∃ y', r[i + 1]? = some y' := ⟨r[i + 1], List.getElem?_eq_getElem (by omega)⟩
  have e : r = r.take i ++ x' :: y' :: r.drop (i + 2) := by
    have e1 : r.drop i = x' :: r.drop (i + 1) := by
      obtain ⟨hl, rfl⟩ := List.getElem?_eq_some_iff.1 hx'
      exact List.drop_eq_getElem_cons hl
    have e2 : r.drop (i + 1) = y' :: r.drop (i + 2) := by
      obtain ⟨hl, rfl⟩ := List.getElem?_eq_some_iff.1 hy'
      exact List.drop_eq_getElem_cons hl
    calc r = r.take i ++ r.drop i := (List.take_append_drop i r).symm
      _ = _ := by rw [e1, e2]
  have mx : x'.meta = x.meta := hm ⟨k, i⟩ x x' (by simp [placeAt, h1, ← h2]) (by simp [placeAt, h4, hx'])
  have my : y'.meta = y.meta := hm ⟨k, i + 1⟩ y y' (by simp [placeAt, h1, ← h2]) (by simp [placeAt, h4, hy'])
  exact ⟨_, r, _, h4, ⟨r.take i, x', y', r.drop (i + 2), by simp; omega, e, rfl, h3.of_meta mx my⟩, rfl⟩

theorem tableBelow_exch {k i : Nat} {T T' : List (List Opt)} (h : TabExch k i T T') (p : Ptr) :
    tableBelow T' (p.exch k i) = tableBelow T p := by unfold tableBelow; rw [h.place]

theorem accepted_exch {W : World} {env : Env} {a : Argus} {args : List Str} {R R' T' : List (List Opt)}
    {path : List Ptr} {k i : Nat} (hstack : a.stack = []) (hn : ∀ arg ∈ args, (0 : Byte) ∉ arg)
    (ht : TabExch k i a.tables T') (hR : TabExch k i R R') (h : Accepted W env a args R path) :
    Accepted W env { a with tables := T' } args R' (path.map (Ptr.exch k i)) := by
  have hasks : ({ a with tables := T' } : Argus).asks args = (a.asks args).map (Act.exch k i) :=
    ht.meaning args _ _ _ _ hn
  have hpath : pathTables { a with tables := T' } (path.map (Ptr.exch k i)) = pathTables a path := by
    unfold pathTables
    rw [List.filterMap_map]
    congr 1
    congr 1
    funext p
    exact tableBelow_exch ht p
  refine ⟨?_, ?_, ?_, ?_, ?_, ?_, ?_⟩
  · intro x hx
    rw [hasks] at hx
    obtain ⟨y, hy, rfl⟩ := List.mem_map.1 hx
    have := h.readable y hy
    cases y with
    | give p t => exact ⟨(nomatch ·), fun c => (nomatch ·)⟩
    | enter p => exact ⟨(nomatch ·), fun c => (nomatch ·)⟩
    | fail c => exact absurd rfl (this.2 c)
    | noTable => exact absurd rfl this.1
  · rw [hasks, entered_exch, h.selected, hstack]
    simp
  · rw [hasks, entered_exch]
    simpa using h.depth
  · rw [hR.sizes, h.sizes]
    exact ht.sizes.symm
  · intro p o ho
    change placeAt T' p = some o at ho
    rw [ht.place'] at ho
    obtain ⟨o', h1, h2⟩ := h.entries _ _ ho
    refine ⟨o', by rw [hR.place']; exact h1, ?_⟩
    rw [hasks, hpath]
    rw [Ptr.exch_tbl] at h2
    have : ((a.asks args).map (Act.exch k i)).filterMap (Act.change W p) =
        (a.asks args).filterMap (Act.change W (p.exch k i)) := by
      rw [List.filterMap_map]
      congr 1
      funext x
      have := change_exch W k i (p.exch k i) x
      rw [Ptr.exch_exch] at this
      exact this
    rw [this]
    exact h2
  · obtain ⟨os, h1, h2⟩ := h.root
    exact hR.level h1 h2
  · intro p hp
    obtain ⟨q, hq, rfl⟩ := List.mem_map.1 hp
    obtain ⟨j, os, h1, h2, h3⟩ := h.levels q hq
    obtain ⟨os', h4, h5⟩ := hR.level h2 h3
    exact ⟨j, os', by rw [← h1]; exact tableBelow_exch ht q, h4, h5⟩

/-! ### Reading the options -/

section

variable {k i : Nat} {a b : Argus} (h : TabExch k i a.tables b.tables) (hroot : b.root = a.root)
  (hstack : b.stack = a.stack.map (Ptr.exch k i))
include h

theorem getOpt_exch (p : Ptr) : b.getOpt (p.exch k i) = a.getOpt p := by
  have key := h.place p
  unfold placeAt at key
  unfold Argus.getOpt
  rw [Ptr.exch_tbl] at key ⊢
  by_cases e : p.tbl = k
  · obtain ⟨os, os', h1, h2, h3⟩ := h.row_self
    rw [e, h1, h2] at key ⊢
    simp only [Option.bind_some] at key ⊢
    rw [key]
  · rw [h.row_other e] at key ⊢
    unfold Ptr.exch
    rw [if_neg e]

theorem findNameIn_exch (t : Option Nat) (n : Str) : b.findNameIn t n =
    (do let r ← a.findNameIn t n; Out.ok (r.map (Ptr.exch k i))) := by
  unfold Argus.findNameIn Argus.table
  cases t with
  | none => rfl
  | some j =>
    simp only
    by_cases e : j = k
    · subst e
      obtain ⟨os, os', h1, h2, h3⟩ := h.row_self
      rw [h1, h2]
      simp only [Out.ok_bind, findName_exch h3]
      cases findName os n with
      | none => rfl
      | some m => simp [Ptr.exch, Out.ok_bind]
    · rw [h.row_other e]
      cases a.tables[j]? with
      | none => rfl
      | some os =>
        simp only [Out.ok_bind]
        cases findName os n with
        | none => rfl
        | some m => simp [Ptr.exch, Out.ok_bind, e]

include hroot in
theorem findRelative_exch (n : Str) : ∀ ps : List Ptr, b.findRelative n (ps.map (Ptr.exch k i)) =
    (do let r ← a.findRelative n ps; Out.ok (r.map (Ptr.exch k i)))
  | [] => by
    simp only [List.map_nil, Argus.findRelative]
    rw [hroot]; exact findNameIn_exch h _ n
  | p :: ps => by
    simp only [List.map_cons, Argus.findRelative, getOpt_exch h]
    cases a.getOpt p with
    | ub u => rfl
    | ok o =>
      simp only [Out.ok_bind, findNameIn_exch h]
      cases a.findNameIn o.subOptions n with
      | ub u => rfl
      | ok r =>
        cases r with
        | some q => rfl
        | none =>
          simp only [Out.ok_bind, Option.map_none]
          exact findRelative_exch n ps

theorem findComponents_exch : ∀ (n : Nat) (c : Str) (t : Option Nat) (ps : List Ptr),
    b.findComponents n c t (ps.map (Ptr.exch k i)) =
      (do let r ← a.findComponents n c t ps; Out.ok (r.map (Ptr.exch k i)))
  | 0, c, t, ps => findNameIn_exch h t c
  | n + 1, c, t, ps => by
    unfold Argus.findComponents
    cases strchrSplit 46 c with
    | none => exact findNameIn_exch h t c
    | some r =>
      obtain ⟨comp, rest⟩ := r
      cases ps with
      | nil => rfl
      | cons p ps =>
        simp only [List.map_cons, getOpt_exch h]
        cases a.getOpt p with
        | ub u => rfl
        | ok o =>
          simp only [Out.ok_bind]
          cases o.name with
          | none => rfl
          | some cn =>
            simp only
            split
            · exact findComponents_exch n rest o.subOptions ps
            · rfl

include hroot hstack in
theorem findPath_exch (path : Str) : b.findPath path =
    (do let r ← a.findPath path; Out.ok (r.map (Ptr.exch k i))) := by
  unfold Argus.findPath
  rw [hstack, hroot, ← List.map_reverse, List.length_map]
  split
  · split
    · exact findNameIn_exch h _ _
    split
    · rfl
    · exact findComponents_exch h _ _ _ _
  · exact findRelative_exch h hroot path _

include hroot hstack in
theorem lookup_exch (path : Str) : b.lookup path = a.lookup path := by
  unfold Argus.lookup
  rw [findPath_exch h hroot hstack]
  cases a.findPath path with
  | ub u => rfl
  | ok r =>
    cases r with
    | none => rfl
    | some p => simp only [Out.ok_bind, Option.map_some, getOpt_exch h]

end

end Argus
