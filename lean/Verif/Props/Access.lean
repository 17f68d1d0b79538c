import Verif.Lemmas.Access
import Verif.Props.Bounds
import Verif.Spec.Sample

/-!
# C31, C32, C33, C54: looking at the result

`LevelsOf a a.stack lv`: `lv` lists the names and tables of the selected subcommands, outermost first.
`NameAt a k n p`: `p` is the first entry named `n` of table `k`; `NoName a k n`: there is none.
`Leads R cs lv k k'`: the path components `cs` lead from table `k` along the selected subcommands to table
`k'`, each standing in relation `R` to the name of its subcommand.
-/

set_option autoImplicit false

namespace Argus

/-! ## C31: paths -/

/-- What the theorems below assume holds after every successful parse from a fresh context. -/
theorem C31_applies_after_parse (W : World) (env : Env) (a a' : Argus) (args : List Str)
    (h : argusParse W env a args = .ok (.returned Err.success, a')) (hfresh : a.stack = []) :
    (∃ os, a'.tables[a'.root]? = some os) ∧ ∃ lv, LevelsOf a' a'.stack lv :=
  argusParse_levels h hfresh

/-- **C31** A bare name refers to the first option of that name at the innermost selected level that has
    one. -/
theorem C31_bare (a : Argus) (lv : List (Str × Nat)) (os : List Opt) (n : Str) (p : Ptr)
    (hr : a.tables[a.root]? = some os) (hl : LevelsOf a a.stack lv) (hdot : (46 : Byte) ∉ n) :
    a.findPath n = .ok (some p) ↔ ∃ outer k inner, a.root :: lv.map Prod.snd = outer ++ k :: inner ∧
      NameAt a k n p ∧ ∀ j ∈ inner, NoName a j n := by
  have hp : a.findPath n = a.findRelative n a.stack.reverse := by
    unfold Argus.findPath; rw [if_neg (by simpa using hdot)]
  have hrev : ∀ (inner : List Nat) (k : Nat) (outer : List Nat),
      (lv.reverse.map Prod.snd ++ [a.root] = inner ++ k :: outer ↔
        a.root :: lv.map Prod.snd = outer.reverse ++ k :: inner.reverse) := by
    intro inner k outer
    rw [← List.reverse_inj]
    simp
  rw [hp]
  rcases findRelative_cases hr n _ _ hl.reverse with ⟨q, h1, inner, k, outer, h2, h3, h4⟩ | ⟨h1, h2⟩
  · rw [h1]
    simp only [Out.ok.injEq, Option.some.injEq]
    constructor
    · rintro rfl
      exact ⟨outer.reverse, k, inner.reverse, (hrev _ _ _).1 h2, h3, fun j hj => h4 j (by simpa using hj)⟩
    · rintro ⟨outer', k', inner', g1, g2, g3⟩
      -- both splits are at the same place
      have e := (hrev inner k outer).1 h2
      rw [e] at g1
      rcases List.append_eq_append_iff.1 g1 with ⟨ys, e1, e2⟩ | ⟨ys, e1, e2⟩
      · cases ys with
        | nil => simp only [List.nil_append, List.cons.injEq] at e2; rw [e2.1] at h3; exact h3.unique g2
        | cons y ys =>
          simp only [List.cons_append, List.cons.injEq] at e2
          have : NoName a k' n := h4 k' (by
            have : k' ∈ inner.reverse := by rw [e2.2]; simp
            simpa using this)
          exact (g2.not_noName this).elim
      · cases ys with
        | nil => simp only [List.nil_append, List.cons.injEq] at e2; rw [e2.1] at g2; exact h3.unique g2
        | cons y ys =>
          simp only [List.cons_append, List.cons.injEq] at e2
          exact (h3.not_noName (g3 k (by rw [e2.2]; simp))).elim
  · rw [h1]
    simp only [Out.ok.injEq, reduceCtorEq, false_iff]
    rintro ⟨outer', k', inner', g1, g2, g3⟩
    have : NoName a k' n := h2 k' (by
      have e : k' ∈ a.root :: lv.map Prod.snd := by rw [g1]; simp
      rw [← List.mem_reverse] at e
      simpa using e)
    exact g2.not_noName this

/-- **C31** A bare name that no selected level has refers to nothing. -/
theorem C31_bare_unknown (a : Argus) (lv : List (Str × Nat)) (os : List Opt) (n : Str)
    (hr : a.tables[a.root]? = some os) (hl : LevelsOf a a.stack lv) (hdot : (46 : Byte) ∉ n) :
    a.findPath n = .ok none ↔ ∀ k ∈ a.root :: lv.map Prod.snd, NoName a k n := by
  have hp : a.findPath n = a.findRelative n a.stack.reverse := by
    unfold Argus.findPath; rw [if_neg (by simpa using hdot)]
  have hm : ∀ j, j ∈ lv.reverse.map Prod.snd ++ [a.root] ↔ j ∈ a.root :: lv.map Prod.snd := by
    intro j
    have : lv.reverse.map Prod.snd ++ [a.root] = (a.root :: lv.map Prod.snd).reverse := by simp
    rw [this, List.mem_reverse]
  rw [hp]
  rcases findRelative_cases hr n _ _ hl.reverse with ⟨q, h1, inner, k, outer, h2, h3, h4⟩ | ⟨h1, h2⟩
  · rw [h1]
    simp only [Out.ok.injEq, reduceCtorEq, false_iff]
    intro hall
    exact h3.not_noName (hall k ((hm k).1 (by rw [h2]; simp)))
  · rw [h1]
    simp only [true_iff]
    exact fun k hk => h2 k ((hm k).2 hk)

/-- **C31** `.name` refers to the first option of that name at the root, or to nothing. -/
theorem C31_root (a : Argus) (os : List Opt) (n : Str) (hr : a.tables[a.root]? = some os) :
    (∀ p, a.findPath (46 :: n) = .ok (some p) ↔ NameAt a a.root n p) ∧
    (a.findPath (46 :: n) = .ok none ↔ NoName a a.root n) := by
  have hp : a.findPath (46 :: n) = a.findNameIn (some a.root) n := by
    unfold Argus.findPath; rw [if_pos (by simp), if_pos (by simp)]; rfl
  rw [hp]
  exact ⟨fun p => findNameIn_some hr n p, findNameIn_none hr n⟩

/-- **C31** (full statement: each component is the name of its subcommand). A path `c1.….cm.name` refers
    to the first option of that name at the level to which the components lead along the selected
    subcommands. The components need only begin the names: the full statement fails, see
    `C31_abbreviated_path`. -/
theorem C31_path_partial (a : Argus) (lv : List (Str × Nat)) (os : List Opt) (c : Str) (cs : List Str) (n : Str)
    (p : Ptr) (hr : a.tables[a.root]? = some os) (hl : LevelsOf a a.stack lv)
    (hc : ∀ x ∈ c :: cs, (46 : Byte) ∉ x) (hne : c ≠ []) (hn : (46 : Byte) ∉ n) :
    a.findPath (pathText (c :: cs) n) = .ok (some p) ↔
      ∃ k, Leads (fun c m => c <+: m) (c :: cs) lv a.root k ∧ NameAt a k n p := by
  have hdot : (pathText (c :: cs) n).contains 46 = true := by simp [pathText]
  have hhead : ¬ (pathText (c :: cs) n).head? = some 46 := by
    cases c with
    | nil => exact absurd rfl hne
    | cons b bs =>
      have := hc (b :: bs) (by simp)
      simp only [pathText, List.flatMap_cons, List.cons_append, List.head?_cons, Option.some.injEq]
      rintro rfl; exact this (by simp)
  unfold Argus.findPath
  rw [if_pos hdot, if_neg hhead, countComponents_path _ _ hc hn, hl.length]
  by_cases hlen : (c :: cs).length > lv.length
  · rw [if_pos hlen]
    simp only [Out.ok.injEq, reduceCtorEq, false_iff]
    rintro ⟨k, h1, _⟩
    have := h1.length
    omega
  · rw [if_neg hlen]
    rcases findComponents_cases n (c :: cs) a.stack lv a.root os hl hc (by omega) hr with
      ⟨q, k', f1, f2, f3⟩ | ⟨f1, f2⟩
    · rw [f1]
      simp only [Out.ok.injEq, Option.some.injEq]
      constructor
      · rintro rfl; exact ⟨k', f2, f3⟩
      · rintro ⟨k2, g1, g2⟩
        rw [f2.unique g1] at f3
        exact f3.unique g2
    · rw [f1]
      simp only [Out.ok.injEq, reduceCtorEq, false_iff]
      rintro ⟨k2, g1, g2⟩
      exact g2.not_noName (f2 k2 g1)

/-- **C31** A path spelling out the selected subcommands refers to the option there. -/
theorem C31_full_path (a : Argus) (lv : List (Str × Nat)) (os : List Opt) (c : Str) (cs : List Str) (n : Str)
    (k : Nat) (p : Ptr) (hr : a.tables[a.root]? = some os) (hl : LevelsOf a a.stack lv)
    (hc : ∀ x ∈ c :: cs, (46 : Byte) ∉ x) (hne : c ≠ []) (hn : (46 : Byte) ∉ n)
    (hk : Leads (· = ·) (c :: cs) lv a.root k) (hp : NameAt a k n p) :
    a.findPath (pathText (c :: cs) n) = .ok (some p) :=
  (C31_path_partial a lv os c cs n p hr hl hc hne hn).2
    ⟨k, hk.mono (fun _ _ h => h ▸ List.prefix_rfl), hp⟩

/-- **C31** A path of which some component does not begin the name of the subcommand selected there, or
    that is longer than the selected path, refers to nothing. -/
theorem C31_other_path (a : Argus) (lv : List (Str × Nat)) (os : List Opt) (c : Str) (cs : List Str) (n : Str)
    (hr : a.tables[a.root]? = some os) (hl : LevelsOf a a.stack lv)
    (hc : ∀ x ∈ c :: cs, (46 : Byte) ∉ x) (hne : c ≠ []) (hn : (46 : Byte) ∉ n)
    (hno : ∀ k, ¬ Leads (fun c m => c <+: m) (c :: cs) lv a.root k) :
    a.findPath (pathText (c :: cs) n) = .ok none := by
  have hdot : (pathText (c :: cs) n).contains 46 = true := by simp [pathText]
  have hhead : ¬ (pathText (c :: cs) n).head? = some 46 := by
    cases c with
    | nil => exact absurd rfl hne
    | cons b bs =>
      have := hc (b :: bs) (by simp)
      simp only [pathText, List.flatMap_cons, List.cons_append, List.head?_cons, Option.some.injEq]
      rintro rfl; exact this (by simp)
  unfold Argus.findPath
  rw [if_pos hdot, if_neg hhead, countComponents_path _ _ hc hn, hl.length]
  by_cases hlen : (c :: cs).length > lv.length
  · rw [if_pos hlen]
  · rw [if_neg hlen]
    rcases findComponents_cases n (c :: cs) a.stack lv a.root os hl hc (by omega) hr with
      ⟨q, k', _, f2, _⟩ | ⟨f1, _⟩
    · exact absurd f2 (hno k')
    · exact f1

/-- The context after `prog -v admin -u joe list 3 x`. -/
def Sample.deep : Argus :=
  match argusParse Sample.world Sample.noEnv Sample.prog
      [c!"-v", c!"admin", c!"-u", c!"joe", c!"list", c!"3", c!"x"] with
  | .ok r => r.2
  | .ub _ => Sample.prog

/-- The hypotheses hold there: `admin` with table 2, then `list` with table 1. -/
example : LevelsOf Sample.deep Sample.deep.stack [(c!"admin", 2), (c!"list", 1)] ∧
    Sample.deep.tables.length = 3 ∧
    Leads (· = ·) [c!"admin", c!"list"] [(c!"admin", 2), (c!"list", 1)] 0 1 ∧
    Leads (· = ·) [c!"admin"] [(c!"admin", 2), (c!"list", 1)] 0 2 := by
  refine ⟨⟨⟨_, _, rfl, rfl, rfl, rfl⟩, ⟨_, _, rfl, rfl, rfl, rfl⟩, trivial⟩, by decide +kernel,
    .step _ _ _ _ _ _ _ rfl (.step _ _ _ _ _ _ _ rfl (.done _ _)), .step _ _ _ _ _ _ _ rfl (.done _ _)⟩

/-- `user` is found one level out, `verbose` at the root, `admin.list.count` innermost; `list.count` and
    `add.count` are no selected paths. -/
example : Sample.deep.findPath c!"user" = .ok (some ⟨2, 1⟩) ∧
    Sample.deep.findPath c!"verbose" = .ok (some ⟨0, 1⟩) ∧
    Sample.deep.findPath c!".verbose" = .ok (some ⟨0, 1⟩) ∧
    Sample.deep.findPath c!"admin.list.count" = .ok (some ⟨1, 2⟩) ∧
    Sample.deep.findPath c!"list.count" = .ok none ∧ Sample.deep.findPath c!"add.count" = .ok none := by
  decide +kernel

/-- **C31** is violated: `ad.user` names no selected subcommand (`ad` is none), yet it refers to the option
    `user` of `admin`, because only the length of the component is compared. -/
theorem C31_abbreviated_path :
    LevelsOf Sample.deep Sample.deep.stack [(c!"admin", 2), (c!"list", 1)] ∧
    (∀ k, ¬ Leads (· = ·) [c!"ad"] [(c!"admin", 2), (c!"list", 1)] 0 k) ∧
    Sample.deep.findPath c!"ad.user" = .ok (some ⟨2, 1⟩) := by
  refine ⟨⟨⟨_, _, rfl, rfl, rfl, rfl⟩, ⟨_, _, rfl, rfl, rfl, rfl⟩, trivial⟩, ?_, by decide +kernel⟩
  intro k h
  cases h with
  | step _ _ _ _ _ _ _ h _ => exact absurd h (by decide)

/-! ## C32: indexed and keyed access -/

/-- **C32** A path that refers to nothing: every access reports ARGUS_ERROR_NO_VALUE and yields zero. -/
theorem C32_unknown_path (a : Argus) (path key : Str) (i : Nat) (h : a.findPath path = .ok none) :
    argusGet a path = .ok (.null, { a with errorCode := Err.noValue }) ∧
    argusArrayGet a path i = .ok (.null, { a with errorCode := Err.noValue }) ∧
    argusMapGet a path key = .ok (.null, { a with errorCode := Err.noValue }) ∧
    argusIsSet a path = .ok (false, a) ∧ argusCount a path = .ok (0, a) := by
  have hl : a.lookup path = .ok none := by simp [Argus.lookup, h]
  refine ⟨?_, ?_, ?_, ?_, ?_⟩
  · simp [argusGet, hl]
  · simp [argusArrayGet, hl]
  · simp [argusMapGet, hl]
  · simp [argusIsSet, hl]
  · simp [argusCount, hl]

example : Sample.deep.findPath c!"nothing" = .ok none := by decide +kernel

/-- `path` refers to the option `o`. -/
def Argus.Finds (a : Argus) (path : Str) (o : Opt) : Prop :=
  ∃ p, a.findPath path = .ok (some p) ∧ a.getOpt p = .ok o

theorem Argus.Finds.lookup {a : Argus} {path : Str} {o : Opt} (h : a.Finds path o) :
    a.lookup path = .ok (some o) := by
  obtain ⟨p, h1, h2⟩ := h
  simp [Argus.lookup, h1, h2]

/-- **C32** A path that refers to an option: its value, whether it is set and how many values it has, and no
    error is reported. -/
theorem C32_known_path (a : Argus) (path : Str) (o : Opt) (h : a.Finds path o) :
    argusGet a path = .ok (o.value, { a with errorCode := Err.success }) ∧
    argusIsSet a path = .ok (o.isSet, a) ∧ argusCount a path = .ok (o.valueCount, a) := by
  refine ⟨?_, ?_, ?_⟩
  · simp only [argusGet, h.lookup, Out.ok_bind]
  · simp [argusIsSet, h.lookup]
  · simp [argusCount, h.lookup]

example : ∃ o, Sample.deep.Finds c!"admin.list.count" o ∧ o.isSet = true ∧ o.value ≠ .null :=
  ⟨_, ⟨⟨1, 2⟩, by decide +kernel, rfl⟩, by decide +kernel, by decide +kernel⟩

/-- Value types whose values `argus_array_get` reads. -/
def ValueType.listLike : ValueType → Prop
  | .arrayString | .arrayInt | .arrayFloat | .variadicString | .variadicInt | .variadicFloat => True
  | _ => False

/-- Value types whose values `argus_map_get` reads. -/
def ValueType.mapLike : ValueType → Prop
  | .mapString | .mapInt | .mapFloat | .mapBool => True
  | _ => False

/-- **C32** Access to an option of the wrong kind reports ARGUS_ERROR_INVALID_TYPE and yields zero. -/
theorem C32_wrong_kind (a : Argus) (path key : Str) (o : Opt) (i : Nat) (h : a.Finds path o) :
    (¬ o.valueType.listLike →
      argusArrayGet a path i = .ok (.null, { a with errorCode := Err.invalidType })) ∧
    (¬ o.valueType.mapLike →
      argusMapGet a path key = .ok (.null, { a with errorCode := Err.invalidType })) := by
  constructor
  · intro hk
    have : (o.valueType.isArray || o.valueType.isVariadic) = false := by
      cases hv : o.valueType <;> rw [hv] at hk <;> first | rfl | exact absurd trivial hk
    unfold argusArrayGet
    rw [h.lookup, Out.ok_bind]
    simp only [this, Bool.not_false, if_true]
  · intro hk
    have : o.valueType.isMap = false := by
      cases hv : o.valueType <;> rw [hv] at hk <;> first | rfl | exact absurd trivial hk
    simp [argusMapGet, h.lookup, this]

example : ∃ o, Sample.deep.Finds c!"user" o ∧ o.valueType = .string := ⟨_, ⟨_, rfl, rfl⟩, rfl⟩

/-- **C32** If an array or variadic option presents the cells `cells`, then element `i` is `cells[i]` with
    error code 0 for `i` below their number, which is also what `argus_count` returns; any other index gives
    zero and ARGUS_ERROR_INVALID_INDEX. -/
theorem C32_array_get (a : Argus) (path : Str) (o : Opt) (cells : List Word) (i : Nat) (h : a.Finds path o)
    (hk : o.valueType.listLike) (hc : o.Elements cells) :
    argusCount a path = .ok (cells.length, a) ∧
    argusArrayGet a path i = .ok (match cells[i]? with
      | some w => (w, { a with errorCode := Err.success })
      | none => (.null, { a with errorCode := Err.invalidIndex })) := by
  have hb : (o.valueType.isArray || o.valueType.isVariadic) = true := by
    cases hv : o.valueType <;> rw [hv] at hk <;> first | rfl | exact hk.elim
  refine ⟨by simp [argusCount, h.lookup, hc.2], ?_⟩
  unfold argusArrayGet
  rw [h.lookup, Out.ok_bind]
  simp only [hb, Bool.not_true, Bool.false_eq_true, if_false, hc.2]
  by_cases hi : cells.length ≤ i
  · rw [if_pos hi, List.getElem?_eq_none hi]
  · rw [if_neg hi, hc.1]
    have hi' : i < cells.length := by omega
    rw [List.getElem?_eq_getElem hi']
    simp [readArray, List.getElem?_eq_getElem hi']

theorem mapSearch_map (es : List (Str × Word)) (key : Str) : ∀ (n i : Nat), i + n = es.length →
    mapSearch (.map es) key n i = .ok (((es.drop i).find? (fun e => e.1 == key)).map Prod.snd)
  | 0, i, h => by
    rw [List.drop_eq_nil_of_le (by omega)]; rfl
  | n + 1, i, h => by
    have hi : i < es.length := by omega
    rw [List.drop_eq_getElem_cons hi]
    unfold mapSearch
    simp only [readMap, List.getElem?_eq_getElem hi, Out.ok_bind]
    by_cases hk : strcmp es[i].1 key = 0
    · rw [if_pos hk]
      have : es[i].1 = key := (strcmp_eq_zero_iff _ _).1 hk
      rw [List.find?_cons_of_pos (by simp [this])]; rfl
    · rw [if_neg hk]
      have : es[i].1 ≠ key := fun e => hk ((strcmp_eq_zero_iff _ _).2 e)
      rw [List.find?_cons_of_neg (by simp [this]), mapSearch_map es key n (i + 1) (by omega)]

/-- **C32** If a map option presents the entries `es`, then the access by key yields the value of the first
    entry with that key with error code 0, and without such an entry zero and
    ARGUS_ERROR_INVALID_KEY. -/
theorem C32_map_get (a : Argus) (path key : Str) (o : Opt) (es : List (Str × Word)) (h : a.Finds path o)
    (hk : o.valueType.mapLike) (hc : o.Entries es) :
    argusCount a path = .ok (es.length, a) ∧
    (∀ pre w post, es = pre ++ (key, w) :: post → (∀ e ∈ pre, e.1 ≠ key) →
      argusMapGet a path key = .ok (w, { a with errorCode := Err.success })) ∧
    ((∀ e ∈ es, e.1 ≠ key) →
      argusMapGet a path key = .ok (.null, { a with errorCode := Err.invalidKey })) := by
  have hb : o.valueType.isMap = true := by
    cases hv : o.valueType <;> rw [hv] at hk <;> first | rfl | exact hk.elim
  have hm := mapSearch_map es key es.length 0 (by omega)
  rw [List.drop_zero] at hm
  refine ⟨by simp [argusCount, h.lookup, hc.2], ?_, ?_⟩
  · rintro pre w post rfl hpre
    have : (pre ++ (key, w) :: post).find? (fun e => e.1 == key) = some (key, w) := by
      rw [List.find?_append, List.find?_eq_none.2 (by simpa using hpre)]
      simp
    rw [this] at hm
    unfold argusMapGet
    rw [h.lookup, Out.ok_bind]
    simp only [hb, Bool.not_true, Bool.false_eq_true, if_false, hc.2, hc.1, hm, Out.ok_bind, Option.map_some]
  · intro hno
    rw [List.find?_eq_none.2 (by simpa using hno)] at hm
    unfold argusMapGet
    rw [h.lookup, Out.ok_bind]
    simp only [hb, Bool.not_true, Bool.false_eq_true, if_false, hc.2, hc.1, hm, Out.ok_bind, Option.map_none]

/-- The context after `prog -t b,a -m x=1,y=2 -m x=3`. -/
def Sample.lists : Argus :=
  match argusParse Sample.world Sample.noEnv Sample.prog
      [c!"-t", c!"b,a", c!"-m", c!"x=1,y=2", c!"-m", c!"x=3"] with
  | .ok r => r.2
  | .ub _ => Sample.prog

/-- There `tags` presents two cells and `map` two entries. -/
example : ∃ o m, Sample.lists.Finds c!"tags" o ∧ o.valueType.listLike ∧
    o.Elements [.ptr c!"b", .ptr c!"a"] ∧ Sample.lists.Finds c!"map" m ∧ m.valueType.mapLike ∧
    m.Entries [(c!"x", .ofInt64 3), (c!"y", .ofInt64 2)] :=
  ⟨_, _, ⟨_, rfl, rfl⟩, trivial, ⟨rfl, rfl⟩, ⟨_, rfl, rfl⟩, trivial, ⟨rfl, rfl⟩⟩

/-! ## C33: iterators -/

theorem ArrayIt.play_walk {cells : List Word} : ∀ (ops : List ItOp) (it : ArrayIt) (d : Nat),
    it.array = .arr cells → it.count = cells.length → it.position = min d cells.length →
    it.play ops = .ok (walk cells d ops)
  | [], it, d, _, _, _ => rfl
  | .reset :: ops, it, d, h1, h2, _ => by
    unfold ArrayIt.play walk
    exact ArrayIt.play_walk ops _ 0 h1 h2 (by simp [argusArrayReset])
  | .next :: ops, it, d, h1, h2, h3 => by
    unfold ArrayIt.play walk argusArrayNext
    by_cases hd : cells.length ≤ d
    · rw [if_pos (by rw [h2, h3]; omega), Out.ok_bind]
      simp only
      rw [ArrayIt.play_walk ops it (d + 1) h1 h2 (by rw [h3]; omega), Out.ok_bind,
        List.getElem?_eq_none hd]
      rfl
    · have hd' : d < cells.length := by omega
      have hp : it.position = d := by rw [h3]; omega
      rw [if_neg (by rw [h2, hp]; omega)]
      have hr : readArray it.array it.cap it.position = .ok cells[d] := by
        rw [h1, hp]; simp [readArray, List.getElem?_eq_getElem hd']
      rw [hr, Out.ok_bind, Out.ok_bind]
      simp only
      rw [ArrayIt.play_walk ops ⟨it.array, it.cap, it.count, it.position + 1, cells[d]⟩ (d + 1) h1 h2 (by simp only [hp]; omega), Out.ok_bind,
        List.getElem?_eq_getElem hd']
      rfl

theorem MapIt.play_walk {es : List (Str × Word)} : ∀ (ops : List ItOp) (it : MapIt) (d : Nat),
    it.map = .map es → it.count = es.length → it.position = min d es.length →
    it.play ops = .ok (walk (es.map (fun e => (some e.1, e.2))) d ops)
  | [], it, d, _, _, _ => rfl
  | .reset :: ops, it, d, h1, h2, _ => by
    unfold MapIt.play walk
    exact MapIt.play_walk ops _ 0 h1 h2 (by simp [argusMapReset])
  | .next :: ops, it, d, h1, h2, h3 => by
    unfold MapIt.play walk argusMapNext
    by_cases hd : es.length ≤ d
    · rw [if_pos (by rw [h2, h3]; omega), Out.ok_bind]
      simp only
      rw [MapIt.play_walk ops it (d + 1) h1 h2 (by rw [h3]; omega), Out.ok_bind,
        List.getElem?_eq_none (by simpa using hd)]
      rfl
    · have hd' : d < es.length := by omega
      have hp : it.position = d := by rw [h3]; omega
      rw [if_neg (by rw [h2, hp]; omega)]
      have hr : readMap it.map it.position = .ok es[d] := by
        rw [h1, hp]; simp [readMap, List.getElem?_eq_getElem hd']
      rw [hr, Out.ok_bind, Out.ok_bind]
      simp only
      rw [MapIt.play_walk ops ⟨it.map, it.count, it.position + 1, some es[d].1, es[d].2⟩ (d + 1) h1 h2 (by simp only [hp]; omega), Out.ok_bind,
        List.getElem?_eq_getElem (by simpa using hd')]
      simp

/-- **C33** Stepping through an array or variadic option with an iterator yields its elements in order and
    then false for ever, and all of them again after a reset, for every sequence of steps and resets. -/
theorem C33_array_iterator (a : Argus) (path : Str) (o : Opt) (cells : List Word) (h : a.Finds path o)
    (hk : o.valueType.listLike) (hc : o.Elements cells) :
    ∃ it, argusArrayIt a path = .ok (it, a) ∧ ∀ ops, it.play ops = .ok (walk cells 0 ops) := by
  have hb : (o.valueType.isArray || o.valueType.isVariadic) = true := by
    cases hv : o.valueType <;> rw [hv] at hk <;> first | rfl | exact hk.elim
  refine ⟨{ array := o.value, cap := o.valueCapacity, count := o.valueCount }, ?_, fun ops => ?_⟩
  · unfold argusArrayIt
    rw [h.lookup, Out.ok_bind]
    simp only [hb, Bool.not_true, Bool.false_eq_true, if_false]
  · exact ArrayIt.play_walk ops _ 0 hc.1 hc.2 (by simp)

/-- **C33** The same for maps: keys and values. -/
theorem C33_map_iterator (a : Argus) (path : Str) (o : Opt) (es : List (Str × Word)) (h : a.Finds path o)
    (hk : o.valueType.mapLike) (hc : o.Entries es) :
    ∃ it, argusMapIt a path = .ok (it, a) ∧
      ∀ ops, it.play ops = .ok (walk (es.map (fun e => (some e.1, e.2))) 0 ops) := by
  have hb : o.valueType.isMap = true := by
    cases hv : o.valueType <;> rw [hv] at hk <;> first | rfl | exact hk.elim
  refine ⟨{ map := o.value, count := o.valueCount }, ?_, fun ops => ?_⟩
  · unfold argusMapIt
    rw [h.lookup, Out.ok_bind]
    simp only [hb, Bool.not_true, Bool.false_eq_true, if_false]
  · exact MapIt.play_walk ops _ 0 hc.1 hc.2 (by simp)

/-- Any number of steps after a reset: the elements, then false. -/
theorem walk_nexts {α : Type} (xs : List α) : ∀ (n d : Nat),
    walk xs d (List.replicate n .next) = (List.range n).map (fun i => xs[d + i]?)
  | 0, d => rfl
  | n + 1, d => by
    rw [List.replicate_succ, walk, walk_nexts xs n (d + 1), List.range_succ_eq_map, List.map_cons, List.map_map]
    simp only [Nat.add_zero, List.cons.injEq, true_and]
    apply List.map_congr_left
    intro i _
    simp only [Function.comp]
    congr 1; omega

/-- **C33** Iterators of unknown paths and of options of another kind yield nothing. -/
theorem C33_empty_iterator (a : Argus) (path : Str) :
    (a.findPath path = .ok none ∨ (∃ o, a.Finds path o ∧ ¬ o.valueType.listLike) →
      ∃ it, argusArrayIt a path = .ok (it, a) ∧ ∀ ops, it.play ops = .ok (walk [] 0 ops)) ∧
    (a.findPath path = .ok none ∨ (∃ o, a.Finds path o ∧ ¬ o.valueType.mapLike) →
      ∃ it, argusMapIt a path = .ok (it, a) ∧ ∀ ops, it.play ops = .ok (walk [] 0 ops)) := by
  have key1 : ∀ (ops : List ItOp) (it : ArrayIt) (d : Nat), it.count = 0 →
      it.play ops = .ok (walk ([] : List Word) d ops) := by
    intro ops
    induction ops with
    | nil => intro it d _; rfl
    | cons op ops ih =>
      intro it d h
      cases op with
      | reset => unfold ArrayIt.play walk; exact ih _ 0 h
      | next =>
        unfold ArrayIt.play walk argusArrayNext
        rw [if_pos (by omega), Out.ok_bind]
        simp only
        rw [ih it (d + 1) h]; rfl
  have key2 : ∀ (ops : List ItOp) (it : MapIt) (d : Nat), it.count = 0 →
      it.play ops = .ok (walk ([] : List (Option Str × Word)) d ops) := by
    intro ops
    induction ops with
    | nil => intro it d _; rfl
    | cons op ops ih =>
      intro it d h
      cases op with
      | reset => unfold MapIt.play walk; exact ih _ 0 h
      | next =>
        unfold MapIt.play walk argusMapNext
        rw [if_pos (by omega), Out.ok_bind]
        simp only
        rw [ih it (d + 1) h]; rfl
  constructor
  · intro h
    refine ⟨{}, ?_, fun ops => key1 ops {} 0 rfl⟩
    rcases h with h | ⟨o, h, hk⟩
    · simp [argusArrayIt, Argus.lookup, h]
    · have : (o.valueType.isArray || o.valueType.isVariadic) = false := by
        cases hv : o.valueType <;> rw [hv] at hk <;> first | rfl | exact absurd trivial hk
      unfold argusArrayIt
      rw [h.lookup, Out.ok_bind]
      simp only [this, Bool.not_false, if_true]
  · intro h
    refine ⟨{}, ?_, fun ops => key2 ops {} 0 rfl⟩
    rcases h with h | ⟨o, h, hk⟩
    · simp [argusMapIt, Argus.lookup, h]
    · have : o.valueType.isMap = false := by
        cases hv : o.valueType <;> rw [hv] at hk <;> first | rfl | exact absurd trivial hk
      unfold argusMapIt
      rw [h.lookup, Out.ok_bind]
      simp only [this, Bool.not_false, if_true]

/-- Two elements, a step, a reset, and four steps. -/
example : walk [1, 2] 0 [.next, .reset, .next, .next, .next, .next] =
    [some 1, some 1, some 2, none, none] := by decide

/-! ## C54: queries -/

theorem lookup_errorCode (a : Argus) (c : Int) (path : Str) :
    ({ a with errorCode := c } : Argus).lookup path = a.lookup path := by
  have h1 : ∀ ps n, ({ a with errorCode := c } : Argus).findRelative n ps = a.findRelative n ps := by
    intro ps n
    induction ps with
    | nil => rfl
    | cons p ps ih =>
      unfold Argus.findRelative
      simp only [ih]
      rfl
  have h2 : ∀ n comp t st, ({ a with errorCode := c } : Argus).findComponents n comp t st =
      a.findComponents n comp t st := by
    intro n
    induction n with
    | zero => intro comp t st; rfl
    | succ n ih =>
      intro comp t st
      unfold Argus.findComponents
      simp only [ih]
      rfl
  have h3 : ({ a with errorCode := c } : Argus).findPath path = a.findPath path := by
    unfold Argus.findPath
    rw [h1, h2]
    rfl
  unfold Argus.lookup
  rw [h3]
  rfl

/-- A query depends on nothing but the option it finds, and only sets the error code. -/
theorem Query.ask_errorCode (q : Query) (a : Argus) (c : Int) :
    (∀ r, q.ask a = .ok r → ∃ c', r.2 = { a with errorCode := c' }) ∧
    (∀ r, q.ask a = .ok r → ∃ c', q.ask { a with errorCode := c } = .ok (r.1, { a with errorCode := c' })) ∧
    (∀ u, q.ask a = .ub u → q.ask { a with errorCode := c } = .ub u) := by
  cases q with
  | get path =>
    simp only [Query.ask, argusGet, lookup_errorCode]
    cases hl : a.lookup path with
    | ub u => exact ⟨fun r h => (nomatch h), fun r h => (nomatch h), fun u' h => h⟩
    | ok x =>
      cases x with
      | none => exact ⟨fun r h => by cases h; exact ⟨_, rfl⟩, fun r h => by cases h; exact ⟨_, rfl⟩, fun u h => by cases h⟩
      | some o => exact ⟨fun r h => by cases h; exact ⟨_, rfl⟩, fun r h => by cases h; exact ⟨_, rfl⟩, fun u h => by cases h⟩
  | isSet path =>
    simp only [Query.ask, argusIsSet, lookup_errorCode]
    cases hl : a.lookup path with
    | ub u => exact ⟨fun r h => (nomatch h), fun r h => (nomatch h), fun u' h => h⟩
    | ok x =>
      cases x with
      | none => exact ⟨fun r h => by cases h; exact ⟨a.errorCode, rfl⟩, fun r h => by cases h; exact ⟨_, rfl⟩, fun u h => by cases h⟩
      | some o => exact ⟨fun r h => by cases h; exact ⟨a.errorCode, rfl⟩, fun r h => by cases h; exact ⟨_, rfl⟩, fun u h => by cases h⟩
  | count path =>
    simp only [Query.ask, argusCount, lookup_errorCode]
    cases hl : a.lookup path with
    | ub u => exact ⟨fun r h => (nomatch h), fun r h => (nomatch h), fun u' h => h⟩
    | ok x =>
      cases x with
      | none => exact ⟨fun r h => by cases h; exact ⟨a.errorCode, rfl⟩, fun r h => by cases h; exact ⟨_, rfl⟩, fun u h => by cases h⟩
      | some o => exact ⟨fun r h => by cases h; exact ⟨a.errorCode, rfl⟩, fun r h => by cases h; exact ⟨_, rfl⟩, fun u h => by cases h⟩
  | arrayGet path i =>
    simp only [Query.ask, argusArrayGet, lookup_errorCode]
    cases hl : a.lookup path with
    | ub u => exact ⟨fun r h => (nomatch h), fun r h => (nomatch h), fun u' h => h⟩
    | ok x =>
      cases x with
      | none => exact ⟨fun r h => by cases h; exact ⟨_, rfl⟩, fun r h => by cases h; exact ⟨_, rfl⟩, fun u h => by cases h⟩
      | some o =>
        simp only [Out.ok_bind]
        by_cases h1 : (!(o.valueType.isArray || o.valueType.isVariadic)) = true
        · simp only [h1, if_true]
          exact ⟨fun r h => by cases h; exact ⟨_, rfl⟩, fun r h => by cases h; exact ⟨_, rfl⟩, fun u h => by cases h⟩
        · simp only [h1, if_false, Bool.false_eq_true]
          by_cases h2 : o.valueCount ≤ i
          · simp only [h2, if_true]
            exact ⟨fun r h => by cases h; exact ⟨_, rfl⟩, fun r h => by cases h; exact ⟨_, rfl⟩, fun u h => by cases h⟩
          · simp only [h2, if_false]
            cases readArray o.value o.valueCapacity i with
            | ub u => exact ⟨fun r h => (nomatch h), fun r h => (nomatch h), fun u' h => h⟩
            | ok w => exact ⟨fun r h => by cases h; exact ⟨_, rfl⟩, fun r h => by cases h; exact ⟨_, rfl⟩, fun u h => by cases h⟩
  | mapGet path key =>
    simp only [Query.ask, argusMapGet, lookup_errorCode]
    cases hl : a.lookup path with
    | ub u => exact ⟨fun r h => (nomatch h), fun r h => (nomatch h), fun u' h => h⟩
    | ok x =>
      cases x with
      | none => exact ⟨fun r h => by cases h; exact ⟨_, rfl⟩, fun r h => by cases h; exact ⟨_, rfl⟩, fun u h => by cases h⟩
      | some o =>
        simp only [Out.ok_bind]
        by_cases h1 : (!o.valueType.isMap) = true
        · simp only [h1, if_true]
          exact ⟨fun r h => by cases h; exact ⟨_, rfl⟩, fun r h => by cases h; exact ⟨_, rfl⟩, fun u h => by cases h⟩
        · simp only [h1, if_false, Bool.false_eq_true]
          cases mapSearch o.value key o.valueCount 0 with
          | ub u => exact ⟨fun r h => (nomatch h), fun r h => (nomatch h), fun u' h => h⟩
          | ok w =>
            cases w with
            | none => exact ⟨fun r h => by cases h; exact ⟨_, rfl⟩, fun r h => by cases h; exact ⟨_, rfl⟩, fun u h => by cases h⟩
            | some w => exact ⟨fun r h => by cases h; exact ⟨_, rfl⟩, fun r h => by cases h; exact ⟨_, rfl⟩, fun u h => by cases h⟩
  | arrayIt path =>
    simp only [Query.ask, argusArrayIt, lookup_errorCode]
    cases hl : a.lookup path with
    | ub u => exact ⟨fun r h => (nomatch h), fun r h => (nomatch h), fun u' h => h⟩
    | ok x =>
      cases x with
      | none => exact ⟨fun r h => by cases h; exact ⟨a.errorCode, rfl⟩, fun r h => by cases h; exact ⟨_, rfl⟩, fun u h => by cases h⟩
      | some o =>
        simp only [Out.ok_bind]
        by_cases h1 : (!(o.valueType.isArray || o.valueType.isVariadic)) = true
        · simp only [h1, if_true]
          exact ⟨fun r h => by cases h; exact ⟨a.errorCode, rfl⟩, fun r h => by cases h; exact ⟨_, rfl⟩, fun u h => by cases h⟩
        · simp only [h1, if_false, Bool.false_eq_true]
          exact ⟨fun r h => by cases h; exact ⟨a.errorCode, rfl⟩, fun r h => by cases h; exact ⟨_, rfl⟩, fun u h => by cases h⟩
  | mapIt path =>
    simp only [Query.ask, argusMapIt, lookup_errorCode]
    cases hl : a.lookup path with
    | ub u => exact ⟨fun r h => (nomatch h), fun r h => (nomatch h), fun u' h => h⟩
    | ok x =>
      cases x with
      | none => exact ⟨fun r h => by cases h; exact ⟨a.errorCode, rfl⟩, fun r h => by cases h; exact ⟨_, rfl⟩, fun u h => by cases h⟩
      | some o =>
        simp only [Out.ok_bind]
        by_cases h1 : (!o.valueType.isMap) = true
        · simp only [h1, if_true]
          exact ⟨fun r h => by cases h; exact ⟨a.errorCode, rfl⟩, fun r h => by cases h; exact ⟨_, rfl⟩, fun u h => by cases h⟩
        · simp only [h1, if_false, Bool.false_eq_true]
          exact ⟨fun r h => by cases h; exact ⟨a.errorCode, rfl⟩, fun r h => by cases h; exact ⟨_, rfl⟩, fun u h => by cases h⟩

/-- **C54** Queries, however many, change nothing but the error code. -/
theorem C54_only_error_code : ∀ (qs : List Query) (a a' : Argus), askAll a qs = .ok a' →
    ∃ c, a' = { a with errorCode := c }
  | [], a, a', h => by
    simp only [askAll, Out.ok.injEq] at h; exact ⟨a.errorCode, h.symm⟩
  | q :: qs, a, a', h => by
    obtain ⟨r, hr, h1⟩ := Out.bind_eq_ok (f := fun r : Answer × Argus => askAll r.2 qs) h
    obtain ⟨c, hc⟩ := (q.ask_errorCode a 0).1 r hr
    obtain ⟨c', hc'⟩ := C54_only_error_code qs _ _ h1
    exact ⟨c', by rw [hc', hc]⟩

/-- **C54** The answer to a query does not depend on the queries made before. -/
theorem C54_answers_independent (qs : List Query) (q : Query) (a a' : Argus) (h : askAll a qs = .ok a') :
    (∀ x b, q.ask a = .ok (x, b) → ∃ b', q.ask a' = .ok (x, b')) ∧
    (∀ u, q.ask a = .ub u → q.ask a' = .ub u) := by
  obtain ⟨c, rfl⟩ := C54_only_error_code qs a a' h
  obtain ⟨_, h2, h3⟩ := q.ask_errorCode a c
  exact ⟨fun x b hx => let ⟨c', h⟩ := h2 (x, b) hx; ⟨_, h⟩, h3⟩

/-- A failing query, then two that answer as before. -/
example : ∃ a', askAll Sample.lists [.get c!"nothing", .arrayGet c!"tags" 9, .mapGet c!"map" c!"z"] = .ok a' ∧
    a'.errorCode = Err.invalidKey := ⟨_, rfl, by decide +kernel⟩

end Argus
