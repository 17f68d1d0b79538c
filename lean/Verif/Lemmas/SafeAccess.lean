import Verif.Lemmas.SafeRun

/-! Queries on a context in good order are defined. -/

set_option autoImplicit false

namespace Argus

theorem NameAt.get {a : Argus} {k : Nat} {n : Str} {p : Ptr} (h : NameAt a k n p) : ∃ o, a.getOpt p = .ok o := by
  obtain ⟨h1, pre, o, post, h2, h3, _⟩ := h
  exact ⟨o, getOpt_eq_ok.2 ⟨_, by rw [h1]; exact h2, by rw [← h3]; simp⟩⟩

/-- A lookup that finds an existing option or nothing. -/
def Looks (a : Argus) (x : Out (Option Ptr)) : Prop := ∃ r, x = .ok r ∧ ∀ p, r = some p → ∃ o, a.getOpt p = .ok o

theorem findNameIn_looks {a : Argus} {k : Nat} {os : List Opt} (hk : a.tables[k]? = some os) (n : Str) :
    Looks a (a.findNameIn (some k) n) := by
  rcases findNameIn_cases hk n with ⟨p, h1, h2⟩ | ⟨h1, _⟩
  · exact ⟨_, h1, fun q hq => by simp only [Option.some.injEq] at hq; subst hq; exact h2.get⟩
  · exact ⟨_, h1, fun q hq => (nomatch hq)⟩

theorem findComponents_looks {a : Argus} : ∀ (n : Nat) (c : Str) (qs : List Ptr) (lv : List (Str × Nat)) (k : Nat)
    (os : List Opt), LevelsOf a qs lv → n ≤ qs.length → a.tables[k]? = some os →
    Looks a (a.findComponents n c (some k) qs)
  | 0, c, qs, lv, k, os, _, _, hk => by unfold Argus.findComponents; exact findNameIn_looks hk c
  | n + 1, c, [], lv, k, os, _, hn, _ => by simp at hn
  | n + 1, c, q :: qs, [], k, os, h, _, _ => h.elim
  | n + 1, c, q :: qs, (m, k1) :: lv, k, os, h, hn, hk => by
    obtain ⟨⟨cmd, os1, g1, g2, g3, g4⟩, h2⟩ := h
    unfold Argus.findComponents
    cases strchrSplit 46 c with
    | none => exact findNameIn_looks hk c
    | some x =>
      simp only
      rw [g1, Out.ok_bind, g2]
      simp only
      split
      · rw [g3]
        exact findComponents_looks n x.2 qs lv k1 os1 h2 (by simp only [List.length_cons] at hn; omega) g4
      · exact ⟨_, rfl, fun q hq => (nomatch hq)⟩

theorem findPath_looks {a : Argus} {os : List Opt} {lv : List (Str × Nat)} (hr : a.tables[a.root]? = some os)
    (hl : LevelsOf a a.stack lv) (path : Str) : Looks a (a.findPath path) := by
  unfold Argus.findPath
  split
  · split
    · exact findNameIn_looks hr _
    · split
      · exact ⟨_, rfl, fun q hq => (nomatch hq)⟩
      · exact findComponents_looks _ _ _ _ _ _ hl (by omega) hr
  · rcases findRelative_cases hr path _ _ hl.reverse with ⟨p, h1, _, k, _, _, h2, _⟩ | ⟨h1, _⟩
    · exact ⟨_, h1, fun q hq => by simp only [Option.some.injEq] at hq; subst hq; exact h2.get⟩
    · exact ⟨_, h1, fun q hq => (nomatch hq)⟩

/-- An option in good order whose values are read as an array. -/
theorem Sound.arr {o : Opt} (h : Sound o) (hk : (o.valueType.isArray || o.valueType.isVariadic) = true) :
    ∃ cells, Arr o cells := by
  cases hh : o.handler with
  | none => rw [(h.decl.bare hh).2] at hk; simp [ValueType.isArray, ValueType.isVariadic] at hk
  | some x =>
    have hc := h.holds x hh
    obtain ⟨fh, _, hg⟩ := h.decl.goes x hh
    generalize o.valueType = vt at hg hk
    cases hg <;> simp [ValueType.isArray, ValueType.isVariadic] at hk <;>
      (obtain ⟨_, cells, h1, _⟩ := hc; exact ⟨cells, h1⟩)

theorem Sound.map {o : Opt} (h : Sound o) (hk : o.valueType.isMap = true) : ∃ es, MapS o es := by
  cases hh : o.handler with
  | none => rw [(h.decl.bare hh).2] at hk; simp [ValueType.isMap] at hk
  | some x =>
    have hc := h.holds x hh
    obtain ⟨fh, _, hg⟩ := h.decl.goes x hh
    generalize o.valueType = vt at hg hk
    cases hg <;> simp [ValueType.isMap] at hk <;> (obtain ⟨_, es, h1, _⟩ := hc; exact ⟨es, h1⟩)

theorem Arr.read {o : Opt} {cells : List Word} (h : Arr o cells) {i : Nat} (hi : i < o.valueCount) :
    ∃ w, readArray o.value o.valueCapacity i = .ok w := by
  rw [h.count] at hi
  rcases h.val with ⟨h1, _⟩ | ⟨h1, _⟩
  · rw [h1] at hi; simp at hi
  · rw [h1]; exact ⟨cells[i], by simp [readArray, hi]⟩

theorem MapS.read {o : Opt} {es : List (Str × MVal)} (h : MapS o es) {i : Nat} (hi : i < o.valueCount) :
    ∃ c, readMap o.value i = .ok c := by
  rw [h.count] at hi
  rcases h.val with ⟨h1, _⟩ | ⟨h1, _⟩
  · rw [h1] at hi; simp at hi
  · rw [h1]; exact ⟨encPair es[i], by simp [readMap, hi]⟩

theorem mapSearch_defined {v : Val} {key : Str} {count : Nat} (h : ∀ i, i < count → ∃ c, readMap v i = .ok c) :
    ∀ (n i : Nat), i + n ≤ count → ∃ r, mapSearch v key n i = .ok r
  | 0, i, _ => ⟨_, rfl⟩
  | n + 1, i, hi => by
    obtain ⟨c, hc⟩ := h i (by omega)
    unfold mapSearch
    rw [hc, Out.ok_bind]
    split
    · exact ⟨_, rfl⟩
    · exact mapSearch_defined h n (i + 1) (by omega)

theorem arrayPlay_defined : ∀ (ops : List ItOp) {it : ArrayIt},
    (∀ i, i < it.count → ∃ w, readArray it.array it.cap i = .ok w) → ∃ ws, it.play ops = .ok ws
  | [], it, h => ⟨_, rfl⟩
  | .reset :: ops, it, h => by
    unfold ArrayIt.play
    exact arrayPlay_defined ops (it := argusArrayReset it) h
  | .next :: ops, it, h => by
    unfold ArrayIt.play argusArrayNext
    split
    · obtain ⟨ws, hw⟩ := arrayPlay_defined ops h
      rw [Out.ok_bind]; simp only; rw [hw]; exact ⟨_, rfl⟩
    · obtain ⟨w, hw⟩ := h it.position (by omega)
      rw [hw]
      simp only [Out.ok_bind]
      obtain ⟨ws, hws⟩ := arrayPlay_defined ops (it := { it with value := w, position := it.position + 1 }) h
      rw [hws]; exact ⟨_, rfl⟩

theorem mapPlay_defined : ∀ (ops : List ItOp) {it : MapIt},
    (∀ i, i < it.count → ∃ w, readMap it.map i = .ok w) → ∃ ws, it.play ops = .ok ws
  | [], it, h => ⟨_, rfl⟩
  | .reset :: ops, it, h => by
    unfold MapIt.play
    exact mapPlay_defined ops (it := argusMapReset it) h
  | .next :: ops, it, h => by
    unfold MapIt.play argusMapNext
    split
    · obtain ⟨ws, hw⟩ := mapPlay_defined ops h
      rw [Out.ok_bind]; simp only; rw [hw]; exact ⟨_, rfl⟩
    · obtain ⟨w, hw⟩ := h it.position (by omega)
      rw [hw]
      simp only [Out.ok_bind]
      obtain ⟨ws, hws⟩ := mapPlay_defined ops
        (it := { it with key := some w.1, value := w.2, position := it.position + 1 }) h
      rw [hws]; exact ⟨_, rfl⟩

/-- A context whose queries are all defined. -/
structure Askable (a : Argus) : Prop where
  root : ∃ os, a.tables[a.root]? = some os
  levels : ∃ lv, LevelsOf a a.stack lv
  all : ∀ p o, a.getOpt p = .ok o → Sound o

theorem LevelsOf.same {a b : Argus} (h : b.tables = a.tables) : ∀ {ps : List Ptr} {lv : List (Str × Nat)},
    LevelsOf a ps lv → LevelsOf b ps lv
  | [], [], _ => trivial
  | q :: qs, (n, k) :: lv, h1 => by
    refine ⟨?_, h1.2.same h⟩
    have := h1.1
    unfold Argus.getOpt at this ⊢
    rw [h]; exact this

theorem Askable.same {a b : Argus} (h : Askable a) (h1 : b.tables = a.tables) (h2 : b.stack = a.stack)
    (h3 : b.root = a.root) : Askable b := by
  refine ⟨by rw [h1, h3]; exact h.root, ?_, ?_⟩
  · obtain ⟨lv, hl⟩ := h.levels
    exact ⟨lv, by rw [h2]; exact hl.same h1⟩
  · intro p o ho
    refine h.all p o ?_
    unfold Argus.getOpt at ho ⊢
    rw [h1] at ho; exact ho

theorem Askable.lookup {a : Argus} (h : Askable a) (path : Str) :
    ∃ r, a.lookup path = .ok r ∧ ∀ o, r = some o → Sound o := by
  obtain ⟨os, hr⟩ := h.root
  obtain ⟨lv, hl⟩ := h.levels
  obtain ⟨r, h1, h2⟩ := findPath_looks hr hl path
  unfold Argus.lookup
  rw [h1, Out.ok_bind]
  cases r with
  | none => exact ⟨_, rfl, fun o ho => (nomatch ho)⟩
  | some p =>
    obtain ⟨o, ho⟩ := h2 p rfl
    simp only
    rw [ho, Out.ok_bind]
    exact ⟨_, rfl, fun x hx => by simp only [Option.some.injEq] at hx; subst hx; exact h.all p o ho⟩

/-- Every query is defined; its answer, if an iterator, can be used in every way; the context stays askable. -/
def Answer.Usable : Answer → Prop
  | .arrayIt it => ∀ ops, ∃ ws, it.play ops = .ok ws
  | .mapIt it => ∀ ops, ∃ ws, it.play ops = .ok ws
  | _ => True

theorem Askable.ask {a : Argus} (h : Askable a) (q : Query) :
    ∃ r, q.ask a = .ok r ∧ r.1.Usable ∧ Askable r.2 := by
  have bind : ∀ {α β : Type} (x : α) (f : α → Out β), (Out.ok x).bind f = f x := fun _ _ => rfl
  cases q with
  | get path =>
    obtain ⟨r, h1, h2⟩ := h.lookup path
    unfold Query.ask argusGet
    simp only
    rw [h1, Out.ok_bind]
    cases r <;> exact ⟨_, rfl, trivial, h.same rfl rfl rfl⟩
  | isSet path =>
    obtain ⟨r, h1, h2⟩ := h.lookup path
    unfold Query.ask argusIsSet
    simp only
    rw [h1, Out.ok_bind]
    cases r <;> exact ⟨_, rfl, trivial, h⟩
  | count path =>
    obtain ⟨r, h1, h2⟩ := h.lookup path
    unfold Query.ask argusCount
    simp only
    rw [h1, Out.ok_bind]
    cases r <;> exact ⟨_, rfl, trivial, h⟩
  | arrayGet path i =>
    obtain ⟨r, h1, h2⟩ := h.lookup path
    unfold Query.ask argusArrayGet
    simp only
    rw [h1, Out.ok_bind]
    cases r with
    | none => exact ⟨_, rfl, trivial, h.same rfl rfl rfl⟩
    | some o =>
      simp only
      split
      · exact ⟨_, rfl, trivial, h.same rfl rfl rfl⟩
      · rename_i hk
        split
        · exact ⟨_, rfl, trivial, h.same rfl rfl rfl⟩
        · rename_i hi
          obtain ⟨cells, hc⟩ := (h2 o rfl).arr (by
            cases hx : (o.valueType.isArray || o.valueType.isVariadic) with
            | true => rfl
            | false => rw [hx] at hk; simp at hk)
          obtain ⟨w, hw⟩ := hc.read (i := i) (by omega)
          rw [hw, Out.ok_bind]
          exact ⟨_, rfl, trivial, h.same rfl rfl rfl⟩
  | mapGet path key =>
    obtain ⟨r, h1, h2⟩ := h.lookup path
    unfold Query.ask argusMapGet
    simp only
    rw [h1, Out.ok_bind]
    cases r with
    | none => exact ⟨_, rfl, trivial, h.same rfl rfl rfl⟩
    | some o =>
      simp only
      split
      · exact ⟨_, rfl, trivial, h.same rfl rfl rfl⟩
      · rename_i hk
        obtain ⟨es, hc⟩ := (h2 o rfl).map (by simpa using hk)
        obtain ⟨w, hw⟩ := mapSearch_defined (v := o.value) (key := key) (count := o.valueCount)
          (fun i hi => hc.read hi) o.valueCount 0 (by omega)
        rw [hw, Out.ok_bind]
        cases w <;> exact ⟨_, rfl, trivial, h.same rfl rfl rfl⟩
  | arrayIt path =>
    obtain ⟨r, h1, h2⟩ := h.lookup path
    unfold Query.ask argusArrayIt
    simp only
    rw [h1, Out.ok_bind]
    cases r with
    | none => exact ⟨_, rfl, fun ops => arrayPlay_defined ops (by simp), h⟩
    | some o =>
      simp only
      split
      · exact ⟨_, rfl, fun ops => arrayPlay_defined ops (by simp), h⟩
      · rename_i hk
        obtain ⟨cells, hc⟩ := (h2 o rfl).arr (by
            cases hx : (o.valueType.isArray || o.valueType.isVariadic) with
            | true => rfl
            | false => rw [hx] at hk; simp at hk)
        exact ⟨_, rfl, fun ops => arrayPlay_defined ops (fun i hi => hc.read hi), h⟩
  | mapIt path =>
    obtain ⟨r, h1, h2⟩ := h.lookup path
    unfold Query.ask argusMapIt
    simp only
    rw [h1, Out.ok_bind]
    cases r with
    | none => exact ⟨_, rfl, fun ops => mapPlay_defined ops (by simp), h⟩
    | some o =>
      simp only
      split
      · exact ⟨_, rfl, fun ops => mapPlay_defined ops (by simp), h⟩
      · rename_i hk
        obtain ⟨es, hc⟩ := (h2 o rfl).map (by simpa using hk)
        exact ⟨_, rfl, fun ops => mapPlay_defined ops (fun i hi => hc.read hi), h⟩

theorem Askable.askAll : ∀ (qs : List Query) {a : Argus}, Askable a →
    ∃ a', Argus.askAll a qs = .ok a' ∧ Askable a'
  | [], a, h => ⟨_, rfl, h⟩
  | q :: qs, a, h => by
    obtain ⟨r, h1, _, h2⟩ := h.ask q
    unfold Argus.askAll
    rw [h1]
    exact Askable.askAll qs h2

end Argus
