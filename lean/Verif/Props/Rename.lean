import Verif.Lemmas.Rename
import Verif.Props.Explicit

/-!
# C99: names are only names

`NamedOtherwise N a b`: the program `b` is `a` with other names for its options, groups, positionals and subcommands, with
lists of required and conflicting options that follow the names, with other environment variables and other texts.
-/

set_option autoImplicit false

namespace Argus

variable {N : Naming}

/-- **C99** If a line asks the one program for what another line asks the renamed program for, the outcome is the same in all
    environments that say the same under the old and the new variables: same end, same kinds of messages, same
    subcommands, same error code, and the options at the same places hold the same. -/
theorem C99_names_do_not_matter (W : World) (a b : Argus) (args args' : List Str) (hd : N.Distinct) (hw : MindsNoNames N W)
    (h : NamedOtherwise N a b) (he : b.asks args' = a.asks args) (w : ParseEnd) (a' : Argus)
    (ha : argusParse W N.env a args = .ok (w, a')) :
    ∃ b', argusParse W N.env' b args' = .ok (w, b') ∧ b'.out = a'.out ∧ b'.stack = a'.stack ∧
      b'.errorCode = a'.errorCode ∧ b'.tables.map List.length = a'.tables.map List.length ∧
      ∀ p o, a'.getOpt p = .ok o → ∃ o', b'.getOpt p = .ok o' ∧ o'.value = o.value ∧ o'.isSet = o.isSet ∧
        o'.valueCount = o.valueCount ∧ Renamed N o o' := by
  have key := named_argusParse hw hd h he
  rw [ha] at key
  cases hb : argusParse W N.env' b args' with
  | ub u => rw [hb] at key; exact key.elim
  | ok r =>
    rw [hb] at key
    obtain ⟨h1, h2⟩ := key
    simp only at h1 h2
    refine ⟨r.2, by rw [← h1], h2.out, h2.stack, h2.errorCode, h2.sizes, fun p o ho => ?_⟩
    rcases h2.getOpt p with ⟨x, x', h3, h4, h5⟩ | ⟨u, h3, _⟩
    · rw [ho] at h3; cases h3
      exact ⟨x', h4, h5.value, h5.isSet, h5.valueCount, h5⟩
    · rw [ho] at h3; cases h3

/-- **C99** Undefined behaviour does not depend on the names, either. -/
theorem C99_names_do_not_matter_ub (W : World) (a b : Argus) (args args' : List Str) (hd : N.Distinct) (hw : MindsNoNames N W)
    (h : NamedOtherwise N a b) (he : b.asks args' = a.asks args) (u : Ub) (ha : argusParse W N.env a args = .ub u) :
    argusParse W N.env' b args' = .ub u := by
  have key := named_argusParse hw hd h he
  rw [ha] at key
  cases hb : argusParse W N.env' b args' with
  | ub v => rw [hb] at key; rw [show u = v from key]
  | ok r => rw [hb] at key; exact key.elim

/-! ### Lines that are spelled out -/

theorem slotAt_typed {f : Opt → Opt} (ht : ∀ o, (f o).type = o.type) (hv : ∀ o, (f o).valueType = o.valueType)
    (os : List Opt) (k : Nat) : slotAt (os.map f) k = (slotAt os k).map (fun x => (f x.1, x.2)) := by
  unfold slotAt
  rw [List.zipIdx_map, List.filter_map, slotBy_map]
  have h1 : (fun x : Opt × Nat => decide (x.1.type = .positional)) ∘ Prod.map f id =
      fun x => decide (x.1.type = .positional) := by funext x; simp [ht]
  have h2 : (fun x : Opt × Nat => x.1.valueType.isVariadic) ∘ Prod.map f id =
      fun x => x.1.valueType.isVariadic := by funext x; simp [hv]
  rw [h1, h2]; rfl

theorem renamedRow_typed : ∀ {os os' : List Opt}, RenamedRow N os os' →
    os'.map (fun o => ({ type := o.type, valueType := o.valueType } : Opt)) =
      os.map (fun o => ({ type := o.type, valueType := o.valueType } : Opt))
  | [], [], _ => rfl
  | o :: os, o' :: os', ⟨h1, h2⟩ => by
    simp only [List.map_cons, h1.type, h1.valueType, renamedRow_typed h2]
  | [], _ :: _, h => h.elim
  | _ :: _, [], h => h.elim

theorem renamedRow_slot {os os' : List Opt} (h : RenamedRow N os os') {pos i : Nat} {o : Opt}
    (hs : slotAt os pos = some (o, i)) : ∃ o', slotAt os' pos = some (o', i) ∧ Renamed N o o' := by
  have key := congrArg (fun l => (slotAt l pos).map (·.2)) (renamedRow_typed h)
  simp only [slotAt_typed (f := fun o => ({ type := o.type, valueType := o.valueType } : Opt)) (fun _ => rfl) (fun _ => rfl),
    hs, Option.map_map, Option.map_some] at key
  cases hs' : slotAt os' pos with
  | none => rw [hs'] at key; cases key
  | some x =>
    rw [hs'] at key
    simp only [Option.map_some, Option.some.injEq, Function.comp] at key
    obtain ⟨o', i'⟩ := x
    simp only at key
    subst key
    obtain ⟨x, h1, h2⟩ := renamedRow_get h i' o (slotAt_get hs).1
    rw [(slotAt_get hs').1] at h1
    cases h1
    exact ⟨o', rfl, h2⟩

theorem Explicit.rename {a b : Argus} (h : NamedOtherwise N a b) (hc : AllCalled b.tables) {t : Option Nat} {pos : Nat}
    {only : Bool} {args : List Str} {acts : List Act} (he : Explicit a.tables t pos only args acts)
    (hf : FreeWords b.tables acts) : ∃ args', Explicit b.tables t pos only args' acts ∧ args'.length = args.length := by
  have tail : ∀ {x : Act} {xs : List Act}, FreeWords b.tables (x :: xs) → FreeWords b.tables xs :=
    fun hx p y os o hm => hx p y os o (List.mem_cons_of_mem _ hm)
  induction he with
  | done t pos only => exact ⟨[], .done t pos only, rfl⟩
  | stop t pos rest acts _ ih =>
    obtain ⟨r, h1, h2⟩ := ih hf
    exact ⟨_, .stop t pos r acts h1, by simp [h2]⟩
  | flag t pos os name i o rest acts hk hn hv _ _ _ _ ih =>
    obtain ⟨r, h1, h2⟩ := ih (tail hf)
    obtain ⟨os', hk', hr⟩ := h.row hk
    obtain ⟨o', hi, ho⟩ := renamedRow_get hr i o hn.1
    obtain ⟨name', g1, g2, g3, g4⟩ := hc.long os' (List.mem_of_getElem? hk') i o' hi (by rw [ho.type]; exact hn.2.1.1)
    exact ⟨_, .flag t pos os' name' i o' r acts hk' g1 (by rw [ho.valueType]; exact hv) g2 g3 g4 h1, by simp [h2]⟩
  | value t pos os name v i o rest acts hk hn hv _ _ _ _ ih =>
    obtain ⟨r, h1, h2⟩ := ih (tail hf)
    obtain ⟨os', hk', hr⟩ := h.row hk
    obtain ⟨o', hi, ho⟩ := renamedRow_get hr i o hn.1
    obtain ⟨name', g1, g2, g3, g4⟩ := hc.long os' (List.mem_of_getElem? hk') i o' hi (by rw [ho.type]; exact hn.2.1.1)
    exact ⟨_, .value t pos os' name' v i o' r acts hk' g1 (by rw [ho.valueType]; exact hv) g2 g3 g4 h1, by simp [h2]⟩
  | command t pos os name i o rest acts hk _ hn hm _ ih =>
    obtain ⟨r, h1, h2⟩ := ih (tail hf)
    obtain ⟨os', hk', hr⟩ := h.row hk
    obtain ⟨o', hi, ho⟩ := renamedRow_get hr i o hm.1.1
    have hty : o'.type = .subcommand := by rw [ho.type]; exact hm.1.2.1.1
    obtain ⟨name', g1, g2⟩ := hc.subs os' (List.mem_of_getElem? hk') i o' hi hty
    refine ⟨_, .command t pos os' name' i o' r acts hk'
      (hc.plain os' (List.mem_of_getElem? hk') o' (List.mem_of_getElem? hi) hty name' g1) g1 g2 ?_, by simp [h2]⟩
    rw [ho.subOptions]; exact h1
  | word t pos os arg i o rest acts hk hdash _ hs _ ih =>
    obtain ⟨r, h1, h2⟩ := ih (tail hf)
    obtain ⟨os', hk', hr⟩ := h.row hk
    obtain ⟨o', hs', ho⟩ := renamedRow_slot hr hs
    exact ⟨_, .word t pos os' arg i o' r acts hk' hdash
      (hf ⟨t, i⟩ arg os' o' (List.mem_cons_self ..) hk' (slotAt_get hs').1 (slotAt_get hs').2) hs' h1, by simp [h2]⟩
  | number t pos os arg i o rest acts hk hn hs _ ih =>
    obtain ⟨r, h1, h2⟩ := ih (tail hf)
    obtain ⟨os', hk', hr⟩ := h.row hk
    obtain ⟨o', hs', ho⟩ := renamedRow_slot hr hs
    obtain ⟨hd, x, j, hx, hv⟩ := hn
    rw [hs] at hx; cases hx
    exact ⟨_, .number t pos os' arg i o' r acts hk' ⟨hd, o', i, hs', by rw [ho.valueType]; exact hv⟩ hs' h1, by simp [h2]⟩
  | after t pos os arg i o rest acts hk hn hs _ ih =>
    obtain ⟨r, h1, h2⟩ := ih (tail hf)
    obtain ⟨os', hk', hr⟩ := h.row hk
    obtain ⟨o', hs', ho⟩ := renamedRow_slot hr hs
    exact ⟨_, .after t pos os' arg i o' r acts hk' hn hs' h1, by simp [h2]⟩

/-- **C99** A spelled-out line is translated word by word: with the new name for each name and everything else as it is, it
    has the same outcome for the renamed program as the line had for the old one. -/
theorem C99_translated (a b : Argus) (args : List Str) (acts : List Act) (hd : N.Distinct) (h : NamedOtherwise N a b)
    (hc : AllCalled b.tables) (he : Explicit a.tables (some a.root) 0 false args acts) (hf : FreeWords b.tables acts) :
    ∃ args', args'.length = args.length ∧ Explicit b.tables (some b.root) 0 false args' acts ∧
      args.filter (fun x => x != c!"--") = acts.map (Act.spelled a.tables) ∧
      args'.filter (fun x => x != c!"--") = acts.map (Act.spelled b.tables) ∧
      ∀ (W : World), MindsNoNames N W → ∀ w a', argusParse W N.env a args = .ok (w, a') →
        ∃ b', argusParse W N.env' b args' = .ok (w, b') ∧ b'.out = a'.out ∧ b'.stack = a'.stack ∧
          ∀ p o, a'.getOpt p = .ok o → ∃ o', b'.getOpt p = .ok o' ∧ o'.value = o.value ∧ o'.isSet = o.isSet ∧
            o'.valueCount = o.valueCount := by
  obtain ⟨args', h1, h2⟩ := Explicit.rename h hc he hf
  have hr : b.root = a.root := h.root
  rw [← hr] at h1
  refine ⟨args', h2, h1, he.form, h1.form, fun W hw w a' ha => ?_⟩
  have hsame : b.asks args' = a.asks args := by
    exact h1.written.reads.1.trans he.written.reads.1.symm
  obtain ⟨b', g1, g2, g3, _, _, g4⟩ := C99_names_do_not_matter W a b args args' hd hw h hsame w a' ha
  refine ⟨b', g1, g2, g3, fun p o ho => ?_⟩
  obtain ⟨o', k1, k2, k3, k4, _⟩ := g4 p o ho
  exact ⟨o', k1, k2, k3, k4⟩

/-- **C99** Nothing can be asked of the one program that cannot be asked of the other: for every line that the one accepts there is
    a line that the other accepts, with the same values. -/
theorem C99_accepted (W : World) (a b a' : Argus) (args : List Str) (hd : N.Distinct) (hw : MindsNoNames N W)
    (h : NamedOtherwise N a b) (hl : LongNamed a.tables) (hp : PlainSubs a.tables) (hc : AllCalled b.tables)
    (hf : FreeWords b.tables (a.asks args)) (hok : argusParse W N.env a args = .ok (.returned Err.success, a')) :
    ∃ args' b', argusParse W N.env' b args' = .ok (.returned Err.success, b') ∧ b'.stack = a'.stack ∧
      ∀ p o, a'.getOpt p = .ok o → ∃ o', b'.getOpt p = .ok o' ∧ o'.value = o.value ∧ o'.isSet = o.isSet ∧
        o'.valueCount = o.valueCount := by
  obtain ⟨line, he, hline⟩ := C91_accepted W N.env a a' args hl hp hok
  obtain ⟨args', _, _, _, _, g⟩ := C99_translated a b line _ hd h hc he hf
  obtain ⟨b', k1, _, k2, k3⟩ := g W hw _ a' hline
  exact ⟨args', b', k1, k2, k3⟩

/-! ### Reading the options -/

theorem named_findNameIn (hd : N.Distinct) {a b : Argus} (h : NamedOtherwise N a b) (t : Option Nat) (n : Str) :
    b.findNameIn t (N.name n) = a.findNameIn t n := by
  unfold Argus.findNameIn Argus.table
  cases t with
  | none => rfl
  | some k =>
    simp only
    cases hk : a.tables[k]? with
    | none => rw [h.noRow hk]; rfl
    | some os =>
      obtain ⟨os', h1, h2⟩ := h.row hk
      rw [h1]
      simp only [Out.ok_bind, findName_renamed hd h2]

theorem named_findRelative (hd : N.Distinct) {a b : Argus} (h : NamedOtherwise N a b) (n : Str) : ∀ ps : List Ptr,
    b.findRelative (N.name n) ps = a.findRelative n ps
  | [] => by
    unfold Argus.findRelative
    rw [h.root]; exact named_findNameIn hd h _ n
  | p :: ps => by
    unfold Argus.findRelative
    rcases h.getOpt p with ⟨o, o', h1, h2, h3⟩ | ⟨u, h1, h2⟩
    · rw [h1, h2]
      simp only [Out.ok_bind, h3.subOptions, named_findNameIn hd h, named_findRelative hd h n ps]
    · rw [h1, h2]; rfl

/-- **C99** After both parses the program reads the same under the new name as under the old one. -/
theorem C99_same_answers (W : World) (a b : Argus) (args args' : List Str) (hd : N.Distinct) (hw : MindsNoNames N W)
    (h : NamedOtherwise N a b) (he : b.asks args' = a.asks args) (w w' : ParseEnd) (a' b' : Argus)
    (ha : argusParse W N.env a args = .ok (w, a')) (hb : argusParse W N.env' b args' = .ok (w', b')) (name : Str)
    (hn : (46 : Byte) ∉ name) (hn' : (46 : Byte) ∉ N.name name) :
    (do let r ← argusGet b' (N.name name); Out.ok r.1) = (do let r ← argusGet a' name; Out.ok r.1) ∧
    (do let r ← argusIsSet b' (N.name name); Out.ok r.1) = (do let r ← argusIsSet a' name; Out.ok r.1) ∧
    (do let r ← argusCount b' (N.name name); Out.ok r.1) = (do let r ← argusCount a' name; Out.ok r.1) := by
  have hk := named_argusParse hw hd h he
  rw [ha, hb] at hk
  have h2 : NamedOtherwise N a' b' := hk.2
  have hpath : b'.findPath (N.name name) = a'.findPath name := by
    unfold Argus.findPath
    have e1 : name.contains 46 = false := by simpa using hn
    have e2 : (N.name name).contains 46 = false := by simpa using hn'
    rw [e1, e2, h2.stack]
    exact named_findRelative hd h2 name _
  have key : (∃ u, a'.lookup name = .ub u ∧ b'.lookup (N.name name) = .ub u) ∨
      (a'.lookup name = .ok none ∧ b'.lookup (N.name name) = .ok none) ∨
      ∃ o o', a'.lookup name = .ok (some o) ∧ b'.lookup (N.name name) = .ok (some o') ∧ Renamed N o o' := by
    unfold Argus.lookup
    rw [hpath]
    cases a'.findPath name with
    | ub u => exact .inl ⟨u, rfl, rfl⟩
    | ok q =>
      cases q with
      | none => exact .inr (.inl ⟨rfl, rfl⟩)
      | some p =>
        simp only [Out.ok_bind]
        rcases h2.getOpt p with ⟨o, o', h1, h2, h3⟩ | ⟨u, h1, h2⟩
        · rw [h1, h2]; exact .inr (.inr ⟨o, o', rfl, rfl, h3⟩)
        · rw [h1, h2]; exact .inl ⟨u, rfl, rfl⟩
  unfold argusGet argusIsSet argusCount
  rcases key with ⟨u, e1, e2⟩ | ⟨e1, e2⟩ | ⟨o, o', e1, e2, hr⟩
  · rw [e1, e2]; exact ⟨rfl, rfl, rfl⟩
  · rw [e1, e2]; exact ⟨rfl, rfl, rfl⟩
  · rw [e1, e2]
    simp only [Out.ok_bind, hr.value, hr.isSet, hr.valueCount]
    exact ⟨trivial, trivial, trivial⟩

/-! ### A case -/

/-- Subcommands none of which begins with the name of a later one can be called by their names. -/
theorem allCalled_subs {tables : List (List Opt)}
    (hn : ∀ os ∈ tables, ∀ o ∈ os, o.type = .subcommand → o.name.isSome = true)
    (hd : ∀ os ∈ tables, os.Pairwise fun x y => ∀ n m, x.type = .subcommand → x.name = some n → y.name = some m → ¬ m <+: n) :
    ∀ os ∈ tables, ∀ (i : Nat) (o : Opt), os[i]? = some o → o.type = .subcommand →
      ∃ name, o.name = some name ∧ MeantSub os name i o := by
  intro os hos i o ho hty
  obtain ⟨name, hname⟩ := Option.isSome_iff_exists.1 (hn os hos o (List.mem_of_getElem? ho) hty)
  refine ⟨name, hname, ⟨ho, ⟨hty, [], by simpa using hname⟩, ?_⟩, .inl hname⟩
  rintro j o' hj ho' ⟨hty', rest, hn'⟩
  obtain ⟨hj', e1⟩ := List.getElem?_eq_some_iff.1 ho'
  obtain ⟨hi', e2⟩ := List.getElem?_eq_some_iff.1 ho
  have := List.pairwise_iff_getElem.1 (hd os hos) j i hj' hi' hj (name ++ rest) name (e1 ▸ hty') (e1 ▸ hn') (e2 ▸ hname)
  exact this (List.prefix_append ..)

theorem freeWords_of {tables : List (List Opt)} {acts : List Act}
    (h : acts.all (fun x => match x with
      | .give p (some x) => (tables[p.tbl]?.getD []).all fun o => o.type != .subcommand || !x.isPrefixOf (o.name.getD [])
      | _ => true) = true) : FreeWords tables acts := by
  rintro p x os o hm hk _ _ o' ho' ⟨hty, rest, hn⟩
  have h1 := List.all_eq_true.1 h _ hm
  simp only [hk, Option.getD_some] at h1
  have h2 := List.all_eq_true.1 h1 o' ho'
  have h3 : x.isPrefixOf (x ++ rest) = true := List.isPrefixOf_iff_prefix.2 (List.prefix_append ..)
  rw [hty, hn] at h2
  simp only [Option.getD_some, h3] at h2
  exact absurd h2 (by decide)

/-- Every name of the sample program gets an `x` in front, short names are gone, and variables begin with `NEW_`. -/
def Sample.naming : Naming where
  name s := c!"x" ++ s
  env := fun n => if n = c!"PORT" then some c!"81" else none
  env' := fun n => if n = c!"NEW_PORT" then some c!"81" else none
  envPrefix := none
  envPrefix' := some c!"NEW"

/-- The entry with its new names. -/
def Opt.exed (o : Opt) : Opt :=
  { o with name := o.name.map Sample.naming.name, lname := o.lname.map Sample.naming.name, sname := 0,
           require := o.require.map (·.map Sample.naming.name), conflict := o.conflict.map (·.map Sample.naming.name) }

/-- The sample program with its new names. -/
def Sample.exed : Argus :=
  { Sample.prog with tables := Sample.prog.tables.map (·.map Opt.exed), envPrefix := some c!"NEW" }

theorem exed_distinct : Sample.naming.Distinct := fun _ _ h => List.append_cancel_left h

theorem exed_named : NamedOtherwise Sample.naming Sample.prog Sample.exed := by
  refine ⟨by decide +kernel, fun p o ho => ?_, rfl, rfl, rfl⟩
  obtain ⟨os, h1, h2⟩ := Option.bind_eq_some_iff.1 ho
  have key : ∀ os ∈ Sample.prog.tables, ∀ o ∈ os, (envVarName (some c!"NEW") o.exed).bind Sample.naming.env' =
      (envVarName none o).bind Sample.naming.env := by decide +kernel
  exact ⟨o.exed, by simp [placeAt, Sample.exed, h1, h2], rfl, fun f _ => rfl, rfl, rfl, rfl,
    key os (List.mem_of_getElem? h1) o (List.mem_of_getElem? h2)⟩

theorem exed_called : AllCalled Sample.exed.tables := by
  refine ⟨longNamed_of_distinct ?_ ?_, ?_, allCalled_subs (by decide +kernel) ?_⟩
  · have : ∀ os ∈ Sample.exed.tables, ∀ o ∈ os, o.type = .option →
        o.lname.any (fun name => name != [] && decide (name.length ≤ 63) && !name.contains 61) = true := by decide +kernel
    intro os hos o ho hty
    have h := this os hos o ho hty
    cases hl : o.lname with
    | none => rw [hl] at h; simp at h
    | some name =>
      rw [hl] at h
      simp only [Option.any_some, Bool.and_eq_true, bne_iff_ne, ne_eq, decide_eq_true_eq, Bool.not_eq_true',
        List.contains_eq_mem, decide_eq_false_iff_not] at h
      exact ⟨name, rfl, h.1.1, h.1.2, h.2⟩
  · have : ∀ os ∈ Sample.exed.tables, os.Pairwise fun x y => x.lname = none ∨ x.lname ≠ y.lname := by decide +kernel
    intro os hos
    refine (this os hos).imp ?_
    intro x y h l hl hy
    rcases h with h | h
    · rw [h] at hl; exact absurd hl (by simp)
    · exact h (hl.trans hy.symm)
  · have : ∀ os ∈ Sample.exed.tables, ∀ o ∈ os, o.type = .subcommand → (o.name.all fun name => name.head? != some 45) = true := by
      decide +kernel
    intro os hos o ho hty name hn
    have h := this os hos o ho hty
    rw [hn] at h; simpa using h
  · have : ∀ os ∈ Sample.exed.tables, os.Pairwise fun x y =>
        x.type ≠ .subcommand ∨ (y.name.getD []).isPrefixOf (x.name.getD []) = false := by decide +kernel
    intro os hos
    refine (this os hos).imp ?_
    intro x y h n m hx hn hm hp
    rcases h with h | h
    · exact h hx
    · rw [hn, hm] at h
      have : m.isPrefixOf n = true := List.isPrefixOf_iff_prefix.2 hp
      rw [show (some m).getD [] = m from rfl, show (some n).getD [] = n from rfl, this] at h
      cases h

theorem sample_mindsNoNames : MindsNoNames Sample.naming Sample.world := by
  refine ⟨fun id o o' x h => ?_, fun id o o' h => rfl⟩
  show (⟨Err.success, o'.value, o'.isAllocated, o'.valueCount, o'.valueCapacity, none⟩ : CustomResult) = _
  rw [h.value, h.isAllocated, h.valueCount, h.valueCapacity]
  rfl

/-- The line of the example. -/
def Sample.oldLine : List Str := [c!"-vn", c!"5", c!"add", c!"-f", c!"3", c!"x", c!"y"]
/-- Its translation. -/
def Sample.newLine : List Str := [c!"--xverbose", c!"--xnum=5", c!"xadd", c!"--xforce", c!"3", c!"x", c!"y"]

/-- `prog -vn 5 add -f 3 x y` asks for the same as `prog --xverbose --xnum=5 xadd --xforce 3 x y` does after the change of
    names, both are accepted, and the port comes from `PORT` and `NEW_PORT`. -/
example : Sample.exed.asks Sample.newLine = Sample.prog.asks Sample.oldLine ∧
    (∃ a', argusParse Sample.world Sample.naming.env Sample.prog Sample.oldLine = .ok (.returned Err.success, a')) ∧
    (argusParse Sample.world Sample.naming.env Sample.prog Sample.oldLine).toOption.bind
        (fun r => (argusGet r.2 c!"port").toOption.map (·.1)) = some (.word (.bits 81)) ∧
    (argusParse Sample.world Sample.naming.env' Sample.exed Sample.newLine).toOption.bind
        (fun r => (argusGet r.2 c!"xport").toOption.map (·.1)) = some (.word (.bits 81)) ∧
    FreeWords Sample.exed.tables (Sample.prog.asks Sample.oldLine) ∧
    ∃ args' b', argusParse Sample.world Sample.naming.env' Sample.exed args' = .ok (.returned Err.success, b') := by
  have hf : FreeWords Sample.exed.tables (Sample.prog.asks Sample.oldLine) := freeWords_of (by decide +kernel)
  refine ⟨by decide +kernel, ⟨_, rfl⟩, by decide +kernel, by decide +kernel, hf, ?_⟩
  have key : ∀ a', argusParse Sample.world Sample.naming.env Sample.prog Sample.oldLine = .ok (.returned Err.success, a') →
      ∃ args' b', argusParse Sample.world Sample.naming.env' Sample.exed args' = .ok (.returned Err.success, b') := by
    intro a' h
    obtain ⟨args', b', h1, _⟩ := C99_accepted Sample.world Sample.prog Sample.exed a' _ exed_distinct sample_mindsNoNames
      exed_named prog_longNamed prog_plainSubs exed_called hf h
    exact ⟨args', b', h1⟩
  obtain ⟨a', h⟩ : ∃ a', argusParse Sample.world Sample.naming.env Sample.prog Sample.oldLine =
      .ok (.returned Err.success, a') := ⟨_, rfl⟩
  exact key a' h

end Argus
