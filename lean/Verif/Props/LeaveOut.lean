import Verif.Lemmas.Between
import Verif.Props.Outcome
import Verif.Props.Takes
import Verif.Props.RoundTrip

/-! # Leaving out and repeating arguments -/

set_option autoImplicit false

namespace Argus

/-! ## One argument more or less on the line -/

theorem posActs_kind {tables : List (List Opt)} {k pos : Nat} {os : List Opt} {arg : Str} {p : Ptr} {y : Option Str} {o : Opt}
    (hk : tables[k]? = some os) (ho : placeAt tables p = some o) (ht : o.type = .option) {rest : List Act} :
    posActs k os pos arg ++ rest ≠ [.give p y] := by
  intro h
  unfold posActs at h
  split at h
  · rename_i o1 i hs
    simp only [List.cons_append, List.nil_append, List.cons.injEq, Act.give.injEq] at h
    obtain ⟨⟨rfl, _⟩, _⟩ := h
    obtain ⟨h1, h2⟩ := slotAt_get hs
    unfold placeAt at ho
    simp only [hk, Option.bind_some, h1, Option.some.injEq] at ho
    subst ho
    rw [h2] at ht; cases ht
  · simp at h

/-- An argument that hands a text to an option leaves the rest of the line as it is. -/
theorem meaning_option_alone {tables : List (List Opt)} {t : Option Nat} {pos : Nat} {only : Bool} {x : Str} {p : Ptr} {y : Option Str}
    {o : Opt} (h : meaning tables t pos only false [x] = [.give p y]) (ho : placeAt tables p = some o) (ht : o.type = .option)
    (post : List Str) : meaning tables t pos only false (x :: post) = .give p y :: meaning tables t pos only false post := by
  have hread : ReadableAlone [Act.give p y] := by
    intro z hz
    rw [List.mem_singleton.1 hz]
    exact ⟨by simp, by simp⟩
  have nil : ∀ (t : Option Nat) (pos : Nat) (only skip : Bool), meaning tables t pos only skip [] = [] := by
    intro t pos only skip; unfold meaning; rfl
  unfold meaning at h
  conv => lhs; unfold meaning
  by_cases h1 : argKind x = .dashes
  · rw [if_pos h1, nil] at h; cases h
  rw [if_neg h1] at h ⊢
  by_cases h2 : argKind x = .short [] ∧ only = false
  · rw [if_pos h2, nil] at h; cases h
  rw [if_neg h2] at h ⊢
  cases t with
  | none => simp at h
  | some k =>
  cases hk : tables[k]? with
  | none => simp [hk] at h
  | some os =>
  simp only [Option.bind_some, hk] at h ⊢
  cases only with
  | true => exact absurd h (posActs_kind hk ho ht)
  | false =>
  simp only [Bool.false_eq_true, if_false] at h ⊢
  cases ha : argKind x with
  | dashes => exact absurd ha h1
  | long name value =>
    simp only [ha, nil, List.head?_nil, List.append_nil] at h ⊢
    rw [longActs_complete (by rw [h]; exact hread), h]
    rfl
  | short cluster =>
    simp only [ha] at h ⊢
    by_cases hneg : negNumber os pos cluster = true
    · rw [if_pos hneg] at h; exact absurd h (posActs_kind hk ho ht)
    · simp only [if_neg hneg, nil, List.head?_nil, List.append_nil] at h ⊢
      rw [shortActs_complete (by rw [h]; exact hread), h]
      rfl
  | word =>
    simp only [ha] at h ⊢
    cases hc : subChoice os x with
    | none => simp only [hc] at h; exact absurd h (posActs_kind hk ho ht)
    | some r =>
      cases r with
      | ok z => simp [hc] at h
      | error c => simp [hc] at h

/-- The argument `x`, read after `pre`, hands `y` to the option at `p`, and does nothing else. -/
structure SaysAt (a : Argus) (pre : List Str) (x : Str) (p : Ptr) (y : Option Str) : Prop where
  complete : ReadableAlone (a.asks pre)
  says : a.asks (pre ++ [x]) = a.asks pre ++ [.give p y]
  option : ∃ o, placeAt a.tables p = some o ∧ o.type = .option

theorem SaysAt.split {a : Argus} {pre : List Str} {x : Str} {p : Ptr} {y : Option Str} (h : SaysAt a pre x p y) :
    ∃ f : List Str → List Act, ∀ post, a.asks (pre ++ post) = a.asks pre ++ f post ∧
      a.asks (pre ++ x :: post) = a.asks pre ++ .give p y :: f post ∧
      a.asks (pre ++ x :: x :: post) = a.asks pre ++ .give p y :: .give p y :: f post := by
  obtain ⟨t, pos, only, hf⟩ := meaning_append a.tables _ pre (Nat.le_refl _) (some a.root) 0 false false (fun h => (nomatch h)) h.complete
  obtain ⟨o, ho, ht⟩ := h.option
  have h1 : meaning a.tables t pos only false [x] = [.give p y] := by
    have := h.says
    unfold Argus.asks at this
    rw [hf] at this
    exact List.append_cancel_left this
  have h2 := meaning_option_alone h1 ho ht
  refine ⟨fun post => meaning a.tables t pos only false post, fun post => ⟨hf post, ?_, ?_⟩⟩
  · unfold Argus.asks; rw [hf, h2]
  · unfold Argus.asks; rw [hf, h2, h2]

/-! ## One entry changed -/

theorem placeAt_change {T : List (List Opt)} {p : Ptr} {o1 : Opt} (hp : placeAt T p = some o1) (o2 : Opt) :
    placeAt (T.modify p.tbl (fun os => os.set p.idx o2)) p = some o2 ∧
    (∀ q, q ≠ p → placeAt (T.modify p.tbl (fun os => os.set p.idx o2)) q = placeAt T q) ∧
    (T.modify p.tbl (fun os => os.set p.idx o2)).map List.length = T.map List.length := by
  unfold placeAt at hp
  obtain ⟨os, h1, h2⟩ := Option.bind_eq_some_iff.1 hp
  refine ⟨?_, fun q hq => ?_, ?_⟩
  · unfold placeAt
    rw [List.getElem?_modify_eq, h1]
    simp only [Option.map_eq_map, Option.map_some, Option.bind_some]
    obtain ⟨hlt, _⟩ := List.getElem?_eq_some_iff.1 h2
    rw [List.getElem?_set_self hlt]
  · unfold placeAt
    by_cases ht : p.tbl = q.tbl
    · rw [← ht, List.getElem?_modify_eq, h1]
      have hi : p.idx ≠ q.idx := fun h => hq (by cases p; cases q; simp only at ht h; rw [ht, h])
      simp only [Option.map_eq_map, Option.map_some, Option.bind_some]
      rw [List.getElem?_set_ne hi]
    · rw [List.getElem?_modify_ne _ _ ht]
  · apply List.ext_getElem?
    intro k
    simp only [List.getElem?_map]
    by_cases hk : p.tbl = k
    · rw [← hk, List.getElem?_modify_eq, h1]; simp
    · rw [List.getElem?_modify_ne _ _ hk]

/-- If a line asks something else of one option only, the outcome differs at that option only, if the levels still hold. -/
theorem accepted_change {W : World} {env : Env} {a : Argus} {args args' : List Str} {T : List (List Opt)} {path : List Ptr} {p : Ptr}
    {o o1 o2 : Opt} (h : Accepted W env a args T path) (hr : ReadableAlone (a.asks args'))
    (hother : ∀ q, q ≠ p → (a.asks args').filterMap (Act.change W q) = (a.asks args).filterMap (Act.change W q))
    (hent : entered (a.asks args') = entered (a.asks args)) (ho : placeAt a.tables p = some o) (ho1 : placeAt T p = some o1)
    (ho2 : Through ((a.asks args').filterMap (Act.change W p) ++
      List.replicate ((pathTables a path).count p.tbl) (LooksUp W env a.envPrefix)) o o2)
    (hl : p.tbl ∈ pathTables a path → ∀ os, T[p.tbl]? = some os → LevelOk W os → LevelOk W (os.set p.idx o2)) :
    Accepted W env a args' (T.modify p.tbl (fun os => os.set p.idx o2)) path := by
  obtain ⟨h1, h2, h3⟩ := placeAt_change ho1 o2
  have level : ∀ k os, k ∈ pathTables a path → T[k]? = some os → LevelOk W os →
      ∃ os', (T.modify p.tbl (fun os => os.set p.idx o2))[k]? = some os' ∧ LevelOk W os' := by
    intro k os hm hk hok
    by_cases he : p.tbl = k
    · subst he
      exact ⟨os.set p.idx o2, by rw [List.getElem?_modify_eq, hk]; rfl, hl hm os hk hok⟩
    · exact ⟨os, by rw [List.getElem?_modify_ne _ _ he]; exact hk, hok⟩
  refine ⟨hr, by rw [hent]; exact h.selected, by rw [hent]; exact h.depth, by rw [h3]; exact h.sizes, fun q oq hq => ?_, ?_, fun q hq => ?_⟩
  · by_cases he : q = p
    · subst he
      rw [ho] at hq; cases hq
      exact ⟨o2, h1, ho2⟩
    · rw [h2 q he, hother q he]; exact h.entries q oq hq
  · obtain ⟨os, g1, g2⟩ := h.root
    exact level _ os (by unfold pathTables; simp) g1 g2
  · obtain ⟨k, os, g1, g2, g3⟩ := h.levels q hq
    obtain ⟨os', e1, e2⟩ := level k os (by
      unfold pathTables
      exact List.mem_cons_of_mem _ (List.mem_filterMap.2 ⟨q, hq, g1⟩)) g2 g3
    exact ⟨k, os', g1, e1, e2⟩

theorem change_other (W : World) {p q : Ptr} (h : q ≠ p) (y : Option Str) : Act.change W q (.give p y) = none := by
  show (if p = q then _ else none) = none
  rw [if_neg (fun e => h e.symm)]

theorem change_own (W : World) (p : Ptr) (y : Option Str) : Act.change W p (.give p y) = some (TakesText W y) := by
  show (if p = p then _ else none) = _
  rw [if_pos rfl]

/-- What is asked of an option is to take texts. -/
theorem change_texts (W : World) (p : Ptr) : ∀ acts : List Act, Act.enter p ∉ acts →
    acts.filterMap (Act.change W p) = (textsOf p acts).map (fun x => TakesText W x)
  | [], _ => rfl
  | x :: acts, h => by
    have ih := change_texts W p acts (fun hm => h (List.mem_cons_of_mem _ hm))
    unfold textsOf at ih ⊢
    cases x with
    | give q y =>
      by_cases hq : q = p
      · simp [Act.change, hq, ih]
      · simp [Act.change, hq, ih]
    | enter q =>
      have hq : q ≠ p := fun he => h (by rw [he]; simp)
      simp [Act.change, hq, ih]
    | fail c => exact ih
    | noTable => exact ih

/-- A level stays in order when an option that nothing requires is not set. -/
theorem levelOk_left_out {W : World} {l r : List Opt} {o1 o2 : Opt} (h : LevelOk W (l ++ o1 :: r)) (hm : o2.meta = o1.meta)
    (ht : o1.type = .option) (hs : o2.isSet = false)
    (hreq : ∀ x ∈ l ++ o1 :: r, x.isSet = true → ∀ n ∈ x.require.getD [], o1.name ≠ some n) : LevelOk W (l ++ o2 :: r) := by
  have e2 : o2.name = o1.name := (congrArg Opt.name hm : o2.meta.name = o1.meta.name)
  have e4 : o2.type = o1.type := (congrArg Opt.type hm : o2.meta.type = o1.meta.type)
  have old : ∀ x ∈ l ++ o2 :: r, x = o2 ∨ x ∈ l ++ o1 :: r := by
    intro x hx
    simp only [List.mem_append, List.mem_cons] at hx ⊢
    rcases hx with hx | hx | hx
    · exact .inr (.inl hx)
    · exact .inl hx
    · exact .inr (.inr (.inr hx))
  -- a name refers to the same entry
  have refers : ∀ n x, Refers (l ++ o2 :: r) n x → (x = o2 ∧ o1.name = some n) ∨ Refers (l ++ o1 :: r) n x := by
    rintro n x ⟨pre, post, h1, h2, h3⟩
    rcases List.append_eq_append_iff.1 h1 with ⟨m, rfl, h4⟩ | ⟨m, rfl, h4⟩
    · cases m with
      | nil =>
        simp only [List.nil_append, List.cons.injEq] at h4
        exact .inl ⟨h4.1.symm, by rw [← e2, h4.1]; exact h2⟩
      | cons z m =>
        simp only [List.cons_append, List.cons.injEq] at h4
        obtain ⟨rfl, rfl⟩ := h4
        refine .inr ⟨l ++ o1 :: m, post, by simp, h2, fun y hy => ?_⟩
        simp only [List.mem_append, List.mem_cons] at hy
        rcases hy with hy | rfl | hy
        · exact h3 y (by simp [hy])
        · rw [← e2]; exact h3 o2 (by simp)
        · exact h3 y (by simp [hy])
    · cases m with
      | nil =>
        simp only [List.nil_append, List.cons.injEq] at h4
        exact .inl ⟨h4.1, by rw [← e2, ← h4.1]; exact h2⟩
      | cons z m =>
        simp only [List.cons_append, List.cons.injEq] at h4
        obtain ⟨rfl, rfl⟩ := h4
        exact .inr ⟨pre, m ++ o1 :: r, by simp, h2, h3⟩
  refine ⟨fun o ho hp hf => ?_, fun o ho hg hset v hv hpost => ?_, fun o ho hg hset n hn x hx => ?_, fun o ho hg hset n hn x hx => ?_,
    fun g mid hgm hx => ?_⟩
  · rcases old o ho with rfl | ho
    · rw [e4, ht] at hp; cases hp
    · exact h.positionals o ho hp hf
  · rcases old o ho with rfl | ho
    · rw [hs] at hset; cases hset
    · exact h.validators o ho hg hset v hv hpost
  · rcases old o ho with rfl | ho
    · rw [hs] at hset; cases hset
    · rcases refers n x hx with ⟨_, hx⟩ | hx
      · exact absurd hx (hreq o ho hset n hn)
      · exact h.requires o ho hg hset n hn x hx
  · rcases old o ho with rfl | ho
    · rw [hs] at hset; cases hset
    · rcases refers n x hx with ⟨rfl, _⟩ | hx
      · exact hs
      · exact h.conflicts o ho hg hset n hn x hx
  · obtain ⟨h1, h2, pre, post, h3⟩ := hgm
    rcases List.append_eq_append_iff.1 h3 with ⟨m, rfl, h4⟩ | ⟨m, rfl, h4⟩
    · cases m with
      | nil =>
        simp only [List.nil_append, List.cons.injEq] at h4
        obtain ⟨rfl, _⟩ := h4
        rw [e4, ht] at h1; cases h1
      | cons z m =>
        simp only [List.cons_append, List.cons.injEq] at h4
        obtain ⟨rfl, rfl⟩ := h4
        exact h.exclusive g mid ⟨h1, h2, l ++ o1 :: m, post, by simp⟩ hx
    · cases m with
      | nil =>
        simp only [List.nil_append, List.cons.injEq] at h4
        obtain ⟨rfl, _⟩ := h4
        rw [e4, ht] at h1; cases h1
      | cons z m =>
        simp only [List.cons_append, List.cons.injEq] at h4
        obtain ⟨rfl, h4⟩ := h4
        rcases List.append_eq_append_iff.1 h4 with ⟨w, rfl, h5⟩ | ⟨w, rfl, h5⟩
        · exact h.exclusive g mid ⟨h1, h2, pre, w ++ o1 :: r, by simp⟩ hx
        · cases w with
          | nil =>
            rw [List.append_nil] at *
            exact h.exclusive g m ⟨h1, h2, pre, o1 :: r, by simp⟩ hx
          | cons z w =>
            simp only [List.cons_append, List.cons.injEq] at h5
            obtain ⟨rfl, rfl⟩ := h5
            have := h.exclusive g (m ++ o1 :: w) ⟨h1, fun x hx => ?_, pre, post, by simp⟩ hx
            · simp only [List.filter_append, List.filter_cons, hs, List.length_append] at this ⊢
              split at this <;> simp_all <;> omega
            · simp only [List.mem_append, List.mem_cons] at hx
              rcases hx with hx | rfl | hx
              · exact h2 x (by simp [hx])
              · rw [ht]; decide
              · exact h2 x (by simp [hx])

/-! ## Texts that are overridden -/

theorem Word.setBool_again (w : Word) (b c : Bool) : (w.setBool c).setBool b = w.setBool b := by
  have h64 : ∀ (v : BitVec 64) (x y : BitVec 64), x &&& 0xFFFFFFFFFFFFFF00#64 = 0 →
      ((v &&& 0xFFFFFFFFFFFFFF00#64 ||| x) &&& 0xFFFFFFFFFFFFFF00#64) ||| y = (v &&& 0xFFFFFFFFFFFFFF00#64) ||| y := by
    intro v x y hx
    congr 1
    rw [BitVec.and_comm, BitVec.and_or_distrib_left, BitVec.and_comm _ x, hx, BitVec.and_comm _ (v &&& _), BitVec.and_assoc, BitVec.and_self]
    exact BitVec.or_zero
  have h32 : ∀ (v : BitVec 32) (x y : BitVec 32), x &&& 0xFFFFFF00#32 = 0 →
      ((v &&& 0xFFFFFF00#32 ||| x) &&& 0xFFFFFF00#32) ||| y = (v &&& 0xFFFFFF00#32) ||| y := by
    intro v x y hx
    congr 1
    rw [BitVec.and_comm, BitVec.and_or_distrib_left, BitVec.and_comm _ x, hx, BitVec.and_comm _ (v &&& _), BitVec.and_assoc, BitVec.and_self]
    exact BitVec.or_zero
  cases w with
  | bits v => exact congrArg Word.bits (h64 v _ _ (by cases c <;> rfl))
  | low v => exact congrArg Word.low (h32 v _ _ (by cases c <;> rfl))
  | _ => rfl

theorem Opt.setBool_again (o : Opt) (b c : Bool) : (o.setBool c).markSet.setBool b = { (o.setBool b) with
    isSet := true, valueCount := if o.valueCount = 0 then 1 else o.valueCount } := by
  cases hv : o.value with
  | word w => simp [Opt.setBool, Opt.markSet, hv, Word.setBool_again]
  | _ => simp [Opt.setBool, Opt.markSet, hv]; try rfl

/-- A value of one of the simple types, or a flag, is replaced whatever it was. -/
theorem give_overwrites {W : World} {o o1 : Opt} {h : Handler} {x y : Option Str} (hh : o.handler = some h)
    (hs : h.isScalar = true ∨ h = .flag) (hg : o.give W x = some o1) : o1.give W y = o.give W y := by
  have hcount : ∀ n : Nat, (if (if n = 0 then 1 else n) = 0 then 1 else (if n = 0 then 1 else n)) = if n = 0 then 1 else n := by
    intro n; split <;> simp_all
  cases h <;> simp only [Handler.isScalar, Bool.false_eq_true, reduceCtorEq, or_false, or_self, or_true] at hs
  all_goals
    unfold Opt.give at hg ⊢
    rw [hh] at hg ⊢
    simp only [runHandler] at hg
  · -- flag
    simp only [if_true, Option.some.injEq] at hg
    subst hg
    have e : (o.setBool true).markSet.handler = some .flag := by
      cases hv : o.value <;> simp [Opt.setBool, Opt.markSet, hv, hh]
    rw [e]
    simp only [runHandler, Opt.setBool_again, if_true, Option.some.injEq]
    cases hv : o.value <;> simp [Opt.setBool, Opt.markSet, hv, hcount]
  · -- bool
    cases x with
    | none => simp [boolHandler, Err.invalidArgument, Err.success] at hg
    | some s =>
      cases hb : stringToBool s with
      | none => simp [boolHandler, hb, Err.invalidArgument, Err.success] at hg
      | some c =>
        simp only [boolHandler, hb, if_true, Option.some.injEq] at hg
        subst hg
        have e : (o.setBool c).markSet.handler = some .bool := by
          cases hv : o.value <;> simp [Opt.setBool, Opt.markSet, hv, hh]
        rw [e]
        simp only [runHandler]
        cases y with
        | none => simp [boolHandler, Err.invalidArgument, Err.success]
        | some s' =>
          cases hb' : stringToBool s' with
          | none => simp [boolHandler, hb', Err.invalidArgument, Err.success]
          | some b =>
            simp only [boolHandler, hb', Opt.setBool_again, if_true, Option.some.injEq]
            cases hv : o.value <;> simp [Opt.setBool, Opt.markSet, hv, hcount]
  · -- string
    simp only [if_true, Option.some.injEq] at hg
    subst hg
    simp [runHandler, Opt.markSet, hh, hcount]
  · -- int
    cases x with
    | none => simp at hg
    | some s =>
      simp only [if_true, Option.some.injEq] at hg
      subst hg
      cases y <;> simp [runHandler, Opt.markSet, hh, hcount]
  · -- float
    cases x with
    | none => simp at hg
    | some s =>
      simp only [if_true, Option.some.injEq] at hg
      subst hg
      cases y <;> simp [runHandler, Opt.markSet, hh, hcount]

theorem give_keeps_meta {W : World} {o o' : Opt} {x : Option Str} (h : o.give W x = some o') : o'.meta = o.meta :=
  giveAll_meta (W := W) [x] (by simp [Opt.giveAll, h])

theorem getOpt_of_place {a b : Argus} {p : Ptr} (h : placeAt b.tables p = placeAt a.tables p) : b.getOpt p = a.getOpt p := by
  have e : ∀ c : Argus, c.getOpt p = match placeAt c.tables p with | some o => .ok o | none => .ub .nullDeref := by
    intro c
    unfold Argus.getOpt placeAt
    cases c.tables[p.tbl]? with
    | none => rfl
    | some os => simp only [Option.bind_some]; cases os[p.idx]? <;> rfl
  rw [e, e, h]

/-- If what is asked of one option amounts to the same, so does the line. -/
theorem accepted_same {W : World} {env : Env} {a : Argus} {args args' : List Str} {T : List (List Opt)} {path : List Ptr} {p : Ptr}
    {o : Opt} (h : Accepted W env a args T path) (hr : ReadableAlone (a.asks args'))
    (hother : ∀ q, q ≠ p → (a.asks args').filterMap (Act.change W q) = (a.asks args).filterMap (Act.change W q))
    (hent : entered (a.asks args') = entered (a.asks args)) (ho : placeAt a.tables p = some o)
    (hp : ∀ (rs : List (Opt → Opt → Prop)) (o' : Opt), Through ((a.asks args).filterMap (Act.change W p) ++ rs) o o' →
      Through ((a.asks args').filterMap (Act.change W p) ++ rs) o o') : Accepted W env a args' T path := by
  refine ⟨hr, by rw [hent]; exact h.selected, by rw [hent]; exact h.depth, h.sizes, fun q oq hq => ?_, h.root, h.levels⟩
  obtain ⟨o', h1, h2⟩ := h.entries q oq hq
  refine ⟨o', h1, ?_⟩
  by_cases he : q = p
  · subst he
    rw [ho] at hq; cases hq
    exact hp _ o' h2
  · rw [hother q he]; exact h2

/-- A simple value does not remember what was there before. -/
theorem takes_overwrites {W : World} {o o1 o2 : Opt} {h : Handler} {x y : Option Str} (hh : o.handler = some h)
    (hs : h.isScalar = true ∨ h = .flag) (hx : TakesText W x o o1) : TakesText W y o1 o2 ↔ TakesText W y o o2 := by
  have hm := give_keeps_meta hx.handled
  have e1 : o1.validators = o.validators := (congrArg Opt.validators hm : o1.meta.validators = o.meta.validators)
  have e2 : o1.flags = o.flags := (congrArg Opt.flags hm : o1.meta.flags = o.meta.flags)
  constructor
  · rintro ⟨h1, h2, h3⟩
    rw [give_overwrites hh hs hx.handled] at h3
    exact ⟨by rw [← e1]; exact h1, by rw [← e2]; exact h2, h3⟩
  · rintro ⟨h1, h2, h3⟩
    rw [← give_overwrites hh hs hx.handled] at h3
    exact ⟨by rw [e1]; exact h1, by rw [e2]; exact h2, h3⟩

theorem through_append_iff : ∀ (rs ss : List (Opt → Opt → Prop)) (o o2 : Opt),
    Through (rs ++ ss) o o2 ↔ ∃ o1, Through rs o o1 ∧ Through ss o1 o2
  | [], ss, o, o2 => ⟨fun h => ⟨o, rfl, h⟩, fun ⟨_, h1, h2⟩ => by cases h1; exact h2⟩
  | r :: rs, ss, o, o2 => by
    constructor
    · rintro ⟨x, h1, h2⟩
      obtain ⟨o1, h3, h4⟩ := (through_append_iff rs ss x o2).1 h2
      exact ⟨o1, ⟨x, h1, h3⟩, h4⟩
    · rintro ⟨o1, ⟨x, h1, h3⟩, h4⟩
      exact ⟨x, h1, (through_append_iff rs ss x o2).2 ⟨o1, h3, h4⟩⟩

theorem through_texts_meta {W : World} : ∀ (xs : List (Option Str)) {o o' : Opt}, Through (xs.map (fun x => TakesText W x)) o o' →
    o'.meta = o.meta
  | [], _, _, h => by cases h; rfl
  | _ :: xs, _, _, ⟨_, h1, h2⟩ => (through_texts_meta xs h2).trans (give_keeps_meta h1.handled)

/-! ## The theorems -/

/-- **C94** Giving a flag or a simple option again the same text right away changes nothing: the line is accepted exactly if it is
    accepted with the argument once, with the same values everywhere and the same command. -/
theorem C94_again (W : World) (env : Env) (a : Argus) (pre post : List Str) (x : Str) (p : Ptr) (y : Option Str) (o : Opt) (h : Handler)
    (T : List (List Opt)) (path : List Ptr) (hx : HelpExits a.tables) (hn : ∀ os ∈ a.tables, AllNamed os) (hsays : SaysAt a pre x p y)
    (ho : a.getOpt p = .ok o) (hh : o.handler = some h) (hs : h.isScalar = true ∨ h = .flag) :
    (∃ a', argusParse W env a (pre ++ x :: post) = .ok (.returned Err.success, a') ∧ a'.tables = T ∧ a'.stack = path) ↔
    (∃ a', argusParse W env a (pre ++ x :: x :: post) = .ok (.returned Err.success, a') ∧ a'.tables = T ∧ a'.stack = path) := by
  rw [C75_success_iff W env a _ T path hx hn, C75_success_iff W env a _ T path hx hn]
  obtain ⟨f, hf⟩ := hsays.split
  obtain ⟨-, e1, e2⟩ := hf post
  have ho' := placeAt_getOpt.2 ho
  obtain ⟨o0, ho0, ht⟩ := hsays.option
  rw [ho'] at ho0; cases ho0
  have hno : Act.enter p ∉ a.asks pre := asks_no_enter ho (by rw [ht]; decide) pre
  have same : ∀ q, q ≠ p → (a.asks (pre ++ x :: x :: post)).filterMap (Act.change W q) =
      (a.asks (pre ++ x :: post)).filterMap (Act.change W q) := by
    intro q hq
    rw [e1, e2]
    simp only [List.filterMap_append, List.filterMap_cons, change_other W hq]
  have hent : entered (a.asks (pre ++ x :: x :: post)) = entered (a.asks (pre ++ x :: post)) := by
    rw [e1, e2]; unfold entered; simp
  have twice : ∀ (o1 o2 : Opt) (rs : List (Opt → Opt → Prop)), o1.meta = o.meta →
      (Through (TakesText W y :: rs) o1 o2 ↔ Through (TakesText W y :: TakesText W y :: rs) o1 o2) := by
    intro o1 o2 rs hm
    have hh1 : o1.handler = some h := (congrArg Opt.handler hm : o1.meta.handler = o.meta.handler).trans hh
    constructor
    · rintro ⟨z, h1, h2⟩
      exact ⟨z, h1, z, (takes_overwrites hh1 hs h1).2 h1, h2⟩
    · rintro ⟨z, h1, z', h2, h3⟩
      exact ⟨z', (takes_overwrites hh1 hs h1).1 h2, h3⟩
  have own : ∀ (rs : List (Opt → Opt → Prop)) (o' : Opt),
      Through ((a.asks (pre ++ x :: post)).filterMap (Act.change W p) ++ rs) o o' ↔
      Through ((a.asks (pre ++ x :: x :: post)).filterMap (Act.change W p) ++ rs) o o' := by
    intro rs o'
    rw [e1, e2]
    simp only [List.filterMap_append, List.filterMap_cons, change_own, List.append_assoc, List.cons_append]
    rw [change_texts W p _ hno, through_append_iff, through_append_iff]
    constructor
    · rintro ⟨o1, h1, h2⟩
      exact ⟨o1, h1, (twice o1 o' _ (through_texts_meta _ h1)).1 h2⟩
    · rintro ⟨o1, h1, h2⟩
      exact ⟨o1, h1, (twice o1 o' _ (through_texts_meta _ h1)).2 h2⟩
  have read : ∀ z, z ∈ a.asks (pre ++ x :: post) ↔ z ∈ a.asks (pre ++ x :: x :: post) := by
    intro z; rw [e1, e2]; simp
  constructor
  · intro hacc
    exact accepted_same hacc (fun z hz => hacc.readable z ((read z).2 hz)) same hent ho' (fun rs o' => (own rs o').1)
  · intro hacc
    exact accepted_same hacc (fun z hz => hacc.readable z ((read z).1 hz)) (fun q hq => (same q hq).symm) hent.symm ho'
      (fun rs o' => (own rs o').2)

/-- **C94** An argument that is overridden later on the line can be left out. -/
theorem C94_overridden (W : World) (env : Env) (a a' : Argus) (pre post : List Str) (x : Str) (p : Ptr) (y : Option Str) (o : Opt)
    (h : Handler) (hx : HelpExits a.tables) (hn : ∀ os ∈ a.tables, AllNamed os) (hsays : SaysAt a pre x p y)
    (ho : a.getOpt p = .ok o) (hh : o.handler = some h) (hs : h.isScalar = true ∨ h = .flag)
    (hlater : (textsOf p (a.asks pre)).length < (textsOf p (a.asks (pre ++ post))).length)
    (hok : argusParse W env a (pre ++ x :: post) = .ok (.returned Err.success, a')) :
    ∃ b, argusParse W env a (pre ++ post) = .ok (.returned Err.success, b) ∧ b.tables = a'.tables ∧ b.stack = a'.stack := by
  have hacc := (C75_success_iff W env a _ _ _ hx hn).1 ⟨a', hok, rfl, rfl⟩
  refine (C75_success_iff W env a _ _ _ hx hn).2 ?_
  obtain ⟨f, hf⟩ := hsays.split
  obtain ⟨e0, e1, -⟩ := hf post
  have ho' := placeAt_getOpt.2 ho
  obtain ⟨o0, ho0, ht⟩ := hsays.option
  rw [ho'] at ho0; cases ho0
  have hno : Act.enter p ∉ a.asks pre := asks_no_enter ho (by rw [ht]; decide) pre
  have hno2 : Act.enter p ∉ f post := fun hm => asks_no_enter ho (by rw [ht]; decide) (pre ++ post) (by rw [e0]; simp [hm])
  have hmore : ∃ z zs, textsOf p (f post) = z :: zs := by
    cases hz : textsOf p (f post) with
    | nil => rw [e0, textsOf_append, hz] at hlater; simp at hlater
    | cons z zs => exact ⟨z, zs, rfl⟩
  obtain ⟨z, zs, hz⟩ := hmore
  refine accepted_same hacc (fun w hw => hacc.readable w ?_) (fun q hq => ?_) ?_ ho' (fun rs o' => ?_)
  · rw [e0] at hw; rw [e1]
    simp only [List.mem_append, List.mem_cons] at hw ⊢
    rcases hw with hw | hw
    · exact .inl hw
    · exact .inr (.inr hw)
  · rw [e0, e1]
    simp only [List.filterMap_append, List.filterMap_cons, change_other W hq]
  · rw [e0, e1]; unfold entered; simp
  · rw [e0, e1]
    simp only [List.filterMap_append, List.filterMap_cons, change_own, List.append_assoc, List.cons_append]
    rw [change_texts W p _ hno, change_texts W p _ hno2, hz, through_append_iff, through_append_iff]
    rintro ⟨o1, h1, o2, h2, o3, h3, h4⟩
    have hm := through_texts_meta _ h1
    have hh1 : o1.handler = some h := (congrArg Opt.handler hm : o1.meta.handler = o.meta.handler).trans hh
    exact ⟨o1, h1, o3, (takes_overwrites hh1 hs h2).1 h3, h4⟩

/-- **C94** What is optional can be left out: the only argument for an option that nothing on the line requires can be omitted, and
    everything else has the same outcome. -/
theorem C94_left_out (W : World) (env : Env) (a a' : Argus) (pre post : List Str) (x : Str) (p : Ptr) (y : Option Str) (o : Opt)
    (hx : HelpExits a.tables) (hn : ∀ os ∈ a.tables, AllNamed os) (hsays : SaysAt a pre x p y)
    (ho : a.getOpt p = .ok o) (hset : o.isSet = false) (honly : textsOf p (a.asks (pre ++ post)) = [])
    (henv : ∀ n, envVarName a.envPrefix o = some n → env n = none)
    (hok : argusParse W env a (pre ++ x :: post) = .ok (.returned Err.success, a'))
    (hreq : ∀ q r n, a'.getOpt q = .ok r → q.tbl = p.tbl → r.isSet = true → n ∈ r.require.getD [] → o.name ≠ some n) :
    ∃ b, argusParse W env a (pre ++ post) = .ok (.returned Err.success, b) ∧ b.getOpt p = .ok o ∧
      (∀ q, q ≠ p → b.getOpt q = a'.getOpt q) ∧ b.stack = a'.stack := by
  have hacc := (C75_success_iff W env a _ _ _ hx hn).1 ⟨a', hok, rfl, rfl⟩
  obtain ⟨f, hf⟩ := hsays.split
  obtain ⟨e0, e1, -⟩ := hf post
  have ho' := placeAt_getOpt.2 ho
  obtain ⟨o0, ho0, ht⟩ := hsays.option
  rw [ho'] at ho0; cases ho0
  obtain ⟨_, _, _, hframe⟩ := argusParse_frame hok
  obtain ⟨o1, ho1, hm⟩ := shape_getOpt hframe.shape ho
  have hnone : (a.asks (pre ++ post)).filterMap (Act.change W p) = [] := by
    rw [change_texts W p _ (asks_no_enter ho (by rw [ht]; decide) _), honly]; rfl
  have hacc2 := accepted_change (args' := pre ++ post) (p := p) (o := o) (o1 := o1) (o2 := o) hacc
    (fun w hw => hacc.readable w (by
      rw [e0] at hw; rw [e1]
      simp only [List.mem_append, List.mem_cons] at hw ⊢
      rcases hw with hw | hw
      · exact .inl hw
      · exact .inr (.inr hw)))
    (fun q hq => by
      rw [e0, e1]
      simp only [List.filterMap_append, List.filterMap_cons, change_other W hq])
    (by rw [e0, e1]; unfold entered; simp) ho' (placeAt_getOpt.2 ho1)
    (by rw [hnone, List.nil_append]; exact through_idle (.inr (.inr (.inr henv))) _)
    (fun _ os hos hlev => by
      obtain ⟨os1, k1, k2⟩ := getOpt_eq_ok.1 ho1
      rw [hos] at k1; cases k1
      obtain ⟨hlt, k3⟩ := List.getElem?_eq_some_iff.1 k2
      have es : os = os.take p.idx ++ o1 :: os.drop (p.idx + 1) := by
        rw [← k3, List.getElem_cons_drop]; exact (List.take_append_drop ..).symm
      rw [List.set_eq_take_append_cons_drop, if_pos hlt]
      refine levelOk_left_out (o1 := o1) (by rw [← es]; exact hlev) hm.symm
        ((congrArg Opt.type hm : o1.meta.type = o.meta.type).trans ht) hset (fun r hr hrs n hrn => ?_)
      rw [← es] at hr
      obtain ⟨j, hj, rfl⟩ := List.mem_iff_getElem.1 hr
      have := hreq ⟨p.tbl, j⟩ os[j] n (getOpt_eq_ok.2 ⟨os, hos, List.getElem?_eq_getElem hj⟩) rfl hrs hrn
      exact fun hc => this ((congrArg Opt.name hm : o1.meta.name = o.meta.name).symm.trans hc))
  obtain ⟨b, g1, g2, g3⟩ := (C75_success_iff W env a _ _ _ hx hn).2 hacc2
  obtain ⟨q1, q2, _⟩ := placeAt_change (placeAt_getOpt.2 ho1) o
  refine ⟨b, g1, placeAt_getOpt.1 (by rw [g2]; exact q1), fun q hq => ?_, g3⟩
  have hq' := q2 q hq
  rw [← g2] at hq'
  exact getOpt_of_place hq'

/-! ## Collections -/

theorem eraseDups_more {α : Type} [BEq α] [LawfulBEq α] {xs ys : List α} (h : ∀ y ∈ ys, y ∈ xs) : (xs ++ ys).eraseDups = xs.eraseDups := by
  rw [List.eraseDups_append]
  have : ys.removeAll xs = [] := by
    unfold List.removeAll
    refine List.filter_eq_nil_iff.2 (fun y hy => ?_)
    simp [h y hy]
  rw [this]
  simp

/-- **C94** For a list of texts with FLAG_UNIQUE: texts that bring nothing new do not change the list. -/
theorem C94_unique_again (W : World) (env : Env) (a a' b' : Argus) (args args' : List Str) (p : Ptr) (o : Opt) (part : Str → List Str)
    (ts us : List Str) (hg : GivenTexts W env a args a' p o ts) (hg' : GivenTexts W env a args' b' p o (ts ++ us))
    (hc : CollectsStrings o part) (hf : o.Fresh) (hfirst : ∀ t ∈ ts.head?, part t ≠ []) (hu : o.flags.has .unique = true)
    (hold : ∀ u ∈ us, ∀ s ∈ part u, ∃ t ∈ ts, s ∈ part t) :
    ∃ o1 o2 shown, a'.getOpt p = .ok o1 ∧ b'.getOpt p = .ok o2 ∧ o1.Strings shown ∧ o2.Strings shown := by
  obtain ⟨o1, e1, e2⟩ := hg.result
  obtain ⟨o2, e1', e2'⟩ := hg'.result
  have hfirst' : ∀ t ∈ (ts ++ us).head?, part t ≠ [] := by
    cases ts with
    | nil => exact absurd rfl hg.given
    | cons t ts => exact hfirst
  obtain ⟨q1, xs, f1, f2, f3, _⟩ := strings_after W hc hf hg.given hfirst
  obtain ⟨q2, ys, f1', f2', f3', _⟩ := strings_after W hc hf hg'.given hfirst'
  rw [e1] at f1; cases f1
  rw [e1'] at f1'; cases f1'
  have hmem : ∀ s, s ∈ ys ↔ s ∈ xs := by
    intro s
    rw [f3.mem, f3'.mem, List.flatMap_append, List.mem_append]
    refine ⟨fun h => h.elim id (fun h => ?_), .inl⟩
    obtain ⟨u, hu, hs⟩ := List.mem_flatMap.1 h
    obtain ⟨t, h1, h2⟩ := hold u hu s hs
    exact List.mem_flatMap.2 ⟨t, h1, h2⟩
  have heq : ys = xs := by
    cases hs : o.flags.has .sorted with
    | false =>
      rw [f3.firsts hu hs, f3'.firsts hu hs, eraseDups_str, eraseDups_str, List.flatMap_append]
      refine eraseDups_more (fun s h => ?_)
      obtain ⟨u, hu, hs⟩ := List.mem_flatMap.1 h
      obtain ⟨t, h1, h2⟩ := hold u hu s hs
      exact List.mem_flatMap.2 ⟨t, h1, h2⟩
    | true =>
      have hp : ys.Perm xs := (List.perm_ext_iff_of_nodup (f3'.nodup hu) (f3.nodup hu)).2 hmem
      exact hp.eq_of_pairwise (le := fun x y => x ≤ y) (fun x y _ _ h1 h2 => List.le_antisymm h1 h2) (f3'.sorted hs) (f3.sorted hs)
  exact ⟨o1, o2, xs, e2, e2', f2, heq ▸ f2'⟩

theorem occurrencePairs_append {W : World} {vt : ValueType} : ∀ {ts us : List Str} {pss : List (List (Str × MVal))},
    OccurrencePairs W vt (ts ++ us) pss → ∃ p1 p2, pss = p1 ++ p2 ∧ OccurrencePairs W vt ts p1 ∧ OccurrencePairs W vt us p2
  | [], _, pss, h => ⟨[], pss, rfl, rfl, h⟩
  | _ :: ts, us, _, ⟨ps, pss', h1, h2, h3⟩ => by
    obtain ⟨p1, p2, e, g1, g2⟩ := occurrencePairs_append h3
    exact ⟨ps :: p1, p2, by rw [h1, e]; rfl, ⟨ps, p1, rfl, h2, g1⟩, g2⟩

/-- **C94** For a map: pairs given again right away leave every key with its value and bring no new key. -/
theorem C94_map_again (W : World) (env : Env) (a a' b' : Argus) (args args' : List Str) (p : Ptr) (o : Opt) (vt : ValueType)
    (ts : List Str) (u : Str) (hg : GivenTexts W env a args a' p o (ts ++ [u])) (hg' : GivenTexts W env a args' b' p o (ts ++ [u, u]))
    (hm : IsMapOption o vt) (hf : o.Fresh) (hfirst : StartsWell (ts ++ [u])) (hu : o.flags.has .uniqueValue = false) :
    ∃ o1 o2 es es', a'.getOpt p = .ok o1 ∧ b'.getOpt p = .ok o2 ∧ o1.Pairs es ∧ o2.Pairs es' ∧ es'.Perm es := by
  have hfirst' : StartsWell (ts ++ [u, u]) := by
    cases ts with
    | nil => exact hfirst
    | cons t ts => exact hfirst
  obtain ⟨o1, pss, es, g1, g2, g3, g4, g5, _⟩ := C18_last_write_wins_partial W env a a' args p o vt _ hg hm hf hfirst hu
  obtain ⟨o2, pss', es', g1', g2', g3', g4', g5', _⟩ := C18_last_write_wins_partial W env a b' args' p o vt _ hg' hm hf hfirst' hu
  refine ⟨o1, o2, es, es', g1, g1', g3, g3', ?_⟩
  obtain ⟨x1, x2, rfl, h1, ps, _, rfl, h2, rfl⟩ := occurrencePairs_append g2
  obtain ⟨y1, y2, rfl, h1', qs, _, rfl, h2', qs', _, rfl, h3', rfl⟩ := occurrencePairs_append g2'
  have e0 : ∀ (k : Str), lastFor k ((y1 ++ [qs, qs']).flatten) = lastFor k ((x1 ++ [ps]).flatten) := by
    have a1 : y1 = x1 := occurrencePairs_unique h1' h1
    have a2 : qs = ps := pairTexts_unique h2' h2
    have a3 : qs' = ps := pairTexts_unique h3' h2
    rw [a1, a2, a3]
    intro k
    unfold lastFor
    simp only [List.flatten_append, List.flatten_cons, List.flatten_nil, List.append_nil, List.reverse_append, List.find?_append]
    cases ps.reverse.find? (fun p => decide (p.1 = k)) <;> simp
  refine (List.perm_ext_iff_of_nodup (nodup_of_keys g4') (nodup_of_keys g4)).2 (fun q => ?_)
  rw [show q = (q.1, q.2) from rfl, g5, g5', e0]

/-- An array without FLAG_UNIQUE does remember: `--tags=a --tags=a` are two elements. -/
theorem C94_array_remembers : ∃ a' o', argusParse Sample.world Sample.noEnv
      (argusInit [[helpOption, optArrayString 116 (some c!"tags")]] c!"prog" none) [c!"--tags=a", c!"--tags=a"] =
      .ok (.returned Err.success, a') ∧ a'.getOpt ⟨0, 1⟩ = .ok o' ∧ o'.Strings [c!"a", c!"a"] := by
  obtain ⟨a', h⟩ : ∃ a', argusParse Sample.world Sample.noEnv
      (argusInit [[helpOption, optArrayString 116 (some c!"tags")]] c!"prog" none) [c!"--tags=a", c!"--tags=a"] =
      .ok (.returned Err.success, a') := ⟨_, rfl⟩
  have hg : GivenTexts Sample.world Sample.noEnv _ _ a' ⟨0, 1⟩ (optArrayString 116 (some c!"tags")) [c!"a", c!"a"] :=
    ⟨h, rfl, by decide, by decide +kernel, by simp⟩
  obtain ⟨o1, e1, e2⟩ := hg.result
  obtain ⟨o', shown, f1, f2, f3, _⟩ := strings_after Sample.world (o := optArrayString 116 (some c!"tags")) (.array rfl rfl) ⟨rfl, rfl⟩ hg.given (by decide)
  rw [e1] at f1; cases f1
  refine ⟨a', o1, h, e2, ?_⟩
  rw [f3.plain rfl rfl] at f2
  exact f2

/-! ## Cases -/

theorem sample_says {pre : List Str} {x : Str} {p : Ptr} {y : Option Str} {o : Opt} {a : Argus} (h1 : a.asks (pre ++ [x]) = a.asks pre ++ [.give p y])
    (h2 : (a.asks pre).all (fun z => match z with | .give _ _ => true | .enter _ => true | _ => false) = true)
    (ho : placeAt a.tables p = some o) (ht : o.type = .option) : SaysAt a pre x p y := by
  refine ⟨fun z hz => ?_, h1, o, ho, ht⟩
  have := List.all_eq_true.1 h2 z hz
  cases z <;> simp_all

/-- `prog -v --num=4 --num=4 f` is as good as `prog -v --num=4 f`. -/
example (T : List (List Opt)) (path : List Ptr) :
    (∃ a', argusParse Sample.world Sample.noEnv Sample.prog [c!"-v", c!"--num=4", c!"f"] = .ok (.returned Err.success, a') ∧
      a'.tables = T ∧ a'.stack = path) ↔
    (∃ a', argusParse Sample.world Sample.noEnv Sample.prog [c!"-v", c!"--num=4", c!"--num=4", c!"f"] =
      .ok (.returned Err.success, a') ∧ a'.tables = T ∧ a'.stack = path) :=
  C94_again Sample.world Sample.noEnv Sample.prog [c!"-v"] [c!"f"] c!"--num=4" ⟨0, 3⟩ (some c!"4") _ .int T path
    (helpExits_of_mem (by decide +kernel)) (by unfold AllNamed; decide +kernel)
    (sample_says (by decide +kernel) (by decide +kernel) rfl rfl) rfl rfl (.inl rfl)

/-- In `prog -v -ox --num=4 --output=y f` the first file can be left out. -/
example : ∃ a' b, argusParse Sample.world Sample.noEnv Sample.prog [c!"-v", c!"-ox", c!"--num=4", c!"--output=y", c!"f"] =
      .ok (.returned Err.success, a') ∧
    argusParse Sample.world Sample.noEnv Sample.prog [c!"-v", c!"--num=4", c!"--output=y", c!"f"] = .ok (.returned Err.success, b) ∧
    b.tables = a'.tables := by
  obtain ⟨a', h⟩ : ∃ a', argusParse Sample.world Sample.noEnv Sample.prog [c!"-v", c!"-ox", c!"--num=4", c!"--output=y", c!"f"] =
      .ok (.returned Err.success, a') := ⟨_, rfl⟩
  obtain ⟨b, h1, h2, _⟩ := C94_overridden Sample.world Sample.noEnv Sample.prog a' [c!"-v"] [c!"--num=4", c!"--output=y", c!"f"] c!"-ox" ⟨0, 2⟩
    (some c!"x") _ .string (helpExits_of_mem (by decide +kernel)) (by unfold AllNamed; decide +kernel)
    (sample_says (by decide +kernel) (by decide +kernel) rfl rfl) rfl rfl (.inl rfl) (by decide +kernel) h
  exact ⟨a', b, h, h1, h2⟩

/-- And in `prog -v --num=4 f` the number. -/
example : ∃ a' b, argusParse Sample.world Sample.noEnv Sample.prog [c!"-v", c!"--num=4", c!"f"] = .ok (.returned Err.success, a') ∧
    argusParse Sample.world Sample.noEnv Sample.prog [c!"-v", c!"f"] = .ok (.returned Err.success, b) ∧
    b.getOpt ⟨0, 3⟩ = .ok (optInt 110 (some c!"num")) ∧ b.getOpt ⟨0, 7⟩ = a'.getOpt ⟨0, 7⟩ := by
  obtain ⟨a', h⟩ : ∃ a', argusParse Sample.world Sample.noEnv Sample.prog [c!"-v", c!"--num=4", c!"f"] =
      .ok (.returned Err.success, a') := ⟨_, rfl⟩
  obtain ⟨b, h1, h2, h3, _⟩ := C94_left_out Sample.world Sample.noEnv Sample.prog a' [c!"-v"] [c!"f"] c!"--num=4" ⟨0, 3⟩
    (some c!"4") (optInt 110 (some c!"num")) (helpExits_of_mem (by decide +kernel)) (by unfold AllNamed; decide +kernel)
    (sample_says (by decide +kernel) (by decide +kernel) rfl rfl) rfl rfl (by decide +kernel) (fun _ _ => rfl) h
    (fun q r n hq ht hs hn => by
      obtain ⟨_, _, _, hframe⟩ := argusParse_frame h
      obtain ⟨o0, g1, g2⟩ := shape_getOpt hframe.shape.symm hq
      have e : r.require = o0.require := (congrArg Opt.require g2.symm : r.meta.require = o0.meta.require)
      have : ∀ os ∈ Sample.prog.tables, ∀ o ∈ os, o.require.getD [] = [] := by decide +kernel
      obtain ⟨os, k1, k2⟩ := getOpt_eq_ok.1 g1
      rw [e, this os (List.mem_of_getElem? k1) o0 (List.mem_of_getElem? k2)] at hn
      cases hn)
  exact ⟨a', b, h, h1, h2, h3 _ (by decide)⟩

/-- A program with a list of texts without doubles, a map, and an option that requires another. -/
def leaveOutProg : Argus := argusInit [[helpOption, { optArrayString 116 (some c!"tags") with flags := 2 ^ Flag.unique.bit },
  optMapInt 109 (some c!"map"), { optFlag 97 (some c!"all") with require := some [c!"map"] }]] c!"prog" none

/-- `--tags=a,b --tags=b` collects what `--tags=a,b` collects. -/
example : ∃ a' b' o1 o2 shown, argusParse Sample.world Sample.noEnv leaveOutProg [c!"--tags=a,b"] = .ok (.returned Err.success, a') ∧
    argusParse Sample.world Sample.noEnv leaveOutProg [c!"--tags=a,b", c!"-tb"] = .ok (.returned Err.success, b') ∧
    a'.getOpt ⟨0, 1⟩ = .ok o1 ∧ b'.getOpt ⟨0, 1⟩ = .ok o2 ∧ o1.Strings shown ∧ o2.Strings shown := by
  obtain ⟨a', h⟩ : ∃ a', argusParse Sample.world Sample.noEnv leaveOutProg [c!"--tags=a,b"] = .ok (.returned Err.success, a') := ⟨_, rfl⟩
  obtain ⟨b', h'⟩ : ∃ a', argusParse Sample.world Sample.noEnv leaveOutProg [c!"--tags=a,b", c!"-tb"] =
    .ok (.returned Err.success, a') := ⟨_, rfl⟩
  obtain ⟨o1, o2, shown, r⟩ := C94_unique_again Sample.world Sample.noEnv leaveOutProg a' b' _ _ ⟨0, 1⟩ _ _ [c!"a,b"] [c!"b"]
    ⟨h, rfl, by decide, by decide +kernel, by simp⟩ ⟨h', rfl, by decide, by decide +kernel, by simp⟩
    (.array rfl rfl) ⟨rfl, rfl⟩ (by decide) (by decide) (by decide)
  exact ⟨a', b', o1, o2, shown, h, h', r⟩

/-- `--map=x=1 --map=x=1` holds what `--map=x=1` holds. -/
example : ∃ a' b' o1 o2 es es', argusParse Sample.world Sample.noEnv leaveOutProg [c!"-my=2", c!"--map=x=1"] = .ok (.returned Err.success, a') ∧
    argusParse Sample.world Sample.noEnv leaveOutProg [c!"-my=2", c!"--map=x=1", c!"--map=x=1"] = .ok (.returned Err.success, b') ∧
    a'.getOpt ⟨0, 2⟩ = .ok o1 ∧ b'.getOpt ⟨0, 2⟩ = .ok o2 ∧ o1.Pairs es ∧ o2.Pairs es' ∧ es'.Perm es := by
  obtain ⟨a', h⟩ : ∃ a', argusParse Sample.world Sample.noEnv leaveOutProg [c!"-my=2", c!"--map=x=1"] = .ok (.returned Err.success, a') := ⟨_, rfl⟩
  obtain ⟨b', h'⟩ : ∃ a', argusParse Sample.world Sample.noEnv leaveOutProg [c!"-my=2", c!"--map=x=1", c!"--map=x=1"] =
    .ok (.returned Err.success, a') := ⟨_, rfl⟩
  obtain ⟨o1, o2, es, es', r⟩ := C94_map_again Sample.world Sample.noEnv leaveOutProg a' b' _ _ ⟨0, 2⟩ _ .mapInt [c!"y=2"] c!"x=1"
    ⟨h, rfl, by decide, by decide +kernel, by simp⟩ ⟨h', rfl, by decide, by decide +kernel, by simp⟩
    (.int rfl rfl) ⟨rfl, rfl⟩ (by unfold StartsWell; decide) (by decide)
  exact ⟨a', b', o1, o2, es, es', h, h', r⟩

/-- What something set requires cannot be left out: `prog --all` fails although `prog --all --map=x=1` is accepted. -/
theorem C94_required_stays : (∃ a', argusParse Sample.world Sample.noEnv leaveOutProg [c!"--all", c!"--map=x=1"] =
      .ok (.returned Err.success, a')) ∧
    ¬ ∃ a', argusParse Sample.world Sample.noEnv leaveOutProg [c!"--all"] = .ok (.returned Err.success, a') := by
  refine ⟨⟨_, rfl⟩, ?_⟩
  rintro ⟨a', h⟩
  obtain ⟨e, a1, h1⟩ : ∃ e a1, argusParse Sample.world Sample.noEnv leaveOutProg [c!"--all"] = .ok (.returned e, a1) ∧ e ≠ Err.success :=
    ⟨_, _, rfl, by decide⟩
  rw [h1.1] at h
  injection h with h; injection h with h _; injection h with h
  exact h1.2 h

end Argus
