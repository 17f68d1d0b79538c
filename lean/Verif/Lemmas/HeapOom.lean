import Verif.Lemmas.HeapLife

/-!
# Lemmas: handlers in memory when allocations fail
-/

set_option autoImplicit false

namespace Argus

variable {γ : Type}

/-- A store that takes failing allocations. -/
def SafeStore (K : Coll γ) (elem : Str → Option γ) (fH : HOpt → Heap → Str → Out MRes) : Prop :=
  ∀ (base : Nat → Option Blk) (h : Heap) (ho : HOpt) (cs : List γ) (s : Str), Rep K base h ho cs →
    ∃ st ho' h' cs', fH ho h s = .ok (st, ho', h') ∧ Rep K base h' ho' cs' ∧
      ((st = Err.success ∧ ∃ c, elem s = some c ∧ cs' = cs ++ [c]) ∨ (st = Err.memory ∧ cs' = cs) ∨
        (st = Err.invalidValue ∧ elem s = none ∧ cs' = cs))

theorem setStringH_safe {A : Allocator} (hA : A.Grows) : SafeStore (arrColl .string 1) (fun s => some (.ptr s)) (setStringH A) := by
  intro base h ho cs s r
  unfold setStringH
  obtain ⟨ho1, h1, e1, e2, e3, e4⟩ := adjustH_rep hA r
  rw [e1, Out.ok_bind]
  rcases e4 with ⟨e4, e5, e6⟩ | ⟨_, _, e5, _⟩
  · rw [if_neg (by show ho1.o.valueCapacity ≠ 0; omega)]
    have n2 := e2.base_free h1.next (Nat.le_refl _)
    rcases malloc_cases A h1 (.text s) with ⟨_, e⟩ | ⟨_, e⟩
    · have r1 := e2.malloc (.text s) (h1.calls + 1)
      have hl : less (upd base h1.next (some (Blk.text s))) (Row.addrs [.addr h1.next]) = base := by
        show upd (upd base h1.next _) h1.next none = base
        rw [upd_upd, upd_same _ _ _ n2]
      obtain ⟨h2, e6, e7⟩ := storeH_rep r1 e4 e5 [.addr h1.next] (.ptr s)
        (by simp [Cell.word, upd_self, arrColl]) ⟨h1.next, [], rfl, rfl⟩ rfl (by simp [Row.addrs, Cell.addr?])
        (by simp [Row.addrs, Cell.addr?, upd_self])
      rw [hl] at e7
      refine ⟨Err.success, _, h2, _, ?_, e7, .inl ⟨rfl, _, rfl, rfl⟩⟩
      simp only [e, e6, Out.ok_bind]
    · refine ⟨Err.memory, ho1, { h1 with calls := h1.calls + 1 }, cs, ?_, ?_, .inr (.inl ⟨rfl, rfl⟩)⟩
      · simp only [e]
      · exact e2.other (fun _ p => p.calls _) (fun _ _ _ _ => rfl)
  · rw [if_pos e5]
    exact ⟨Err.memory, ho1, h1, cs, rfl, e2, .inr (.inl ⟨rfl, rfl⟩)⟩

theorem setNumH_safe {k : CellKind} {A : Allocator} (hA : A.Grows) {conv : Str → Option Word}
    (hc : ∀ v w, conv v = some w → k.readable w = true) : SafeStore (arrColl k 0) conv (setNumH A conv) := by
  intro base h ho cs s r
  unfold setNumH
  obtain ⟨ho1, h1, e1, e2, e3, e4⟩ := adjustH_rep hA r
  rw [e1, Out.ok_bind]
  rcases e4 with ⟨e4, e5, e6⟩ | ⟨_, _, e5, _⟩
  · rw [if_neg (by show ho1.o.valueCapacity ≠ 0; omega)]
    cases hv : conv s with
    | none => exact ⟨Err.invalidValue, ho1, h1, cs, rfl, e2, .inr (.inr ⟨rfl, rfl, rfl⟩)⟩
    | some w =>
      obtain ⟨h2, e6, e7⟩ := storeH_rep e2 e4 e5 [.data w] w rfl ⟨w, rfl⟩ (hc s w hv) List.nodup_nil (fun x hx => nomatch hx)
      refine ⟨Err.success, _, h2, _, ?_, e7, .inl ⟨rfl, w, rfl, rfl⟩⟩
      simp only [e6, Out.ok_bind]
  · rw [if_pos e5]
    exact ⟨Err.memory, ho1, h1, cs, rfl, e2, .inr (.inl ⟨rfl, rfl⟩)⟩

/-- The loop over the pieces. -/
theorem setAllH_safe {K : Coll γ} {elem : Str → γ} {fH : HOpt → Heap → Str → Out MRes}
    (hf : SafeStore K (fun s => some (elem s)) fH) {ws : List Str} {p : Nat} {as : List Nat} {base0 base1 : Nat → Option Blk}
    (hs : SplitAt base0 base1 ws p as) :
    ∀ (rest : List Str) (i fuel : Nat) {h : Heap} {ho : HOpt} {cs : List γ},
    ws.drop i = rest → i ≤ ws.length → rest.length < fuel → Rep K base1 h ho cs →
    ∃ st ho' h' cs', setAllH fH p fuel i ho h = .ok (st, ho', h') ∧ Rep K base1 h' ho' cs' ∧
      ((st = Err.success ∧ cs' = cs ++ rest.map elem) ∨
        (st = Err.memory ∧ ∃ l, l <+: rest ∧ cs' = cs ++ l.map elem))
  | [], i, fuel, h, ho, cs, hd, hi, hfu, r => by
    obtain ⟨fuel, rfl⟩ : ∃ n, fuel = n + 1 := ⟨fuel - 1, by simp at hfu; omega⟩
    have hlen : as.length = ws.length := by simpa using congrArg List.length hs.texts
    have hpl : h.live p = base1 p := r.live_base (hs.live p (by simp))
    refine ⟨Err.success, ho, h, cs, ?_, r, .inl ⟨rfl, by simp⟩⟩
    unfold setAllH
    rw [(wordAt_split hs hpl i).2 (by have := drop_nil_le hd; omega), Out.ok_bind, if_pos rfl]
  | s :: rest, i, fuel, h, ho, cs, hd, hi, hfu, r => by
    obtain ⟨fuel, rfl⟩ : ∃ n, fuel = n + 1 := ⟨fuel - 1, by simp at hfu; omega⟩
    obtain ⟨hi1, hd1⟩ := drop_cons hd
    have hmono : ∀ x, base1 x ≠ none → h.live x = base1 x := fun x hx => r.live_base hx
    obtain ⟨a, ha, hab⟩ := splitAt_word hs i s hi1
    have hw := (wordAt_split hs (hmono p (hs.live p (by simp))) i).1 a ha
    have hc : (Cell.addr a).word h = .ok (.ptr s) := by
      simp only [Cell.word, hmono a (by rw [hab]; simp), hab]
    obtain ⟨st, ho1, h1, cs1, e1, e2, e3⟩ := hf base1 h ho cs s r
    have hstep : setAllH fH p (fuel + 1) i ho h =
        if st ≠ Err.success then .ok (st, ho1, h1) else setAllH fH p fuel (i + 1) ho1 h1 := by
      rw [setAllH, hw, Out.ok_bind, if_neg (by simp), hc, Out.ok_bind]
      simp only [Word.strD, Word.asString, e1, Out.ok_bind]
    rw [hstep]
    rcases e3 with ⟨rfl, c, hc', rfl⟩ | ⟨rfl, rfl⟩ | ⟨_, h', _⟩
    · simp only [Option.some.injEq] at hc'
      subst hc'
      rw [if_neg (by simp)]
      obtain ⟨st2, ho2, h2, cs2, g1, g2, g3⟩ := setAllH_safe hf hs rest (i + 1) fuel hd1
        (by have := (List.getElem?_eq_some_iff.1 hi1).1; omega) (by simp at hfu; omega) e2
      refine ⟨st2, ho2, h2, cs2, g1, g2, ?_⟩
      rcases g3 with ⟨g3, rfl⟩ | ⟨g3, l, g4, rfl⟩
      · exact .inl ⟨g3, by simp⟩
      · exact .inr ⟨g3, s :: l, (List.cons_prefix_cons).2 ⟨rfl, g4⟩, by simp⟩
    · rw [if_pos (by decide)]
      exact ⟨Err.memory, ho1, h1, cs1, rfl, e2, .inr ⟨rfl, [], List.nil_prefix, by simp⟩⟩
    · simp at h'

theorem storePartsH_safe {K : Coll γ} {elem : Str → γ} {fH : HOpt → Heap → Str → Out MRes} (A : Allocator)
    (hf : SafeStore K (fun s => some (elem s)) fH) (v : Str) {base : Nat → Option Blk} {h : Heap} {ho : HOpt} {cs : List γ}
    (r : Rep K base h ho cs) :
    ∃ st ho' h' cs', storePartsH A fH ho h v = .ok (st, ho', h') ∧ Rep K base h' ho' cs' ∧
      ((st = Err.success ∧ cs' = cs ++ (pieces v).map elem) ∨
        (st = Err.memory ∧ ∃ l, l <+: pieces v ∧ cs' = cs ++ l.map elem)) := by
  unfold storePartsH pieces
  by_cases hc : 44 ∈ v
  · rw [if_pos hc, if_pos (by simpa using hc), split_comma]
    rcases splitH_rep A ((fields (· == 44) v).filter (· ≠ [])) r with ⟨p, as, h1, base1, e1, e2, e3⟩ | ⟨h1, i, _, e1, e2⟩
    · rw [e1]
      obtain ⟨st, ho', h2, cs', g1, g2, g3⟩ := setAllH_safe hf e2 _ 0
        (((fields (· == 44) v).filter (· ≠ [])).length + 1) rfl (Nat.zero_le _) (Nat.lt_succ_self _) e3
      have hlen : as.length = ((fields (· == 44) v).filter (· ≠ [])).length := by
        simpa using congrArg List.length e2.texts
      obtain ⟨h3, e4, r4⟩ := freeSplitH_rep (n := ((fields (· == 44) v).filter (· ≠ [])).length + 1) (by omega)
        e2.words e2.nodup (fun a ha => e2.live a (by simp [ha])) g2
      have hb : less base1 (p :: as) = base := e2.less
      refine ⟨st, ho', h3, cs', ?_, ?_, g3⟩
      · simp only [Out.ok_bind, g1, e4]
      · rw [hb] at r4; exact r4
    · rw [e1]
      exact ⟨Err.memory, ho, h1, cs, rfl, e2, .inr ⟨rfl, [], List.nil_prefix, by simp⟩⟩
  · rw [if_neg hc, if_neg (by simpa using hc)]
    obtain ⟨st, ho', h', cs', e1, e2, e3⟩ := hf base h ho cs v r
    refine ⟨st, ho', h', cs', e1, e2, ?_⟩
    rcases e3 with ⟨rfl, c, hc', rfl⟩ | ⟨rfl, rfl⟩ | ⟨_, h', _⟩
    · simp only [Option.some.injEq] at hc'
      subst hc'
      exact .inl ⟨rfl, by simp⟩
    · exact .inr ⟨rfl, [], List.nil_prefix, by simp⟩
    · simp at h'

theorem Rep.arrHolds {k : CellKind} {n : Nat} {base : Nat → Option Blk} {h : Heap} {ho : HOpt} {cs : List Word}
    (r : Rep (arrColl k n) base h ho cs) (hk : ho.o.valueType.arrayKind = some k) (b : Bool) (hb : b = true → cs ≠ []) :
    ArrHolds k b (ho.abs (arrColl k n) cs) := by
  refine ⟨hk, cs, ⟨r.count, ?_⟩, r.good, hb⟩
  rcases r.mem with ⟨h1, h2, _⟩ | ⟨a, l, h1, _, h3, h4, h5, _⟩
  · exact .inl ⟨h2, by rw [HOpt.abs_none h1]⟩
  · have hp : ho.ptr ≠ none := by rw [h1]; simp
    refine .inr ⟨by rw [HOpt.abs_some hp]; rfl, ?_, h4⟩
    show cs.length ≤ ho.o.valueCapacity
    omega

/-- The flags leave something of what there was. -/
theorem arrayFlags_safe (W : World) {k : CellKind} {n : Nat} (hn : ArrN k n) {base : Nat → Option Blk} {h : Heap} {ho : HOpt}
    {cs : List Word} (r : Rep (arrColl k n) base h ho cs) (hk : ho.o.valueType.arrayKind = some k) (hne : cs ≠ []) :
    ∃ ho' h' cs', arrayFlagsH W ho h = .ok (ho', h') ∧ Rep (arrColl k n) base h' ho' cs' ∧ cs' ≠ [] := by
  obtain ⟨ho', h', cs', e1, e2, e3⟩ := arrayFlags_sim W hn r hk
  obtain ⟨o', f1, f2⟩ := applyArrayFlags_keeps W true _ (r.arrHolds hk true (fun _ => hne))
  rw [e1] at f1
  simp only [Out.ok.injEq] at f1
  subst f1
  refine ⟨ho', h', cs', e2, e3, ?_⟩
  obtain ⟨_, cells, g1, _, g2⟩ := f2
  have hc := g2 rfl
  rcases g1.val with ⟨g3, _⟩ | ⟨g3, _⟩
  · exact absurd g3 hc
  · by_cases hp : ho'.ptr = none
    · rw [HOpt.abs_none hp] at g3; simp [Val.null] at g3
    · rw [HOpt.abs_some hp] at g3
      have h4 : Val.arr cs' = Val.arr cells := g3
      cases h4
      exact hc

/-- The handlers that check their allocations. -/
inductive CheckedHandler : Handler → Prop
  | arrayString : CheckedHandler .arrayString
  | variadicString : CheckedHandler .variadicString
  | variadicInt : CheckedHandler .variadicInt
  | variadicFloat : CheckedHandler .variadicFloat

theorem collectH_safe (W : World) {k : CellKind} {n : Nat} (hn : ArrN k n) {store : HOpt → Heap → Str → Out MRes}
    (hkeep : KeepsH store) {base : Nat → Option Blk} {h : Heap} {ho : HOpt} (hk : ho.o.valueType.arrayKind = some k) {v : Str}
    (hs : ∃ st ho' h' cs', store ho h v = .ok (st, ho', h') ∧ Rep (arrColl k n) base h' ho' cs' ∧
      ((st = Err.success ∧ cs' ≠ []) ∨ st = Err.memory ∨ st = Err.invalidValue)) :
    ∃ st ho' h' cs', collectH store (arrayFlagsH W) ho h v = .ok (st, ho', h') ∧ Rep (arrColl k n) base h' ho' cs' ∧
      ((st = Err.success ∧ cs' ≠ []) ∨ st = Err.memory ∨ st = Err.invalidValue) ∧ Outcome st ho ho' := by
  obtain ⟨st, ho1, h1, cs1, e1, e2, e3⟩ := hs
  have k1 := hkeep _ _ _ _ _ _ e1
  unfold collectH
  rw [e1, Out.ok_bind]
  by_cases hst : st = Err.success
  · subst hst
    have hne : cs1 ≠ [] := by
      rcases e3 with ⟨_, h⟩ | h | h
      · exact h
      · exact absurd h (by decide)
      · exact absurd h (by decide)
    obtain ⟨ho2, h2, cs2, f1, f2, f3⟩ := arrayFlags_safe W hn e2 (by rw [k1.type]; exact hk) hne
    rw [if_neg (by simp), f1, Out.ok_bind]
    exact ⟨_, _, _, cs2, rfl, f2.same rfl rfl rfl, .inl ⟨rfl, f3⟩, .inr ⟨rfl, ho2, k1.trans (arrayFlagsH_kept f1), rfl⟩⟩
  · rw [if_pos (by simpa using hst)]
    refine ⟨st, ho1, h1, cs1, rfl, e2, ?_, .inl ⟨hst, k1⟩⟩
    rcases e3 with ⟨h, _⟩ | h
    · exact absurd h hst
    · exact .inr h

theorem checked_step (W : World) {A : Allocator} (hA : A.Grows) {hd : Handler} {vt : ValueType} {fh : FreeHandler} {k : CellKind}
    {n : Nat} (H : ArrHandler hd vt fh k n) (C : CheckedHandler hd) {base : Nat → Option Blk} {h : Heap} {ho : HOpt}
    {cs : List Word} (r : Rep (arrColl k n) base h ho cs) (hvt : ho.o.valueType = vt) {v : Str} (hT : hd.splits = true → cs = [] → pieces v ≠ []) :
    ∃ st ho' h' cs', runHandlerH W A hd ho h v = .ok (st, ho', h') ∧ Rep (arrColl k n) base h' ho' cs' ∧
      ((st = Err.success ∧ cs' ≠ []) ∨ st = Err.memory ∨ st = Err.invalidValue) ∧ Outcome st ho ho' := by
  have single : ∀ {k : CellKind} {n : Nat} {elem : Str → Option Word} {f : HOpt → Heap → Str → Out MRes} {cs : List Word},
      SafeStore (arrColl k n) elem f → Rep (arrColl k n) base h ho cs →
      ∃ st ho' h' cs', f ho h v = .ok (st, ho', h') ∧ Rep (arrColl k n) base h' ho' cs' ∧
        ((st = Err.success ∧ cs' ≠ []) ∨ st = Err.memory ∨ st = Err.invalidValue) := by
    intro k n elem f cs hf r
    obtain ⟨st, ho', h', cs', e1, e2, e3⟩ := hf base h ho cs v r
    refine ⟨st, ho', h', cs', e1, e2, ?_⟩
    rcases e3 with ⟨h1, c, _, rfl⟩ | ⟨h1, _⟩ | ⟨h1, _⟩
    · exact .inl ⟨h1, by simp⟩
    · exact .inr (.inl h1)
    · exact .inr (.inr h1)
  cases C with
  | arrayString =>
    cases H
    refine collectH_safe W (.inl ⟨rfl, rfl⟩) (storePartsH_keeps A (setStringH_keeps A)) (by rw [hvt]; rfl) ?_
    obtain ⟨st, ho', h', cs', e1, e2, e3⟩ := storePartsH_safe A (elem := fun s => .ptr s) (setStringH_safe hA) v r
    refine ⟨st, ho', h', cs', e1, e2, ?_⟩
    rcases e3 with ⟨h1, rfl⟩ | ⟨h1, _⟩
    · refine .inl ⟨h1, ?_⟩
      by_cases hc : cs = []
      · have := hT rfl hc
        simp [this]
      · simp [hc]
    · exact .inr (.inl h1)
  | variadicString =>
    cases H
    exact collectH_safe W (.inl ⟨rfl, rfl⟩) (setStringH_keeps A) (by rw [hvt]; rfl) (single (setStringH_safe hA) r)
  | variadicInt =>
    cases H
    exact collectH_safe W (.inr ⟨by decide, rfl⟩) (setNumH_keeps A _) (by rw [hvt]; rfl)
      (single (setNumH_safe hA variadicIntConv_readable) r)
  | variadicFloat =>
    cases H
    exact collectH_safe W (.inr ⟨by decide, rfl⟩) (setNumH_keeps A _) (by rw [hvt]; rfl)
      (single (setNumH_safe hA (variadicFloatConv_readable W)) r)

theorem life_safe (W : World) {A : Allocator} (hA : A.Grows) {hd : Handler} {vt : ValueType} {fh : FreeHandler} {k : CellKind}
    {n : Nat} (H : ArrHandler hd vt fh k n) (C : CheckedHandler hd) {base : Nat → Option Blk} : ∀ (ts : List Str) (h : Heap)
    (ho : HOpt) (cs : List Word), Rep (arrColl k n) base h ho cs → ho.o.valueType = vt →
    (hd.splits = true → cs = [] → ∀ t, ts.head? = some t → pieces t ≠ []) →
    ∃ st ho' h' cs', giveAllH W A hd ho h ts = .ok (st, ho', h') ∧ Rep (arrColl k n) base h' ho' cs' ∧ Fixed ho ho' ∧
      (st = Err.success ∨ st = Err.memory ∨ st = Err.invalidValue) ∧ (st = Err.success → ts ≠ [] → ho'.o.isAllocated = true)
  | [], h, ho, cs, r, _, _ => ⟨Err.success, ho, h, cs, rfl, r, Fixed.refl _, .inl rfl, fun _ h' => absurd rfl h'⟩
  | t :: ts, h, ho, cs, r, hvt, hT => by
    obtain ⟨st, ho1, h1, cs1, e1, e2, e3, e4⟩ := checked_step W hA H C r hvt (fun hs hc => hT hs hc t rfl)
    unfold giveAllH
    rw [e1, Out.ok_bind]
    by_cases hst : st = Err.success
    · subst hst
      have hne : cs1 ≠ [] := by
        rcases e3 with ⟨_, h⟩ | h | h
        · exact h
        · exact absurd h (by decide)
        · exact absurd h (by decide)
      have hvc : ho1.o.valueCount ≠ 0 := by
        rw [e2.count]; exact fun h => hne (List.length_eq_zero_iff.1 h)
      have r1 : Rep (arrColl k n) base h1 ho1.mark cs1 := e2.same rfl
        (by show (if ho1.o.valueCount = 0 then 1 else ho1.o.valueCount) = ho1.o.valueCount; rw [if_neg hvc]) rfl
      obtain ⟨st2, ho2, h2, cs2, f1, f2, f3, f4, f5⟩ := life_safe W hA H C ts h1 ho1.mark cs1 r1 (e4.fixed.type.trans hvt)
        (fun _ hc => absurd hc hne)
      rw [if_neg (by simp)]
      exact ⟨st2, ho2, h2, cs2, f1, f2, (e4.fixed.trans (Fixed.mark ho1)).trans f3, f4, fun _ _ => f3.alloc e4.alloc⟩
    · rw [if_pos (by simpa using hst)]
      refine ⟨st, ho1, h1, cs1, rfl, e2, e4.fixed, ?_, fun h' => absurd h' hst⟩
      rcases e3 with ⟨h, _⟩ | h
      · exact .inl h
      · exact .inr h

end Argus
