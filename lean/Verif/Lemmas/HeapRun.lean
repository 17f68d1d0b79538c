import Verif.Lemmas.HeapFlags
import Verif.Lemmas.Safe

/-!
# Lemmas: handlers and free handlers in memory
-/

set_option autoImplicit false

namespace Argus

variable {γ : Type}

/-- The keys whose copies stay behind. -/
def lostIn (conv : Str → Option MapStore) : (present : List Str) → List Str → List Str
  | _, [] => []
  | ks, s :: ss =>
    match strchrSplit 61 s with
    | none => []
    | some (k, v) =>
      match conv v with
      | none => [k]
      | some _ => if k ∈ ks then k :: lostIn conv ks ss else lostIn conv (ks ++ [k]) ss

theorem modify_middle {α : Type} (f : α → α) (x : α) (B : List α) : ∀ A : List α,
    (A ++ x :: B).modify A.length f = A ++ f x :: B
  | [] => rfl
  | a :: A => by
    rw [List.cons_append, List.length_cons, List.modify_succ_cons, modify_middle f x B A]; rfl

theorem findKeyH_of {h : Heap} {key : Str} : ∀ (Z : List (Row × (Str × Word))) (i : Nat),
    (∀ z ∈ Z, z.1.read h .string 0 = .ok (.ptr z.2.1)) →
    (findKeyH h key i (Z.map Prod.fst) = .ok none ∧ (Z.map Prod.snd).findIdx? (fun c => c.1 == key) = none ∧
      key ∉ (Z.map Prod.snd).map Prod.fst) ∨
    (∃ Z1 z Z2, Z = Z1 ++ z :: Z2 ∧ z.2.1 = key ∧ findKeyH h key i (Z.map Prod.fst) = .ok (some (i + Z1.length)) ∧
      (Z.map Prod.snd).findIdx? (fun c => c.1 == key) = some Z1.length)
  | [], i, _ => .inl ⟨rfl, rfl, by simp⟩
  | z :: Z, i, hz => by
    simp only [List.map_cons, findKeyH, List.findIdx?_cons]
    rw [hz z (by simp), Out.ok_bind]
    have hs : Word.strD (.ptr z.2.1) = some z.2.1 := rfl
    rw [hs]
    by_cases he : z.2.1 = key
    · refine .inr ⟨[], z, Z, rfl, he, ?_, ?_⟩
      · rw [if_pos (by rw [he])]; rfl
      · rw [if_pos (by simpa using he)]; rfl
    · rw [if_neg (by simpa using he), if_neg (by simpa using he)]
      rcases findKeyH_of (h := h) (key := key) Z (i + 1) (fun y hy => hz y (by simp [hy])) with ⟨e1, e2, e3⟩ | ⟨Z1, y, Z2, e1, e2, e3, e4⟩
      · exact .inl ⟨e1, by rw [e2]; rfl, by simp only [List.mem_cons, not_or]; exact ⟨fun e => he e.symm, e3⟩⟩
      · refine .inr ⟨z :: Z1, y, Z2, by rw [e1]; rfl, e2, ?_, ?_⟩
        · rw [e3, List.length_cons]; congr 2; omega
        · rw [e4]; rfl

theorem adjustH_map {k : CellKind} {n : Nat} {A : Allocator} {base : Nat → Option Blk} {h : Heap} {ho : HOpt}
    {cs : List (Str × Word)} (hA : A.Never) (r : Rep (mapColl k n) base h ho cs) : ∃ ho' h', adjustH A ho h = .ok (ho', h') ∧
      Rep (mapColl k n) base h' ho' cs ∧ ho'.ptr ≠ none ∧ cs.length < ho'.o.valueCapacity ∧
      adjustMap (ho.abs (mapColl k n) cs) = .ok (ho'.abs (mapColl k n) cs) := by
  obtain ⟨ho', h', e1, e2, e3, e4⟩ := adjustH_rep hA.grows r
  rcases e4 with ⟨e4, e5, e6⟩ | ⟨_, _, _, i, hi⟩
  · refine ⟨ho', h', e1, e2, e4, e5, ?_⟩
    rw [HOpt.abs_some e4, e3, e6]
    by_cases hp : ho.ptr = none
    · rw [HOpt.abs_none hp, if_pos hp]
      rcases r.mem with ⟨_, h2, _⟩ | ⟨a, l, h1, _⟩
      · subst h2; rfl
      · rw [hp] at h1; simp at h1
    · rw [HOpt.abs_some hp, if_neg hp]
      unfold adjustMap
      simp only [mapColl]
      split <;> rfl
  · rw [(hA i).1] at hi; simp at hi

/-- What the search for a key finds. -/
theorem mapFindKey_abs {k : CellKind} {n : Nat} {base : Nat → Option Blk} {h : Heap} {ho : HOpt} {cs : List (Str × Word)}
    (r : Rep (mapColl k n) base h ho cs) (key : Str) :
    (lookupH ho h key = .ok none ∧ mapFindKey (ho.abs (mapColl k n) cs) key = .ok none ∧ key ∉ cs.map Prod.fst) ∨
    (∃ a Z1 z Z2 tail, RowsAt (mapColl k n) base h ho a (Z1 ++ z :: Z2) tail ∧ (Z1 ++ z :: Z2).map Prod.snd = cs ∧ z.2.1 = key ∧
      ho.ptr ≠ none ∧
      lookupH ho h key = .ok (some Z1.length) ∧
      mapFindKey (ho.abs (mapColl k n) cs) key = .ok (some Z1.length)) := by
  unfold mapFindKey lookupH
  have hc : (ho.abs (mapColl k n) cs).valueCount = ho.o.valueCount := rfl
  rw [hc]
  by_cases h0 : ho.o.valueCount = 0
  · rw [if_pos h0, if_pos h0]
    have := r.count
    rw [h0] at this
    have : cs = [] := List.length_eq_zero_iff.1 this.symm
    exact .inl ⟨rfl, rfl, by simp [this]⟩
  · rw [if_neg h0, if_neg h0]
    have hp : ho.ptr ≠ none := by
      intro hp
      rcases r.mem with ⟨_, h2, _⟩ | ⟨a, l, h1, _⟩
      · have := r.count; rw [h2] at this; simp at this; omega
      · rw [hp] at h1; simp at h1
    obtain ⟨a, Z, tail, e1, e2⟩ := r.holds hp
    rw [e1.rows, Out.ok_bind, mapCells_abs r hp, Out.ok_bind]
    rcases findKeyH_of (h := h) (key := key) Z 0 (fun z hz => (mapZip_read e1.zip hz).1) with ⟨f1, f2, f3⟩ | ⟨Z1, z, Z2, f1, f2, f3, f4⟩
    · rw [e2] at f2 f3
      exact .inl ⟨f1, by rw [f2]; rfl, f3⟩
    · rw [e2] at f4
      subst f1
      refine .inr ⟨a, Z1, z, Z2, tail, e1, e2, f2, hp, ?_, ?_⟩
      · simp only [f3, Nat.zero_add]
      · rw [f4]; rfl

theorem setPair_new {k : CellKind} {n : Nat} {ho ho' : HOpt} {cs : List (Str × Word)} {key : Str} {u : Word → Word} {w : Word}
    (hf : mapFindKey (ho.abs (mapColl k n) cs) key = .ok none)
    (ha : adjustMap (ho.abs (mapColl k n) cs) = .ok (ho'.abs (mapColl k n) cs)) (hp : ho'.ptr ≠ none)
    (hc : ho'.o.valueCount = cs.length) (hcap : cs.length < ho'.o.valueCapacity) :
    setPair (ho.abs (mapColl k n) cs) key u w =
      .ok (({ ho' with o := { ho'.o with valueCount := ho'.o.valueCount + 1 } } : HOpt).abs (mapColl k n) (cs ++ [(key, w)])) := by
  unfold setPair
  rw [hf, Out.ok_bind]
  simp only
  rw [ha, Out.ok_bind, HOpt.abs_some hp, HOpt.abs_some (by exact hp)]
  simp only [mapColl, hc]
  rw [if_neg (by omega), if_neg (by omega), List.take_of_length_le (Nat.le_refl _)]
  rfl

theorem setPair_old {k : CellKind} {n : Nat} {ho : HOpt} {c1 c2 : List (Str × Word)} {e : Str × Word} {key : Str}
    {u : Word → Word} {w : Word} (hp : ho.ptr ≠ none)
    (hf : mapFindKey (ho.abs (mapColl k n) (c1 ++ e :: c2)) key = .ok (some c1.length)) :
    setPair (ho.abs (mapColl k n) (c1 ++ e :: c2)) key u w =
      .ok (ho.abs (mapColl k n) (c1 ++ (e.1, u e.2) :: c2)) := by
  unfold setPair
  rw [hf, Out.ok_bind, HOpt.abs_some hp, HOpt.abs_some hp]
  simp only [mapColl]
  rw [modify_middle]
  rfl

theorem addrs_key (x : Nat) (w : Word) : Row.addrs [.addr x, .data w] = [x] := rfl

theorem addrs_pair (x y : Nat) : Row.addrs [.addr x, .addr y] = [x, y] := rfl

/-- `set_kv_pair` of the maps of numbers. -/
theorem setKvNum_sim {k : CellKind} (hk : k ≠ .string) {A : Allocator} (hA : A.Never) {conv : Str → Option MapStore}
    (hconv : ∀ v st, conv v = some st → k.readable st.fresh = true ∧ ∀ w, k.readable w = true → k.readable (st.upd w) = true) :
    StoreSim (mapColl k 1) (fun _ => True) (fun cs ss => lostIn conv (cs.map Prod.fst) ss) (setKvPair conv)
      (setKvNumH A conv) := by
  intro base h ho cs s r _
  have hn : MapN k 1 := .inr ⟨hk, rfl⟩
  unfold setKvPair setKvNumH
  cases hs : strchrSplit 61 s with
  | none =>
    exact ⟨_, ho, h, cs, base, _, [], rfl, rfl, r, Left.refl _, fun h' => absurd h' (by decide), fun _ ss => by simp [lostIn, hs]⟩
  | some kv =>
    obtain ⟨key, value⟩ := kv
    simp only
    have hb := r.base_free h.next (Nat.le_refl _)
    rw [malloc_never hA]
    simp only
    cases hv : conv value with
    | none =>
      exact ⟨_, ho, _, cs, _, _, [key], rfl, rfl, r.malloc _ _, Left.malloc hb key, fun h' => absurd h' (by decide),
        fun _ ss => by simp [lostIn, hs, hv]⟩
    | some st =>
      obtain ⟨c1, c2⟩ := hconv value st hv
      simp only
      have r1 := r.malloc (.text key) (h.calls + 1)
      unfold putPairH
      rcases mapFindKey_abs r1 key with ⟨f1, f2, f3⟩ | ⟨a, Z1, z, Z2, tail, f1, f2, f3, f4, f5, f6⟩
      · rw [f1]
        obtain ⟨ho2, h2, e1, e2, e3, e4, e5⟩ := adjustH_map hA r1
        have hb2 : (upd base h.next (some (Blk.text key))) h.next ≠ none := by rw [upd_self]; simp
        have hl2 := e2.live_base hb2
        obtain ⟨h3, e6, e7⟩ := storeH_rep e2 e3 e4 [.addr h.next, .data st.fresh] (key, st.fresh)
          (by simp [Cell.word, hl2, upd_self, mapColl]) ⟨h.next, _, rfl, rfl⟩ c1 (by rw [addrs_key]; simp)
          (by rw [addrs_key]; simp [upd_self])
        have hl : less (upd base h.next (some (Blk.text key))) (Row.addrs [.addr h.next, .data st.fresh]) = base := by
          show upd (upd base h.next _) h.next none = base
          rw [upd_upd, upd_same _ _ _ hb]
        rw [hl] at e7
        refine ⟨Err.success, _, h3, _, base, [], [], ?_, ?_, e7, Left.refl _, fun _ ss => ?_, fun h' => absurd rfl h'⟩
        · rw [setPair_new f2 e5 e3 e2.count e4, Out.ok_bind]
        · simp only [Out.ok_bind, addPairH]
          rw [e1, Out.ok_bind]
          simp only
          rw [e6, Out.ok_bind]
        · simp [lostIn, hs, hv, f3]
      · rw [f5]
        have hz : z ∈ Z1 ++ z :: Z2 := by simp
        rcases map_addrs hn (f1.zip z hz).1 (f1.zip z hz).2.1 with ⟨hk', _⟩ | ⟨_, x, hrow⟩
        · exact absurd hk' hk
        have hcs : cs = Z1.map Prod.snd ++ z.2 :: Z2.map Prod.snd := by rw [← f2]; simp
        have hget : ((Z1 ++ z :: Z2).map Prod.fst ++ tail)[Z1.length]? = some z.1 := by simp
        have haddr : addrsOf ((Z1 ++ ([.addr x, .data (st.upd z.2.2)], (key, st.upd z.2.2)) :: Z2).map Prod.fst) =
            addrsOf ((Z1 ++ z :: Z2).map Prod.fst) := by
          simp only [List.map_append, List.map_cons, addrsOf_append, addrsOf_cons, hrow]
          rfl
        have hrows : setValueAt ((Z1 ++ z :: Z2).map Prod.fst ++ tail) Z1.length (.data (st.upd z.2.2)) =
            (Z1 ++ (([.addr x, .data (st.upd z.2.2)] : Row), (key, st.upd z.2.2)) :: Z2).map Prod.fst ++ tail := by
          unfold setValueAt
          have h1 : (Z1 ++ z :: Z2).map Prod.fst ++ tail = Z1.map Prod.fst ++ z.1 :: (Z2.map Prod.fst ++ tail) := by simp
          have h2 : Z1.length = (Z1.map Prod.fst).length := by simp
          rw [h1, h2, modify_middle, hrow]
          simp
        have hold : RowsAt (mapColl k 1) (upd base h.next (some (.text key)))
            (HOpt.setRows ⟨upd h.live h.next (some (.text key)), h.next + 1, h.calls + 1⟩ a
              ((Z1 ++ (([.addr x, .data (st.upd z.2.2)] : Row), (key, st.upd z.2.2)) :: Z2).map Prod.fst ++ tail)) ho a
            (Z1 ++ ([.addr x, .data (st.upd z.2.2)], (key, st.upd z.2.2)) :: Z2) tail := by
          refine ⟨f1.ptr, upd_self _ _ _, ?_, f1.pos, ?_, ?_, ?_⟩
          · have := f1.cap; simpa using this
          · have := f1.count; simpa using this
          · rw [haddr]; exact f1.part.write (by simp) _
          · have hz1 : Zipped (mapColl k 1) ⟨upd h.live h.next (some (.text key)), h.next + 1, h.calls + 1⟩
                (Z1 ++ ([.addr x, .data (st.upd z.2.2)], (key, st.upd z.2.2)) :: Z2) := by
              intro y hy
              simp only [List.mem_append, List.mem_cons] at hy
              rcases hy with hy | rfl | hy
              · exact f1.zip y (by simp [hy])
              · have hw := (f1.zip z hz).1
                rw [hrow] at hw
                simp only [mapColl, List.map_cons, List.map_nil, List.cons.injEq, and_true] at hw
                refine ⟨?_, ⟨x, _, rfl, rfl⟩, c2 _ (f1.zip z hz).2.2⟩
                rw [← f3]
                simp only [mapColl, List.map_cons, List.map_nil, List.cons.injEq, and_true]
                rw [f3] at hw ⊢
                exact ⟨hw.1, rfl⟩
              · exact f1.zip y (by simp [hy])
            exact hz1.congr (fun y hy => upd_notin f1.notin (by rw [haddr] at hy; exact hy))
        have hrep := hold.rep
        refine ⟨Err.success, ho, _, _, _, [], [key], ?_, ?_, hrep, Left.malloc hb key, fun _ ss => ?_, fun h' => absurd rfl h'⟩
        · have e1 : mapFindKey (ho.abs (mapColl k 1) (Z1.map Prod.snd ++ z.2 :: Z2.map Prod.snd)) key =
              .ok (some (Z1.map Prod.snd).length) := by rw [← hcs, f6, List.length_map]
          rw [hcs, setPair_old f4 e1, Out.ok_bind, f3]
          simp
        · simp only [Out.ok_bind, replaceValueH]
          rw [f1.block, Out.ok_bind]
          simp only [hget, Option.getD_some, hrow, List.getElem?_cons_succ, List.getElem?_cons_zero, if_false,
            Bool.false_eq_true, Out.ok_bind, newValue, hrows]
        · have : key ∈ cs.map Prod.fst := by rw [hcs]; simp [f3]
          simp only [lostIn, hs, hv, if_pos this]
          rw [hcs]
          simp [f3]

/-- `set_kv_pair` of the maps of strings. -/
theorem setKvString_sim {A : Allocator} (hA : A.Never) :
    StoreSim (mapColl .string 2) (fun _ => True) (fun cs ss => lostIn mapStringConv (cs.map Prod.fst) ss)
      (setKvPair mapStringConv) (setKvStringH A) := by
  intro base h ho cs s r _
  have hn : MapN .string 2 := .inl ⟨rfl, rfl⟩
  unfold setKvPair setKvStringH
  cases hs : strchrSplit 61 s with
  | none =>
    exact ⟨_, ho, h, cs, base, _, [], rfl, rfl, r, Left.refl _, fun h' => absurd h' (by decide), fun _ ss => by simp [lostIn, hs]⟩
  | some kv =>
    obtain ⟨key, value⟩ := kv
    simp only
    have hb := r.base_free h.next (Nat.le_refl _)
    rw [malloc_never hA]
    simp only
    rw [malloc_never hA]
    simp only [mapStringConv]
    have r1 := r.malloc (.text key) (h.calls + 1)
    have hb1 := r1.base_free (h.next + 1) (Nat.le_refl _)
    have r2 := r1.malloc (.text value) (h.calls + 1 + 1)
    have hne : h.next ≠ h.next + 1 := by omega
    unfold putPairH
    rcases mapFindKey_abs r2 key with ⟨f1, f2, f3⟩ | ⟨a, Z1, z, Z2, tail, f1, f2, f3, f4, f5, f6⟩
    · rw [f1]
      obtain ⟨ho2, h2, e1, e2, e3, e4, e5⟩ := adjustH_map hA r2
      have k1 : upd (upd base h.next (some (Blk.text key))) (h.next + 1) (some (Blk.text value)) h.next = some (.text key) := by
        rw [upd_ne _ _ hne, upd_self]
      have k2 : upd (upd base h.next (some (Blk.text key))) (h.next + 1) (some (Blk.text value)) (h.next + 1) =
          some (.text value) := upd_self _ _ _
      have l1 := e2.live_base (x := h.next) (by simp only; rw [k1]; simp)
      have l2 := e2.live_base (x := h.next + 1) (by simp only; rw [k2]; simp)
      simp only [k1] at l1
      simp only [k2] at l2
      obtain ⟨h3, e6, e7⟩ := storeH_rep e2 e3 e4 [.addr h.next, .addr (h.next + 1)] (key, .ptr value)
        (by simp [Cell.word, l1, l2, mapColl]) ⟨h.next, h.next + 1, rfl⟩ rfl
        (by rw [addrs_pair]; simp)
        (by
          rw [addrs_pair]
          intro y hy
          simp only [List.mem_cons, List.not_mem_nil, or_false] at hy
          rcases hy with rfl | rfl
          · simp only; rw [k1]; simp
          · simp only; rw [k2]; simp)
      have hl : less (upd (upd base h.next (some (Blk.text key))) (h.next + 1) (some (Blk.text value)))
          (Row.addrs [.addr h.next, .addr (h.next + 1)]) = base := by
        funext y
        rw [less_eq, addrs_pair]
        by_cases y1 : y = h.next
        · rw [if_pos (by simp [y1]), y1, hb]
        · by_cases y2 : y = h.next + 1
          · have : base (h.next + 1) = none := by rw [← upd_ne base (some (Blk.text key)) (Ne.symm hne)]; exact hb1
            rw [if_pos (by simp [y2]), y2, this]
          · rw [if_neg (by simp [y1, y2]), upd_ne _ _ y2, upd_ne _ _ y1]
      rw [hl] at e7
      refine ⟨Err.success, _, h3, _, base, [], [], ?_, ?_, e7, Left.refl _, fun _ ss => ?_, fun h' => absurd rfl h'⟩
      · rw [setPair_new f2 e5 e3 e2.count e4, Out.ok_bind]
      · simp only [Out.ok_bind, addPairH]
        rw [e1, Out.ok_bind]
        simp only
        rw [e6, Out.ok_bind]
      · simp [lostIn, hs, mapStringConv, f3]
    · rw [f5]
      have hz : z ∈ Z1 ++ z :: Z2 := by simp
      rcases map_addrs hn (f1.zip z hz).1 (f1.zip z hz).2.1 with ⟨_, x, y, hrow⟩ | ⟨hk', _⟩
      rotate_left
      · exact absurd rfl hk'
      have hcs : cs = Z1.map Prod.snd ++ z.2 :: Z2.map Prod.snd := by rw [← f2]; simp
      have hget : ((Z1 ++ z :: Z2).map Prod.fst ++ tail)[Z1.length]? = some z.1 := by simp
      have hrows : setValueAt ((Z1 ++ z :: Z2).map Prod.fst ++ tail) Z1.length (.addr (h.next + 1)) =
          (Z1 ++ (([.addr x, .addr (h.next + 1)] : Row), (key, Word.ptr value)) :: Z2).map Prod.fst ++ tail := by
        unfold setValueAt
        have h1 : (Z1 ++ z :: Z2).map Prod.fst ++ tail = Z1.map Prod.fst ++ z.1 :: (Z2.map Prod.fst ++ tail) := by simp
        have h2 : Z1.length = (Z1.map Prod.fst).length := by simp
        rw [h1, h2, modify_middle, hrow]
        simp
      have hperm : (addrsOf ((Z1 ++ z :: Z2).map Prod.fst)).Perm
          (y :: x :: (addrsOf (Z1.map Prod.fst) ++ addrsOf (Z2.map Prod.fst))) := by
        simp only [List.map_append, List.map_cons, addrsOf_append, addrsOf_cons, hrow, addrs_pair]
        refine (List.perm_append_comm_assoc _ _ _).trans ?_
        exact List.Perm.swap y x _
      have hperm' : (addrsOf ((Z1 ++ (([.addr x, .addr (h.next + 1)] : Row), (key, Word.ptr value)) :: Z2).map Prod.fst)).Perm
          ((h.next + 1) :: x :: (addrsOf (Z1.map Prod.fst) ++ addrsOf (Z2.map Prod.fst))) := by
        simp only [List.map_append, List.map_cons, addrsOf_append, addrsOf_cons, addrs_pair]
        refine (List.perm_append_comm_assoc _ _ _).trans ?_
        exact List.Perm.swap _ x _
      have p1 : Part (upd (upd base h.next (some (.text key))) (h.next + 1) (some (.text value)))
          ⟨upd (upd h.live h.next (some (.text key))) (h.next + 1) (some (.text value)), h.next + 1 + 1, h.calls + 1 + 1⟩
          (y :: a :: x :: (addrsOf (Z1.map Prod.fst) ++ addrsOf (Z2.map Prod.fst))) := by
        refine f1.part.perm ?_
        exact (List.Perm.swap a y _).trans (List.Perm.cons a hperm.symm)
      have hyn := (List.nodup_cons.1 p1.nodup).1
      obtain ⟨g1, g2⟩ := p1.free_own
      have p3 := g2.absorb (x := h.next + 1) (by rw [upd_self]; simp)
      have hbase : upd (upd (upd base h.next (some (Blk.text key))) (h.next + 1) (some (Blk.text value))) (h.next + 1) none =
          upd base h.next (some (.text key)) := by
        rw [upd_upd, upd_same _ _ _ hb1]
      rw [hbase] at p3
      have hvn := (List.nodup_cons.1 p3.nodup).1
      simp only [List.mem_cons, not_or] at hyn hvn
      have hyv : y ≠ h.next + 1 := fun e => by
        have := p1.apart y (by simp)
        rw [e, upd_self] at this
        simp at this
      have hold : RowsAt (mapColl .string 2) (upd base h.next (some (.text key)))
          (HOpt.setRows ⟨upd (upd (upd h.live h.next (some (.text key))) (h.next + 1) (some (.text value))) y none,
            h.next + 1 + 1, h.calls + 1 + 1⟩ a
            ((Z1 ++ (([.addr x, .addr (h.next + 1)] : Row), (key, Word.ptr value)) :: Z2).map Prod.fst ++ tail)) ho a
          (Z1 ++ ([.addr x, .addr (h.next + 1)], (key, .ptr value)) :: Z2) tail := by
        have hpa : (addrsOf ((Z1 ++ (([.addr x, .addr (h.next + 1)] : Row), (key, Word.ptr value)) :: Z2).map Prod.fst)).Perm
          ((h.next + 1) :: x :: (addrsOf (Z1.map Prod.fst) ++ addrsOf (Z2.map Prod.fst))) := hperm'
        have hna : a ∉ addrsOf ((Z1 ++ (([.addr x, .addr (h.next + 1)] : Row), (key, Word.ptr value)) :: Z2).map Prod.fst) := by
          intro hx
          have := hpa.mem_iff.1 hx
          have hnd := (List.nodup_cons.1 (List.nodup_cons.1 p1.nodup).2).1
          rcases List.mem_cons.1 this with h1 | h1
          · exact hvn.1 h1.symm
          · exact hnd h1
        refine ⟨f1.ptr, upd_self _ _ _, ?_, f1.pos, ?_, ?_, ?_⟩
        · have := f1.cap; simpa using this
        · have := f1.count; simpa using this
        · refine (p3.write (x := a) (by simp) _).perm ?_
          refine (List.Perm.cons a hpa).trans ?_
          exact List.Perm.swap _ a _
        · have hz1 : Zipped (mapColl .string 2)
              ⟨upd (upd (upd h.live h.next (some (.text key))) (h.next + 1) (some (.text value))) y none,
                h.next + 1 + 1, h.calls + 1 + 1⟩
              (Z1 ++ ([.addr x, .addr (h.next + 1)], (key, .ptr value)) :: Z2) := by
            have old : ∀ w ∈ Z1 ++ Z2, w ∈ Z1 ++ z :: Z2 ∧ y ∉ w.1.addrs := by
              intro w hw
              refine ⟨?_, fun hy => ?_⟩
              · rcases List.mem_append.1 hw with hw | hw <;> simp [hw]
              · refine hyn.2.2 ?_
                rcases List.mem_append.1 hw with hw | hw
                · exact List.mem_append_left _ (List.mem_flatMap.2 ⟨w.1, List.mem_map.2 ⟨w, hw, rfl⟩, hy⟩)
                · exact List.mem_append_right _ (List.mem_flatMap.2 ⟨w.1, List.mem_map.2 ⟨w, hw, rfl⟩, hy⟩)
            have keep : ∀ w ∈ Z1 ++ Z2, w.1.map (Cell.word ⟨upd (upd (upd h.live h.next (some (.text key))) (h.next + 1)
                (some (.text value))) y none, h.next + 1 + 1, h.calls + 1 + 1⟩) =
                ((mapColl .string 2).enc w.2).map Out.ok ∧ Shape 2 w.1 ∧ (mapColl .string 2).good w.2 := by
              intro w hw
              obtain ⟨o1, o2⟩ := old w hw
              obtain ⟨q1, q2⟩ := f1.zip w o1
              refine ⟨?_, q2⟩
              rw [← q1]
              exact row_congr (fun v hv => upd_ne _ _ (fun e => o2 (e ▸ hv)))
            intro w hw
            simp only [List.mem_append, List.mem_cons] at hw
            rcases hw with hw | rfl | hw
            · exact keep w (by simp [hw])
            · have hw := (f1.zip z hz).1
              rw [hrow] at hw
              simp only [mapColl, List.map_cons, List.map_nil, List.cons.injEq, and_true] at hw
              refine ⟨?_, ⟨x, h.next + 1, rfl⟩, rfl⟩
              simp only [mapColl, List.map_cons, List.map_nil, List.cons.injEq, and_true]
              constructor
              · refine Eq.trans ?_ (hw.1.trans (by rw [f3]))
                refine word_congr (fun v hv => ?_)
                simp only [Cell.addr.injEq] at hv
                subst hv
                exact upd_ne _ _ (fun e => hyn.2.1 e.symm)
              · simp only [Cell.word, upd_ne _ _ (Ne.symm hyv), upd_self]
            · exact keep w (by simp [hw])
          exact hz1.congr (fun v hv => upd_notin hna hv)
      have hrep := hold.rep
      refine ⟨Err.success, ho, _, _, _, [], [key], ?_, ?_, hrep, Left.malloc hb key, fun _ ss => ?_, fun h' => absurd rfl h'⟩
      · have e1 : mapFindKey (ho.abs (mapColl .string 2) (Z1.map Prod.snd ++ z.2 :: Z2.map Prod.snd)) key =
            .ok (some (Z1.map Prod.snd).length) := by rw [← hcs, f6, List.length_map]
        rw [hcs, setPair_old f4 e1, Out.ok_bind, f3]
        simp
      · simp only [Out.ok_bind, replaceValueH]
        rw [f1.block, Out.ok_bind]
        simp only [hget, Option.getD_some, hrow, List.getElem?_cons_succ, List.getElem?_cons_zero, if_true, newValue, hrows]
        rw [g1, Out.ok_bind, Out.ok_bind]
      · have : key ∈ cs.map Prod.fst := by rw [hcs]; simp [f3]
        simp only [lostIn, hs, mapStringConv, if_pos this]
        rw [hcs]
        simp [f3]

end Argus
