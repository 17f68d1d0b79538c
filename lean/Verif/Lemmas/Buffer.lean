import Verif.Model.Buffer
import Verif.Spec.Buffer

set_option autoImplicit false

namespace Argus

theorem Mem.write_ok {m : Mem} {i : Nat} {b : Byte} (h : i < m.length) : m.write i b = .ok (m.set i b) := by
  unfold Mem.write; rw [if_pos h]

theorem Mem.write_at {p : Mem} {x b : Byte} {q : Mem} : Mem.write (p ++ x :: q) p.length b = .ok (p ++ b :: q) := by
  rw [Mem.write_ok (by simp)]; simp

theorem cStrlen_append : ∀ (s : Str) (rest : Mem), 0 ∉ s → cStrlen (s ++ 0 :: rest) = .ok s.length
  | [], rest, _ => by simp [cStrlen]
  | b :: s, rest, h => by
    simp only [List.mem_cons, not_or] at h
    simp only [List.cons_append, cStrlen]
    rw [if_neg (Ne.symm h.1), cStrlen_append s rest h.2]
    rfl

/-- Writing a string over a part of memory of its length. -/
theorem cCopy_append : ∀ (s : Str) (rest p old q : Mem), 0 ∉ s → old.length = s.length + 1 →
    cCopy (p ++ old ++ q) p.length (s ++ 0 :: rest) = .ok (p ++ s ++ 0 :: q)
  | [], rest, p, old, q, _, hl => by
    obtain ⟨x, rfl⟩ := List.length_eq_one_iff.1 hl
    simp [cCopy, Mem.write_at]
  | b :: s, rest, p, [], q, _, hl => by simp at hl
  | b :: s, rest, p, x :: old, q, h, hl => by
    simp only [List.mem_cons, not_or] at h
    have ih := cCopy_append s rest (p ++ [b]) old q h.2 (by simpa using hl)
    simp only [List.cons_append, cCopy, List.append_assoc] at ih ⊢
    rw [Mem.write_at, Out.ok_bind, if_neg (Ne.symm h.1)]
    simpa using ih

theorem cFill_append : ∀ (n : Nat) (p old q : Mem), old.length = n →
    cFill (p ++ old ++ q) p.length n = .ok (p ++ List.replicate n 0 ++ q)
  | 0, p, old, q, hl => by
    rw [List.length_eq_zero_iff] at hl; subst hl; simp [cFill]
  | n + 1, p, [], q, hl => by simp at hl
  | n + 1, p, x :: old, q, hl => by
    have ih := cFill_append n (p ++ [0]) old q (by simpa using hl)
    simp only [List.cons_append, cFill, List.append_assoc] at ih ⊢
    rw [Mem.write_at, Out.ok_bind]
    simpa [List.replicate_succ] using ih

/-- The string of at most `n` bytes at the start of `m`. -/
def cstrN (n : Nat) (m : Mem) : Str := (m.take n).takeWhile (· != 0)

theorem cstrN_le (n : Nat) (m : Mem) : (cstrN n m).length ≤ n := by
  unfold cstrN
  exact Nat.le_trans (List.takeWhile_prefix _).length_le (by simp; omega)

theorem zero_takeWhile : ∀ (m : Mem), (0 : Byte) ∉ m.takeWhile (· != 0)
  | [] => by simp
  | b :: r => by
    by_cases hb : b = 0
    · subst hb; simp
    · simpa [hb, Ne.symm hb] using zero_takeWhile r

theorem cstrN_zero (n : Nat) (m : Mem) : 0 ∉ cstrN n m := zero_takeWhile _

theorem cstrN_cons {n : Nat} {b : Byte} {r : Mem} (hb : b ≠ 0) : cstrN (n + 1) (b :: r) = b :: cstrN n r := by
  simp [cstrN, hb]

theorem cstrN_nul {n : Nat} {r : Mem} : cstrN n (0 :: r) = [] := by
  cases n <;> simp [cstrN]

theorem cstrN_holds {m s : Mem} (h : HoldsStr m s) (n : Nat) : cstrN n m = s.take n := by
  obtain ⟨h0, rest, rfl⟩ := h
  induction s generalizing n with
  | nil => simp [cstrN_nul]
  | cons b s ih =>
    simp only [List.mem_cons, not_or] at h0
    cases n with
    | zero => simp [cstrN]
    | succ n => rw [List.cons_append, cstrN_cons (Ne.symm h0.1), ih _ h0.2, List.take_succ_cons]

/-- `n` bytes, or a terminator before that, can be read from `m`. -/
def Readable (n : Nat) (m : Mem) : Prop := n ≤ m.length ∨ 0 ∈ m

theorem HoldsStr.readable {m s : Mem} (h : HoldsStr m s) (n : Nat) : Readable n m := by
  obtain ⟨_, rest, rfl⟩ := h; right; simp

theorem Readable.cons {n : Nat} {b : Byte} {r : Mem} (h : Readable (n + 1) (b :: r)) (hb : b ≠ 0) : Readable n r := by
  rcases h with h | h
  · left; simpa using h
  · right; simpa [Ne.symm hb] using h

theorem cCopyN_append : ∀ (n : Nat) (src p old q : Mem), Readable n src → old.length = n →
    cCopyN (p ++ old ++ q) p.length n src =
      .ok (p ++ (cstrN n src ++ List.replicate (n - (cstrN n src).length) 0) ++ q)
  | 0, src, p, old, q, _, hl => by
    rw [List.length_eq_zero_iff] at hl; subst hl; simp [cCopyN, cstrN]
  | n + 1, [], p, old, q, hr, hl => by rcases hr with h | h <;> simp at h
  | n + 1, b :: r, p, [], q, hr, hl => by simp at hl
  | n + 1, b :: r, p, x :: old, q, hr, hl => by
    unfold cCopyN
    by_cases hb : b = 0
    · subst hb
      rw [if_pos rfl, cFill_append (n + 1) p (x :: old) q hl, cstrN_nul]
      simp
    · have ih := cCopyN_append n r (p ++ [b]) old q (hr.cons hb) (by simpa using hl)
      rw [if_neg hb, cstrN_cons hb]
      simp only [List.append_assoc, List.cons_append] at ih ⊢
      rw [Mem.write_at, Out.ok_bind]
      simpa using ih

theorem cAppendN_append : ∀ (n : Nat) (src p old q : Mem), Readable n src →
    old.length = (cstrN n src).length + 1 →
    cAppendN (p ++ old ++ q) p.length n src = .ok (p ++ cstrN n src ++ 0 :: q)
  | 0, src, p, old, q, _, hl => by
    obtain ⟨x, rfl⟩ := List.length_eq_one_iff.1 (by simpa [cstrN] using hl)
    simp [cAppendN, cstrN, Mem.write_at]
  | n + 1, [], p, old, q, hr, hl => by rcases hr with h | h <;> simp at h
  | n + 1, b :: r, p, [], q, hr, hl => by simp at hl
  | n + 1, b :: r, p, x :: old, q, hr, hl => by
    unfold cAppendN
    by_cases hb : b = 0
    · subst hb
      rw [cstrN_nul] at hl ⊢
      obtain rfl : old = [] := by simpa using hl
      simp [Mem.write_at]
    · rw [cstrN_cons hb] at hl ⊢
      have ih := cAppendN_append n r (p ++ [b]) old q (hr.cons hb) (by simpa using hl)
      rw [if_neg hb]
      simp only [List.append_assoc, List.cons_append] at ih ⊢
      rw [Mem.write_at, Out.ok_bind]
      simpa using ih

theorem cMemcpy_append : ∀ (s rest p old q : Mem), old.length = s.length →
    cMemcpy (p ++ old ++ q) p.length s.length (s ++ rest) = .ok (p ++ s ++ q)
  | [], rest, p, old, q, hl => by
    rw [List.length_nil, List.length_eq_zero_iff] at hl; subst hl; simp [cMemcpy]
  | b :: s, rest, p, [], q, hl => by simp at hl
  | b :: s, rest, p, x :: old, q, hl => by
    have ih := cMemcpy_append s rest (p ++ [b]) old q (by simpa using hl)
    simp only [List.length_cons, List.cons_append, cMemcpy, List.append_assoc] at ih ⊢
    rw [Mem.write_at, Out.ok_bind]
    simpa using ih

theorem dupLen_eq : ∀ (n : Nat) (m : Mem), Readable n m → dupLen n m = .ok (cstrN n m).length
  | 0, m, _ => by simp [dupLen, cstrN]
  | n + 1, [], hr => by rcases hr with h | h <;> simp at h
  | n + 1, b :: r, hr => by
    unfold dupLen
    by_cases hb : b = 0
    · subst hb; rw [if_pos rfl, cstrN_nul]; rfl
    · rw [if_neg hb, dupLen_eq n r (hr.cons hb), cstrN_cons hb]; rfl

theorem cstrN_prefix (n : Nat) (m : Mem) : ∃ rest, m = cstrN n m ++ rest := by
  have : cstrN n m <+: m := (List.takeWhile_prefix _).trans (List.take_prefix n m)
  obtain ⟨t, ht⟩ := this
  exact ⟨t, ht.symm⟩

theorem drop_same {A B t : Mem} {size : Nat} (h : A.length = B.length) (hs : A.length ≤ size) :
    (A ++ t).drop size = (B ++ t).drop size := by
  have h1 : A.drop size = [] := List.drop_eq_nil_of_le hs
  have h2 : B.drop size = [] := List.drop_eq_nil_of_le (h ▸ hs)
  rw [List.drop_append, List.drop_append, h1, h2, h]

theorem wrote_mk {p s q q' : Mem} {old : Mem} {size : Nat} (h0 : 0 ∉ s) (hs : s.length < size)
    (hq : old = p ++ q') (hp : p.length = s.length + 1 + q.length)
    (hsize : s.length + 1 + q.length ≤ size) : Wrote old (s ++ 0 :: q ++ q') size s := by
  subst hq
  have hl : (s ++ 0 :: q).length = p.length := by simp only [List.length_append, List.length_cons]; omega
  exact ⟨⟨h0, q ++ q', by simp⟩, hs, by simp only [List.length_append] at hl ⊢; omega, drop_same hl (by omega)⟩

theorem take_drop_split (m : Mem) (i : Nat) : m = m.take i ++ m.drop i := (List.take_append_drop i m).symm

theorem mod_sub_eq (N a b : Nat) (h : b ≤ a) (ha : a < N) : (a + N - b) % N = a - b := by
  rw [show a + N - b = (a - b) + N by omega, Nat.add_mod_right]
  exact Nat.mod_eq_of_lt (by omega)

theorem sizeSub_eq {a b : Nat} (h : b ≤ a) (ha : a < 2 ^ 64) : sizeSub a b = a - b := mod_sub_eq _ a b h ha

theorem sizeAdd_eq {a b : Nat} (h : a + b < 2 ^ 64) : sizeAdd a b = a + b := Nat.mod_eq_of_lt h

theorem catRoom_eq {size n : Nat} (h : n < size) (h64 : size < 2 ^ 64) : catRoom size n = size - n - 1 := by
  unfold catRoom
  rw [sizeSub_eq (by omega) h64, sizeSub_eq (by omega) (Nat.lt_of_le_of_lt (Nat.sub_le _ _) h64)]

theorem safeStrncat_eq {d src : Mem} {size count n : Nat} (hz : size ≠ 0) (hn : cStrlen d = .ok n) :
    safeStrncat (some d) size (some src) count = strncatRest d n (catRoom size n) count src := by
  unfold safeStrncat
  simp only [if_neg hz]
  rw [hn]
  exact Out.ok_bind _ _

end Argus
