import Verif.Lemmas.Buffer
import Verif.Model.Parse

/-!
# C49: bounded string helpers

`HoldsStr m s` and `Wrote old new size s` are in Spec/Buffer. A run without undefined behaviour makes no access outside
the objects it is given.
-/

set_option autoImplicit false

namespace Argus

/-! ## C49 -/

attribute [local irreducible] catRoom sizeAdd

/-- **C49** `safe_strcpy` copies the string if it fits with its terminator, and otherwise refuses and leaves the
    destination alone. -/
theorem C49_strcpy (dest src : Mem) (size : Nat) (s : Str) (hd : size ≤ dest.length) (hs : HoldsStr src s) :
    (s.length < size ∧ ∃ d, safeStrcpy (some dest) size (some src) = .ok (true, some d) ∧ Wrote dest d size s) ∨
    (size ≤ s.length ∧ safeStrcpy (some dest) size (some src) = .ok (false, some dest)) := by
  obtain ⟨h0, rest, rfl⟩ := hs
  unfold safeStrcpy
  simp only [cStrlen_append s rest h0, Out.ok_bind]
  by_cases hl : s.length < size
  · left
    rw [if_neg (by omega), if_neg (by omega)]
    have e := cCopy_append s rest [] (dest.take (s.length + 1)) (dest.drop (s.length + 1)) h0 (by simp; omega)
    simp only [List.nil_append, List.length_nil, List.take_append_drop] at e
    rw [e]
    refine ⟨hl, _, rfl, ?_⟩
    have := wrote_mk (q := []) (size := size) h0 hl (take_drop_split dest (s.length + 1)) (by simp; omega)
      (by simp; omega)
    simpa using this
  · right
    refine ⟨by omega, ?_⟩
    by_cases hz : size = 0
    · rw [if_pos hz]
    · rw [if_neg hz, if_pos (by omega)]

example : (5 : Nat) ≤ (c!"abcdef").length ∧ HoldsStr (c!"xyz" ++ [0]) c!"xyz" ∧ (c!"xyz").length < 5 :=
  ⟨by decide, ⟨by decide, [], rfl⟩, by decide⟩

/-- **C49** `safe_strncpy` copies as many bytes of the string as were asked for and fit with the terminator. The
    source need not be terminated if it has that many bytes (`src.take n` up to the first NUL). -/
theorem C49_strncpy (dest src : Mem) (size count : Nat) (hd : size ≤ dest.length) (hz : size ≠ 0)
    (hs : min count (size - 1) ≤ src.length ∨ 0 ∈ src) :
    ∃ d, safeStrncpy (some dest) size (some src) count = .ok (true, some d) ∧
      Wrote dest d size ((src.take (min count (size - 1))).takeWhile (· != 0)) := by
  unfold safeStrncpy
  have hk : (if count < size - 1 then count else size - 1) = min count (size - 1) := by
    split <;> omega
  simp only [if_neg hz, hk]
  generalize hkk : min count (size - 1) = k at hs
  have hlt : k < size := by omega
  have hlen : (cstrN k src).length ≤ k := cstrN_le k src
  have e := cCopyN_append k src [] (dest.take k) (dest.drop k) hs (by simp; omega)
  simp only [List.nil_append, List.length_nil, List.take_append_drop] at e
  rw [e, Out.ok_bind]
  have hdrop : dest.drop k = (dest.drop k).head (by simp; omega) :: dest.drop (k + 1) := by
    rw [List.head_drop, ← List.drop_eq_getElem_cons]
  have hw : Mem.write (cstrN k src ++ List.replicate (k - (cstrN k src).length) 0 ++ dest.drop k) k 0 =
      .ok (cstrN k src ++ List.replicate (k - (cstrN k src).length) 0 ++ 0 :: dest.drop (k + 1)) := by
    rw [hdrop]
    have := @Mem.write_at (cstrN k src ++ List.replicate (k - (cstrN k src).length) 0)
      ((dest.drop k).head (by simp; omega)) 0 (dest.drop (k + 1))
    have hl2 : (cstrN k src ++ List.replicate (k - (cstrN k src).length) 0).length = k := by simp; omega
    rw [hl2] at this
    exact this
  rw [hw]
  refine ⟨_, rfl, ?_⟩
  have e2 : cstrN k src ++ List.replicate (k - (cstrN k src).length) 0 ++ 0 :: dest.drop (k + 1) =
      cstrN k src ++ 0 :: List.replicate (k - (cstrN k src).length) 0 ++ dest.drop (k + 1) := by
    have : List.replicate (k - (cstrN k src).length) (0 : Byte) ++ [0] =
        0 :: List.replicate (k - (cstrN k src).length) 0 := by
      rw [← List.replicate_succ', List.replicate_succ]
    rw [List.append_cons, List.append_assoc (cstrN k src), this]
  rw [e2]
  exact wrote_mk (cstrN_zero k src) (by omega) (take_drop_split dest (k + 1)) (by simp; omega) (by simp; omega)

example : (4 : Nat) ≤ (c!"abcdef").length ∧ (4 : Nat) ≠ 0 ∧ (min 10 (4 - 1) ≤ (c!"wxyz").length ∨ 0 ∈ c!"wxyz") ∧
    ((c!"wxyz").take (min 10 (4 - 1))).takeWhile (· != 0) = c!"wxy" := by decide

/-- **C49** For a terminated source, `safe_strncpy` gives the first bytes of the string; all of it, if it fits. -/
theorem C49_strncpy_string (dest src : Mem) (size count : Nat) (s : Str) (hd : size ≤ dest.length) (hz : size ≠ 0)
    (hs : HoldsStr src s) :
    ∃ d, safeStrncpy (some dest) size (some src) count = .ok (true, some d) ∧
      Wrote dest d size (s.take (min count (size - 1))) := by
  have := C49_strncpy dest src size count hd hz (hs.readable _)
  rwa [show (src.take (min count (size - 1))).takeWhile (· != 0) = _ from cstrN_holds hs _] at this

example : (8 : Nat) ≤ (List.replicate 8 (1 : Byte)).length ∧ (8 : Nat) ≠ 0 ∧ HoldsStr (c!"wxyz" ++ [0]) c!"wxyz" :=
  ⟨by decide, by decide, by decide, [], rfl⟩

/-- **C49** `safe_strcat` appends the string if the result fits with its terminator, and otherwise refuses and leaves
    the destination alone. (The two objects lie in one address space of 64 bits.) -/
theorem C49_strcat (dest src : Mem) (size : Nat) (d s : Str) (hd : size ≤ dest.length) (hdd : HoldsStr dest d)
    (hs : HoldsStr src s) (hmem : dest.length + src.length < 2 ^ 64) :
    (d.length + s.length < size ∧
      ∃ r, safeStrcat (some dest) size (some src) = .ok (true, some r) ∧ Wrote dest r size (d ++ s)) ∨
    (size ≤ d.length + s.length ∧ safeStrcat (some dest) size (some src) = .ok (false, some dest)) := by
  obtain ⟨hd0, drest, rfl⟩ := hdd
  obtain ⟨h0, rest, rfl⟩ := hs
  unfold safeStrcat
  have hsum : sizeAdd d.length s.length = d.length + s.length := sizeAdd_eq (by simp at hmem; omega)
  simp only [cStrlen_append s rest h0, cStrlen_append d drest hd0, Out.ok_bind, hsum]
  by_cases hl : d.length + s.length < size
  · left
    rw [if_neg (by omega), if_neg (by omega)]
    simp only [List.length_append, List.length_cons] at hd
    have e := cCopy_append s rest d (0 :: drest.take s.length) (drest.drop s.length) h0 (by simp; omega)
    have e1 : d ++ 0 :: drest = d ++ 0 :: drest.take s.length ++ drest.drop s.length := by simp
    rw [e1, e]
    refine ⟨hl, _, rfl, ?_⟩
    have h00 : (0 : Byte) ∉ d ++ s := by simp [hd0, h0]
    have := wrote_mk (p := d ++ 0 :: drest.take s.length) (q := []) (q' := drest.drop s.length) (size := size)
      (old := d ++ 0 :: drest.take s.length ++ drest.drop s.length) h00 (by simp; omega) rfl (by simp; omega)
      (by simp; omega)
    simpa using this
  · right
    refine ⟨by omega, ?_⟩
    by_cases hz : size = 0
    · rw [if_pos hz]
    · rw [if_neg hz, if_pos (by omega)]

example : (6 : Nat) ≤ (c!"ab" ++ 0 :: c!"cdef").length ∧ HoldsStr (c!"ab" ++ 0 :: c!"cdef") c!"ab" ∧
    HoldsStr (c!"xyz" ++ [0]) c!"xyz" ∧ (c!"ab").length + (c!"xyz").length < 6 :=
  ⟨by decide, ⟨by decide, _, rfl⟩, ⟨by decide, [], rfl⟩, by decide⟩

/-- **C49** (full statement: whatever the destination contains). If the destination holds a string within the size
    given, `safe_strncat` appends as many bytes as were asked for and fit, and refuses if there is no room at all.
    Missing: a destination without terminator in its first `size` bytes, for which it is false, see below. -/
theorem C49_strncat_partial (dest src : Mem) (size count : Nat) (d : Str) (hd : size ≤ dest.length)
    (h64 : size < 2 ^ 64) (hdd : HoldsStr dest d) (hlt : d.length < size)
    (hs : min count (size - d.length - 1) ≤ src.length ∨ 0 ∈ src) :
    (d.length + 1 < size ∧
      ∃ r, safeStrncat (some dest) size (some src) count = .ok (true, some r) ∧
        Wrote dest r size (d ++ (src.take (min count (size - d.length - 1))).takeWhile (· != 0))) ∨
    (d.length + 1 = size ∧ safeStrncat (some dest) size (some src) count = .ok (false, some dest)) := by
  obtain ⟨hd0, drest, rfl⟩ := hdd
  have hav : catRoom size d.length = size - d.length - 1 := catRoom_eq hlt h64
  have hk : (if count < size - d.length - 1 then count else size - d.length - 1) =
      min count (size - d.length - 1) := by split <;> omega
  have hz : size ≠ 0 := by omega
  rw [safeStrncat_eq hz (cStrlen_append d drest hd0), hav]
  unfold strncatRest
  rw [hk]
  by_cases hroom : d.length + 1 < size
  · left
    refine ⟨hroom, ?_⟩
    rw [if_neg (by omega)]
    generalize hkk : min count (size - d.length - 1) = k at hs
    have hlen : (cstrN k src).length ≤ k := cstrN_le k src
    simp only [List.length_append, List.length_cons] at hd
    have e := cAppendN_append k src d (0 :: drest.take (cstrN k src).length) (drest.drop (cstrN k src).length) hs
      (by simp; omega)
    have e1 : d ++ 0 :: drest = d ++ 0 :: drest.take (cstrN k src).length ++ drest.drop (cstrN k src).length := by simp
    rw [e1, e]
    refine ⟨_, rfl, ?_⟩
    have h00 : (0 : Byte) ∉ d ++ cstrN k src := by
      simp only [List.mem_append, not_or]; exact ⟨hd0, cstrN_zero k src⟩
    have := wrote_mk (p := d ++ 0 :: drest.take (cstrN k src).length) (q := []) (q' := drest.drop (cstrN k src).length)
      (size := size) (old := d ++ 0 :: drest.take (cstrN k src).length ++ drest.drop (cstrN k src).length) h00
      (by simp; omega) rfl (by simp; omega) (by simp; omega)
    simpa [cstrN] using this
  · right
    refine ⟨by omega, ?_⟩
    rw [if_pos (by omega)]

example : (5 : Nat) ≤ (c!"ab" ++ 0 :: c!"cdef").length ∧ HoldsStr (c!"ab" ++ 0 :: c!"cdef") c!"ab" ∧
    (c!"ab").length < 5 ∧ (min 9 (5 - 2 - 1) ≤ (c!"xyz").length ∨ 0 ∈ c!"xyz") ∧ (c!"ab").length + 1 < 5 :=
  ⟨by decide, ⟨by decide, _, rfl⟩, by decide, by decide, by decide⟩

/-- **C49** The claim as first stated is false: if the string in the destination is longer than the size given, the
    room left is computed as a huge number, and `safe_strncat` writes past the size. -/
theorem C49_strncat_beyond : safeStrncat (some (c!"abcd" ++ List.replicate 4 0)) 3 (some (c!"xyz" ++ [0])) 9 =
    .ok (true, some (c!"abcdxyz" ++ [0])) := by decide +kernel

/-- **C49** `safe_strncat` with no room left refuses even the empty string, which would fit. -/
theorem C49_strncat_full : safeStrncat (some (c!"ab" ++ [0])) 3 (some [0]) 5 = .ok (false, some (c!"ab" ++ [0])) := by
  decide +kernel

/-- **C49** Without a destination, a source or any room, nothing is written and NULL is returned. -/
theorem C49_null (dest src : Option Mem) (size count : Nat) (h : dest = none ∨ src = none ∨ size = 0) :
    safeStrcpy dest size src = .ok (false, dest) ∧ safeStrncpy dest size src count = .ok (false, dest) ∧
    safeStrcat dest size src = .ok (false, dest) ∧ safeStrncat dest size src count = .ok (false, dest) := by
  rcases h with rfl | rfl | rfl
  · exact ⟨rfl, rfl, rfl, rfl⟩
  · cases dest <;> exact ⟨rfl, rfl, rfl, rfl⟩
  · cases dest <;> cases src <;> exact ⟨rfl, rfl, rfl, rfl⟩

/-- **C49** `safe_strndup` gives a new block that holds the first `n` bytes of the string and is no larger than
    needed; or NULL, if and only if the allocation fails. -/
theorem C49_strndup (malloc : Malloc) (src : Mem) (n : Nat) (hm : Sized malloc) (hs : n ≤ src.length ∨ 0 ∈ src)
    (h64 : src.length + 1 < 2 ^ 64) :
    (malloc (((src.take n).takeWhile (· != 0)).length + 1) = none ∧ safeStrndup malloc src n = .ok none) ∨
    safeStrndup malloc src n = .ok (some ((src.take n).takeWhile (· != 0) ++ [0])) := by
  obtain ⟨rest, hrest⟩ := cstrN_prefix n src
  have hlen : (cstrN n src).length ≤ src.length := by rw [hrest] ; simp only [List.length_append]; rw [← hrest]; omega
  have hadd : sizeAdd (cstrN n src).length 1 = (cstrN n src).length + 1 := sizeAdd_eq (by omega)
  unfold safeStrndup
  rw [dupLen_eq n src hs, Out.ok_bind, hadd]
  change (malloc ((cstrN n src).length + 1) = none ∧ _) ∨ _
  cases hmal : malloc ((cstrN n src).length + 1) with
  | none => exact .inl ⟨rfl, rfl⟩
  | some m =>
    right
    have hml := hm _ _ hmal
    have e := cMemcpy_append (cstrN n src) rest [] (m.take (cstrN n src).length) (m.drop (cstrN n src).length)
      (by simp; omega)
    simp only [List.nil_append, List.length_nil, List.take_append_drop, ← hrest] at e
    simp only [e, Out.ok_bind]
    obtain ⟨x, hx⟩ := List.length_eq_one_iff.1 (show (m.drop (cstrN n src).length).length = 1 by simp; omega)
    rw [hx, Mem.write_at]
    rfl

example : Sized (fun n => some (List.replicate n 7)) ∧ (3 ≤ (c!"key=value" ++ [0]).length ∨ 0 ∈ c!"key=value" ++ [0]) ∧
    safeStrndup (fun n => some (List.replicate n 7)) (c!"key=value" ++ [0]) 3 = .ok (some (c!"key" ++ [0])) := by
  refine ⟨?_, by decide, by decide +kernel⟩
  intro n m h
  simp only [Option.some.injEq] at h
  subst h; simp

/-- **C49** The buffer of `handle_long_option` holds the part of the argument before the first `=`, cut to 63 bytes:
    what `longParts` says. -/
theorem C49_option_name (arg : Str) (h0 : 0 ∉ arg) :
    ∃ d, optionNameBuffer arg = .ok (true, some d) ∧ d.length = 64 ∧ HoldsStr d (longParts arg).1 := by
  have hs : HoldsStr (arg ++ [0]) arg := ⟨h0, [], rfl⟩
  unfold optionNameBuffer longParts
  cases hsp : strchrSplit 61 arg with
  | none =>
    obtain ⟨d, hd, hw⟩ := C49_strncpy_string (List.replicate 64 0) (arg ++ [0]) 64 63 arg (by simp) (by decide) hs
    exact ⟨d, hd, by rw [hw.length]; simp, hw.holds⟩
  | some p =>
    obtain ⟨n, v⟩ := p
    obtain ⟨d, hd, hw⟩ := C49_strncpy_string (List.replicate 64 0) (arg ++ [0]) 64 n.length arg (by simp) (by decide) hs
    refine ⟨d, hd, by rw [hw.length]; simp, ?_⟩
    have key : ∀ (s : Str) (n v : Str), strchrSplit 61 s = some (n, v) → s = n ++ 61 :: v := by
      intro s
      induction s with
      | nil => intro n v h; simp [strchrSplit] at h
      | cons b s ih =>
        intro n v h
        unfold strchrSplit at h
        split at h
        · rename_i hb
          simp only [Option.some.injEq, Prod.mk.injEq] at h
          simp only [beq_iff_eq] at hb
          rw [← h.1, ← h.2, hb]; rfl
        · rw [Option.map_eq_some_iff] at h
          obtain ⟨⟨n1, v1⟩, h1, h2⟩ := h
          simp only [Prod.mk.injEq] at h2
          rw [ih n1 v1 h1, ← h2.1, ← h2.2]; rfl
    have e := key arg n v hsp
    have : arg.take (min n.length (64 - 1)) = n.take 63 := by
      rw [e, List.take_append_of_le_length (by omega)]
      rw [Nat.min_comm, ← List.take_take, List.take_length]
    show HoldsStr d (n.take 63)
    rw [← this]; exact hw.holds

example : 0 ∉ c!"output=a.txt" ∧ (longParts c!"output=a.txt").1 = c!"output" := by decide

end Argus
