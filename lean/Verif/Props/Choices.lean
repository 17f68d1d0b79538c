import Verif.Props.Buffer
import Verif.Lemmas.Numbers

/-!
# C46: choice lists

`bars` and `HoldsStr` are in Spec/Buffer.
-/

set_option autoImplicit false

namespace Argus

attribute [local irreducible] sizeAdd

/-- The bytes reserved for the choices and the separators between them. -/
def reserved {α : Type} (w : α → Nat) : List α → Nat
  | [] => 0
  | [x] => w x
  | x :: y :: ys => w x + 1 + reserved w (y :: ys)

theorem choicesLength_eq {α : Type} (w : α → Nat) : ∀ (cs : List α) (acc : Nat), acc + reserved w cs < 2 ^ 64 →
    choicesLength w acc cs = acc + reserved w cs
  | [], acc, _ => rfl
  | [x], acc, h => by
    unfold reserved at h
    simp only [choicesLength, List.isEmpty_nil, if_true, sizeAdd_eq h, reserved]
  | x :: y :: ys, acc, h => by
    rw [reserved] at h
    have ih := choicesLength_eq w (y :: ys) (acc + w x + 1) (by omega)
    rw [choicesLength]
    simp only [List.isEmpty_cons, Bool.false_eq_true, if_false]
    rw [sizeAdd_eq (a := acc) (b := w x) (by omega), sizeAdd_eq (a := acc + w x) (b := 1) (by omega), ih, reserved]
    omega

theorem choicesWrite_eq {α : Type} (w : α → Nat) (f : α → Str) (size : Nat) (h63 : size < 2 ^ 63) :
    ∀ (cs : List α) (m : Mem) (pre : Str), (∀ x ∈ cs, 0 ∉ f x ∧ (f x).length ≤ w x) → m.length = size →
      HoldsStr m pre → pre.length + reserved w cs < size →
      ∃ r, choicesWrite f size (some m) cs = .ok (some r) ∧ r.length = size ∧ HoldsStr r (pre ++ bars (cs.map f))
  | [], m, pre, _, hm, hp, _ => ⟨m, rfl, hm, by simpa [bars] using hp⟩
  | [x], m, pre, hf, hm, hp, hr => by
    obtain ⟨h0, hl⟩ := hf x (by simp)
    unfold reserved at hr
    rcases C49_strcat m (f x ++ [0]) size pre (f x) (by omega) hp ⟨h0, [], rfl⟩ (by simp; omega) with
      ⟨_, r, hr1, hw⟩ | ⟨h1, _⟩
    · refine ⟨r, ?_, by rw [hw.length, hm], by simpa [bars] using hw.holds⟩
      simp only [choicesWrite, hr1, Out.ok_bind, List.isEmpty_nil, if_true]
    · omega
  | x :: y :: ys, m, pre, hf, hm, hp, hr => by
    obtain ⟨h0, hl⟩ := hf x (by simp)
    rw [reserved] at hr
    rcases C49_strcat m (f x ++ [0]) size pre (f x) (by omega) hp ⟨h0, [], rfl⟩ (by simp; omega) with
      ⟨_, r, hr1, hw⟩ | ⟨h1, _⟩
    · have hrl : r.length = size := by rw [hw.length, hm]
      rcases C49_strcat r (c!"|" ++ [0]) size (pre ++ f x) c!"|" (by omega) hw.holds ⟨by decide, [], rfl⟩
        (by simp; omega) with ⟨_, r2, hr2, hw2⟩ | ⟨h1, _⟩
      · obtain ⟨r3, h3, h3l, h3h⟩ := choicesWrite_eq w f size h63 (y :: ys) r2 (pre ++ f x ++ c!"|")
          (fun z hz => hf z (by simp [hz])) (by rw [hw2.length, hrl]) hw2.holds (by simp; omega)
        refine ⟨r3, ?_, h3l, ?_⟩
        · rw [choicesWrite]
          simp only [hr1, hr2, Out.ok_bind, List.isEmpty_cons, Bool.false_eq_true, if_false]
          exact h3
        · simpa [bars] using h3h
      · simp at h1; omega
    · omega

theorem choicesText_eq {α : Type} (malloc : Malloc) (w : α → Nat) (f : α → Str) (cs : List α) (hm : Sized malloc)
    (hf : ∀ x ∈ cs, 0 ∉ f x ∧ (f x).length ≤ w x) (h63 : reserved w cs + 1 < 2 ^ 63) :
    (malloc (reserved w cs + 1) = none ∧ choicesText malloc w f cs = .ok none) ∨
    ∃ r, choicesText malloc w f cs = .ok (some r) ∧ r.length = reserved w cs + 1 ∧ HoldsStr r (bars (cs.map f)) := by
  have h1 := choicesLength_eq w cs 0 (by omega)
  rw [Nat.zero_add] at h1
  have h2 : sizeAdd (reserved w cs) 1 = reserved w cs + 1 := sizeAdd_eq (by omega)
  have h3 : choicesText malloc w f cs = choicesFill f (reserved w cs + 1) cs (malloc (reserved w cs + 1)) := by
    unfold choicesText
    rw [h1, h2]
  rw [h3]
  cases hmal : malloc (reserved w cs + 1) with
  | none => exact .inl ⟨rfl, rfl⟩
  | some m =>
    right
    have hml := hm _ _ hmal
    obtain ⟨b, m', rfl⟩ : ∃ b m', m = b :: m' := by
      cases m with
      | nil => simp at hml
      | cons b m' => exact ⟨b, m', rfl⟩
    have hwr : Mem.write (b :: m') 0 0 = .ok (0 :: m') := Mem.write_at (p := [])
    obtain ⟨r, hr, hrl, hrh⟩ := choicesWrite_eq w f (reserved w cs + 1) h63 cs (0 :: m') [] hf (by simpa using hml)
      ⟨by simp, m', rfl⟩ (by simp)
    refine ⟨r, ?_, hrl, by simpa using hrh⟩
    rw [choicesFill, hwr]
    exact hr

/-- **C46** For string choices the text is the choices in order, separated by `|`, in a block of exactly the size
    needed; NULL only if the allocation fails. -/
theorem C46_strings (malloc : Malloc) (fmt : F64 → Str) (cs : List Str) (hm : Sized malloc) (h0 : ∀ s ∈ cs, 0 ∉ s)
    (h63 : (bars cs).length + 1 < 2 ^ 63) :
    (malloc ((bars cs).length + 1) = none ∧ formatChoices malloc fmt (.strings cs) = .ok none) ∨
    formatChoices malloc fmt (.strings cs) = .ok (some (bars cs ++ [0])) := by
  have hres : ∀ cs : List Str, reserved List.length cs = (bars cs).length := by
    intro cs
    induction cs with
    | nil => rfl
    | cons s cs ih =>
      cases cs with
      | nil => rfl
      | cons t ts => simp only [reserved, bars, List.length_append, List.length_cons, ih]; omega
  have key := choicesText_eq malloc List.length id cs hm (fun s hs => ⟨h0 s hs, Nat.le_refl _⟩) (by rw [hres]; exact h63)
  rw [hres, List.map_id] at key
  rcases key with h | ⟨r, h1, h2, _, rest, h3⟩
  · exact .inl h
  · right
    rw [show formatChoices malloc fmt (.strings cs) = choicesText malloc List.length id cs from rfl, h1]
    subst h3
    have : rest = [] := by simpa using h2
    rw [this]

example : Sized (fun n => some (List.replicate n 7)) ∧ (∀ s ∈ [c!"fast", c!"slow", c!"auto"], (0 : Byte) ∉ s) ∧
    bars [c!"fast", c!"slow", c!"auto"] = c!"fast|slow|auto" := by
  refine ⟨?_, by decide, by decide⟩
  intro n m h
  simp only [Option.some.injEq] at h
  subst h; simp

theorem natDigitsAux_length : ∀ (fuel n k : Nat), n < 10 ^ (k + 1) → (natDigitsAux fuel n).length ≤ k + 1
  | 0, n, k, _ => by simp [natDigitsAux]
  | fuel + 1, n, 0, h => by
    unfold natDigitsAux
    rw [if_pos (by simpa using h)]; simp
  | fuel + 1, n, k + 1, h => by
    unfold natDigitsAux
    split
    · simp
    · have := natDigitsAux_length fuel (n / 10) k (by
        rw [Nat.div_lt_iff_lt_mul (by decide)]; rwa [Nat.pow_succ] at h)
      simp only [List.length_append, List.length_cons, List.length_nil]; omega

theorem showInt_text {n : Int} (h1 : llongMin ≤ n) (h2 : n ≤ llongMax) :
    0 ∉ showInt n ∧ (showInt n).length ≤ 20 := by
  have hd : ∀ k : Nat, (0 : Byte) ∉ natDigits k := by
    intro k hk
    have := (natDigits_spec k).2.1 0 hk
    exact absurd this (by decide)
  have hl : (natDigits n.natAbs).length ≤ 19 :=
    natDigitsAux_length _ _ 18 (by unfold llongMin at h1; unfold llongMax at h2; omega)
  unfold showInt
  split
  · refine ⟨?_, by simp; omega⟩
    simp only [List.mem_cons, not_or]
    exact ⟨by decide, hd _⟩
  · exact ⟨hd _, by omega⟩

/-- **C46** For int choices (`int64_t`) the text is the numbers in order, separated by `|`; the 20 bytes reserved for
    each are enough. -/
theorem C46_ints (malloc : Malloc) (fmt : F64 → Str) (cs : List Int) (hm : Sized malloc)
    (hr : ∀ n ∈ cs, -9223372036854775808 ≤ n ∧ n ≤ 9223372036854775807) (hlen : cs.length < 2 ^ 32) :
    formatChoices malloc fmt (.ints cs) = .ok none ∨
    ∃ m, formatChoices malloc fmt (.ints cs) = .ok (some m) ∧ HoldsStr m (bars (cs.map showInt)) := by
  have hres : ∀ cs : List Int, reserved (fun _ => 20) cs ≤ 21 * cs.length := by
    intro cs
    induction cs with
    | nil => exact Nat.le_refl _
    | cons s cs ih =>
      cases cs with
      | nil => simp [reserved]
      | cons t ts => simp only [reserved, List.length_cons] at ih ⊢; omega
  have htake : ∀ n ∈ cs, (showInt n).take 31 = showInt n := fun n hn =>
    List.take_of_length_le (by have := (showInt_text (hr n hn).1 (hr n hn).2).2; omega)
  have hmap : cs.map (fun n => (showInt n).take 31) = cs.map showInt := List.map_congr_left htake
  rcases choicesText_eq malloc (fun _ => 20) (fun n => (showInt n).take 31) cs hm
    (fun n hn => by
      have := showInt_text (hr n hn).1 (hr n hn).2
      simp only [htake n hn]; exact this) (by have := hres cs; omega) with ⟨_, h⟩ | ⟨r, h1, h2, h3⟩
  · exact .inl h
  · exact .inr ⟨r, h1, hmap ▸ h3⟩

/-- The longest number. -/
example : (∀ n ∈ [(-9223372036854775808 : Int), 7], -9223372036854775808 ≤ n ∧ n ≤ 9223372036854775807) ∧
    [(-9223372036854775808 : Int), 7].length < 2 ^ 32 ∧
    bars ([(-9223372036854775808 : Int), 7].map showInt) = c!"-9223372036854775808|7" := by
  refine ⟨by decide, by decide, by decide +kernel⟩

/-- **C46** For float choices the text is the numbers as printed, in order, separated by `|`, as long as a number as
    printed (`%.2g`) has at most 20 bytes. -/
theorem C46_floats (malloc : Malloc) (fmt : F64 → Str) (cs : List F64) (hm : Sized malloc)
    (hr : ∀ x ∈ cs, 0 ∉ fmt x ∧ (fmt x).length ≤ 20) (hlen : cs.length < 2 ^ 32) :
    formatChoices malloc fmt (.floats cs) = .ok none ∨
    ∃ m, formatChoices malloc fmt (.floats cs) = .ok (some m) ∧ HoldsStr m (bars (cs.map fmt)) := by
  have hres : ∀ cs : List F64, reserved (fun _ => 20) cs ≤ 21 * cs.length := by
    intro cs
    induction cs with
    | nil => exact Nat.le_refl _
    | cons s cs ih =>
      cases cs with
      | nil => simp [reserved]
      | cons t ts => simp only [reserved, List.length_cons] at ih ⊢; omega
  have htake : ∀ x ∈ cs, (fmt x).take 31 = fmt x := fun x hx =>
    List.take_of_length_le (by have := (hr x hx).2; omega)
  have hmap : cs.map (fun x => (fmt x).take 31) = cs.map fmt := List.map_congr_left htake
  rcases choicesText_eq malloc (fun _ => 20) (fun x => (fmt x).take 31) cs hm
    (fun x hx => by simp only [htake x hx]; exact hr x hx) (by have := hres cs; omega) with ⟨_, h⟩ | ⟨r, h1, h2, h3⟩
  · exact .inl h
  · exact .inr ⟨r, h1, hmap ▸ h3⟩

example : (∀ x ∈ [(0x3FE0000000000000#64 : F64), 0x3FF8000000000000#64],
      0 ∉ (fun (b : F64) => if b.getLsbD 51 then c!"1.5" else c!"0.5") x ∧
      ((fun (b : F64) => if b.getLsbD 51 then c!"1.5" else c!"0.5") x).length ≤ 20) ∧
    bars ([(0x3FE0000000000000#64 : F64), 0x3FF8000000000000#64].map
      (fun b => if b.getLsbD 51 then c!"1.5" else c!"0.5")) = c!"0.5|1.5" := by
  refine ⟨fun x _ => ?_, by decide +kernel⟩
  simp only
  split <;> decide

end Argus
