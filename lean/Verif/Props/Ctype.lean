import Verif.Lemmas.Ctype
import Verif.Model.Define
import Verif.Spec.Sample

/-! # C104: no text takes the classification of bytes out of its range

`isdigit`, `tolower` and `toupper` are called with a plain `char`. With a signed `char` this is undefined for the bytes 128 to 254,
which every text beyond ASCII contains. -/

set_option autoImplicit false

namespace Argus

/-- The full claim: whatever the program, the environment and the line, all calls are within the range. -/
def C104_claim : Prop := ∀ (sgn : Bool) (W : World) (env : Env) (a : Argus) (args : List Str),
  argusParseC sgn W env a args = argusParse W env a args

/-- C104. The calls are within the range, and the parse is the one of the other theorems, if `char` is unsigned; or if names and
    dash arguments are plain and either no option classifies its text or all texts are plain. -/
theorem C104_safe_partial (sgn : Bool) (W : World) (env : Env) (a : Argus) (args : List Str) (h : CtypeSafe sgn env a args) :
    argusParseC sgn W env a args = argusParse W env a args := argusParseC_near.eq h

/-- C104. Where `char` is unsigned nothing is required. -/
theorem C104_unsigned (W : World) (env : Env) (a : Argus) (args : List Str) :
    argusParseC false W env a args = argusParse W env a args := C104_safe_partial _ _ _ _ _ (.inl rfl)

/-- C104. In every case the parse is that of the other theorems up to a call outside the range. -/
theorem C104_or_undefined (sgn : Bool) (W : World) (env : Env) (a : Argus) (args : List Str) :
    argusParseC sgn W env a args = argusParse W env a args ∨ argusParseC sgn W env a args = .ub .outOfBounds := by
  rcases argusParseC_near (sgn := sgn) (W := W) (env := env) (a := a) (args := args) with h | ⟨_, h⟩
  · exact .inl h
  · exact .inr h

theorem plain_ascii {s : Str} (h : ∀ c ∈ s, c < 128) : PlainText s := fun c hc => .inl (h c hc)

theorem plain_dash {s : Str} (h : PlainText s) : DashPlain s :=
  ⟨fun c r e => h c (by rw [e]; simp), fun c r e => h c (by rw [e]; simp)⟩

/-- C104. In particular for an ASCII line, environment and program. -/
theorem C104_ascii_partial (sgn : Bool) (W : World) (env : Env) (a : Argus) (args : List Str)
    (hx : ∀ x ∈ args, ∀ c ∈ x, c < 128) (he : ∀ n v, env n = some v → ∀ c ∈ v, c < 128)
    (hp : ∀ s, a.envPrefix = some s → ∀ c ∈ s, c < 128)
    (hn : ∀ os ∈ a.tables, ∀ o ∈ os, (∀ s, o.name = some s → ∀ c ∈ s, c < 128) ∧ ∀ s, o.lname = some s → ∀ c ∈ s, c < 128) :
    argusParseC sgn W env a args = argusParse W env a args := by
  refine C104_safe_partial _ _ _ _ _ (.inr ⟨⟨fun s e => plain_ascii (hp s e), fun os hos o ho _ _ => ?_⟩,
    fun x h => plain_dash (plain_ascii (hx x h)), .inr ⟨fun x h => plain_ascii (hx x h), fun n v e => plain_ascii (he n v e)⟩⟩)
  obtain ⟨h1, h2⟩ := hn os hos o ho
  exact ⟨fun s e => plain_ascii (h1 s e), fun s e => plain_ascii (h2 s e)⟩

/-- C104. A program without options that classify their text, and without AUTO_ENV, takes any texts, as long as none of them is
    `-x...` or `-.x...` with a byte `x` outside the range. -/
theorem C104_strings_partial (sgn : Bool) (W : World) (env : Env) (a : Argus) (args : List Str) (hc : a.Classless)
    (hp : ∀ s, a.envPrefix = some s → PlainText s) (hn : ∀ os ∈ a.tables, ∀ o ∈ os, o.flags.has .autoEnv = false)
    (hd : ∀ x ∈ args, DashPlain x) : argusParseC sgn W env a args = argusParse W env a args :=
  C104_safe_partial _ _ _ _ _ (.inr ⟨⟨hp, fun os hos o ho _ hf => absurd (hn os hos o ho) (by rw [hf]; decide)⟩, hd, .inl hc⟩)

/-! ## Violations -/

theorem ctypeArg_bad {c : Byte} (h : ¬ PlainByte c) : ctypeArg true c = .ub .outOfBounds := by
  unfold ctypeArg
  have h1 : ¬ c < 128 := fun e => h (.inl e)
  have h2 : c ≠ 255 := fun e => h (.inr e)
  rw [if_pos]
  simp only [Bool.true_and, Bool.and_eq_true, decide_eq_true_eq, bne_iff_ne]
  exact ⟨UInt8.not_lt.1 h1, h2⟩

/-- **Violation of C104.** Every program is undefined on a line that begins with a dash and a byte outside the range, such as
    `-é`: parse_args.c:77 asks `isdigit` before anything is known about the argument. -/
theorem C104_every_program (W : World) (env : Env) (a : Argus) (c : Byte) (r : Str) (rest : List Str) (hc : ¬ PlainByte c) :
    argusParseC true W env a ((45 :: c :: r) :: rest) = .ub .outOfBounds := by
  have h45 : c ≠ 45 := fun e => hc (.inl (by rw [e]; decide))
  have h1 : startsWith [45, 45] (45 :: c :: r) = none := by
    rw [startsWith_eq_none_iff]
    intro h
    obtain ⟨t, ht⟩ := h
    simp only [List.cons_append, List.nil_append, List.cons.injEq] at ht
    exact h45 ht.2.1.symm
  have h2 : startsWith [45] (45 :: c :: r) = some (c :: r) := startsWith_append [45] (c :: r)
  have h3 : looksNumericC true (c :: r) = .ub .outOfBounds := by
    unfold looksNumericC isDigitC
    rw [show headByte (c :: r) = c from rfl, ctypeArg_bad hc]
    rfl
  have h4 : parseStepC true W (some a.root) a 0 false (45 :: c :: r) rest = .ub .outOfBounds := by
    unfold parseStepC
    rw [if_neg (by simp only [List.cons.injEq]; exact fun e => h45 e.2.1), if_neg (by decide), h1]
    simp only [h2]
    unfold isNegNumberC
    rw [h3]
    rfl
  unfold argusParseC parseLoopC
  rw [h4]
  rfl

theorem C104_claim_false : ¬ C104_claim := by
  intro h
  have h1 := h true Sample.world Sample.noEnv Sample.prog [[45, 195, 169]]
  rw [C104_every_program _ _ _ _ _ _ (by unfold PlainByte; decide)] at h1
  exact absurd h1 (by decide +kernel)

/-- A text with a bad byte stops the loop. -/
theorem mapBytes_bad {f : Byte → Out Byte} (hf : ∀ c, PlainByte c → ∃ d, f c = .ok d)
    (hg : ∀ c, ¬ PlainByte c → f c = .ub .outOfBounds) : ∀ (s : Str), ¬ PlainText s → mapBytes f s = .ub .outOfBounds
  | [], h => absurd (fun c hc => (nomatch hc)) h
  | c :: s, h => by
    unfold mapBytes
    by_cases hc : PlainByte c
    · obtain ⟨d, hd⟩ := hf c hc
      rw [hd, Out.ok_bind, mapBytes_bad hf hg s (fun hs => h (fun e he => ?_))]
      · rfl
      · rcases List.mem_cons.1 he with rfl | he
        · exact hc
        · exact hs e he
    · rw [hg c hc]; rfl

/-- **Violation of C104.** The text of a boolean is undefined exactly if it has at most five bytes and one of them is outside the
    range. -/
theorem C104_bool (s : Str) : stringToBoolC true s = .ub .outOfBounds ↔ s.length ≤ 5 ∧ ¬ PlainText s := by
  constructor
  · intro h
    refine ⟨?_, fun hs => ?_⟩
    · by_cases hl : s.length > 5
      · unfold stringToBoolC at h
        rw [if_pos hl] at h; exact (nomatch h)
      · omega
    · have h1 := (stringToBoolC_near (P := True) (sgn := true) (s := s) (fun _ => .inr hs)).eq trivial
      rw [h] at h1; exact (nomatch h1)
  · rintro ⟨h1, h2⟩
    unfold stringToBoolC
    rw [if_neg (by omega), mapBytes_bad (fun c hc => ?_) (fun c hc => ?_) s h2]
    · rfl
    · exact ⟨_, (toLowerC_near (P := True) (fun _ => .inr hc)).eq trivial⟩
    · unfold toLowerC; rw [ctypeArg_bad hc]; rfl

/-- **Violation of C104.** Booleans, maps of booleans, integer arrays and AUTO_ENV in whole parses: `--yes=né`, `--map=k=né`,
    `--list=é-1` and an option named `né`. -/
theorem C104_handlers :
    argusParseC true Sample.world Sample.noEnv (argusInit [[helpOption, optBool 121 (some c!"yes")]] c!"prog" none)
      [c!"--yes=n" ++ [195, 169]] = .ub .outOfBounds ∧
    argusParseC true Sample.world Sample.noEnv (argusInit [[helpOption, optMapBool 109 (some c!"map")]] c!"prog" none)
      [c!"--map=k=n" ++ [195, 169]] = .ub .outOfBounds ∧
    argusParseC true Sample.world Sample.noEnv (argusInit [[helpOption, optArrayInt 108 (some c!"list")]] c!"prog" none)
      [c!"--list=" ++ [195, 169] ++ c!"-1"] = .ub .outOfBounds ∧
    argusParseC true Sample.world Sample.noEnv (argusInit [[helpOption,
      { optString 110 (some (c!"n" ++ [195, 169])) with flags := Flags.ofList [.autoEnv] }]] c!"prog" none) [] =
      .ub .outOfBounds := by
  refine ⟨?_, ?_, ?_, ?_⟩ <;> decide +kernel

/-! ## Cases -/

/-- A string takes `né`, also where it is given to an option and to a positional. -/
example : ∃ r, argusParseC true Sample.world Sample.noEnv
    (argusInit [[helpOption, optString 111 (some c!"out")]] c!"prog" none) [c!"--out=n" ++ [195, 169]] = .ok r := ⟨_, rfl⟩

example : CtypeSafe true Sample.noEnv (argusInit [[helpOption, optString 111 (some c!"out")]] c!"prog" none)
    [c!"--out=n" ++ [195, 169]] := by
  refine .inr ⟨⟨fun s h => (nomatch h), ?_⟩, ?_, .inl ?_⟩
  · intro os hos o ho _ hf
    have h1 : ([[helpOption, optString 111 (some c!"out")]].all fun os => os.all fun o => !o.flags.has .autoEnv) = true := by
      decide +kernel
    have h2 := List.all_eq_true.1 (List.all_eq_true.1 h1 os hos) o ho
    rw [hf] at h2; exact (nomatch h2)
  · intro x hx
    rw [List.mem_singleton] at hx
    subst hx
    refine ⟨fun c r e => ?_, fun c r e => (nomatch e)⟩
    cases e
    exact .inl (by decide)
  · intro os hos o ho h e hk
    have h1 : ([[helpOption, optString 111 (some c!"out")]].all fun os => os.all fun o =>
        o.handler != some .bool && o.handler != some .arrayInt && o.handler != some .mapBool) = true := by decide +kernel
    have h2 := List.all_eq_true.1 (List.all_eq_true.1 h1 os hos) o ho
    rw [e] at h2
    rcases hk with rfl | rfl | rfl <;> exact absurd h2 (by decide)

end Argus
