import Verif.Model.Argv
import Verif.Lemmas.Slots
import Verif.Lemmas.Quiet
import Verif.Spec.Sample

/-!
# C109: the parser stays within `argv`
-/

set_option autoImplicit false

namespace Argus

/-- From index `i` of `memory + base` on, the arguments are `rest`. -/
structure ArgsAt (memory : List (Option Str)) (base : Nat) (argc i : Int) (rest : List Str) : Prop where
  low : 0 ≤ i
  count : argc = i + rest.length
  small : argc ≤ 2147483647
  here : ∀ k : Nat, k < rest.length → memory[base + (i.toNat + k)]? = some rest[k]?
  inside : base + (i.toNat + rest.length) ≤ memory.length

namespace ArgsAt

variable {memory : List (Option Str)} {base : Nat} {argc i : Int} {x : Str} {rest : List Str}

theorem next (h : ArgsAt memory base argc i (x :: rest)) : ArgsAt memory base argc (i + 1) rest := by
  obtain ⟨h1, h2, h3, h4, h5⟩ := h
  have e : (i + 1).toNat = i.toNat + 1 := by omega
  refine ⟨by omega, by rw [h2]; simp; omega, h3, fun k hk => ?_, ?_⟩
  · have := h4 (k + 1) (by simp; omega)
    rw [e, show i.toNat + 1 + k = i.toNat + (k + 1) by omega, this]
    simp
  · rw [e]; simp at h5; omega

theorem text (h : ArgsAt memory base argc i (x :: rest)) : i < argc ∧ argAt memory base i = .ok (some x) ∧
    intInc i = .ok (i + 1) := by
  obtain ⟨h1, h2, h3, h4, h5⟩ := h
  have hlt : i < argc := by rw [h2]; simp; omega
  refine ⟨hlt, ?_, by unfold intInc; rw [if_neg (by omega)]⟩
  unfold argAt
  rw [if_neg (by omega)]
  have := h4 0 (by simp)
  simp only [Nat.add_zero, List.getElem?_cons_zero] at this
  rw [this]

theorem nextArg_eq (h : ArgsAt memory base argc i (x :: rest)) :
    nextArg memory base argc i = .ok (rest.head?.map fun v => (some v, i + 1)) := by
  obtain ⟨_, _, h3⟩ := h.text
  have hn := h.next
  unfold nextArg
  rw [h3, Out.ok_bind]
  cases rest with
  | nil =>
    rw [if_neg (by have := hn.count; simp at this; omega)]; rfl
  | cons v rest =>
    obtain ⟨g1, g2, _⟩ := hn.text
    rw [if_pos g1, g2]; rfl

end ArgsAt

/-- Where an index is after an argument. -/
def indexAfter (i : Int) (used : Bool) : Int := if used then i + 1 else i

def OptRes.at (r : OptRes) (i : Int) : ResAt := ⟨r.status, r.argus, indexAfter i r.used⟩

def Step.at (i : Int) : Step → StepAt
  | .done st a => .done st a
  | .next a pos only used => .next a pos only (indexAfter i used)
  | .enter t a => .enter t a

variable {W : World} {memory : List (Option Str)} {base : Nat} {argc i : Int} {x : Str} {rest : List Str}

theorem handleLongAt_eq (h : ArgsAt memory base argc i (x :: rest)) (a : Argus) (t : Option Nat) (arg : Str) :
    handleLongAt W memory base argc i a t arg = (handleLong W a t arg rest).bind fun r => .ok (r.at i) := by
  unfold handleLongAt handleLong
  cases a.table t with
  | ub u => rfl
  | ok os =>
    simp only [Out.ok_bind]
    cases t with
    | none => rfl
    | some k =>
      cases findLname os (longParts arg).1 with
      | none => rfl
      | some j =>
        simp only
        cases a.getOpt ⟨k, j⟩ with
        | ub u => rfl
        | ok o =>
          simp only [Out.ok_bind]
          by_cases hf : o.valueType = .flag
          · rw [if_pos hf, if_pos hf]
            cases execCallbacks W a ⟨k, j⟩ none <;> rfl
          · rw [if_neg hf, if_neg hf]
            cases (longParts arg).2 with
            | some v =>
              simp only
              cases execCallbacks W a ⟨k, j⟩ (some v) <;> rfl
            | none =>
              simp only [h.nextArg_eq, Out.ok_bind]
              cases rest with
              | nil => rfl
              | cons v rest =>
                simp only [List.head?_cons, Option.map_some]
                cases execCallbacks W a ⟨k, j⟩ (some v) <;> rfl

theorem handleShortAt_eq (h : ArgsAt memory base argc i (x :: rest)) (t : Option Nat) : ∀ (cs : Str) (a : Argus),
    handleShortAt W memory base argc t i a cs = (handleShort W t rest a cs).bind fun r => .ok (r.at i)
  | [], a => rfl
  | c :: cs, a => by
    unfold handleShortAt handleShort
    cases a.table t with
    | ub u => rfl
    | ok os =>
      simp only [Out.ok_bind]
      cases t with
      | none => rfl
      | some k =>
        cases findSname os c with
        | none => rfl
        | some j =>
          simp only
          cases a.getOpt ⟨k, j⟩ with
          | ub u => rfl
          | ok o =>
            simp only [Out.ok_bind]
            by_cases hf : o.valueType = .flag
            · rw [if_pos hf, if_pos hf]
              cases execCallbacks W a ⟨k, j⟩ none with
              | ub u => rfl
              | ok r =>
                simp only [Out.ok_bind]
                by_cases hr : r.1 ≠ Err.success
                · rw [if_pos hr, if_pos hr]; rfl
                · rw [if_neg hr, if_neg hr]
                  exact handleShortAt_eq h (some k) cs r.2
            · rw [if_neg hf, if_neg hf]
              cases cs with
              | cons d ds => cases rest <;> cases execCallbacks W a ⟨k, j⟩ (some (d :: ds)) <;> rfl
              | nil =>
                simp only [h.nextArg_eq, Out.ok_bind]
                cases rest with
                | nil => rfl
                | cons v rest =>
                  simp only [List.head?_cons, Option.map_some]
                  cases execCallbacks W a ⟨k, j⟩ (some v) <;> rfl

theorem positionalAt_eq (t : Option Nat) (a : Argus) (pos : Nat) (only : Bool) (arg : Str) (hp : pos < 2147483647) :
    positionalAt W t a pos only arg i = (stepPositional W t a pos only arg).bind fun s => .ok (s.at i) := by
  unfold positionalAt stepPositional
  have : intInc pos = .ok ((pos : Int) + 1) := by unfold intInc; rw [if_neg (by omega)]
  rw [this, Out.ok_bind]
  cases handlePositional W a t arg pos with
  | ub u => rfl
  | ok r =>
    simp only [Out.ok_bind]
    by_cases hr : r.1 ≠ Err.success
    · rw [if_pos hr, if_pos hr]; rfl
    · rw [if_neg hr, if_neg hr]; rfl

theorem ResAt.step_at (r : OptRes) (pos : Nat) : (r.at i).step pos = (r.step pos).at i := by
  unfold ResAt.step OptRes.step
  show (if r.status ≠ Err.success then _ else _) = _
  by_cases hr : r.status ≠ Err.success
  · rw [if_pos hr, if_pos hr]; rfl
  · rw [if_neg hr, if_neg hr]; rfl

theorem parseStepAt_eq (h : ArgsAt memory base argc i (x :: rest)) (t : Option Nat) (a : Argus) (pos : Nat) (only : Bool)
    (arg : Str) (hp : pos < 2147483647) :
    parseStepAt W memory base argc i t a pos only arg = (parseStep W t a pos only arg rest).bind fun s => .ok (s.at i) := by
  unfold parseStepAt parseStep
  by_cases h1 : arg = [45, 45]
  · rw [if_pos h1, if_pos h1]; rfl
  rw [if_neg h1, if_neg h1]
  by_cases h2 : only = true
  · rw [if_pos h2, if_pos h2]; exact positionalAt_eq t a pos true arg hp
  rw [if_neg h2, if_neg h2]
  cases startsWith [45, 45] arg with
  | some la =>
    simp only [handleLongAt_eq h]
    cases handleLong W a t la rest with
    | ub u => rfl
    | ok r => exact congrArg Out.ok (ResAt.step_at r pos)
  | none =>
    simp only
    cases startsWith [45] arg with
    | some sa =>
      simp only
      cases isNegNumber a t sa pos with
      | ub u => rfl
      | ok neg =>
        simp only [Out.ok_bind]
        cases neg with
        | true => exact positionalAt_eq t a pos false arg hp
        | false =>
          simp only [Bool.false_eq_true, if_false, handleShortAt_eq h]
          cases handleShort W t rest a sa with
          | ub u => rfl
          | ok r => exact congrArg Out.ok (ResAt.step_at r pos)
    | none =>
      simp only
      cases a.table t with
      | ub u => rfl
      | ok os =>
        simp only [Out.ok_bind]
        by_cases hs : (findSub os arg).1 ≠ Err.success
        · rw [if_pos hs, if_pos hs]; rfl
        · rw [if_neg hs, if_neg hs]
          cases t with
          | none => exact positionalAt_eq none a pos false arg hp
          | some k =>
            cases (findSub os arg).2 with
            | none => exact positionalAt_eq (some k) a pos false arg hp
            | some j =>
              simp only
              cases enterSub a ⟨k, j⟩ <;> rfl

/-- The loop on the array does what the loop on the list does, if there are enough rounds. -/
theorem parseFrom_eq : ∀ (n fuel : Nat) (rest : List Str) (base : Nat) (argc i : Int) (t : Option Nat) (a : Argus) (pos : Nat)
    (only : Bool), rest.length ≤ n → rest.length < fuel → ArgsAt memory base argc i rest → (pos : Int) ≤ i →
    parseFrom W memory fuel base argc i t a pos only = (parseLoop W t a pos only false rest).bind fun r => .ok (some r)
  | _, 0, rest, _, _, _, _, _, _, _, _, hf, _, _ => by omega
  | n, fuel + 1, [], base, argc, i, t, a, pos, only, _, _, h, _ => by
    unfold parseFrom
    rw [if_neg (by have := h.count; simp at this; omega)]
    simp [parseLoop, Out.bind]
  | 0, fuel + 1, x :: rest, _, _, _, _, _, _, _, hn, _, _, _ => by simp at hn
  | n + 1, fuel + 1, x :: rest, base, argc, i, t, a, pos, only, hn, hf, h, hp => by
    obtain ⟨h1, h2, h3⟩ := h.text
    have hnext := h.next
    have hsmall := h.small
    have hlow := h.low
    simp only [List.length_cons] at hn hf
    have ht : textAt memory base i = .ok x := by unfold textAt; rw [h2]; rfl
    unfold parseFrom parseLoop
    rw [if_pos h1, ht, Out.ok_bind, parseStepAt_eq h t a pos only x (by omega)]
    cases hs : parseStep W t a pos only x rest with
    | ub u => rfl
    | ok s =>
      cases s with
      | done st a1 => rfl
      | next a1 pos1 only1 used =>
        have hpos : pos1 ≤ pos + 1 := by
          cases parseStep_nextKind hs <;> omega
        cases used with
        | false =>
          show (do let i2 ← intInc i; parseFrom W memory fuel base argc i2 t a1 pos1 only1) = _
          rw [h3, Out.ok_bind]
          exact parseFrom_eq n fuel rest base argc (i + 1) t a1 pos1 only1 (by omega) (by omega) hnext (by omega)
        | true =>
          obtain ⟨v, rest', rfl⟩ : ∃ v rest', rest = v :: rest' := by
            cases rest with
            | nil => exact absurd (parseStep_used hs) (by simp)
            | cons v rest' => exact ⟨v, rest', rfl⟩
          obtain ⟨_, _, g3⟩ := hnext.text
          show (do let i2 ← intInc (i + 1); parseFrom W memory fuel base argc i2 t a1 pos1 only1) = _
          rw [g3, Out.ok_bind]
          simp only [List.length_cons] at hn hf
          have := parseFrom_eq n fuel rest' base argc (i + 1 + 1) t a1 pos1 only1 (by omega) (by omega) hnext.next (by omega)
          rw [this]
          show _ = (parseLoop W t a1 pos1 only1 true (v :: rest')).bind _
          rw [parseLoop]
      | enter t1 a1 =>
        have hc := h.count
        simp only [List.length_cons] at hc
        have e1 : intDiff argc i = .ok (argc - i) := by
          unfold intDiff; rw [if_neg (by unfold intMin intMax; omega)]
        have e2 : intDiff (argc - i) 1 = .ok (argc - i - 1) := by
          unfold intDiff; rw [if_neg (by unfold intMin intMax; omega)]
        have hin := hnext.inside
        have e3 : argPtr memory base (i + 1) = .ok (base + (i + 1).toNat) := by
          unfold argPtr; rw [if_neg (by omega)]
        show (do
          let n ← intDiff argc i
          let n ← intDiff n 1
          let j ← intInc i
          let base1 ← argPtr memory base j
          parseFrom W memory fuel base1 n 0 t1 a1 0 false) = _
        simp only [e1, e2, h3, e3, Out.ok_bind]
        refine parseFrom_eq n fuel rest (base + (i + 1).toNat) (argc - i - 1) 0 t1 a1 0 false (by omega) (by omega) ?_ (by simp)
        refine ⟨by omega, by omega, by omega, fun k hk => ?_, ?_⟩
        · have := hnext.here k hk
          rw [← this]
          congr 1
          simp; omega
        · simp; omega

/-- `argus_parse` on `argc` and `argv` (source/api/argus_parse.c:21-50). -/
def argusParseArgv (W : World) (env : Env) (fuel : Nat) (a : Argus) (argc : Int) (argv : List (Option Str)) :
    Out (Option (ParseEnd × Argus)) := do
  match ← parseArgv W fuel a argc argv with
  | none => .ok none
  | some r => do
    let e ← afterParse W env r
    .ok (some e)

/-- **C109** On an array of `argc` texts the parser with its counts and indices does what `parse_args` does on the list of
    arguments, whatever `argv[0]` is and whatever follows, if `argc` is a number an `int` can hold. In particular it takes at
    most one round for each argument, reads nothing outside and no arithmetic overflows. -/
theorem C109_refines (W : World) (a : Argus) (p : Option Str) (args : List Str) (tail : List (Option Str))
    (hlen : args.length < 2147483647) (fuel : Nat) (hf : args.length < fuel) :
    parseArgv W fuel a (args.length + 1) (p :: (args.map some ++ tail)) =
      (parseArgs W a (some a.root) args).bind fun r => .ok (some r) := by
  have e1 : intDiff ((args.length : Int) + 1) 1 = .ok (args.length : Int) := by
    unfold intDiff
    rw [if_neg (by unfold intMin intMax; omega), show (args.length : Int) + 1 - 1 = args.length by omega]
  have e2 : argPtr (p :: (args.map some ++ tail)) 0 1 = .ok 1 := by
    unfold argPtr; rw [if_neg (by simp)]; rfl
  unfold parseArgv parseArgs
  rw [e1, Out.ok_bind, e2, Out.ok_bind]
  refine parseFrom_eq args.length fuel args 1 _ 0 _ a 0 false (Nat.le_refl _) hf ?_ (by simp)
  refine ⟨by omega, by simp, by omega, fun k hk => ?_, by simp; omega⟩
  rw [show 1 + ((0 : Int).toNat + k) = k + 1 by simp; omega, List.getElem?_cons_succ,
    List.getElem?_append_left (by simpa using hk), List.getElem?_map, List.getElem?_eq_getElem hk]
  rfl

/-- **C109** The same for the whole of `argus_parse`. -/
theorem C109_parse (W : World) (env : Env) (a : Argus) (p : Option Str) (args : List Str) (tail : List (Option Str))
    (hlen : args.length < 2147483647) (fuel : Nat) (hf : args.length < fuel) :
    argusParseArgv W env fuel a (args.length + 1) (p :: (args.map some ++ tail)) =
      (argusParse W env a args).bind fun r => .ok (some r) := by
  unfold argusParseArgv
  rw [C109_refines W a p args tail hlen fuel hf, argusParse_eq]
  cases parseArgs W a (some a.root) args with
  | ub u => rfl
  | ok r =>
    show (do let e ← afterParse W env r; Out.ok (some e)) = (afterParse W env r).bind _
    rfl

/-- **C109** A program called with no arguments at all, not even its name (`argc` is 0, `argv[0]` is NULL): nothing is read. -/
theorem C109_no_name (W : World) (env : Env) (a : Argus) (p : Option Str) (tail : List (Option Str)) (fuel : Nat) (hf : 0 < fuel) :
    argusParseArgv W env fuel a 0 (p :: tail) = (argusParse W env a []).bind fun r => .ok (some r) := by
  have h : parseArgv W fuel a 0 (p :: tail) = .ok (some (Err.success, a)) := by
    cases fuel with
    | zero => omega
    | succ fuel =>
      unfold parseArgv
      rw [show intDiff 0 1 = .ok (-1) from rfl, Out.ok_bind,
        show argPtr (p :: tail) 0 1 = .ok 1 by unfold argPtr; rw [if_neg (by simp)]; rfl, Out.ok_bind]
      unfold parseFrom
      rw [if_neg (by omega)]
  unfold argusParseArgv
  rw [h, argusParse_eq]
  rfl

/-- **C109** Only `argv[1]` to `argv[argc - 1]` matter: two arrays that agree there give the same, whatever else they hold and
    however long they are. -/
theorem C109_within (W : World) (env : Env) (a : Argus) (argc fuel : Nat) (argv argv' : List (Option Str)) (h1 : 1 ≤ argc)
    (hmax : argc ≤ 2147483647) (hf : argc ≤ fuel) (hlen : argc ≤ argv.length) (hlen' : argc ≤ argv'.length)
    (htexts : ∀ i, 1 ≤ i → i < argc → argv[i]? ≠ some none)
    (hsame : ∀ i, 1 ≤ i → i < argc → argv'[i]? = argv[i]?) :
    argusParseArgv W env fuel a argc argv' = argusParseArgv W env fuel a argc argv := by
  have shape : ∀ v : List (Option Str), argc ≤ v.length → (∀ i, 1 ≤ i → i < argc → v[i]? ≠ some none) →
      ∃ (p : Option Str) (args : List Str) (tail : List (Option Str)), v = p :: (args.map some ++ tail) ∧ args.length + 1 = argc ∧
        args.map some = (v.drop 1).take (argc - 1) := by
    intro v hv ht
    cases v with
    | nil => simp at hv; omega
    | cons p v =>
      simp only [List.length_cons] at hv
      refine ⟨p, (v.take (argc - 1)).filterMap id, v.drop (argc - 1), ?_, ?_⟩
      all_goals
        have hall : ∀ x ∈ v.take (argc - 1), x ≠ none := by
          intro x hx hn
          obtain ⟨k, hk⟩ := List.getElem?_of_mem hx
          rw [List.getElem?_take] at hk
          split at hk
          · rename_i hlt
            have := ht (k + 1) (by omega) (by omega)
            rw [List.getElem?_cons_succ, hk, hn] at this
            exact this rfl
          · simp at hk
        have hmap : ∀ l : List (Option Str), (∀ x ∈ l, x ≠ none) → (l.filterMap id).map some = l := by
          intro l
          induction l with
          | nil => intro _; rfl
          | cons x xs ih =>
            intro hx
            cases x with
            | none => exact absurd rfl (hx none (by simp))
            | some y => simp [ih (fun z hz => hx z (by simp [hz]))]
      · rw [hmap _ hall, List.take_append_drop]
      · refine ⟨?_, by rw [hmap _ hall]; rfl⟩
        have := congrArg List.length (hmap _ hall)
        rw [List.length_map, List.length_take] at this
        omega
  obtain ⟨p, args, tail, e1, e2, e3⟩ := shape argv hlen htexts
  obtain ⟨p', args', tail', e1', e2', e3'⟩ := shape argv' hlen' (fun i hi hj => by rw [hsame i hi hj]; exact htexts i hi hj)
  have hargs : args' = args := by
    have : args'.map some = args.map some := by
      rw [e3, e3']
      apply List.ext_getElem?
      intro k
      rw [List.getElem?_take, List.getElem?_take]
      split
      · rw [List.getElem?_drop, List.getElem?_drop]
        exact hsame (1 + k) (by omega) (by omega)
      · rfl
    exact List.map_inj_right (fun _ _ h => Option.some.inj h) |>.1 this
  subst hargs
  rw [e1, e1']
  have hc : (argc : Int) = args'.length + 1 := by omega
  rw [hc, C109_parse W env a p args' tail (by omega) fuel (by omega),
    C109_parse W env a p' args' tail' (by omega) fuel (by omega)]

/-- **C109** The count must be true: with an `argc` of 2 for a line without arguments, the NULL behind `argv[0]` is compared. -/
theorem C109_count_needed (W : World) (env : Env) (a : Argus) (p : Option Str) (tail : List (Option Str)) (fuel : Nat) :
    argusParseArgv W env (fuel + 1) a 2 (p :: none :: tail) = .ub .nullDeref := rfl

/-- `prog -v`: the array ends in NULL, and a longer array with other texts behind it gives the same. -/
example : argusParseArgv Sample.world Sample.noEnv 9 Sample.prog 2 [some c!"prog", some c!"-v", none] =
    argusParseArgv Sample.world Sample.noEnv 9 Sample.prog 2 [none, some c!"-v", some c!"--bad", none] ∧
    (∃ r, argusParse Sample.world Sample.noEnv Sample.prog [c!"-v"] = .ok r) :=
  ⟨C109_within Sample.world Sample.noEnv Sample.prog 2 9 _ _ (by decide) (by decide) (by decide) (by decide) (by decide)
    (fun i h1 h2 => by obtain rfl : i = 1 := by omega
                       decide)
    (fun i h1 h2 => by obtain rfl : i = 1 := by omega
                       rfl), _, rfl⟩

end Argus
