import Verif.Props.Syntax
import Verif.Lemmas.Positional
import Verif.Lemmas.Slots
import Verif.Lemmas.Free
import Verif.Spec.Sample

/-!
# C06-C08: positional arguments

`slotAt os k` (Spec/Prefix) is the declared positional for the `k`-th positional argument;
`deliver` runs the handlers of the slots over a list of texts.
-/

set_option autoImplicit false

namespace Argus

/-- **C06** After `--` every argument other than another `--` goes to the positional slots, in order
    and unchanged, whatever its spelling. -/
theorem C06_after_dashes_positional (W : World) (a : Argus) (pre post : List Str) (s : PState) (k : Nat)
    (hs : Reach W a pre s) (hk : s.t = some k) :
    parseArgs W a (some a.root) (pre ++ c!"--" :: post) =
      deliver W k s.a s.pos (post.filter (fun x => x ≠ c!"--")) := by
  rw [hs.parseArgs, finish_cons hs.skip]
  have e : parseStep W s.t s.a s.pos s.only c!"--" post = .ok (.next s.a s.pos true false) := by
    unfold parseStep; rw [if_pos rfl]
  rw [e, hk]
  exact parseLoop_only W k post s.a s.pos

/-- **C06** After `--` no option and no subcommand is affected: whatever the rest of the line, only
    positionals of the current level change, and the selected command stays. -/
theorem C06_after_dashes_nothing_else (W : World) (a : Argus) (pre post : List Str) (s : PState) (k : Nat)
    (hs : Reach W a pre s) (hk : s.t = some k) (st : Int) (a' : Argus)
    (h : parseArgs W a (some a.root) (pre ++ c!"--" :: post) = .ok (st, a')) :
    a'.stack = s.a.stack ∧
    (∀ p o, s.a.getOpt p = .ok o → o.type ≠ .positional → a'.getOpt p = .ok o) ∧
    (∀ j, j ≠ k → a'.tables[j]? = s.a.tables[j]?) := by
  rw [C06_after_dashes_positional W a pre post s k hs hk] at h
  obtain ⟨h1, h2⟩ := deliver_frame _ h
  exact ⟨h1.stack, h2, fun j hj => h1.frame.other j (by simpa using fun h => hj h.symm)⟩

/-- **C06** The text arrives unchanged: when the positionals of the level are plain strings, slot
    number `s.pos + j` holds exactly the `j`-th argument after `--`. -/
theorem C06_after_dashes_text (W : World) (a : Argus) (pre post : List Str) (s : PState) (k : Nat)
    (os : List Opt) (hs : Reach W a pre s) (hk : s.t = some k) (ht : s.a.table s.t = .ok os)
    (hp : ∀ o ∈ os, o.type = .positional → PlainString o) (hdd : c!"--" ∉ post)
    (hlen : s.pos + post.length ≤ (positionals os).length) :
    ∃ a', parseArgs W a (some a.root) (pre ++ c!"--" :: post) = .ok (Err.success, a') ∧
      ∀ j v, post[j]? = some v → ∃ o0 i o, slotAt os (s.pos + j) = some (o0, i) ∧
        a'.getOpt ⟨k, i⟩ = .ok o ∧ o.value = .word (.ptr v) ∧ o.isSet = true := by
  rw [C06_after_dashes_positional W a pre post s k hs hk]
  have e : post.filter (fun x => x ≠ c!"--") = post := by
    rw [List.filter_eq_self]
    intro x hx
    simp only [ne_eq, decide_not, Bool.not_eq_eq_eq_not, Bool.not_true, decide_eq_false_iff_not]
    rintro rfl; exact hdd hx
  rw [e]
  obtain ⟨a', h1, h2, -⟩ := deliver_strings (W := W) post s.a s.pos os (hk ▸ ht) hp hlen
  refine ⟨a', h1, fun j v hj => ?_⟩
  obtain ⟨i, o, h3, h4⟩ := h2 j v hj
  have hnv : ∀ o ∈ os, o.type = .positional → o.valueType.isVariadic = false := by
    intro o ho h1; rw [(hp o ho h1).valueType]; rfl
  rw [← slotAt_posIdx hnv] at h3
  obtain ⟨x, h5, h6⟩ := Option.map_eq_some_iff.1 h3
  exact ⟨x.1, i, o, by rw [h5, ← h6], h4⟩

/-- `prog -v -- --help`: the text `--help` becomes the value of the positional `file` (entry 7). -/
example : ∃ s os, Reach Sample.world Sample.prog [c!"-v"] s ∧ s.t = some 0 ∧
    s.a.table s.t = .ok os ∧ (∀ o ∈ os, o.type = .positional → PlainString o) ∧
    s.pos + 1 ≤ (positionals os).length ∧
    (parseArgs Sample.world Sample.prog (some 0) [c!"-v", c!"--", c!"--help"]).toOption.bind
      (fun r => (r.2.getOpt ⟨0, 7⟩).toOption.map (·.value)) = some (.word (.ptr c!"--help")) := by
  refine ⟨_, _, rfl, rfl, rfl, by decide +kernel, by decide +kernel, by decide +kernel⟩

/-- **C07** Arguments that are neither options nor subcommands go to the slots in order. -/
theorem C07_positionals_in_order (W : World) (a : Argus) (pre vs : List Str) (s : PState) (k : Nat)
    (os : List Opt) (hs : Reach W a pre s) (honly : s.only = false) (hk : s.t = some k)
    (ht : s.a.table s.t = .ok os) (hdash : ∀ v ∈ vs, v.head? ≠ some 45)
    (hsub : ∀ v ∈ vs, ∀ o ∈ os, o.type = .subcommand → ∀ n, o.name = some n → ¬ v <+: n) :
    parseArgs W a (some a.root) (pre ++ vs) = deliver W k s.a s.pos vs := by
  rw [hs.parseArgs]
  unfold PState.finish
  rw [hs.skip, honly, hk]
  exact parseLoop_plain W k vs s.a s.pos os (hk ▸ ht) hdash hsub

/-- **C07** One positional argument in the middle of the line: the handler of its slot is run with its
    text, and the next positional argument belongs to the next slot. -/
theorem C07_positional_step (W : World) (a : Argus) (pre post : List Str) (v : Str) (s : PState) (k i : Nat)
    (o : Opt) (os : List Opt) (hs : Reach W a pre s) (hk : s.t = some k)
    (ht : s.a.table s.t = .ok os)
    (hv : if s.only then v ≠ c!"--" else v.head? ≠ some 45 ∧
      ∀ o ∈ os, o.type = .subcommand → ∀ n, o.name = some n → ¬ v <+: n)
    (hslot : slotAt os s.pos = some (o, i)) :
    parseArgs W a (some a.root) (pre ++ v :: post) = (do
      let r ← execCallbacks W s.a ⟨k, i⟩ (some v)
      if r.1 ≠ Err.success then .ok r
      else PState.finish W { s with a := r.2, pos := s.pos + 1 } post) := by
  rw [hs.parseArgs, finish_cons hs.skip]
  have e : parseStep W s.t s.a s.pos s.only v post = stepPositional W (some k) s.a s.pos s.only v := by
    rw [hk]
    cases ho : s.only with
    | true =>
      simp only [ho, if_true] at hv
      unfold parseStep; rw [if_neg hv]; simp
    | false =>
      simp only [ho, Bool.false_eq_true, if_false] at hv
      exact parseStep_plain (hk ▸ ht) hv.1 hv.2 post
  have ht' : s.a.table (some k) = .ok os := hk ▸ ht
  rw [e]
  unfold stepPositional
  rw [handlePositional_slot, ht']
  simp only [Out.ok_bind, hslot]
  cases execCallbacks W s.a ⟨k, i⟩ (some v) with
  | ub u => rfl
  | ok r =>
    simp only [Out.ok_bind]
    by_cases h0 : r.1 = Err.success
    · simp only [h0, ne_eq, not_true_eq_false, if_false]
      unfold PState.finish
      simp only [hs.skip]
    · simp only [h0, ne_eq, not_false_eq_true, if_true]

/-- **C07** A positional argument without a slot is an invalid argument. -/
theorem C07_no_slot_rejected (W : World) (env : Env) (a : Argus) (pre post : List Str) (v : Str)
    (s : PState) (os : List Opt) (hs : Reach W a pre s)
    (ht : s.a.table s.t = .ok os)
    (hv : if s.only then v ≠ c!"--" else v.head? ≠ some 45 ∧
      ∀ o ∈ os, o.type = .subcommand → ∀ n, o.name = some n → ¬ v <+: n)
    (hslot : slotAt os s.pos = none) :
    parseArgs W a (some a.root) (pre ++ v :: post) =
      .ok (Err.invalidArgument, s.a.report Err.invalidArgument) ∧
    ∀ r, argusParse W env a (pre ++ v :: post) = .ok r → r.1 = .returned Err.invalidArgument := by
  obtain ⟨k, hk, _⟩ := table_eq_ok.1 ht
  have ht' : s.a.table (some k) = .ok os := hk ▸ ht
  have key : parseArgs W a (some a.root) (pre ++ v :: post) =
      .ok (Err.invalidArgument, s.a.report Err.invalidArgument) := by
    rw [hs.parseArgs, finish_cons hs.skip]
    have e : parseStep W s.t s.a s.pos s.only v post =
        stepPositional W (some k) s.a s.pos s.only v := by
      rw [hk]
      cases ho : s.only with
      | true =>
        simp only [ho, if_true] at hv
        unfold parseStep; rw [if_neg hv]; simp
      | false =>
        simp only [ho, Bool.false_eq_true, if_false] at hv
        exact parseStep_plain ht' hv.1 hv.2 post
    rw [e]
    unfold stepPositional
    rw [handlePositional_slot, ht']
    simp only [Out.ok_bind, hslot]
    rfl
  exact ⟨key, fun r hr => (argusParse_of_error key (by decide) (by decide) hr).1⟩

/-- **C07** The rule for slots: without variadic positionals the `k`-th argument belongs to the
    `k`-th declared positional; if the `j`-th is the first variadic one, it takes the `j`-th argument
    and all later ones; there is no slot only past the last positional of a table without variadic
    ones. -/
theorem C07_slot_rule (os : List Opt) (k : Nat) :
    ((∀ o ∈ os, o.type = .positional → o.valueType.isVariadic = false) →
      (slotAt os k).map (·.1) = (positionals os)[k]?) ∧
    (∀ j o, (positionals os)[j]? = some o → o.valueType.isVariadic = true →
      (∀ i o', i < j → (positionals os)[i]? = some o' → o'.valueType.isVariadic = false) →
      (slotAt os k).map (·.1) = (positionals os)[min k j]?) ∧
    (slotAt os k = none ↔ (positionals os).length ≤ k ∧
      ∀ o ∈ os, o.type = .positional → o.valueType.isVariadic = false) := by
  have hmem : ∀ o, o ∈ positionals os ↔ o ∈ os ∧ o.type = .positional := by
    intro o; unfold positionals; simp [List.mem_filter]
  refine ⟨fun h => ?_, fun j o hj hv hbefore => ?_, ?_⟩
  · rw [← slotOf_slotAt]
    unfold slotOf slotBy
    have : (List.take (k + 1) (positionals os)).find? (fun o => o.valueType.isVariadic) = none := by
      rw [List.find?_eq_none]
      intro o ho
      have := (hmem o).1 (List.mem_of_mem_take ho)
      simp [h o this.1 this.2]
    rw [this]
  · rw [← slotOf_slotAt]
    unfold slotOf slotBy
    by_cases hk : j ≤ k
    · have : (List.take (k + 1) (positionals os)).find? (fun o => o.valueType.isVariadic) = some o := by
        rw [List.find?_eq_some_iff_getElem]
        obtain ⟨hlt, hget⟩ := List.getElem?_eq_some_iff.1 hj
        refine ⟨hv, j, by simp; omega, by simp [hget], fun i hi => ?_⟩
        have hi' : i < (positionals os).length := by omega
        simp [hbefore i _ hi (List.getElem?_eq_getElem hi')]
      rw [this, Nat.min_eq_right hk, hj]
    · have : (List.take (k + 1) (positionals os)).find? (fun o => o.valueType.isVariadic) = none := by
        rw [List.find?_eq_none]
        intro o' ho'
        obtain ⟨i, hi, hget⟩ := List.getElem_of_mem ho'
        simp only [List.length_take] at hi
        rw [List.getElem_take] at hget
        have := hbefore i o' (by omega) (by rw [← hget]; exact List.getElem?_eq_getElem (by omega))
        simp [this]
      rw [this, Nat.min_eq_left (by omega)]
  · have e : slotAt os k = none ↔ slotOf (positionals os) k = none := by
      rw [slotOf_slotAt]; simp
    rw [e]
    unfold slotOf slotBy
    constructor
    · intro h
      split at h
      · simp at h
      · rename_i hf
        rw [List.getElem?_eq_none_iff] at h
        refine ⟨h, fun o ho ht => ?_⟩
        rw [List.take_of_length_le (by omega), List.find?_eq_none] at hf
        simpa using hf o ((hmem o).2 ⟨ho, ht⟩)
    · rintro ⟨h1, h2⟩
      have : (List.take (k + 1) (positionals os)).find? (fun o => o.valueType.isVariadic) = none := by
        rw [List.find?_eq_none]
        intro o ho
        have := (hmem o).1 (List.mem_of_mem_take ho)
        simp [h2 o this.1 this.2]
      rw [this]; simp [h1]

/-- **C07** When the positionals of the level are plain strings, slot number `s.pos + j` holds exactly
    the `j`-th of the arguments. -/
theorem C07_string_slots (W : World) (a : Argus) (pre vs : List Str) (s : PState) (k : Nat)
    (os : List Opt) (hs : Reach W a pre s) (honly : s.only = false) (hk : s.t = some k)
    (ht : s.a.table s.t = .ok os) (hdash : ∀ v ∈ vs, v.head? ≠ some 45)
    (hsub : ∀ v ∈ vs, ∀ o ∈ os, o.type = .subcommand → ∀ n, o.name = some n → ¬ v <+: n)
    (hp : ∀ o ∈ os, o.type = .positional → PlainString o)
    (hlen : s.pos + vs.length ≤ (positionals os).length) :
    ∃ a', parseArgs W a (some a.root) (pre ++ vs) = .ok (Err.success, a') ∧
      ∀ j v, vs[j]? = some v → ∃ o0 i o, slotAt os (s.pos + j) = some (o0, i) ∧
        a'.getOpt ⟨k, i⟩ = .ok o ∧ o.value = .word (.ptr v) ∧ o.isSet = true := by
  rw [C07_positionals_in_order W a pre vs s k os hs honly hk ht hdash hsub]
  obtain ⟨a', h1, h2, -⟩ := deliver_strings (W := W) vs s.a s.pos os (hk ▸ ht) hp hlen
  refine ⟨a', h1, fun j v hj => ?_⟩
  obtain ⟨i, o, h3, h4⟩ := h2 j v hj
  have hnv : ∀ o ∈ os, o.type = .positional → o.valueType.isVariadic = false := by
    intro o ho h1; rw [(hp o ho h1).valueType]; rfl
  rw [← slotAt_posIdx hnv] at h3
  obtain ⟨x, h5, h6⟩ := Option.map_eq_some_iff.1 h3
  exact ⟨x.1, i, o, by rw [h5, ← h6], h4⟩

/-- `prog add 3 x y`: `3` goes to `count` and both texts to `names`; `prog a.txt b.txt` has no slot
    for the second argument. -/
example : (∃ s os, Reach Sample.world Sample.prog [c!"add"] s ∧ s.only = false ∧ s.t = some 1 ∧
    s.a.table s.t = .ok os ∧ (∀ o ∈ os, o.type ≠ .subcommand) ∧
    (slotAt os 0).map (·.2) = some 2 ∧ (slotAt os 1).map (·.2) = some 3 ∧
    (slotAt os 9).map (·.2) = some 3 ∧
    (parseArgs Sample.world Sample.prog (some 0) [c!"add", c!"3", c!"x", c!"y"]).toOption.bind
      (fun r => (r.2.getOpt ⟨1, 3⟩).toOption.map (·.value)) = some (.arr [.ptr c!"x", .ptr c!"y"])) ∧
    (∃ s os, Reach Sample.world Sample.prog [c!"f.txt"] s ∧ s.a.table s.t = .ok os ∧
      slotAt os s.pos = none) := by
  refine ⟨⟨_, _, rfl, rfl, rfl, rfl, by decide, by decide, by decide, by decide, by decide +kernel⟩,
    ⟨_, _, rfl, rfl, by decide +kernel⟩⟩

/-- **C08** A dash argument that looks like a number is a positional value if the next slot is an int
    or float positional; otherwise it is read as a cluster of short options.
    Full statement: also when the next slot is a variadic numeric positional. Missing: the code does
    not treat those as numeric, see `C08_variadic_rejects_negative`. -/
theorem C08_negative_numbers_partial (W : World) (a : Argus) (pre post : List Str) (s : PState)
    (os : List Opt) (num : Str) (k : Nat) (hs : Reach W a pre s) (honly : s.only = false)
    (hk : s.t = some k) (ht : s.a.table s.t = .ok os)
    (hnum : ∃ d r, isDigit d = true ∧ (num = d :: r ∨ num = 46 :: d :: r)) :
    parseArgs W a (some a.root) (pre ++ (c!"-" ++ num) :: post) =
      (match slotAt os s.pos with
      | some (o, i) =>
        if o.valueType = .int ∨ o.valueType = .float then do
          let r ← execCallbacks W s.a ⟨k, i⟩ (some (c!"-" ++ num))
          if r.1 ≠ Err.success then .ok r
          else PState.finish W { s with a := r.2, pos := s.pos + 1 } post
        else do
          let r ← handleShort W (some k) post s.a num
          if r.status ≠ Err.success then .ok (r.status, r.argus)
          else PState.finish W { s with a := r.argus, skip := r.used } post
      | none => do
        let r ← handleShort W (some k) post s.a num
        if r.status ≠ Err.success then .ok (r.status, r.argus)
        else PState.finish W { s with a := r.argus, skip := r.used } post) := by
  have hl : looksNumeric num = true := by
    obtain ⟨d, r, hd, rfl | rfl⟩ := hnum <;> simp [looksNumeric, hd]
  have hc : ∃ c cs, num = c :: cs ∧ c ≠ 45 := by
    obtain ⟨d, r, hd, rfl | rfl⟩ := hnum
    · refine ⟨d, r, rfl, ?_⟩; rintro rfl; revert hd; decide
    · exact ⟨46, d :: r, rfl, by decide⟩
  obtain ⟨c, cs, rfl, hc⟩ := hc
  have ht' : s.a.table (some k) = .ok os := hk ▸ ht
  have e1 : c!"-" ++ c :: cs = 45 :: c :: cs := rfl
  rw [hs.parseArgs, finish_cons hs.skip, honly, e1, hk]
  have hshort : ∀ h : (looksNumeric (c :: cs) && (slotOf (positionals os) s.pos).any
      (fun o => o.valueType.isNumeric)) = false,
      (do match ← parseStep W (some k) s.a s.pos false (45 :: c :: cs) post with
          | .done status a1 => .ok (status, a1)
          | .next a1 pos1 only1 used => parseLoop W (some k) a1 pos1 only1 used post
          | .enter t1 a1 => parseLoop W t1 a1 0 false false post) = (do
        let r ← handleShort W (some k) post s.a (c :: cs)
        if r.status ≠ Err.success then .ok (r.status, r.argus)
        else PState.finish W ⟨some k, r.argus, s.pos, false, r.used⟩ post) := by
    intro h
    rw [parseStep_short ht' hc h]
    cases handleShort W (some k) post s.a (c :: cs) with
    | ub u => rfl
    | ok r =>
      simp only [Out.ok_bind]
      unfold OptRes.step
      by_cases h0 : r.status = Err.success
      · simp only [h0, ne_eq, not_true_eq_false, if_false]
        rfl
      · simp only [h0, ne_eq, not_false_eq_true, if_true]
  have hslot := slotOf_slotAt os s.pos
  cases hsl : slotAt os s.pos with
  | none =>
    rw [hsl] at hslot
    exact hshort (by rw [hslot]; simp)
  | some x =>
    obtain ⟨o, i⟩ := x
    rw [hsl] at hslot
    by_cases hty : o.valueType = .int ∨ o.valueType = .float
    · have hn : o.valueType.isNumeric = true := by rcases hty with h | h <;> rw [h] <;> rfl
      have hstep : parseStep W (some k) s.a s.pos false (45 :: c :: cs) post =
          stepPositional W (some k) s.a s.pos false (45 :: c :: cs) := by
        unfold parseStep
        have : (45 :: c :: cs : Str) ≠ [45, 45] := by
          intro h; simp only [List.cons.injEq, true_and] at h; exact hc h.1
        rw [if_neg this, startsWith_dd_none hc, startsWith_d]
        simp only [Bool.false_eq_true, if_false, isNegNumber_eq ht', hl, hslot, hn, Out.ok_bind,
          Option.map_some, Option.any_some, Bool.and_self, if_true]
      simp only [hty, if_true]
      rw [hstep]
      unfold stepPositional
      rw [handlePositional_slot, ht']
      simp only [Out.ok_bind, hsl]
      cases execCallbacks W s.a ⟨k, i⟩ (some (45 :: c :: cs)) with
      | ub u => rfl
      | ok r =>
        simp only [Out.ok_bind]
        by_cases h0 : r.1 = Err.success
        · simp only [h0, ne_eq, not_true_eq_false, if_false]
          unfold PState.finish
          simp only [hs.skip, honly, hk]
        · simp only [h0, ne_eq, not_false_eq_true, if_true]
    · simp only [hty, if_false]
      apply hshort
      rw [hslot]
      have : o.valueType.isNumeric = false := by
        revert hty; cases o.valueType <;> simp [ValueType.isNumeric]
      simp [this]

/-- `prog add -5`: the slot is the int positional `count`, which receives -5. -/
example : ∃ s os, Reach Sample.world Sample.prog [c!"add"] s ∧ s.only = false ∧ s.t = some 1 ∧
    s.a.table s.t = .ok os ∧ (slotAt os s.pos).map (·.1.valueType) = some .int ∧
    (parseArgs Sample.world Sample.prog (some 0) [c!"add", c!"-5"]).toOption.bind
      (fun r => (r.2.getOpt ⟨1, 2⟩).toOption.map (·.value)) = some (.word (.ofInt64 (-5))) := by
  refine ⟨_, _, rfl, rfl, rfl, rfl, by decide, by decide +kernel⟩

/-- A program with a variadic int positional. -/
def Sample.sum : Argus := argusInit [[helpOption, posManyInt c!"numbers"]] c!"sum" none

/-- **C08** fails for variadic numeric positionals: `sum 1 -5` is rejected. -/
theorem C08_variadic_rejects_negative :
    (argusParse Sample.world Sample.noEnv Sample.sum [c!"1", c!"-5"]).toOption.map (·.1) =
      some (.returned Err.invalidArgument) := by
  decide +kernel

/-- **C07**, the slot in the middle of a line: the slot a positional argument goes to is the number of positional
    arguments read since the start or since the last subcommand, options, their values and `--` not counted. -/
theorem C07_slot_count (W : World) (a : Argus) (pre : List Str) (s : PState) (n : Nat) (hs : Reach W a pre s) :
    SlotCount W a pre n ↔ n = s.pos :=
  ⟨fun h => (h.pos s hs).symm, fun h => h ▸ hs.slotCount⟩

/-- `prog x --output f -v -- y`: the options and their values do not count, `x` and `y` do. -/
example : ∃ s, Reach Sample.world Sample.prog [c!"x", c!"--output", c!"f", c!"-v", c!"--"] s ∧ s.pos = 1 := by
  refine ⟨_, rfl, by decide +kernel⟩

/-- `prog x add`: the subcommand starts a new count. -/
example : ∃ s, Reach Sample.world Sample.prog [c!"x", c!"add", c!"3"] s ∧ s.pos = 1 ∧ s.t = some 1 := by
  refine ⟨_, rfl, by decide +kernel, by decide +kernel⟩

/-- **C08**, the other direction: an argument with a dash that does not continue with a digit, or with a point and a
    digit, is never a positional value, whatever the slot is: it is read as short options. -/
theorem C08_no_number (W : World) (a : Argus) (pre post : List Str) (s : PState) (os : List Opt) (c : Byte) (cs : Str) (k : Nat)
    (hs : Reach W a pre s) (honly : s.only = false) (hk : s.t = some k) (ht : s.a.table s.t = .ok os) (hc : c ≠ 45)
    (hnum : ¬ DashNumber (45 :: c :: cs)) :
    parseArgs W a (some a.root) (pre ++ (45 :: c :: cs) :: post) = (do
      let r ← handleShort W (some k) post s.a (c :: cs)
      if r.status ≠ Err.success then .ok (r.status, r.argus)
      else PState.finish W { s with a := r.argus, skip := r.used } post) := by
  have ht' : s.a.table (some k) = .ok os := hk ▸ ht
  have hl : looksNumeric (c :: cs) = false := by
    cases h : looksNumeric (c :: cs) with
    | false => rfl
    | true => exact absurd ((looksNumeric_iff _).mp h) hnum
  rw [hs.parseArgs, finish_cons hs.skip, honly, hk, parseStep_short ht' hc (by simp [hl])]
  cases handleShort W (some k) post s.a (c :: cs) with
  | ub u => rfl
  | ok r =>
    simp only [Out.ok_bind]
    unfold OptRes.step
    by_cases h0 : r.status = Err.success
    · simp only [h0, ne_eq, not_true_eq_false, if_false]
      rfl
    · simp only [h0, ne_eq, not_false_eq_true, if_true]

/-- `prog add -x`: although the slot is the int positional `count`, `-x` is read as an unknown option. -/
example : ∃ s os, Reach Sample.world Sample.prog [c!"add"] s ∧ s.only = false ∧ s.t = some 1 ∧
    s.a.table s.t = .ok os ∧ (slotAt os s.pos).map (·.1.valueType) = some .int ∧ ¬ DashNumber c!"-x" ∧
    (parseArgs Sample.world Sample.prog (some 0) [c!"add", c!"-x"]).toOption.map (·.1) = some Err.invalidArgument := by
  refine ⟨_, _, rfl, rfl, rfl, rfl, by decide, ?_, by decide +kernel⟩
  rintro ⟨d, r, hd, h | h⟩
  · simp only [List.cons.injEq] at h
    rw [← h.2.1] at hd; revert hd; decide
  · simp at h

/-- **C08**, exactly how it fails: wherever the next slot is not a single number, in particular at every variadic
    numeric positional, every negative number is refused as an unknown option, unless an option of the table happens
    to have its first byte as short name. -/
theorem C08_other_slots_refuse (W : World) (a : Argus) (pre post : List Str) (s : PState) (os : List Opt) (c : Byte)
    (cs : Str) (k : Nat) (hs : Reach W a pre s) (honly : s.only = false) (hk : s.t = some k)
    (ht : s.a.table s.t = .ok os) (hnum : DashNumber (45 :: c :: cs))
    (hslot : ∀ x, slotAt os s.pos = some x → x.1.valueType ≠ .int ∧ x.1.valueType ≠ .float)
    (hc : byShort os c = none) :
    parseArgs W a (some a.root) (pre ++ (45 :: c :: cs) :: post) =
      .ok (Err.invalidArgument, s.a.report Err.invalidArgument) := by
  have hn : ∃ d r, isDigit d = true ∧ (c :: cs = d :: r ∨ c :: cs = 46 :: d :: r) := by
    obtain ⟨d, r, hd, h⟩ := hnum
    refine ⟨d, r, hd, ?_⟩
    rcases h with h | h
    · exact Or.inl (List.cons.inj h).2
    · exact Or.inr (List.cons.inj h).2
  have ht' : s.a.table (some k) = .ok os := hk ▸ ht
  have hh : handleShort W (some k) post s.a (c :: cs) =
      .ok ⟨Err.invalidArgument, s.a.report Err.invalidArgument, false⟩ := by
    rw [handleShort, ht', Out.ok_bind, findSname_none hc]
  have key := C08_negative_numbers_partial W a pre post s os (c :: cs) k hs honly hk ht hn
  have e1 : c!"-" ++ c :: cs = 45 :: c :: cs := rfl
  rw [e1] at key
  rw [key, hh]
  cases hsl : slotAt os s.pos with
  | none => rfl
  | some x =>
    obtain ⟨h1, h2⟩ := hslot x hsl
    simp only [h1, h2, or_self, if_false]
    rfl

/-- `sum 1 -5 2`: the slot is the variadic positional. -/
example : ∃ s os, Reach Sample.world Sample.sum [c!"1"] s ∧ s.only = false ∧ s.t = some 0 ∧
    s.a.table s.t = .ok os ∧ DashNumber c!"-5" ∧ (slotAt os s.pos).map (·.1.valueType) = some .variadicInt ∧
    byShort os 53 = none := by
  refine ⟨_, _, rfl, rfl, rfl, rfl, ⟨53, [], by decide, Or.inl rfl⟩, by decide, by decide⟩

/-- **C06** A `--` right after an option that still needs its value is that value, and ends nothing: `--output -- file` is
    `--output=-- file`. (docs/docs/fundamentals/option-formats.md:190 has `--output -- file.txt` for giving `file.txt`.) -/
theorem C06_dashes_as_value (W : World) (env : Env) (a : Argus) (pre post : List Str) (s : PState) (name : Str)
    (hs : Reach W a pre s) (honly : s.only = false) (hne : name ≠ []) (heq : (61 : Byte) ∉ name)
    (hval : ∀ os o, s.a.table s.t = .ok os → byLong os (name.take 63) = some o → o.valueType ≠ .flag) :
    argusParse W env a (pre ++ (c!"--" ++ name) :: c!"--" :: post) =
      argusParse W env a (pre ++ (c!"--" ++ name ++ c!"=" ++ c!"--") :: post) :=
  (C01_long_attached_eq_separate W env a pre post s name c!"--" hs honly hne heq hval).symm

/-- The documented line `--output -- x`: the file is `--`. -/
example : (argusParse Sample.world Sample.noEnv Sample.prog [c!"--output", c!"--", c!"x"]).toOption.map
    (fun r => (r.1, (argusGet r.2 c!"output").toOption.map (·.1))) =
    some (.returned Err.success, some (.word (.ptr c!"--"))) := by decide +kernel

end Argus
