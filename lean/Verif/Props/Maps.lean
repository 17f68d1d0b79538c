import Verif.Lemmas.MapHistory
import Verif.Props.Arrays

/-!
# Map options: C18, C19, C21
-/

set_option autoImplicit false

namespace Argus

/-! ## C18 -/

/-- **C18** (full statement: also when the first text consists of commas only, see `C18_only_commas`). After
    a successful parse a map option (without FLAG_UNIQUE_VALUE) holds exactly one entry for
    each key among the pairs its texts stand for, with the value last written for that key; without a sort
    flag the entries are in the order in which the keys first appeared. -/
theorem C18_last_write_wins_partial (W : World) (env : Env) (a a' : Argus) (args : List Str) (p : Ptr) (o : Opt)
    (vt : ValueType) (ts : List Str) (hg : GivenTexts W env a args a' p o ts) (hm : IsMapOption o vt)
    (hf : o.Fresh) (hfirst : StartsWell ts) (hu : o.flags.has .uniqueValue = false) :
    ∃ (o' : Opt) (pss : List (List (Str × MVal))) (shown : List (Str × MVal)),
      a'.getOpt p = .ok o' ∧ OccurrencePairs W vt ts pss ∧ o'.Pairs shown ∧
      (shown.map Prod.fst).Nodup ∧
      (∀ k v, (k, v) ∈ shown ↔ lastFor k pss.flatten = some v) ∧
      (o.flags.has .sortedKey = false → o.flags.has .sortedValue = false →
        shown.map Prod.fst = (pss.flatten.map Prod.fst).eraseDups) := by
  obtain ⟨o1, e1, e2⟩ := hg.result
  obtain ⟨pss, es, f1, f2, f3, f4, _⟩ := giveAll_mapS W ts o o1 [] hm rfl hf.mapS (.inr hfirst) e1
  have hp := f4.perm hu
  refine ⟨o1, pss, es, e2, f1, f2.pairs (f3 (.inr hg.given)), f2.nodup, fun k v => ?_, fun h1 h2 => ?_⟩
  · rw [hp.mem_iff]
    have := puts_last pss.flatten.reverse k v
    rwa [List.reverse_reverse] at this
  · rw [f4.plain hu h1 h2]
    have := puts_keys pss.flatten.reverse
    rwa [List.reverse_reverse] at this

/-- **C18** All sequences of `key=value` texts are accepted by the option. -/
theorem C18_accepts_partial (W : World) (o : Opt) (vt : ValueType) (ts : List Str) (pss : List (List (Str × MVal)))
    (hm : IsMapOption o vt) (hf : o.Fresh) (hfirst : StartsWell ts) (hp : OccurrencePairs W vt ts pss) :
    ∃ o', o.giveAll W (ts.map some) = some o' :=
  giveAll_pairs W ts o [] pss hm hf.mapS (.inr hfirst) hp

/-- **C18** A piece without `=` is rejected with ARGUS_ERROR_INVALID_FORMAT, whatever has been stored
    before; the pairs before it in the same text have been stored by then. -/
theorem C18_rejects_missing_equals (W : World) (a : Argus) (o o1 : Opt) (h : Handler) (vt : ValueType)
    (hist : List Str) (v bad : Str) (good rest : List Str) (ps : List (Str × MVal))
    (hm : IsMapOption o vt) (hh : o.handler = some h) (hf : o.Fresh) (hfirst : StartsWell hist)
    (hg : o.giveAll W (hist.map some) = some o1)
    (hv : pieces v = good ++ bad :: rest) (hp : PairTexts W vt good ps) (hb : (61 : Byte) ∉ bad) :
    ∃ o2 shown, runHandler W a h o1 (some v) =
        .ok (Err.invalidFormat, o2, [.error Err.invalidFormat]) ∧
      (hist ≠ [] → o1.Pairs shown) ∧ (hist ≠ [] → o2.Pairs (puts shown ps)) := by
  obtain ⟨pss, es, f1, f2, f3, f4, _⟩ := giveAll_mapS W hist o o1 [] hm rfl hf.mapS (.inr hfirst) hg
  have hmeta := giveAll_meta _ hg
  have hh1 : o1.handler = some h :=
    (congrArg Opt.handler hmeta : o1.meta.handler = o.meta.handler).trans hh
  obtain ⟨o2, g1, g2, g3⟩ := run_bad W a (hm.of_meta hmeta) hh1 f2 hv hp (.format bad hb)
  refine ⟨o2, es, g1, fun h => f2.pairs (f3 (.inr h)), fun h => ?_⟩
  exact g2.pairs (puts_ne_nil _ _ (.inl (f3 (.inr h))))

/-- **C18** A command line giving a map option a text that is not a list of pairs never parses. -/
theorem C18_bad_text_never_parses (W : World) (env : Env) (a a' : Argus) (args : List Str) (p : Ptr) (o : Opt)
    (vt : ValueType) (ts : List Str) (hg : GivenTexts W env a args a' p o ts) (hm : IsMapOption o vt)
    (hf : o.Fresh) (hfirst : StartsWell ts) :
    ∀ t ∈ ts, ∀ s ∈ pieces t, ∃ k v x, s = k ++ c!"=" ++ v ∧ (61 : Byte) ∉ k ∧ TextValue W vt v x := by
  obtain ⟨o1, e1, e2⟩ := hg.result
  obtain ⟨pss, f1⟩ : ∃ pss, OccurrencePairs W vt ts pss := by
    obtain ⟨pss, es, f1, _⟩ := giveAll_mapS W ts o o1 [] hm rfl hf.mapS (.inr hfirst) e1
    exact ⟨pss, f1⟩
  clear e1 e2 hg hfirst
  induction ts generalizing pss with
  | nil => intro t ht; simp at ht
  | cons t ts ih =>
    obtain ⟨ps, pss', rfl, ⟨qs, h1, h2, h3⟩, h4⟩ := f1
    intro t' ht' s hs
    rcases List.mem_cons.1 ht' with rfl | ht'
    · rw [h1] at hs
      obtain ⟨q, hq, rfl⟩ := List.mem_map.1 hs
      exact ⟨q.1, q.2.1, q.2.2, rfl, h3 q hq⟩
    · exact ih pss' h4 t' ht' s hs

/-- A case of C18: `--map a=1,b=2 -m a=3` leaves a ↦ 3, b ↦ 2. -/
example : ∃ a' o, GivenTexts Sample.world Sample.noEnv Sample.prog [c!"--map", c!"a=1,b=2", c!"-m", c!"a=3"] a' ⟨0, 5⟩ o
      [c!"a=1,b=2", c!"a=3"] ∧ IsMapOption o .mapInt ∧ o.Fresh ∧ StartsWell [c!"a=1,b=2", c!"a=3"] ∧
      o.flags.has .uniqueValue = false ∧
      (∃ o', a'.getOpt ⟨0, 5⟩ = .ok o' ∧ o'.Pairs [(c!"a", .int 3), (c!"b", .int 2)]) := by
  refine ⟨_, _, ⟨rfl, rfl, by decide, by decide +kernel, by simp⟩, .int rfl rfl, ⟨rfl, rfl⟩, ?_, by decide,
    _, rfl, _, ⟨rfl, by decide +kernel⟩, by decide +kernel⟩
  intro t ht
  simp only [List.head?_cons, Option.mem_def, Option.some.injEq] at ht
  subst ht
  decide +kernel

/-- A text of commas only, which holds no pair at all, corrupts a map option: it then claims one entry
    but has none, and looking a key up or giving the option a pair dereferences NULL. -/
theorem C18_only_commas :
    ∃ a' o', argusParse Sample.world Sample.noEnv Sample.prog [c!"--map=,"] = .ok (.returned Err.success, a') ∧
      a'.getOpt ⟨0, 5⟩ = .ok o' ∧ o'.valueCount = 1 ∧ o'.value = .null ∧ (∀ es, ¬ o'.Pairs es) ∧
      argusMapGet a' c!"map" c!"k" = .ub .nullDeref ∧
      argusParse Sample.world Sample.noEnv Sample.prog [c!"--map=,", c!"--map=a=1"] = .ub .nullDeref := by
  refine ⟨_, _, rfl, rfl, by decide +kernel, by decide +kernel, ?_, by decide +kernel, by decide +kernel⟩
  rintro xs ⟨cells, ⟨h, _⟩, _⟩
  cases h

/-! ## C19 -/

/-- **C19** (full statement: for all integer values). After a successful parse a map option shows what
    writing the pairs of each occurrence and then applying the flags leaves, if the values given are strings,
    bools, ints of type `int` or doubles other than NaN. Missing: larger ints are compared by their low
    32 bits (`C19_int64_values`). -/
theorem C19_flags_partial (W : World) (env : Env) (a a' : Argus) (args : List Str) (p : Ptr) (o : Opt)
    (vt : ValueType) (ts : List Str) (hg : GivenTexts W env a args a' p o ts) (hm : IsMapOption o vt)
    (hf : o.Fresh) (hfirst : StartsWell ts) :
    ∃ (o' : Opt) (pss : List (List (Str × MVal))) (shown : List (Str × MVal)),
      a'.getOpt p = .ok o' ∧ OccurrencePairs W vt ts pss ∧ o'.Pairs shown ∧
      ((∀ ps ∈ pss, ∀ e ∈ ps, e.2.Tame) → MapRuns o.flags [] pss shown) := by
  obtain ⟨o1, e1, e2⟩ := hg.result
  obtain ⟨pss, es, f1, f2, f3, _, f5⟩ := giveAll_mapS W ts o o1 [] hm rfl hf.mapS (.inr hfirst) e1
  exact ⟨o1, pss, es, e2, f1, f2.pairs (f3 (.inr hg.given)), f5 (by simp)⟩

/-- **C19** In particular, in the end: no two entries share a value with FLAG_UNIQUE_VALUE, and the entries
    are sorted by key or by value as asked for. -/
theorem C19_final_partial (W : World) (env : Env) (a a' : Argus) (args : List Str) (p : Ptr) (o : Opt)
    (vt : ValueType) (ts : List Str) (hg : GivenTexts W env a args a' p o ts) (hm : IsMapOption o vt)
    (hf : o.Fresh) (hfirst : StartsWell ts)
    (ht : ∀ pss, OccurrencePairs W vt ts pss → ∀ ps ∈ pss, ∀ e ∈ ps, e.2.Tame) :
    ∃ (o' : Opt) (shown : List (Str × MVal)), a'.getOpt p = .ok o' ∧ o'.Pairs shown ∧
      (o.flags.has .uniqueValue = true → shown.Pairwise (fun x y => ¬ x.2.same y.2)) ∧
      (o.flags.has .sortedKey = true → shown.Pairwise (fun x y => x.1 ≤ y.1)) ∧
      (o.flags.has .sortedKey = false → o.flags.has .sortedValue = true →
        shown.Pairwise (fun x y => x.2.le y.2)) := by
  obtain ⟨o', pss, shown, h1, h2, h3, h4⟩ := C19_flags_partial W env a a' args p o vt ts hg hm hf hfirst
  have hne : pss ≠ [] := by
    cases ts with
    | nil => exact absurd rfl hg.given
    | cons t ts => obtain ⟨ps, pss', rfl, _⟩ := h2; simp
  obtain ⟨m, har⟩ := MapRuns.last pss [] shown hne (h4 (ht pss h2))
  exact ⟨o', shown, h1, h3, har.distinct, har.keyOrder, har.valueOrder⟩

/-- The table of the sample program with a map of ints that has the flags `fl`. -/
def Sample.mapWith (fl : Flags) : Argus :=
  { Sample.prog with tables := Sample.prog.tables.map (fun t => t.map (fun o =>
      if o.handler = some .mapInt then { o with flags := fl } else o)) }

/-- Cases of C19: unique values, sorting by key, sorting by value. -/
example : ∃ a' o, GivenTexts Sample.world Sample.noEnv (Sample.mapWith (Flags.ofList [.uniqueValue]))
      [c!"--map", c!"b=2,a=1,c=2"] a' ⟨0, 5⟩ o [c!"b=2,a=1,c=2"] ∧ IsMapOption o .mapInt ∧ o.Fresh ∧
      o.flags.has .uniqueValue = true ∧
      (∃ o', a'.getOpt ⟨0, 5⟩ = .ok o' ∧ o'.Pairs [(c!"b", .int 2), (c!"a", .int 1)]) := by
  exact ⟨_, _, ⟨rfl, rfl, by decide, by decide +kernel, by simp⟩, .int rfl rfl, ⟨rfl, rfl⟩, by decide,
    _, rfl, _, ⟨rfl, by decide +kernel⟩, by decide +kernel⟩

/-- **C19** fails for ints beyond 32 bits: two entries with different values, of which FLAG_UNIQUE_VALUE
    drops the second. -/
theorem C19_int64_values :
    ∃ a' o', argusParse Sample.world Sample.noEnv (Sample.mapWith (Flags.ofList [.uniqueValue]))
        [c!"--map", c!"a=1,b=4294967297"] = .ok (.returned Err.success, a') ∧
      a'.getOpt ⟨0, 5⟩ = .ok o' ∧ o'.Pairs [(c!"a", .int 1)] :=
  ⟨_, _, rfl, rfl, _, ⟨rfl, by decide +kernel⟩, by decide +kernel⟩

/-! ## C21 -/

/-- **C21** for maps of bools: whatever the map holds, a pair whose value is a spelling of a truth value is
    accepted and its entry holds that truth value; any other value is rejected with an error and leaves
    the option as it was. -/
theorem C21_bool_map (W : World) (a : Argus) (o o1 : Opt) (hist : List Str) (k v : Str)
    (hm : IsMapOption o .mapBool) (hf : o.Fresh) (hfirst : StartsWell hist)
    (hg : o.giveAll W (hist.map some) = some o1) (hk : (61 : Byte) ∉ k) (hk' : (44 : Byte) ∉ k)
    (hv : (44 : Byte) ∉ v) (hu : o.flags.has .uniqueValue = false) :
    (MeansTrue v → ∃ o2 shown, o1.give W (some (k ++ c!"=" ++ v)) = some o2 ∧ o2.Pairs shown ∧
      (k, .bool true) ∈ shown) ∧
    (MeansFalse v → ∃ o2 shown, o1.give W (some (k ++ c!"=" ++ v)) = some o2 ∧ o2.Pairs shown ∧
      (k, .bool false) ∈ shown) ∧
    (¬ MeansTrue v → ¬ MeansFalse v → runHandler W a .mapBool o1 (some (k ++ c!"=" ++ v)) =
      .ok (Err.invalidValue, o1, [.error Err.invalidValue])) := by
  obtain ⟨pss, es, f1, f2, f3, f4, _⟩ := giveAll_mapS W hist o o1 [] hm rfl hf.mapS (.inr hfirst) hg
  have hmeta := giveAll_meta _ hg
  have hm1 := hm.of_meta hmeta
  have hfl : o1.flags = o.flags := (congrArg Opt.flags hmeta : o1.meta.flags = o.meta.flags)
  have hc : (44 : Byte) ∉ k ++ c!"=" ++ v := by
    simp only [List.mem_append, not_or]
    exact ⟨⟨hk', by decide⟩, hv⟩
  have hp : pieces (k ++ c!"=" ++ v) = [k ++ c!"=" ++ v] := by unfold pieces; rw [if_neg hc]
  have main : ∀ b, TextValue W .mapBool v (.bool b) → ∃ o2 shown, o1.give W (some (k ++ c!"=" ++ v)) = some o2 ∧
      o2.Pairs shown ∧ (k, .bool b) ∈ shown := by
    intro b hb
    obtain ⟨o2, es2, e1, e2, e3, e4, _⟩ := give_mapS W hm1 f2 (ps := [(k, .bool b)]) (v := k ++ c!"=" ++ v)
      ⟨[(k, v, .bool b)], hp, rfl, by
        intro q hq
        simp only [List.mem_singleton] at hq
        subst hq
        exact ⟨hk, hb⟩⟩ (.inr (by simp))
    refine ⟨o2, es2, e1, e2.pairs e3, ?_⟩
    rw [(e4.perm (by rw [hfl]; exact hu)).mem_iff]
    show (k, .bool b) ∈ put es k (.bool b)
    rw [mem_put]
    exact .inl ⟨rfl, rfl⟩
  refine ⟨fun h => main true (.inl ⟨h, rfl⟩), fun h => main false (.inr ⟨h, rfl⟩), fun h1 h2 => ?_⟩
  have hbad : setKvPair (convOf W o1.valueType) o1 (k ++ c!"=" ++ v) =
      .ok (Err.invalidValue, o1, [.error Err.invalidValue]) := by
    refine setKvPair_bad (by rw [hm1.type]; exact hm1.types) (.value k v hk ?_)
    rw [hm1.type]
    rintro x (⟨h, _⟩ | ⟨h, _⟩)
    · exact h1 h
    · exact h2 h
  rw [hm1.type] at hbad
  have hrun : runHandler W a .mapBool o1 (some (k ++ c!"=" ++ v)) =
      collect (setKvPair mapBoolConv) (applyMapFlags W) o1 (some (k ++ c!"=" ++ v)) := rfl
  rw [hrun, collect, storeParts_pieces, hp, setAll, show setKvPair mapBoolConv o1 (k ++ c!"=" ++ v) = _ from hbad]
  rfl

/-- A case of C21 for maps: a map holding one entry and the spellings `Off` and `maybe`. -/
example : ∃ o1, ({ type := .option, valueType := .mapBool, handler := some .mapBool } : Opt).giveAll
      Sample.world ([c!"x=yes"].map some) = some o1 ∧ o1.Pairs [(c!"x", .bool true)] ∧
      MeansFalse c!"Off" ∧ ¬ MeansTrue c!"maybe" ∧ ¬ MeansFalse c!"maybe" :=
  ⟨_, rfl, ⟨_, ⟨rfl, by decide +kernel⟩, by decide +kernel⟩, by decide +kernel, by decide +kernel, by decide +kernel⟩

end Argus
