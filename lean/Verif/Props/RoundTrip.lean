import Verif.Spec.RoundTrip
import Verif.Props.ReadBack
import Verif.Props.Takes
import Verif.Props.Maps
import Verif.Props.Values
import Verif.Props.Outcome
import Verif.Props.Ranges
import Verif.Lemmas.HeapEnd

/-!
# C93: values can be written as a command line and read back
-/

set_option autoImplicit false

namespace Argus

/-! ## The arguments -/

theorem textsOf_append (p : Ptr) (l r : List Act) : textsOf p (l ++ r) = textsOf p l ++ textsOf p r := by
  unfold textsOf; rw [List.filterMap_append]

theorem textsOf_enters (p : Ptr) (ps : List Ptr) : textsOf p (ps.map Act.enter) = [] := by
  unfold textsOf
  exact List.filterMap_eq_nil_iff.2 (fun x hx => by
    obtain ⟨q, _, rfl⟩ := List.mem_map.1 hx
    rfl)

theorem Settable.longIdx {os : List Opt} {name : Str} {i : Nat} {o : Opt} (h : Settable os name i o) :
    longIdx os name = some i := by
  obtain ⟨l, r, rfl, rfl, _, h2⟩ := h.split
  exact longIdx_first h.isOption h.long h2

theorem Settable.at {os : List Opt} {name : Str} {i : Nat} {o : Opt} (h : Settable os name i o) : os[i]? = some o := by
  obtain ⟨l, r, rfl, rfl, _⟩ := h.split
  simp

/-- Two names of the same entry are the same. -/
theorem Settable.inj {os : List Opt} {name name' : Str} {i : Nat} {o o' : Opt} (h : Settable os name i o)
    (h' : Settable os name' i o') : name = name' := by
  have e := h.at.symm.trans h'.at
  rw [Option.some.injEq] at e
  subst e
  exact Option.some.inj (h.named.symm.trans h'.named)

/-- What the arguments for one setting ask for. -/
theorem meaning_written {tables : List (List Opt)} {k i : Nat} {os : List Opt} {name : Str} {o : Opt}
    (hk : tables[k]? = some os) (h : Settable os name i o) (rest : List Str) : ∀ ts : List Str,
    meaning tables (some k) 0 false false (ts.map (fun t => c!"--" ++ name ++ c!"=" ++ t) ++ rest) =
      ts.map (fun t => Act.give ⟨k, i⟩ (some t)) ++ meaning tables (some k) 0 false false rest
  | [] => rfl
  | t :: ts => by
    rw [List.map_cons, List.cons_append, meaning_attached 0 hk h.longIdx h.noEquals h.short, meaning_written hk h rest ts]
    have : isFlagAt os i = false := by simp [isFlagAt, h.at, h.takesValue]
    rw [this]
    rfl

/-- What all the arguments ask for: of each option the texts of its own setting, and nothing else. -/
theorem meaning_settings {tables : List (List Opt)} {k : Nat} {os : List Opt} (hk : tables[k]? = some os) :
    ∀ settings : List (Str × Wanted), (∀ s ∈ settings, ∃ i o, Settable os s.1 i o) → (settings.map Prod.fst).Nodup →
    (∀ x ∈ meaning tables (some k) 0 false false (writeSettings settings), ∃ s ∈ settings, ∃ i o t,
      Settable os s.1 i o ∧ t ∈ s.2.written ∧ x = Act.give ⟨k, i⟩ (some t)) ∧
    ∀ s ∈ settings, ∀ i o, Settable os s.1 i o →
      textsOf ⟨k, i⟩ (meaning tables (some k) 0 false false (writeSettings settings)) = s.2.written.map some
  | [], _, _ => ⟨fun x hx => (nomatch hx), fun s hs => (nomatch hs)⟩
  | s :: ss, hset, hnd => by
    obtain ⟨ih1, ih2⟩ := meaning_settings hk ss (fun x hx => hset x (by simp [hx])) (List.nodup_cons.1 hnd).2
    obtain ⟨i0, o0, h0⟩ := hset s (by simp)
    have e : meaning tables (some k) 0 false false (writeSettings (s :: ss)) =
        s.2.written.map (fun t => Act.give ⟨k, i0⟩ (some t)) ++ meaning tables (some k) 0 false false (writeSettings ss) := by
      unfold writeSettings
      rw [List.flatMap_cons]
      exact meaning_written hk h0 _ _
    have hown : ∀ i, textsOf ⟨k, i⟩ (s.2.written.map (fun t => Act.give ⟨k, i0⟩ (some t))) =
        if i0 = i then s.2.written.map some else [] := by
      intro i
      unfold textsOf
      by_cases hi : i0 = i
      · subst hi
        rw [if_pos rfl, List.filterMap_map, ← List.filterMap_eq_map]
        congr 1
        funext t
        simp
      · rw [if_neg hi]
        exact List.filterMap_eq_nil_iff.2 (fun x hx => by
          obtain ⟨t, _, rfl⟩ := List.mem_map.1 hx
          simp [hi])
    rw [e]
    constructor
    · intro x hx
      rcases List.mem_append.1 hx with hx | hx
      · obtain ⟨t, ht, rfl⟩ := List.mem_map.1 hx
        exact ⟨s, by simp, i0, o0, t, h0, ht, rfl⟩
      · obtain ⟨s', hs', r⟩ := ih1 x hx
        exact ⟨s', by simp [hs'], r⟩
    · intro s' hs' i o h
      rw [textsOf_append, hown]
      rcases List.mem_cons.1 hs' with rfl | hs'
      · have hi : i0 = i := Option.some.inj (h0.longIdx.symm.trans h.longIdx)
        rw [if_pos hi]
        subst hi
        have : textsOf ⟨k, i0⟩ (meaning tables (some k) 0 false false (writeSettings ss)) = [] := by
          unfold textsOf
          refine List.filterMap_eq_nil_iff.2 (fun x hx => ?_)
          obtain ⟨s2, hs2, j, o2, t, g1, g2, rfl⟩ := ih1 x hx
          have hj : j ≠ i0 := by
            rintro rfl
            have := g1.inj h
            exact (List.nodup_cons.1 hnd).1 (this ▸ List.mem_map.2 ⟨s2, hs2, rfl⟩)
          simp [hj]
        rw [this, List.append_nil]
      · have hi : i0 ≠ i := by
          rintro rfl
          have := h0.inj h
          exact (List.nodup_cons.1 hnd).1 (this ▸ List.mem_map.2 ⟨s', hs', rfl⟩)
        rw [if_neg hi, List.nil_append]
        exact ih2 s' hs' i o h

theorem Wanted.Suits.written_ne {W : World} {o : Opt} {w : Wanted} (h : w.Suits W o) : w.written ≠ [] := by
  cases w with
  | text s => simp [Wanted.written]
  | number n => simp [Wanted.written]
  | real t => simp [Wanted.written]
  | truth b => simp [Wanted.written]
  | texts ts => exact h.2.2.2.2.2.1
  | numbers ns => simpa [Wanted.written] using h.2.2.2.2.2.1
  | entries qs => simpa [Wanted.written] using h.2.2.2.1

/-! ## The values -/

theorem textValue_unique {W : World} {vt : ValueType} {v : Str} {x y : MVal} (h : TextValue W vt v x)
    (h' : TextValue W vt v y) : x = y := by
  cases vt <;> simp only [TextValue] at h h'
  case mapString => rw [h, h']
  case mapInt =>
    obtain ⟨n, h1, rfl⟩ := h
    obtain ⟨m, h2, rfl⟩ := h'
    have := (isNumeral_strtoll h1).symm.trans (isNumeral_strtoll h2)
    simp only [Prod.mk.injEq, and_true] at this
    have e : ∀ k : Int, clampLL k = max (-9223372036854775808) (min k 9223372036854775807) := by
      intro k
      unfold clampLL llongMin llongMax
      split
      · omega
      · split <;> omega
    rw [e, e] at this
    rw [this]
  case mapFloat => rw [h.2.2, h'.2.2]
  case mapBool =>
    rcases h with ⟨h1, rfl⟩ | ⟨h1, rfl⟩ <;> rcases h' with ⟨h2, rfl⟩ | ⟨h2, rfl⟩
    · rfl
    · have := ((stringToBool_iff v).1.2 h1).symm.trans ((stringToBool_iff v).2.2 h2)
      simp at this
    · have := ((stringToBool_iff v).1.2 h2).symm.trans ((stringToBool_iff v).2.2 h1)
      simp at this
    · rfl

theorem pairTexts_unique {W : World} {vt : ValueType} {ts : List Str} {ps ps' : List (Str × MVal)} (h : PairTexts W vt ts ps)
    (h' : PairTexts W vt ts ps') : ps = ps' := by
  obtain ⟨qs, h1, h2, h3⟩ := h
  obtain ⟨qs', h1', h2', h3'⟩ := h'
  subst h2 h2' h1
  induction qs generalizing qs' with
  | nil =>
    cases qs' with
    | nil => rfl
    | cons _ _ => simp at h1'
  | cons q qs ih =>
    cases qs' with
    | nil => simp at h1'
    | cons q' qs' =>
      simp only [List.map_cons, List.cons.injEq] at h1' ⊢
      obtain ⟨g1, g2⟩ := h3 q (by simp)
      obtain ⟨g1', g2'⟩ := h3' q' (by simp)
      obtain ⟨e1, e2⟩ := key_split h1'.1 g1 g1'
      rw [e2] at g2
      exact ⟨by rw [e1, textValue_unique g2 g2'], ih (fun x hx => h3 x (by simp [hx])) qs' (fun x hx => h3' x (by simp [hx])) h1'.2⟩

theorem occurrencePairs_unique {W : World} {vt : ValueType} : ∀ {ts : List Str} {pss pss' : List (List (Str × MVal))},
    OccurrencePairs W vt ts pss → OccurrencePairs W vt ts pss' → pss = pss'
  | [], _, _, h, h' => by rw [h, h']
  | t :: ts, _, _, ⟨ps, r, e, h1, h2⟩, ⟨ps', r', e', h1', h2'⟩ => by
    rw [e, e', pairTexts_unique h1 h1', occurrencePairs_unique h2 h2']

theorem pieces_plain {t : Str} (h : (44 : Byte) ∉ t) : pieces t = [t] := by unfold pieces; rw [if_neg h]

theorem flatMap_pieces_plain : ∀ {ts : List Str}, (∀ t ∈ ts, (44 : Byte) ∉ t) → ts.flatMap pieces = ts
  | [], _ => rfl
  | t :: ts, h => by
    rw [List.flatMap_cons, pieces_plain (h t (by simp)), flatMap_pieces_plain (fun x hx => h x (by simp [hx]))]; rfl

theorem startsWell_plain {ts : List Str} (h : ∀ t ∈ ts, (44 : Byte) ∉ t) : StartsWell ts := by
  intro t ht
  rw [pieces_plain (h t (List.mem_of_mem_head? ht))]
  simp

theorem showInt_no_comma (n : Int) : (44 : Byte) ∉ showInt n := by
  intro hmem
  obtain ⟨sign, d, ds, e, hd, hds, hs⟩ := showInt_shape n
  rw [e] at hmem
  simp only [List.mem_append, List.mem_cons] at hmem
  rcases hmem with h | h | h
  · rcases hs with rfl | rfl <;> simp at h
  · subst h; exact absurd hd (by decide)
  · exact absurd (hds _ h) (by decide)

theorem occurrencePairs_entries {W : World} {vt : ValueType} : ∀ {qs : List (Str × Str × MVal)},
    (∀ q ∈ qs, (44 : Byte) ∉ q.1 ∧ (61 : Byte) ∉ q.1 ∧ (44 : Byte) ∉ q.2.1 ∧ TextValue W vt q.2.1 q.2.2) →
    OccurrencePairs W vt (qs.map (fun q => q.1 ++ c!"=" ++ q.2.1)) (qs.map (fun q => [(q.1, q.2.2)]))
  | [], _ => rfl
  | q :: qs, h => by
    obtain ⟨h1, h2, h3, h4⟩ := h q (by simp)
    refine ⟨[(q.1, q.2.2)], _, rfl, ?_, occurrencePairs_entries (fun x hx => h x (by simp [hx]))⟩
    rw [pieces_plain (by simp [h1, h3])]
    exact ⟨[q], rfl, rfl, by simpa using ⟨h2, h4⟩⟩

theorem flatten_one_each {α β : Type} (f : α → β) : ∀ l : List α, (l.map (fun x => [f x])).flatten = l.map f
  | [] => rfl
  | x :: l => by rw [List.map_cons, List.flatten_cons, flatten_one_each f l]; rfl

theorem nodup_of_keys {l : List (Str × MVal)} (h : (l.map Prod.fst).Nodup) : l.Nodup := by
  unfold List.Nodup at h ⊢
  rw [List.pairwise_map] at h
  exact h.imp (fun hne he => hne (by rw [he]))

theorem entries_plain {qs : List (Str × Str × MVal)} (h : ∀ q ∈ qs, (44 : Byte) ∉ q.1 ∧ (44 : Byte) ∉ q.2.1) :
    ∀ t ∈ qs.map (fun q => q.1 ++ c!"=" ++ q.2.1), (44 : Byte) ∉ t := by
  intro t ht
  obtain ⟨q, hq, rfl⟩ := List.mem_map.1 ht
  simp [(h q hq).1, (h q hq).2]

theorem lastFor_nodup : ∀ {ps : List (Str × MVal)} {k : Str} {x : MVal}, (ps.map Prod.fst).Nodup →
    (lastFor k ps = some x ↔ (k, x) ∈ ps) := by
  intro ps k x hnd
  unfold lastFor
  constructor
  · intro h
    obtain ⟨p, h1, h2⟩ := Option.map_eq_some_iff.1 h
    have h3 := List.find?_some h1
    have h4 := List.mem_of_find?_eq_some h1
    simp only [decide_eq_true_eq] at h3
    rw [← h3, ← h2]
    exact List.mem_reverse.1 h4
  · intro h
    cases hf : ps.reverse.find? (fun p => p.1 = k) with
    | none =>
      have := List.find?_eq_none.1 hf (k, x) (List.mem_reverse.2 h)
      simp at this
    | some p =>
      have h3 := List.find?_some hf
      have h4 := List.mem_reverse.1 (List.mem_of_find?_eq_some hf)
      simp only [decide_eq_true_eq] at h3
      have : p = (k, x) := by
        clear hf
        induction ps with
        | nil => simp at h4
        | cons q ps ih =>
          simp only [List.map_cons, List.nodup_cons] at hnd
          rcases List.mem_cons.1 h4 with rfl | h4 <;> rcases List.mem_cons.1 h with h | h
          · exact h.symm
          · exact absurd (List.mem_map.2 ⟨_, h, h3.symm⟩) hnd.1
          · rw [← h] at hnd; exact absurd (List.mem_map.2 ⟨p, h4, h3⟩) hnd.1
          · exact ih hnd.2 h h4
      rw [this]; rfl

theorem scalar_accepts {W : World} {o : Opt} {h : Handler} {v : Str} (hh : o.handler = some h) (hs : h.isScalar = true)
    (hb : h = .bool → MeansTrue v ∨ MeansFalse v) : ∃ o', o.giveAll W [some v] = some o' := by
  have : ∃ o1 es, runHandler W { tables := [] } h o (some v) = .ok (Err.success, o1, es) := by
    cases h <;> simp only [Handler.isScalar, Bool.false_eq_true] at hs
    case bool =>
      simp only [runHandler, boolHandler]
      rcases hb rfl with h4 | h4
      · rw [(stringToBool_iff v).1.2 h4]; exact ⟨_, _, rfl⟩
      · rw [(stringToBool_iff v).2.2 h4]; exact ⟨_, _, rfl⟩
    all_goals exact ⟨_, _, rfl⟩
  obtain ⟨o1, es, he⟩ := this
  refine ⟨o1.markSet, ?_⟩
  simp only [Opt.giveAll, give_of_run hh he]
  rfl

/-- Every option accepts what is written for it. -/
theorem Wanted.Suits.accepted {W : World} {o : Opt} {w : Wanted} (h : w.Suits W o) :
    ∃ o', o.giveAll W (w.written.map some) = some o' := by
  cases w with
  | text s => exact scalar_accepts (show o.handler = some .string from h) rfl (fun hb => (nomatch hb))
  | number n => exact scalar_accepts h.1 rfl (fun hb => (nomatch hb))
  | real t => exact scalar_accepts (show o.handler = some .float from h) rfl (fun hb => (nomatch hb))
  | truth b =>
    refine scalar_accepts (show o.handler = some .bool from h) rfl (fun _ => ?_)
    cases b
    · exact .inr (by decide)
    · exact .inl (by decide)
  | texts ts =>
    obtain ⟨h1, h2, h3, _, _, h6, h7⟩ := h
    exact C13_accepted_partial W o pieces ts (.array h1 h2) h3 h6 (startsWell_plain h7)
  | numbers ns =>
    obtain ⟨h1, h2, h3, _, _, h6, h7⟩ := h
    have hp : ∀ t ∈ ns.map showInt, (44 : Byte) ∉ t := by
      intro t ht
      obtain ⟨n, _, rfl⟩ := List.mem_map.1 ht
      exact showInt_no_comma n
    refine C15_accepted_partial W o _ (ns.map IntPiece.one) h1 h2 h3 (by simpa [Wanted.written] using h6) ?_ ?_ (startsWell_plain hp)
    · simp only [Wanted.written]
      rw [flatMap_pieces_plain hp, List.map_map]; rfl
    · intro q hq
      obtain ⟨n, hn, rfl⟩ := List.mem_map.1 hq
      exact h7 n hn
  | entries qs =>
    obtain ⟨h1, h2, _, _, _, h6⟩ := h
    exact C18_accepts_partial W o _ _ _ h1 h2 (startsWell_plain (entries_plain (fun q hq => ⟨(h6 q hq).1, (h6 q hq).2.2.1⟩)))
      (occurrencePairs_entries h6)

/-- What was written can be read. -/
theorem Wanted.Suits.read {W : World} {env : Env} {a a' : Argus} {args : List Str} {p : Ptr} {o : Opt} {w : Wanted} {path : Str}
    (h : w.Suits W o) (hg : GivenTexts W env a args a' p o w.written) (hp : a'.findPath path = .ok (some p)) :
    w.Read W a' path o.valueType ∧ argusIsSet a' path = .ok (true, a') := by
  obtain ⟨o', e1, e2⟩ := hg.result
  have hset : o'.isSet = true := giveAll_isSet _ e1 (.inl (by simpa using hg.given))
  have hk := C32_known_path a' path o' ⟨p, hp, e2⟩
  have hm := giveAll_meta _ e1
  have hvt : o'.valueType = o.valueType := (congrArg Opt.valueType hm : o'.meta.valueType = o.meta.valueType)
  refine ⟨?_, hset ▸ hk.2.1⟩
  have htx := hg.texts
  cases w with
  | text s =>
    obtain ⟨o1, g1, g2, _⟩ := C11_last_text W env a a' args p o .string [] s hg.ok hg.opt hg.kind h rfl htx
    rw [e2] at g1; cases g1
    have g2 : o'.value = .word (.ptr s) := g2
    simp only [Wanted.Read]; rw [hk.1, g2]
  | number n =>
    obtain ⟨o1, w, g1, g2, g3⟩ := C20_exact_partial W env a a' args p o [] n hg.ok hg.opt hg.kind h.1 htx h.2.1 h.2.2
    rw [e2] at g1; cases g1
    exact ⟨w, by rw [hk.1, g2], g3⟩
  | real t =>
    obtain ⟨o1, g1, g2, _⟩ := C11_last_text W env a a' args p o .float [] t hg.ok hg.opt hg.kind h rfl htx
    rw [e2] at g1; cases g1
    have g2 : o'.value = .word (.bits (W.strtof t)) := g2
    simp only [Wanted.Read]; rw [hk.1, g2]
  | truth b =>
    obtain ⟨o1, w, g1, g2, g3⟩ := C21_parse W env a a' args p o [] (if b then c!"true" else c!"false") hg.ok hg.opt hg.kind h htx
    rw [e2] at g1; cases g1
    refine ⟨w, by rw [hk.1, g2], ?_⟩
    rcases g3 with ⟨h1, h2⟩ | ⟨h1, h2⟩
    · cases b
      · exact absurd h1 (by decide)
      · exact h2
    · cases b
      · exact h2
      · exact absurd h1 (by decide)
  | texts ts =>
    obtain ⟨h1, h2, h3, h4, h5, h6, h7⟩ := h
    obtain ⟨o1, g1, cells, g2, g3⟩ := C13_strings_partial W env a a' args p o pieces ts hg (.array h1 h2) h3 (startsWell_plain h7) h4 h5
    rw [e2] at g1; cases g1
    rw [flatMap_pieces_plain h7] at g3
    have hlen : cells.length = ts.length := by simpa using congrArg List.length g3
    have hl : o'.valueType.listLike := by rw [hvt, h2]; trivial
    refine ⟨by rw [← hlen]; exact (C32_array_get a' path o' cells 0 ⟨p, hp, e2⟩ hl g2).1, fun i s hi => ?_⟩
    have k2 := (C32_array_get a' path o' cells i ⟨p, hp, e2⟩ hl g2).2
    have k3 := congrArg (fun l => l[i]?) g3
    simp only [List.getElem?_map, hi, Option.map_some, Option.map_eq_some_iff] at k3
    obtain ⟨w, k4, k5⟩ := k3
    rw [k4] at k2
    exact ⟨w, k2, k5⟩
  | numbers ns =>
    obtain ⟨h1, h2, h3, h4, h5, h6, h7⟩ := h
    have hpl : ∀ t ∈ ns.map showInt, (44 : Byte) ∉ t := by
      intro t ht
      obtain ⟨n, _, rfl⟩ := List.mem_map.1 ht
      exact showInt_no_comma n
    obtain ⟨o1, g1, cells, g2, g3⟩ := C15_expand_partial W env a a' args p o _ (ns.map IntPiece.one) hg h1 h2 h3
      (by simp only [Wanted.written]; rw [flatMap_pieces_plain hpl, List.map_map]; rfl)
      (by
        intro q hq
        obtain ⟨n, hn, rfl⟩ := List.mem_map.1 hq
        exact h7 n hn) (startsWell_plain hpl) h4 h5
    rw [e2] at g1; cases g1
    have e : (ns.map IntPiece.one).flatMap IntPiece.ints = ns := by
      rw [List.flatMap_map]
      exact List.flatMap_singleton' ns
    rw [e] at g3
    have hlen : cells.length = ns.length := by simpa using congrArg List.length g3
    have hl : o'.valueType.listLike := by rw [hvt, h2]; trivial
    refine ⟨by rw [← hlen]; exact (C32_array_get a' path o' cells 0 ⟨p, hp, e2⟩ hl g2).1, fun i s hi => ?_⟩
    have k2 := (C32_array_get a' path o' cells i ⟨p, hp, e2⟩ hl g2).2
    have k3 := congrArg (fun l => l[i]?) g3
    simp only [List.getElem?_map, hi, Option.map_some, Option.map_eq_some_iff] at k3
    obtain ⟨w, k4, k5⟩ := k3
    rw [k4] at k2
    exact ⟨w, k2, k5⟩
  | entries qs =>
    obtain ⟨h1, h2, h3, h4, h5, h6⟩ := h
    obtain ⟨o1, pss, shown, g1, g2, ⟨cells, g3, g4⟩, g5, g6, _⟩ := C18_last_write_wins_partial W env a a' args p o o.valueType _ hg h1 h2
      (startsWell_plain (entries_plain (fun q hq => ⟨(h6 q hq).1, (h6 q hq).2.2.1⟩))) h3
    rw [e2] at g1; cases g1
    have hps : pss.flatten = qs.map (fun q => (q.1, q.2.2)) := by
      rw [occurrencePairs_unique g2 (occurrencePairs_entries h6)]
      exact flatten_one_each _ qs
    have hnd : ((qs.map (fun q => (q.1, q.2.2))).map Prod.fst).Nodup := by
      rw [List.map_map]; exact h5
    have hmem : ∀ e : Str × MVal, e ∈ shown ↔ e ∈ qs.map (fun q => (q.1, q.2.2)) := by
      intro e
      have := g6 e.1 e.2
      rw [hps, lastFor_nodup hnd] at this
      exact this
    have hperm : shown.Perm (qs.map (fun q => (q.1, q.2.2))) :=
      (List.perm_ext_iff_of_nodup (nodup_of_keys g5) (nodup_of_keys hnd)).2 hmem
    have hlen : cells.length = qs.length := by
      have := congrArg List.length g4
      simp only [List.length_map] at this
      rw [this]; simpa using hperm.length_eq
    have hl : o'.valueType.mapLike := by
      rw [hvt]
      generalize o.valueType = vt at h1
      cases h1 <;> trivial
    refine ⟨by rw [← hlen]; exact (C32_map_get a' path [] o' cells ⟨p, hp, e2⟩ hl g3).1, fun q hq => ?_⟩
    have hin : (q.1, q.2.2) ∈ shown := (hmem _).2 (List.mem_map.2 ⟨q, hq, rfl⟩)
    have hkeys : cells.map Prod.fst = shown.map Prod.fst := by
      have := congrArg (List.map Prod.fst) g4
      simpa [List.map_map, Function.comp_def] using this
    have hc : (q.1, Out.ok q.2.2) ∈ cells.map (fun c => (c.1, c.2.readAs o'.valueType)) := by
      rw [g4]; exact List.mem_map.2 ⟨_, hin, rfl⟩
    obtain ⟨c, hc1, hc2⟩ := List.mem_map.1 hc
    simp only [Prod.mk.injEq] at hc2
    obtain ⟨pre, post, hsplit⟩ := List.append_of_mem hc1
    refine ⟨c.2, (C32_map_get a' path q.1 o' cells ⟨p, hp, e2⟩ hl g3).2.1 pre c.2 post ?_ ?_, by rw [← hvt]; exact hc2.2⟩
    · rw [hsplit, ← hc2.1]
    · intro e he heq
      rw [← hkeys, hsplit, List.map_append, List.map_cons] at g5
      have := (List.nodup_append.1 g5).2.2 e.1 (List.mem_map.2 ⟨e, he, rfl⟩) c.1 (by simp)
      exact this (heq.trans hc2.1.symm)

/-! ## The paths -/

/-- After a successful parse of a line that enters the commands `ns` and then only gives values, the path of commands and the
    name of a settable option of the last of them lead to that option. -/
theorem findPath_settable {W : World} {env : Env} {a a' : Argus} {args : List Str} {ps : List Ptr} {ns : List Str} {k i : Nat}
    {os : List Opt} {o : Opt} {name : Str} (hok : argusParse W env a args = .ok (.returned Err.success, a'))
    (hfresh : a.stack = []) (hc : PlainCommands a.tables) (hns : NamesChain a.tables (some a.root) ps ns)
    (hend : chainEnd a.tables (some a.root) ps = some k) (hent : entered (a.asks args) = ps)
    (hk : a.tables[k]? = some os) (h : Settable os name i o) :
    a'.findPath (pathText ns name) = .ok (some ⟨k, i⟩) := by
  obtain ⟨os', lv, hr, hlv, hm⟩ := parse_levels_plain hok hfresh hc
  obtain ⟨_, _, _, hf⟩ := argusParse_frame hok
  have hroot : a'.root = a.root := congrArg (fun c => c.1) hf.cfg
  have hst : a'.stack = ps := by
    obtain ⟨a1, a2, h1, h2, h3⟩ := argusParse_success hok
    obtain ⟨es, hes⟩ := postValidation_eq h3
    simp only at hes
    rw [hes, emits_stack, (loadEnvVars_frame h2).stack]
    rw [parseArgs_run] at h1
    rw [(run_stack _ h1 (asks_no_fail0 a _) : a1.stack = _), hfresh, List.nil_append, hent]
  obtain ⟨l, r, hsp, hi, hfl, _⟩ := h.split
  subst hi
  have hna : NameAt a' k name ⟨k, l.length⟩ := nameAt_iff.2 ⟨rfl, firstOfName_shape hf.shape
    ⟨l, o, r, hsp ▸ hk, rfl, h.named, hfl⟩⟩
  have hle : Leads (· = ·) ns lv a'.root k := by
    rw [hroot]
    exact hns.leads hf.shape (hst ▸ hlv) hend
  cases ns with
  | nil =>
    cases ps with
    | nil =>
      have hlv0 : lv = [] := by
        rw [hst] at hlv
        cases lv with
        | nil => rfl
        | cons _ _ => exact hlv.elim
      subst hlv0
      cases hle
      refine (C31_bare a' [] os' _ _ hr hlv ?_).2 ⟨[], a'.root, [], rfl, ?_, by simp⟩
      · simpa [pathText] using h.noDot
      · simpa [pathText] using hna
    | cons _ _ => exact absurd hns (by simp [NamesChain])
  | cons c cs =>
    have hmem : ∀ (cs : List Str) (lv : List (Str × Nat)) (k0 k1 : Nat), Leads (· = ·) cs lv k0 k1 →
        ∀ x ∈ cs, x ∈ lv.map Prod.fst := by
      clear hle hend hk hna hok
      intro cs lv k0 k1 h
      induction h with
      | done => simp
      | step c cs n k' lv k k'' h1 _ ih =>
        intro x hx
        rcases List.mem_cons.1 hx with rfl | hx
        · simp [h1]
        · simp only [List.map_cons, List.mem_cons]; exact .inr (ih x hx)
    exact C31_full_path a' lv os' c cs name k _ hr hlv (fun x hx => (hm x (hmem _ _ _ _ hle x hx)).2)
      (hm c (hmem _ _ _ _ hle c (by simp))).1 h.noDot hle hna

/-- What the whole line asks for. -/
theorem asks_settings {a : Argus} {ps : List Ptr} {ns : List Str} {k : Nat} (hns : NamesChain a.tables (some a.root) ps ns)
    (hend : chainEnd a.tables (some a.root) ps = some k) (settings : List (Str × Wanted)) :
    a.asks (ns ++ writeSettings settings) =
      ps.map Act.enter ++ meaning a.tables (some k) 0 false false (writeSettings settings) := by
  unfold Argus.asks
  rw [meaning_names_then hns, hend]

theorem entered_gives : ∀ {acts : List Act}, (∀ x ∈ acts, ∃ p t, x = Act.give p (some t)) → entered acts = []
  | [], _ => rfl
  | x :: acts, h => by
    obtain ⟨p, t, rfl⟩ := h x (by simp)
    exact entered_gives (acts := acts) (fun y hy => h y (List.mem_cons_of_mem _ hy))

theorem entered_settings {a : Argus} {ps : List Ptr} {ns : List Str} {k : Nat} {os : List Opt}
    (hns : NamesChain a.tables (some a.root) ps ns) (hend : chainEnd a.tables (some a.root) ps = some k)
    (hk : a.tables[k]? = some os) {settings : List (Str × Wanted)} (hset : ∀ s ∈ settings, ∃ i o, Settable os s.1 i o)
    (hnd : (settings.map Prod.fst).Nodup) : entered (a.asks (ns ++ writeSettings settings)) = ps := by
  rw [asks_settings hns hend, entered_map, entered_gives, List.append_nil]
  intro x hx
  obtain ⟨_, _, i, _, t, _, _, rfl⟩ := (meaning_settings hk settings hset hnd).1 x hx
  exact ⟨_, t, rfl⟩

/-! ## C93 -/

/-- **C93** Any values for any options of a command, written as `prog c1 … cm --name=value …`, are read back unchanged if the line
    is accepted: every text, every 64-bit integer, every float that a text stands for, both truth values, every list of
    texts, every list of ints, every map, within the limits of `Wanted.Suits`. -/
theorem C93_read_back (W : World) (env : Env) (a a' : Argus) (ps : List Ptr) (ns : List Str) (k : Nat) (os : List Opt)
    (settings : List (Str × Wanted)) (hfresh : a.stack = []) (hc : PlainCommands a.tables)
    (hns : NamesChain a.tables (some a.root) ps ns) (hend : chainEnd a.tables (some a.root) ps = some k)
    (hk : a.tables[k]? = some os) (hset : ∀ s ∈ settings, ∃ i o, Settable os s.1 i o ∧ s.2.Suits W o)
    (hnd : (settings.map Prod.fst).Nodup)
    (hok : argusParse W env a (ns ++ writeSettings settings) = .ok (.returned Err.success, a')) :
    ∀ s ∈ settings, ∃ i o, Settable os s.1 i o ∧ s.2.Read W a' (pathText ns s.1) o.valueType ∧
      argusIsSet a' (pathText ns s.1) = .ok (true, a') := by
  intro s hs
  have hset' : ∀ s ∈ settings, ∃ i o, Settable os s.1 i o := fun s hs => by
    obtain ⟨i, o, h, _⟩ := hset s hs
    exact ⟨i, o, h⟩
  obtain ⟨i, o, h1, h2⟩ := hset s hs
  have ho : a.getOpt ⟨k, i⟩ = .ok o := getOpt_eq_ok.2 ⟨_, hk, h1.at⟩
  have htx : textsOf ⟨k, i⟩ (a.asks (ns ++ writeSettings settings)) = s.2.written.map some := by
    rw [asks_settings hns hend, textsOf_append, textsOf_enters, List.nil_append]
    exact (meaning_settings hk settings hset' hnd).2 s hs i o h1
  have hg : GivenTexts W env a (ns ++ writeSettings settings) a' ⟨k, i⟩ o s.2.written :=
    ⟨hok, ho, by rw [h1.isOption]; decide, by
      rw [allTexts_given h1.stays (by rw [htx]; simpa using h2.written_ne), htx], h2.written_ne⟩
  exact ⟨i, o, h1, h2.read hg (findPath_settable hok hfresh hc hns hend (entered_settings hns hend hk hset' hnd) hk h1)⟩

/-! ## Acceptance -/

/-- Choosing a new entry for each place. -/
theorem exists_list {α β : Type} {R : Nat → α → β → Prop} : ∀ (l : List α) (n : Nat),
    (∀ i x, l[i]? = some x → ∃ y, R (n + i) x y) →
    ∃ l' : List β, l'.length = l.length ∧ ∀ i x, l[i]? = some x → ∃ y, l'[i]? = some y ∧ R (n + i) x y
  | [], _, _ => ⟨[], rfl, fun i x h => (nomatch h)⟩
  | x :: l, n, h => by
    obtain ⟨y, hy⟩ := h 0 x rfl
    obtain ⟨l', h1, h2⟩ := exists_list l (n + 1) (fun i z hz => by
      obtain ⟨w, hw⟩ := h (i + 1) z hz
      exact ⟨w, by rw [show n + 1 + i = n + (i + 1) by omega]; exact hw⟩)
    refine ⟨y :: l', by simp [h1], fun i z hz => ?_⟩
    cases i with
    | zero =>
      simp only [List.getElem?_cons_zero, Option.some.injEq] at hz
      subst hz
      exact ⟨y, rfl, hy⟩
    | succ i =>
      obtain ⟨w, e1, e2⟩ := h2 i z hz
      exact ⟨w, e1, by rw [show n + (i + 1) = n + 1 + i by omega]; exact e2⟩

/-- Choosing new tables entry by entry. -/
theorem exists_tables {R : Ptr → Opt → Opt → Prop} (T0 : List (List Opt)) (h : ∀ p o, placeAt T0 p = some o → ∃ o', R p o o') :
    ∃ T : List (List Opt), T.map List.length = T0.map List.length ∧
      ∀ p o, placeAt T0 p = some o → ∃ o', placeAt T p = some o' ∧ R p o o' := by
  obtain ⟨T, h1, h2⟩ := exists_list (R := fun k (os os' : List Opt) => os'.length = os.length ∧
      ∀ i o, os[i]? = some o → ∃ o', os'[i]? = some o' ∧ R ⟨k, i⟩ o o') T0 0 (by
    intro k os hk
    obtain ⟨os', g1, g2⟩ := exists_list (R := fun i o o' => R ⟨k, i⟩ o o') os 0 (by
      intro i o hi
      rw [Nat.zero_add]
      exact h ⟨k, i⟩ o (by unfold placeAt; rw [hk]; exact hi))
    refine ⟨os', g1, fun i o hi => ?_⟩
    obtain ⟨o', e1, e2⟩ := g2 i o hi
    rw [Nat.zero_add] at e2
    rw [Nat.zero_add]
    exact ⟨o', e1, e2⟩)
  refine ⟨T, ?_, fun p o hp => ?_⟩
  · apply List.ext_getElem?
    intro k
    rw [List.getElem?_map, List.getElem?_map]
    cases hk : T0[k]? with
    | none =>
      rw [List.getElem?_eq_none (by rw [h1]; exact List.getElem?_eq_none_iff.1 hk)]
    | some os =>
      obtain ⟨os', e1, e2⟩ := h2 k os hk
      rw [e1]
      simp [e2.1]
  · unfold placeAt at hp
    obtain ⟨os, hk, hi⟩ := Option.bind_eq_some_iff.1 hp
    obtain ⟨os', e1, e2⟩ := h2 p.tbl os hk
    obtain ⟨o', e3, e4⟩ := e2.2 p.idx o hi
    rw [Nat.zero_add] at e4
    exact ⟨o', by unfold placeAt; rw [e1]; exact e3, e4⟩

theorem through_append {rs ss : List (Opt → Opt → Prop)} : ∀ {o o1 o2 : Opt}, Through rs o o1 → Through ss o1 o2 →
    Through (rs ++ ss) o o2 := by
  induction rs with
  | nil => intro o o1 o2 h1 h2; rw [h1] at h2; exact h2
  | cons r rs ih =>
    rintro o o1 o2 ⟨x, h1, h2⟩ h3
    exact ⟨x, h1, ih h2 h3⟩

/-- Entering marks a command, and the environment has nothing for it. -/
theorem through_enters {n : Nat} (o : Opt) : ∃ o', Through (List.replicate n (fun o o' : Opt => o' = { o with isSet := true })) o o' ∧
    o'.meta = o.meta ∧ (o' = o ∨ o' = { o with isSet := true }) := by
  induction n generalizing o with
  | zero => exact ⟨o, rfl, rfl, .inl rfl⟩
  | succ n ih =>
    obtain ⟨o', h1, h2, h3⟩ := ih { o with isSet := true }
    refine ⟨o', ⟨_, rfl, h1⟩, h2, .inr ?_⟩
    rcases h3 with h3 | h3 <;> exact h3

theorem through_idle {W : World} {env : Env} {ep : Option Str} {o : Opt} (h : EnvIdle env ep o) : ∀ n : Nat,
    Through (List.replicate n (LooksUp W env ep)) o o
  | 0 => rfl
  | n + 1 => ⟨o, .idle h, through_idle h n⟩

/-- A level whose entries make no demands is in order, whatever is set. -/
theorem levelOk_undemanding {W : World} {env : Env} {ep : Option Str} {os : List Opt}
    (h : ∀ o ∈ os, ∃ o0 : Opt, o.meta = o0.meta ∧ Undemanding env ep o0) : LevelOk W os := by
  have key : ∀ o ∈ os, o.validators.getD [] = [] ∧ o.require.getD [] = [] ∧ o.conflict.getD [] = [] ∧
      (o.type = .positional → o.flags.has .required = false) ∧ (o.type = .group → o.flags.has .exclusive = false) := by
    intro o ho
    obtain ⟨o0, hm, hu⟩ := h o ho
    have e1 : o.validators = o0.validators := (congrArg Opt.validators hm : o.meta.validators = o0.meta.validators)
    have e2 : o.require = o0.require := (congrArg Opt.require hm : o.meta.require = o0.meta.require)
    have e3 : o.conflict = o0.conflict := (congrArg Opt.conflict hm : o.meta.conflict = o0.meta.conflict)
    have e4 : o.type = o0.type := (congrArg Opt.type hm : o.meta.type = o0.meta.type)
    have e5 : o.flags = o0.flags := (congrArg Opt.flags hm : o.meta.flags = o0.meta.flags)
    rw [e1, e2, e3, e4, e5]
    exact ⟨hu.validators, hu.require, hu.conflict, hu.optional, hu.free⟩
  refine ⟨fun o ho ht hr => ?_, fun o ho _ _ v hv => ?_, fun o ho _ _ n hn => ?_, fun o ho _ _ n hn => ?_, fun g mid hg hx => ?_⟩
  · rw [(key o ho).2.2.2.1 ht] at hr; cases hr
  · rw [(key o ho).1] at hv; cases hv
  · rw [(key o ho).2.1] at hn; cases hn
  · rw [(key o ho).2.2.1] at hn; cases hn
  · obtain ⟨ht, _, pre, post, rfl⟩ := hg
    rw [(key g (by simp)).2.2.2.2 ht] at hx; cases hx

/-- The tables of a chain of commands. -/
theorem NamesChain.tables_exist {tables : List (List Opt)} {k : Nat} {os : List Opt} (hk : tables[k]? = some os) :
    ∀ {ps : List Ptr} {ns : List Str} {t : Option Nat}, NamesChain tables t ps ns → chainEnd tables t ps = some k →
    (∃ k0 os0, t = some k0 ∧ tables[k0]? = some os0) ∧
    ∀ p ∈ ps, (∃ o, placeAt tables p = some o ∧ o.type = .subcommand) ∧
      ∃ k' os', tableBelow tables p = some k' ∧ tables[k']? = some os'
  | [], [], t, _, he => ⟨⟨k, os, he, hk⟩, fun p hp => (nomatch hp)⟩
  | [], _ :: _, _, h, _ => absurd h (by simp [NamesChain])
  | _ :: _, [], _, h, _ => absurd h (by simp [NamesChain])
  | p :: ps, n :: ns, t, h, he => by
    obtain ⟨ht, os0, o, h1, h2, h3, h4, h5, h6, h7⟩ := h
    have hp : placeAt tables p = some o := by unfold placeAt; rw [h1]; exact h2
    have hb : tableBelow tables p = o.subOptions := by unfold tableBelow; rw [hp]; rfl
    rw [chainEnd, hb] at he
    obtain ⟨⟨k0, os1, e1, e2⟩, ih⟩ := NamesChain.tables_exist hk h7 he
    refine ⟨⟨p.tbl, os0, ht, h1⟩, fun q hq => ?_⟩
    rcases List.mem_cons.1 hq with rfl | hq
    · exact ⟨⟨o, hp, h3⟩, k0, os1, hb.trans e1, e2⟩
    · exact ih q hq

theorem change_enters (W : World) (p : Ptr) : ∀ ps : List Ptr, (ps.map Act.enter).filterMap (Act.change W p) =
    List.replicate (ps.count p) (fun o o' : Opt => o' = { o with isSet := true })
  | [] => rfl
  | q :: ps => by
    rw [List.map_cons, List.filterMap_cons]
    by_cases h : q = p
    · subst h
      simp only [Act.change, if_true, List.count_cons_self, List.replicate_succ, change_enters W q ps]
    · simp only [Act.change, if_neg h, change_enters W p ps]
      rw [List.count_cons_of_ne h]

theorem change_gives (W : World) (p : Ptr) : ∀ acts : List Act, (∀ x ∈ acts, ∃ q t, x = Act.give q (some t)) →
    acts.filterMap (Act.change W p) = (textsOf p acts).map (fun x => TakesText W x)
  | [], _ => rfl
  | x :: acts, h => by
    obtain ⟨q, t, rfl⟩ := h x (by simp)
    have ih := change_gives W p acts (fun y hy => h y (List.mem_cons_of_mem _ hy))
    unfold textsOf at ih ⊢
    rw [List.filterMap_cons, List.filterMap_cons]
    by_cases hq : q = p
    · simp only [Act.change, if_pos hq, List.map_cons, ih]
    · simp only [Act.change, if_neg hq, ih]

/-- **C93** Such a line is accepted if the entries of the commands on the way make no demands, and the values are read back. -/
theorem C93_accepted (W : World) (env : Env) (a : Argus) (ps : List Ptr) (ns : List Str) (k : Nat) (os : List Opt)
    (settings : List (Str × Wanted)) (hx : HelpExits a.tables) (hn : ∀ os ∈ a.tables, AllNamed os) (hfresh : a.stack = [])
    (hc : PlainCommands a.tables) (hns : NamesChain a.tables (some a.root) ps ns)
    (hend : chainEnd a.tables (some a.root) ps = some k) (hk : a.tables[k]? = some os) (hdepth : ns.length ≤ 8)
    (hset : ∀ s ∈ settings, ∃ i o, Settable os s.1 i o ∧ o.flags.has .exit = false ∧ s.2.Suits W o)
    (hnd : (settings.map Prod.fst).Nodup)
    (hu : ∀ j ∈ pathTables a ps, ∀ os, a.tables[j]? = some os → ∀ o ∈ os, Undemanding env a.envPrefix o) :
    ∃ a', argusParse W env a (ns ++ writeSettings settings) = .ok (.returned Err.success, a') ∧
      ∀ s ∈ settings, ∃ i o, Settable os s.1 i o ∧ s.2.Read W a' (pathText ns s.1) o.valueType ∧
        argusIsSet a' (pathText ns s.1) = .ok (true, a') := by
  have hset1 : ∀ s ∈ settings, ∃ i o, Settable os s.1 i o := fun s hs => by
    obtain ⟨i, o, h, _⟩ := hset s hs
    exact ⟨i, o, h⟩
  have hset2 : ∀ s ∈ settings, ∃ i o, Settable os s.1 i o ∧ s.2.Suits W o := fun s hs => by
    obtain ⟨i, o, h, _, h'⟩ := hset s hs
    exact ⟨i, o, h, h'⟩
  obtain ⟨hm1, hm2⟩ := meaning_settings hk settings hset1 hnd
  have hgives : ∀ x ∈ meaning a.tables (some k) 0 false false (writeSettings settings), ∃ q t, x = Act.give q (some t) := by
    intro x hx
    obtain ⟨_, _, i, _, t, _, _, rfl⟩ := hm1 x hx
    exact ⟨_, t, rfl⟩
  obtain ⟨⟨k0, os0, hk0, hos0⟩, hbelow⟩ := hns.tables_exist hk hend
  cases hk0
  have hlen : ps.length = ns.length := by
    clear hend hu hbelow hdepth hgives hm1 hm2
    have : ∀ (ps : List Ptr) (ns : List Str) (t : Option Nat), NamesChain a.tables t ps ns → ps.length = ns.length := by
      intro ps
      induction ps with
      | nil => intro ns t h; cases ns with
        | nil => rfl
        | cons _ _ => exact absurd h (by simp [NamesChain])
      | cons p ps ih => intro ns t h; cases ns with
        | nil => exact absurd h (by simp [NamesChain])
        | cons n ns =>
          obtain ⟨_, _, o, _, _, _, _, _, _, h7⟩ := h
          simp [ih ns _ h7]
    exact this ps ns _ hns
  have hkmem : k ∈ pathTables a ps := by
    have := chainEnd_selected (r := []) hend
    rw [hfresh, List.nil_append, List.append_nil] at this
    have e : entered (ps.map Act.enter) = ps := by
      have := entered_map ps []
      rw [List.append_nil, show entered [] = [] from rfl, List.append_nil] at this
      exact this
    rwa [e] at this
  have hent := entered_settings hns hend hk hset1 hnd
  -- each entry goes through what is asked of it
  obtain ⟨T, hT1, hT2⟩ := exists_tables (R := fun p o o' => Through ((a.asks (ns ++ writeSettings settings)).filterMap
      (Act.change W p) ++ List.replicate ((pathTables a ps).count p.tbl) (LooksUp W env a.envPrefix)) o o' ∧ o'.meta = o.meta)
    a.tables (by
    intro p o ho
    rw [asks_settings hns hend, List.filterMap_append, change_enters, change_gives W p _ hgives]
    have hidle : ∀ o' : Opt, o'.meta = o.meta →
        Through (List.replicate ((pathTables a ps).count p.tbl) (LooksUp W env a.envPrefix)) o' o' := by
      intro o' hm
      by_cases hp : p.tbl ∈ pathTables a ps
      · refine through_idle (.inr (.inr (.inr ?_))) _
        unfold placeAt at ho
        obtain ⟨os', h1, h2⟩ := Option.bind_eq_some_iff.1 ho
        rw [envVarName_meta hm]
        exact (hu _ hp os' h1 o (List.mem_of_getElem? h2)).silent
      · rw [List.count_eq_zero.2 hp]; exact rfl
    by_cases hg : ∃ s ∈ settings, ∃ i o, p = ⟨k, i⟩ ∧ Settable os s.1 i o ∧ o.flags.has .exit = false ∧ s.2.Suits W o
    · obtain ⟨s, hs, i, o1, rfl, h1, h2, h3⟩ := hg
      have ho1 : o1 = o := by
        have := h1.at
        unfold placeAt at ho
        simp only [hk, Option.bind_some, this, Option.some.injEq] at ho
        exact ho
      subst ho1
      have hnot : (⟨k, i⟩ : Ptr) ∉ ps := by
        intro hp
        obtain ⟨⟨o2, g1, g2⟩, _⟩ := hbelow _ hp
        rw [ho] at g1; cases g1
        rw [h1.isOption] at g2; cases g2
      rw [List.count_eq_zero.2 hnot, hm2 s hs i o1 h1, List.map_map]
      obtain ⟨o', ho'⟩ := h3.accepted
      have hmt := giveAll_meta _ ho'
      have ht : Through (s.2.written.map (fun t => TakesText W (some t))) o1 o' :=
        (through_takes _ _ _).2 ⟨ho', .inr h2, fun t _ v hv => by
          rw [(hu k hkmem os hk o1 (List.mem_of_getElem? h1.at)).validators] at hv; cases hv⟩
      exact ⟨o', through_append (through_append (o1 := o1) rfl ht) (hidle o' hmt), hmt⟩
    · have hnone : textsOf p (meaning a.tables (some k) 0 false false (writeSettings settings)) = [] := by
        unfold textsOf
        refine List.filterMap_eq_nil_iff.2 (fun x hx => ?_)
        obtain ⟨s, hs, i, o1, t, g1, g2, rfl⟩ := hm1 x hx
        by_cases hp : (⟨k, i⟩ : Ptr) = p
        · exfalso
          obtain ⟨j, o2, q1, q2, q3⟩ := hset s hs
          have hj : j = i := Option.some.inj (q1.longIdx.symm.trans g1.longIdx)
          subst hj
          exact hg ⟨s, hs, j, o2, hp.symm, q1, q2, q3⟩
        · simp [hp]
      rw [hnone]
      obtain ⟨o', h1, h2, _⟩ := through_enters (n := ps.count p) o
      exact ⟨o', through_append (by rw [List.map_nil, List.append_nil]; exact h1) (hidle o' h2), h2⟩)
  have hlevel : ∀ j ∈ pathTables a ps, ∀ os0, a.tables[j]? = some os0 → ∃ os1, T[j]? = some os1 ∧ LevelOk W os1 := by
    intro j hj os0 hos
    have hl := congrArg (fun l => l[j]?) hT1
    simp only [List.getElem?_map, hos, Option.map_some, Option.map_eq_some_iff] at hl
    obtain ⟨os1, e1, e2⟩ := hl
    refine ⟨os1, e1, levelOk_undemanding (env := env) (ep := a.envPrefix) (fun o1 ho1 => ?_)⟩
    obtain ⟨i, hi, rfl⟩ := List.mem_iff_getElem.1 ho1
    have hi0 : i < os0.length := by rw [← e2]; exact hi
    obtain ⟨o', q1, _, q3⟩ := hT2 ⟨j, i⟩ os0[i] (by
      unfold placeAt; simp only [hos, Option.bind_some]; exact List.getElem?_eq_getElem hi0)
    have : o' = os1[i] := by
      unfold placeAt at q1
      simp only [e1, Option.bind_some, List.getElem?_eq_getElem hi, Option.some.injEq] at q1
      exact q1.symm
    subst this
    exact ⟨os0[i], q3, hu j hj os0 hos _ (List.getElem_mem hi0)⟩
  have hacc : Accepted W env a (ns ++ writeSettings settings) T ps := by
    refine ⟨?_, by rw [hfresh, hent, List.nil_append], .inr (by omega), hT1, fun p o ho => ?_, ?_, fun p hp => ?_⟩
    · intro x hx
      rw [asks_settings hns hend] at hx
      rcases List.mem_append.1 hx with hx | hx
      · obtain ⟨q, _, rfl⟩ := List.mem_map.1 hx
        exact ⟨by simp, by simp⟩
      · obtain ⟨q, t, rfl⟩ := hgives x hx
        exact ⟨by simp, by simp⟩
    · obtain ⟨o', h1, h2, _⟩ := hT2 p o ho
      exact ⟨o', h1, h2⟩
    · exact hlevel a.root (by unfold pathTables; simp) os0 hos0
    · obtain ⟨_, k', os', h1, h2⟩ := hbelow p hp
      obtain ⟨os1, h3, h4⟩ := hlevel k' (by
        unfold pathTables
        exact List.mem_cons_of_mem _ (List.mem_filterMap.2 ⟨p, hp, h1⟩)) os' h2
      exact ⟨k', os1, h1, h3, h4⟩
  obtain ⟨a', h1, _, _⟩ := (C75_success_iff W env a _ T ps hx hn).2 hacc
  exact ⟨a', h1, C93_read_back W env a a' ps ns k os settings hfresh hc hns hend hk hset2 hnd h1⟩

/-! ## Positionals -/

theorem slotAt_many {l r : List Opt} {o : Opt} (hl : ∀ x ∈ l, x.type ≠ .positional) (ht : o.type = .positional)
    (hv : o.valueType.isVariadic = true) (pos : Nat) : slotAt (l ++ o :: r) pos = some (o, l.length) := by
  unfold slotAt slotBy
  have e : ((l ++ o :: r).zipIdx).filter (fun x => decide (x.1.type = .positional)) =
      (o, l.length) :: (r.zipIdx (l.length + 1)).filter (fun x => decide (x.1.type = .positional)) := by
    rw [List.zipIdx_append, List.filter_append]
    have h1 : (l.zipIdx).filter (fun x => decide (x.1.type = .positional)) = [] := by
      refine List.filter_eq_nil_iff.2 (fun x hx => ?_)
      have := hl x.1 (List.fst_mem_of_mem_zipIdx hx)
      simpa using this
    rw [h1, List.nil_append, List.zipIdx_cons, List.filter_cons]
    simp [ht]
  rw [e, List.take_succ_cons, List.find?_cons]
  simp [hv]

theorem meaning_many {tables : List (List Opt)} {k : Nat} {l r : List Opt} {o : Opt} (hk : tables[k]? = some (l ++ o :: r))
    (hl : ∀ x ∈ l, x.type ≠ .positional) (ht : o.type = .positional) (hv : o.valueType.isVariadic = true) :
    ∀ (ts : List Str) (pos : Nat), (∀ t ∈ ts, t ≠ c!"--") →
    meaning tables (some k) pos true false ts = ts.map (fun t => Act.give ⟨k, l.length⟩ (some t))
  | [], _, _ => rfl
  | t :: ts, pos, h => by
    have hd : argKind t ≠ .dashes := by
      intro hd
      refine h t (by simp) ?_
      rcases argKind_cases t with ⟨h1, _⟩ | ⟨_, _, _, h2⟩ | ⟨_, _, _, _, h2⟩ | ⟨_, _, _, h2⟩
      · exact h1
      all_goals rw [h2] at hd; cases hd
    unfold meaning
    rw [if_neg hd, if_neg (fun h => Bool.noConfusion h.2)]
    simp only [Option.bind_some, hk, if_true]
    rw [meaning_many hk hl ht hv ts (pos + 1) (fun x hx => h x (by simp [hx]))]
    unfold posActs
    rw [slotAt_many hl ht hv]
    rfl

/-- **C93** Any texts but `--` itself, written after `--`, are read back unchanged from a POSITIONAL_MANY, whatever they begin with or
    contain. -/
theorem C93_many_read_back (W : World) (env : Env) (a a' : Argus) (ps : List Ptr) (ns : List Str) (k : Nat) (l r : List Opt)
    (o : Opt) (ts : List Str) (hns : NamesChain a.tables (some a.root) ps ns)
    (hend : chainEnd a.tables (some a.root) ps = some k) (hk : a.tables[k]? = some (l ++ o :: r))
    (hl : ∀ x ∈ l, x.type ≠ .positional) (ht : o.type = .positional) (hh : o.handler = some .variadicString)
    (hv : o.valueType = .variadicString) (hf : o.Fresh) (hs : o.flags.has .sorted = false) (hu : o.flags.has .unique = false)
    (hov : o.flags.has .envOverride = false) (hne : ts ≠ []) (hts : ∀ t ∈ ts, t ≠ c!"--")
    (hok : argusParse W env a (ns ++ c!"--" :: ts) = .ok (.returned Err.success, a')) :
    ∃ o', a'.getOpt ⟨k, l.length⟩ = .ok o' ∧ o'.Strings ts ∧ o'.isSet = true := by
  have ho : a.getOpt ⟨k, l.length⟩ = .ok o := getOpt_eq_ok.2 ⟨_, hk, by simp⟩
  have hasks : a.asks (ns ++ c!"--" :: ts) = ps.map Act.enter ++ ts.map (fun t => Act.give ⟨k, l.length⟩ (some t)) := by
    unfold Argus.asks
    rw [meaning_names_then hns, hend]
    congr 1
    conv => lhs; unfold meaning
    rw [if_pos (by rfl)]
    exact meaning_many hk hl ht (by rw [hv]; rfl) ts 0 hts
  have htx : textsOf ⟨k, l.length⟩ (a.asks (ns ++ c!"--" :: ts)) = ts.map some := by
    rw [hasks, textsOf_append, textsOf_enters, List.nil_append]
    unfold textsOf
    rw [List.filterMap_map, ← List.filterMap_eq_map]
    congr 1
    funext t
    simp
  have hg : GivenTexts W env a (ns ++ c!"--" :: ts) a' ⟨k, l.length⟩ o ts :=
    ⟨hok, ho, by rw [ht]; decide, by rw [allTexts_given hov (by rw [htx]; simpa using hne), htx], hne⟩
  obtain ⟨o1, e1, e2⟩ := hg.result
  obtain ⟨o2, g1, g2⟩ := C13_strings_partial W env a a' _ _ o _ ts hg (.variadic hh hv) hf (fun t _ => by simp) hs hu
  rw [e2] at g1; cases g1
  refine ⟨o1, e2, ?_, giveAll_isSet _ e1 (.inl (by simpa using hne))⟩
  have : ts.flatMap (fun t => [t]) = ts := List.flatMap_singleton' ts
  rw [this] at g2
  exact g2

/-- `prog -- --help a,b -` with a POSITIONAL_MANY: the three texts are read back. -/
example : ∃ a' o', argusParse Sample.world Sample.noEnv (argusInit [[helpOption, posManyString c!"files"]] c!"prog" none)
      [c!"--", c!"--help", c!"a,b", c!"-"] = .ok (.returned Err.success, a') ∧ a'.getOpt ⟨0, 1⟩ = .ok o' ∧
      o'.Strings [c!"--help", c!"a,b", c!"-"] := by
  obtain ⟨a', h⟩ : ∃ a', argusParse Sample.world Sample.noEnv (argusInit [[helpOption, posManyString c!"files"]] c!"prog" none)
      [c!"--", c!"--help", c!"a,b", c!"-"] = .ok (.returned Err.success, a') := ⟨_, rfl⟩
  obtain ⟨o', h1, h2, _⟩ := C93_many_read_back Sample.world Sample.noEnv _ a' [] [] 0 [helpOption] [] (posManyString c!"files") _ trivial rfl rfl
    (by decide) rfl rfl rfl ⟨rfl, rfl⟩ rfl rfl rfl (by simp) (by decide) h
  exact ⟨a', o', h, h1, h2⟩

/-! ## What cannot be written -/

theorem pieces_no_comma {t s : Str} (h : s ∈ pieces t) : (44 : Byte) ∉ s := by
  unfold pieces at h
  split at h
  · intro hc
    exact absurd (fields_no_sep (· == 44) t s (List.mem_filter.1 h).1 44 hc) (by decide)
  · rename_i hn
    rw [List.mem_singleton.1 h]; exact hn

/-- **C93** The limit on texts is one of the library: whatever the command line and the environment say, no element of a text array
    contains a comma. -/
theorem C93_no_comma_in_arrays (W : World) (env : Env) (a a' : Argus) (args : List Str) (p : Ptr) (o : Opt) (ts : List Str)
    (hg : GivenTexts W env a args a' p o ts) (hh : o.handler = some .arrayString) (hv : o.valueType = .arrayString) (hf : o.Fresh)
    (hfirst : StartsWell ts) :
    ∃ o' xs, a'.getOpt p = .ok o' ∧ o'.Strings xs ∧ ∀ s ∈ xs, (44 : Byte) ∉ s := by
  obtain ⟨o1, e1, e2⟩ := hg.result
  obtain ⟨o', shown, f1, f2, f3, _⟩ := strings_after W (.array hh hv) hf hg.given hfirst
  rw [e1] at f1
  cases f1
  refine ⟨o1, shown, e2, f2, fun s hs => ?_⟩
  obtain ⟨t, _, ht⟩ := List.mem_flatMap.1 ((f3.mem s).1 hs)
  exact pieces_no_comma ht

/-- **C93** No element of an int array is INT_MAX. -/
theorem C93_no_int_max_in_arrays (W : World) (env : Env) (a a' : Argus) (args : List Str) (p : Ptr) (o : Opt) (ts : List Str)
    (hg : GivenTexts W env a args a' p o ts) (hh : o.handler = some .arrayInt) (hv : o.valueType = .arrayInt) (hf : o.Fresh)
    (hfirst : StartsWell ts) :
    ∃ o' xs, a'.getOpt p = .ok o' ∧ o'.Ints xs ∧ ∀ n ∈ xs, n < 2147483647 := by
  obtain ⟨o1, e1, e2⟩ := hg.result
  obtain ⟨k1, k2⟩ := C15_every_text W o ts hh hv hf hg.given hfirst
  obtain ⟨qs, shown, g1, g2, g3, g4⟩ := k2 o1 e1
  have hall := k1.1 ⟨o1, e1⟩
  refine ⟨o1, shown, e2, g3, fun n hn => ?_⟩
  obtain ⟨q, hq, hnq⟩ := List.mem_flatMap.1 ((g4.mem n).1 hn)
  obtain ⟨lo, hi, r1, r2⟩ := hall q.1 (by rw [g1]; exact List.mem_map.2 ⟨q, hq, rfl⟩)
  obtain ⟨rfl, rfl⟩ := C15_meaning_unique q.1 _ _ _ _ (g2 q hq) r1
  have hle := ((C15_interval _ _).1 n).1 hnq
  have hmax := parseIntRange_range (parseIntRange_iff.2 (g2 q hq))
  have : (intMax : Int) = 2147483647 := rfl
  omega

/-- **C93** No key of a map contains a comma or `=`, and no text in it a comma. -/
theorem C93_no_comma_in_maps (W : World) (env : Env) (a a' : Argus) (args : List Str) (p : Ptr) (o : Opt) (vt : ValueType)
    (ts : List Str) (hg : GivenTexts W env a args a' p o ts) (hm : IsMapOption o vt) (hf : o.Fresh) (hfirst : StartsWell ts)
    (hu : o.flags.has .uniqueValue = false) :
    ∃ o' es, a'.getOpt p = .ok o' ∧ o'.Pairs es ∧ ∀ e ∈ es, (44 : Byte) ∉ e.1 ∧ (61 : Byte) ∉ e.1 ∧
      ∀ s, e.2 = .str s → (44 : Byte) ∉ s := by
  obtain ⟨o', pss, shown, g1, g2, g3, g5, g6, g7⟩ := C18_last_write_wins_partial W env a a' args p o vt ts hg hm hf hfirst hu
  clear g7
  refine ⟨o', shown, g1, g3, fun e he => ?_⟩
  have hlast := (g6 e.1 e.2).1 he
  have hmem : e ∈ pss.flatten := by
    unfold lastFor at hlast
    obtain ⟨q, h1, h2⟩ := Option.map_eq_some_iff.1 hlast
    have h3 := List.find?_some h1
    simp only [decide_eq_true_eq] at h3
    have : q = e := Prod.ext h3 h2
    rw [← this]
    exact List.mem_reverse.1 (List.mem_of_find?_eq_some h1)
  clear hlast he g6 g3 g5 hg hfirst
  induction ts generalizing pss with
  | nil => rw [show pss = [] from g2] at hmem; simp at hmem
  | cons t ts ih =>
    obtain ⟨ps, pss', rfl, ⟨qs, h1, h2, h3⟩, hrest⟩ := g2
    rw [List.flatten_cons] at hmem
    rcases List.mem_append.1 hmem with hmem | hmem
    · rw [h2] at hmem
      obtain ⟨q, hq, rfl⟩ := List.mem_map.1 hmem
      have hp : (44 : Byte) ∉ q.1 ++ c!"=" ++ q.2.1 := pieces_no_comma (t := t) (by rw [h1]; exact List.mem_map.2 ⟨q, hq, rfl⟩)
      simp only [List.mem_append, not_or] at hp
      obtain ⟨k1, k2⟩ := h3 q hq
      refine ⟨hp.1.1, k1, fun s hs => ?_⟩
      have hs : q.2.2 = .str s := hs
      rw [hs] at k2
      cases vt <;> simp only [TextValue] at k2
      case mapString => cases k2; exact hp.2
      case mapInt => obtain ⟨_, _, k3⟩ := k2; cases k3
      case mapFloat => cases k2.2.2
      case mapBool => rcases k2 with ⟨_, k3⟩ | ⟨_, k3⟩ <;> cases k3
    · exact ih pss' hrest hmem

/-- `prog --tags=x,,y, --tags=z`: whatever is made of it, there is no comma in the elements. -/
example : ∃ a' o' xs, argusParse Sample.world Sample.noEnv
      (argusInit [[helpOption, optArrayString 116 (some c!"tags")]] c!"prog" none) [c!"--tags=x,,y,", c!"--tags=z"] =
      .ok (.returned Err.success, a') ∧ a'.getOpt ⟨0, 1⟩ = .ok o' ∧ o'.Strings xs ∧ ∀ s ∈ xs, (44 : Byte) ∉ s := by
  obtain ⟨a', h⟩ : ∃ a', argusParse Sample.world Sample.noEnv
      (argusInit [[helpOption, optArrayString 116 (some c!"tags")]] c!"prog" none) [c!"--tags=x,,y,", c!"--tags=z"] =
      .ok (.returned Err.success, a') := ⟨_, rfl⟩
  obtain ⟨o', xs, h1, h2⟩ := C93_no_comma_in_arrays Sample.world Sample.noEnv _ a' _ ⟨0, 1⟩ _ [c!"x,,y,", c!"z"]
    ⟨h, rfl, by decide, by decide +kernel, by simp⟩ rfl rfl ⟨rfl, rfl⟩ (by unfold StartsWell; decide)
  exact ⟨a', o', xs, h, h1, h2⟩

/-- `prog --ids=2147483640-2147483646`. -/
example : ∃ a' o' xs, argusParse Sample.world Sample.noEnv
      (argusInit [[helpOption, optArrayInt 105 (some c!"ids")]] c!"prog" none) [c!"--ids=2147483640-2147483646"] =
      .ok (.returned Err.success, a') ∧ a'.getOpt ⟨0, 1⟩ = .ok o' ∧ o'.Ints xs ∧ ∀ n ∈ xs, n < 2147483647 := by
  obtain ⟨a', h⟩ : ∃ a', argusParse Sample.world Sample.noEnv
      (argusInit [[helpOption, optArrayInt 105 (some c!"ids")]] c!"prog" none) [c!"--ids=2147483640-2147483646"] =
      .ok (.returned Err.success, a') := ⟨_, rfl⟩
  obtain ⟨o', xs, h1, h2⟩ := C93_no_int_max_in_arrays Sample.world Sample.noEnv _ a' _ ⟨0, 1⟩ _ [c!"2147483640-2147483646"]
    ⟨h, rfl, by decide, by decide +kernel, by simp⟩ rfl rfl ⟨rfl, rfl⟩ (by unfold StartsWell; decide)
  exact ⟨a', o', xs, h, h1, h2⟩

/-- `prog --env=a=x,b==y`. -/
example : ∃ a' o' es, argusParse Sample.world Sample.noEnv
      (argusInit [[helpOption, optMapString 101 (some c!"env")]] c!"prog" none) [c!"--env=a=x,b==y"] =
      .ok (.returned Err.success, a') ∧ a'.getOpt ⟨0, 1⟩ = .ok o' ∧ o'.Pairs es ∧
      ∀ e ∈ es, (44 : Byte) ∉ e.1 ∧ (61 : Byte) ∉ e.1 ∧ ∀ s, e.2 = .str s → (44 : Byte) ∉ s := by
  obtain ⟨a', h⟩ : ∃ a', argusParse Sample.world Sample.noEnv
      (argusInit [[helpOption, optMapString 101 (some c!"env")]] c!"prog" none) [c!"--env=a=x,b==y"] =
      .ok (.returned Err.success, a') := ⟨_, rfl⟩
  obtain ⟨o', es, h1, h2⟩ := C93_no_comma_in_maps Sample.world Sample.noEnv _ a' _ ⟨0, 1⟩ _ .mapString [c!"a=x,b==y"]
    ⟨h, rfl, by decide, by decide +kernel, by simp⟩ (.string rfl rfl) ⟨rfl, rfl⟩ (by unfold StartsWell; decide) rfl
  exact ⟨a', o', es, h, h1, h2⟩

/-! ## Cases -/

/-- A program with a command `run` that has an option of each kind. -/
def Sample.writable : Argus := argusInit
  [[helpOption, subcommand c!"run" 1, subcommand c!"rung" 2],
   [helpOption, optString 110 (some c!"name"), optInt 99 (some c!"count"), optFloat 114 (some c!"ratio"), optBool 98 (some c!"safe"),
    optArrayString 116 (some c!"tags"), optArrayInt 105 (some c!"ids"), optMapInt 109 (some c!"limits")], [helpOption]] c!"prog" none

/-- What is wanted of it. -/
def Sample.wishes : List (Str × Wanted) :=
  [(c!"tags", .texts [c!"a b", c!"", c!"--x"]), (c!"name", .text c!"--help,=-"), (c!"count", .number (-9223372036854775808)),
   (c!"safe", .truth false), (c!"ids", .numbers [-3, 7, -3]), (c!"ratio", .real c!"1.5"),
   (c!"limits", .entries [(c!"b", c!"+10", .int 10), (c!"a", c!"-2", .int (-2))])]

/-- The line it is written in. -/
example : writeSettings Sample.wishes = [c!"--tags=a b", c!"--tags=", c!"--tags=--x", c!"--name=--help,=-",
    c!"--count=-9223372036854775808", c!"--safe=false", c!"--ids=-3", c!"--ids=7", c!"--ids=-3", c!"--ratio=1.5", c!"--limits=b=+10",
    c!"--limits=a=-2"] := by decide +kernel

/-- Checking that an entry is settable. -/
theorem settable_at {os : List Opt} {name : Str} {i : Nat} {o : Opt} (hi : os[i]? = some o)
    (h1 : ∀ x ∈ os.take i, x.name ≠ some name ∧ x.lname ≠ some name) (h2 : o.type = .option ∧ o.lname = some name ∧ o.name = some name)
    (h3 : (61 : Byte) ∉ name ∧ (46 : Byte) ∉ name ∧ name.length ≤ 63) (h4 : o.valueType ≠ .flag ∧ o.flags.has .envOverride = false) :
    Settable os name i o := by
  obtain ⟨hlt, he⟩ := List.getElem?_eq_some_iff.1 hi
  refine ⟨⟨os.take i, os.drop (i + 1), ?_, ?_, fun x hx => (h1 x hx).1, fun x hx _ => (h1 x hx).2⟩, h2.1, h2.2.1, h2.2.2, h3.1, h3.2.1,
    h3.2.2, h4.1, h4.2⟩
  · rw [← he, List.getElem_cons_drop]; exact (List.take_append_drop i os).symm
  · rw [List.length_take]; omega

/-- All the wishes come true at once: `prog run --tags="a b" --tags= …` is accepted, and everything is read back, in any
    environment. -/
example (env : Env) : ∃ a', argusParse Sample.world env Sample.writable (c!"run" :: writeSettings Sample.wishes) =
      .ok (.returned Err.success, a') ∧
    argusGet a' c!"run.name" = .ok (.word (.ptr c!"--help,=-"), { a' with errorCode := Err.success }) ∧
    argusCount a' c!"run.tags" = .ok (3, a') ∧ argusCount a' c!"run.limits" = .ok (2, a') := by
  have hk : Sample.writable.tables[1]? = some [helpOption, optString 110 (some c!"name"), optInt 99 (some c!"count"),
      optFloat 114 (some c!"ratio"), optBool 98 (some c!"safe"), optArrayString 116 (some c!"tags"), optArrayInt 105 (some c!"ids"),
      optMapInt 109 (some c!"limits")] := rfl
  obtain ⟨a', h1, h2⟩ := C93_accepted Sample.world env Sample.writable [⟨0, 1⟩] [c!"run"] 1 _ Sample.wishes
    (helpExits_of_mem (by decide +kernel)) (by unfold AllNamed; decide +kernel) rfl (by unfold PlainCommands; decide +kernel)
    ⟨rfl, _, _, rfl, rfl, rfl, rfl, by decide, by
      intro j o' n' ho' ht hn hp
      match j with
      | 0 => cases ho'; cases ht
      | 1 => exact Nat.le_refl _
      | j + 2 => exact Nat.le_add_left 1 (j + 1), trivial⟩
    rfl hk (by decide) (by
      have hw : ∀ P : Str × Wanted → Prop, P (c!"tags", .texts [c!"a b", c!"", c!"--x"]) → P (c!"name", .text c!"--help,=-") →
          P (c!"count", .number (-9223372036854775808)) → P (c!"safe", .truth false) → P (c!"ids", .numbers [-3, 7, -3]) →
          P (c!"ratio", .real c!"1.5") → P (c!"limits", .entries [(c!"b", c!"+10", .int 10), (c!"a", c!"-2", .int (-2))]) →
          ∀ s ∈ Sample.wishes, P s := by
        intro P p1 p2 p3 p4 p5 p6 p7 s hs
        simp only [Sample.wishes, List.mem_cons, List.not_mem_nil, or_false] at hs
        rcases hs with rfl | rfl | rfl | rfl | rfl | rfl | rfl <;> assumption
      refine hw _ ⟨5, _, settable_at rfl (by decide +kernel) ⟨rfl, rfl, rfl⟩ (by decide) (by decide), rfl, rfl, rfl, ⟨rfl, rfl⟩, rfl, rfl,
          by simp, by decide⟩
        ⟨1, _, settable_at rfl (by decide +kernel) ⟨rfl, rfl, rfl⟩ (by decide) (by decide), rfl, rfl⟩
        ⟨2, _, settable_at rfl (by decide +kernel) ⟨rfl, rfl, rfl⟩ (by decide) (by decide), rfl, rfl, by decide, by decide⟩
        ⟨4, _, settable_at rfl (by decide +kernel) ⟨rfl, rfl, rfl⟩ (by decide) (by decide), rfl, rfl⟩
        ⟨6, _, settable_at rfl (by decide +kernel) ⟨rfl, rfl, rfl⟩ (by decide) (by decide), rfl, rfl, rfl, ⟨rfl, rfl⟩, rfl, rfl,
          by simp, by decide⟩
        ⟨3, _, settable_at rfl (by decide +kernel) ⟨rfl, rfl, rfl⟩ (by decide) (by decide), rfl, rfl⟩
        ⟨7, _, settable_at rfl (by decide +kernel) ⟨rfl, rfl, rfl⟩ (by decide) (by decide), rfl, .int rfl rfl, ⟨rfl, rfl⟩, rfl,
          by simp, by decide, ?_⟩
      have hnum : ∀ q ∈ [(c!"b", c!"+10", MVal.int 10), (c!"a", c!"-2", MVal.int (-2))], TextValue Sample.world .mapInt q.2.1 q.2.2 := by
        intro q hq
        simp only [List.mem_cons, List.not_mem_nil, or_false] at hq
        rcases hq with rfl | rfl
        · exact ⟨10, ⟨[], [43], [49, 48], rfl, by simp, by simp, by simp, by decide, by decide, by simp⟩, rfl⟩
        · exact ⟨-2, ⟨[], [45], [50], rfl, by simp, by simp, by simp, by decide, by decide, by simp⟩, rfl⟩
      intro q hq
      refine ⟨?_, ?_, ?_, hnum q hq⟩ <;> revert q <;> decide)
    (by decide) (by
      have : ∀ j ∈ pathTables Sample.writable [⟨0, 1⟩], ∀ os, Sample.writable.tables[j]? = some os → ∀ o ∈ os,
          o.validators.getD [] = [] ∧ o.require.getD [] = [] ∧ o.conflict.getD [] = [] ∧
          o.type ≠ .positional ∧ o.type ≠ .group ∧ envVarName Sample.writable.envPrefix o = none := by
        intro j hj os hos
        have : j = 0 ∨ j = 1 := by
          have e : pathTables Sample.writable [⟨0, 1⟩] = [0, 1] := rfl
          rw [e] at hj; simpa using hj
        rcases this with rfl | rfl <;> (cases hos; decide +kernel)
      intro j hj os hos o ho
      obtain ⟨g1, g2, g3, g4, g5, g6⟩ := this j hj os hos o ho
      exact ⟨g1, g2, g3, fun h => absurd h g4, fun h => absurd h g5, fun n hn => by rw [g6] at hn; cases hn⟩)
  refine ⟨a', h1, ?_, ?_, ?_⟩
  · obtain ⟨_, _, _, h, _⟩ := h2 (c!"name", .text c!"--help,=-") (by simp [Sample.wishes])
    exact h
  · obtain ⟨_, _, _, h, _⟩ := h2 (c!"tags", .texts [c!"a b", c!"", c!"--x"]) (by simp [Sample.wishes])
    exact h.1
  · obtain ⟨_, _, _, h, _⟩ := h2 (c!"limits", .entries [(c!"b", c!"+10", .int 10), (c!"a", c!"-2", .int (-2))]) (by simp [Sample.wishes])
    exact h.1

end Argus
