import Verif.Lemmas.Collected
import Verif.Lemmas.Scalar
import Verif.Spec.Maps

/-! # Lemmas: map options -/

set_option autoImplicit false

namespace Argus

/-- The cell that holds a value. -/
def MVal.enc : MVal → Word
  | .str s => .ptr s
  | .int n => .ofInt64 n
  | .float x => .bits x
  | .bool b => .lowBool b

/-- The entry that holds a pair. -/
def encPair (e : Str × MVal) : Str × Word := (e.1, e.2.enc)

/-- The value has the type of the map. -/
def MVal.OfType (vt : ValueType) : MVal → Prop
  | .str _ => vt = .mapString
  | .int n => vt = .mapInt ∧ llongMin ≤ n ∧ n ≤ llongMax
  | .float _ => vt = .mapFloat
  | .bool _ => vt = .mapBool

theorem readAs_enc {vt : ValueType} {x : MVal} (h : x.OfType vt) : x.enc.readAs vt = .ok x := by
  cases x with
  | str s => cases h; rfl
  | int n =>
    obtain ⟨rfl, h1, h2⟩ := h
    show (Out.ok (BitVec.ofInt 64 n).toInt).bind (fun n => Out.ok (MVal.int n)) = _
    rw [ofInt64_toInt h1 h2]; rfl
  | float x => cases h; rfl
  | bool b => cases h; rfl

/-- The option's map is well formed and holds `es`. -/
structure MapS (o : Opt) (es : List (Str × MVal)) : Prop where
  count : o.valueCount = es.length
  val : (es = [] ∧ o.value = .null) ∨
    (o.value = .map (es.map encPair) ∧ es.length ≤ o.valueCapacity ∧ 0 < o.valueCapacity)
  nodup : (es.map Prod.fst).Nodup
  typed : ∀ e ∈ es, e.2.OfType o.valueType

theorem MapS.pairs {o : Opt} {es : List (Str × MVal)} (h : MapS o es) (hne : es ≠ []) : o.Pairs es := by
  refine ⟨es.map encPair, ⟨?_, ?_⟩, ?_⟩
  · rcases h.val with ⟨h1, _⟩ | ⟨h1, _⟩
    · exact absurd h1 hne
    · exact h1
  · rw [List.length_map]; exact h.count
  · rw [List.map_map]
    refine List.map_congr_left (fun e he => ?_)
    show (e.1, e.2.enc.readAs o.valueType) = _
    rw [readAs_enc (h.typed e he)]

theorem Opt.Fresh.mapS {o : Opt} (h : o.Fresh) : MapS o [] := ⟨h.2, .inl ⟨rfl, h.1⟩, by simp, by simp⟩

/-! ### One entry -/

theorem put_keys (es : List (Str × MVal)) (k : Str) (x : MVal) :
    (put es k x).map Prod.fst = if k ∈ es.map Prod.fst then es.map Prod.fst else es.map Prod.fst ++ [k] := by
  unfold put
  split
  · rw [List.map_map]
    refine List.map_congr_left (fun e _ => ?_)
    simp only [Function.comp]
    split
    · rename_i h; exact h.symm
    · rfl
  · simp

theorem put_nodup {es : List (Str × MVal)} (k : Str) (x : MVal) (h : (es.map Prod.fst).Nodup) :
    ((put es k x).map Prod.fst).Nodup := by
  rw [put_keys]
  split
  · exact h
  · rename_i hk
    rw [List.nodup_append]
    refine ⟨h, by simp, ?_⟩
    intro a ha b hb
    simp only [List.mem_singleton] at hb
    subst hb
    rintro rfl
    exact hk ha

theorem put_mem {es : List (Str × MVal)} {k : Str} {x : MVal} {e : Str × MVal} (h : e ∈ put es k x) :
    e = (k, x) ∨ e ∈ es := by
  unfold put at h
  split at h
  · obtain ⟨d, hd, rfl⟩ := List.mem_map.1 h
    split
    · exact .inl rfl
    · exact .inr hd
  · simp only [List.mem_append, List.mem_singleton] at h
    exact h.symm

theorem put_length (es : List (Str × MVal)) (k : Str) (x : MVal) :
    (put es k x).length = if k ∈ es.map Prod.fst then es.length else es.length + 1 := by
  unfold put
  split <;> simp

theorem find_modify {vt : ValueType} (k : Str) (x : MVal) (upd : Word → Word)
    (hupd : ∀ y : MVal, y.OfType vt → upd y.enc = x.enc) : ∀ es : List (Str × MVal),
    (es.map Prod.fst).Nodup → (∀ e ∈ es, e.2.OfType vt) →
    (∀ i, (es.map encPair).findIdx? (fun c => c.1 == k) = some i → k ∈ es.map Prod.fst ∧
      (es.map encPair).modify i (fun c => (c.1, upd c.2)) =
        (es.map (fun e => if e.1 = k then (k, x) else e)).map encPair) ∧
    ((es.map encPair).findIdx? (fun c => c.1 == k) = none → k ∉ es.map Prod.fst)
  | [], _, _ => by simp
  | e :: es, hn, ht => by
    rw [List.map_cons, List.nodup_cons] at hn
    obtain ⟨ih1, ih2⟩ := find_modify k x upd hupd es hn.2 (fun d hd => ht d (by simp [hd]))
    rw [List.map_cons, List.findIdx?_cons]
    by_cases he : e.1 = k
    · have hb : ((encPair e).1 == k) = true := by simpa [encPair] using he
      rw [hb]
      simp only [if_true]
      refine ⟨fun i hi => ?_, fun h => by simp at h⟩
      simp only [Option.some.injEq] at hi
      subst hi
      refine ⟨by simp [he], ?_⟩
      simp only [List.modify_cons, if_true, List.map_cons, if_pos he]
      congr 1
      · simp only [encPair, he, hupd e.2 (ht e (by simp))]
      · congr 1
        symm
        conv => rhs; rw [← List.map_id es]
        refine List.map_congr_left (fun d hd => ?_)
        have : d.1 ≠ k := by
          rintro h
          exact hn.1 (by rw [he, ← h]; exact List.mem_map_of_mem hd)
        simp [this]
    · have hb : ((encPair e).1 == k) = false := by simpa [encPair] using he
      rw [hb]
      simp only [Bool.false_eq_true, if_false]
      refine ⟨fun i hi => ?_, fun h => ?_⟩
      · cases hf : (es.map encPair).findIdx? (fun c => c.1 == k) with
        | none => rw [hf] at hi; simp at hi
        | some j =>
          rw [hf] at hi
          simp only [Option.map_some, Option.some.injEq] at hi
          subst hi
          obtain ⟨h1, h2⟩ := ih1 j hf
          refine ⟨by simp only [List.map_cons, List.mem_cons]; exact .inr h1, ?_⟩
          rw [List.modify_succ_cons, h2, List.map_cons, if_neg he, List.map_cons]
      · cases hf : (es.map encPair).findIdx? (fun c => c.1 == k) with
        | none =>
          have := ih2 hf
          simp only [List.map_cons, List.mem_cons, not_or]
          exact ⟨fun h => he h.symm, this⟩
        | some j => rw [hf] at h; simp at h

theorem mapCells_mapS {o : Opt} {es : List (Str × MVal)} (h : MapS o es) (hne : es ≠ []) :
    o.mapCells = .ok (es.map encPair) := by
  unfold Opt.mapCells
  rcases h.val with ⟨h1, _⟩ | ⟨h1, _⟩
  · exact absurd h1 hne
  · rw [h1]
    have hc : o.valueCount = (es.map encPair).length := by rw [List.length_map]; exact h.count
    simp only [hc, Nat.lt_irrefl, if_false, List.take_length]

theorem adjustMap_mapS {o : Opt} {es : List (Str × MVal)} (h : MapS o es) :
    ∃ o', adjustMap o = .ok o' ∧ o'.value = .map (es.map encPair) ∧ o'.valueCount = es.length ∧
      es.length < o'.valueCapacity := by
  unfold adjustMap
  rcases h.val with ⟨h1, h2⟩ | ⟨h1, h2, h3⟩
  · subst h1
    rw [h2]
    refine ⟨_, if_pos rfl, rfl, h.count, by show 0 < initialCapacity; decide⟩
  · rw [h1]
    simp only
    split
    · rename_i hc
      refine ⟨_, rfl, rfl, h.count, ?_⟩
      show es.length < o.valueCapacity * 2
      rw [h.count] at hc
      omega
    · rename_i hc
      refine ⟨_, rfl, h1, h.count, ?_⟩
      rw [h.count] at hc
      omega

theorem setPair_mapS {o : Opt} {es : List (Str × MVal)} (h : MapS o es) (k : Str) (x : MVal)
    (hx : x.OfType o.valueType) (upd : Word → Word)
    (hupd : ∀ y : MVal, y.OfType o.valueType → upd y.enc = x.enc) :
    ∃ o', setPair o k upd x.enc = .ok o' ∧ MapS o' (put es k x) := by
  obtain ⟨f1, f2⟩ := find_modify k x upd hupd es h.nodup h.typed
  -- the key is looked for among the entries
  have hfind : mapFindKey o k = .ok ((es.map encPair).findIdx? (fun c => c.1 == k)) := by
    unfold mapFindKey
    by_cases hz : es = []
    · subst hz
      rw [if_pos (show o.valueCount = 0 from h.count)]; rfl
    · rw [if_neg (by rw [h.count]; exact fun hl => hz (List.length_eq_zero_iff.1 hl)), mapCells_mapS h hz]
      rfl
  have typed' : ∀ e ∈ put es k x, e.2.OfType o.valueType := by
    intro e he
    rcases put_mem he with rfl | he
    · exact hx
    · exact h.typed e he
  unfold setPair
  rw [hfind]
  simp only [Out.ok_bind]
  cases hf : (es.map encPair).findIdx? (fun c => c.1 == k) with
  | some i =>
    obtain ⟨g1, g2⟩ := f1 i hf
    have hne : es ≠ [] := by rintro rfl; simp at hf
    rcases h.val with ⟨h1, _⟩ | ⟨h1, h2, h3⟩
    · exact absurd h1 hne
    · simp only [h1]
      have hput : put es k x = es.map (fun e => if e.1 = k then (k, x) else e) := by
        unfold put; rw [if_pos g1]
      refine ⟨_, rfl, ?_, .inr ⟨?_, ?_, h3⟩, put_nodup k x h.nodup, typed'⟩
      · rw [hput, List.length_map]; exact h.count
      · simp only [g2, hput]
      · rw [hput, List.length_map]; exact h2
  | none =>
    have hk := f2 hf
    obtain ⟨o1, e1, e2, e3, e4⟩ := adjustMap_mapS h
    simp only [e1, Out.ok_bind, e2]
    have hput : put es k x = es ++ [(k, x)] := by unfold put; rw [if_neg hk]
    rw [e3, if_neg (by omega), List.length_map, if_neg (by omega)]
    have hm := adjustMap_meta e1
    have hvt : o1.valueType = o.valueType := (congrArg Opt.valueType hm : o1.meta.valueType = o.meta.valueType)
    refine ⟨_, rfl, ?_, .inr ⟨?_, ?_, ?_⟩, put_nodup k x h.nodup, ?_⟩
    · rw [hput]; simp
    · rw [hput]
      have : List.take es.length (es.map encPair) = es.map encPair := by
        rw [← List.length_map (f := encPair), List.take_length]
      simp only [this, List.map_append]
      rfl
    · rw [hput]; simp only [List.length_append, List.length_cons, List.length_nil]; exact e4
    · exact Nat.lt_of_le_of_lt (Nat.zero_le _) e4
    · intro e he
      show e.2.OfType o1.valueType
      rw [hvt]
      exact typed' e he

/-! ### Pairs as text -/

theorem strchrSplit_pair (c : Byte) (v : Str) : ∀ k : Str, c ∉ k → strchrSplit c (k ++ [c] ++ v) = some (k, v)
  | [], _ => by simp [strchrSplit]
  | b :: k, h => by
    have hb : (b == c) = false := by
      have : b ≠ c := by rintro rfl; exact h (by simp)
      simpa using this
    have e : b :: k ++ [c] ++ v = b :: (k ++ [c] ++ v) := rfl
    rw [e, strchrSplit, hb, if_neg (by simp), strchrSplit_pair c v k (fun h' => h (by simp [h']))]
    rfl

theorem strchrSplit_none (c : Byte) : ∀ s : Str, c ∉ s → strchrSplit c s = none
  | [], _ => rfl
  | b :: s, h => by
    have hb : (b == c) = false := by
      have : b ≠ c := by rintro rfl; exact h (by simp)
      simpa using this
    rw [strchrSplit, hb, if_neg (by simp), strchrSplit_none c s (fun h' => h (by simp [h']))]
    rfl

/-- The conversion used by a map of a type. -/
def convOf (W : World) : ValueType → Str → Option MapStore
  | .mapString => mapStringConv
  | .mapInt => mapIntConv
  | .mapFloat => mapFloatConv W
  | _ => mapBoolConv

theorem convOf_value {W : World} {vt : ValueType} {v : Str} {x : MVal} (h : TextValue W vt v x) :
    x.OfType vt ∧ ∃ st, convOf W vt v = some st ∧ st.fresh = x.enc ∧
      ∀ y : MVal, y.OfType vt → st.upd y.enc = x.enc := by
  cases vt <;> simp only [TextValue] at h
  case mapString =>
    subst h
    exact ⟨rfl, _, rfl, rfl, fun _ _ => rfl⟩
  case mapInt =>
    obtain ⟨n, hn, rfl⟩ := h
    have hc : clampLL n = max (-9223372036854775808) (min n 9223372036854775807) := by
      unfold clampLL llongMin llongMax
      repeat' split
      all_goals omega
    have hr := clampLL_range n
    rw [← hc]
    refine ⟨⟨rfl, hr.1, hr.2⟩, ⟨fun _ => .ofInt64 (clampLL n), .ofInt64 (clampLL n)⟩, ?_, rfl, fun _ _ => rfl⟩
    show mapIntConv v = _
    unfold mapIntConv
    rw [isNumeral_strtoll hn]
    simp only
    rw [if_neg]
    rintro (h | h)
    · exact isNumeral_ne_nil hn h
    · exact h rfl
  case mapFloat =>
    obtain ⟨h1, h2, rfl⟩ := h
    refine ⟨rfl, ⟨fun _ => .bits (W.strtod v).1, .bits (W.strtod v).1⟩, ?_, rfl, fun _ _ => rfl⟩
    show mapFloatConv W v = _
    unfold mapFloatConv
    simp only
    rw [if_neg]
    rintro (h | h)
    · exact h1 h
    · exact h h2
  case mapBool =>
    have main : ∀ b, stringToBool v = some b → x = .bool b → x.OfType .mapBool ∧
        ∃ st, convOf W .mapBool v = some st ∧ st.fresh = x.enc ∧
          ∀ y : MVal, y.OfType .mapBool → st.upd y.enc = x.enc := by
      intro b hb hx
      subst hx
      refine ⟨rfl, ⟨Word.setBool b, .lowBool b⟩, ?_, rfl, ?_⟩
      · show mapBoolConv v = _
        unfold mapBoolConv
        rw [hb]
      · intro y hy
        cases y with
        | bool b' => rfl
        | str s => cases hy
        | int n => exact absurd hy.1 (by decide)
        | float z => cases hy
    rcases h with ⟨h1, h2⟩ | ⟨h1, h2⟩
    · exact main true ((stringToBool_iff v).1.2 h1) h2
    · exact main false ((stringToBool_iff v).2.2 h1) h2

theorem convOf_none {W : World} {vt : ValueType} {v : Str}
    (hvt : vt = .mapString ∨ vt = .mapInt ∨ vt = .mapFloat ∨ vt = .mapBool)
    (h : ∀ x, ¬ TextValue W vt v x) : convOf W vt v = none := by
  rcases hvt with rfl | rfl | rfl | rfl
  · exact absurd rfl (h (.str v))
  · show mapIntConv v = none
    unfold mapIntConv
    simp only
    by_cases hp : ∃ n rest, NumeralThen v n rest
    · obtain ⟨n, rest, hp⟩ := hp
      rw [strtoll_numeral hp]
      cases rest with
      | nil => exact absurd ⟨n, hp, rfl⟩ (h _)
      | cons c r => simp
    · rw [strtoll_other (fun n rest h => hp ⟨n, rest, h⟩)]
      by_cases hv : v = []
      · rw [if_pos (Or.inl hv)]
      · rw [if_pos (Or.inr hv)]
  · show mapFloatConv W v = none
    unfold mapFloatConv
    simp only
    by_cases h1 : v = []
    · rw [if_pos (Or.inl h1)]
    · by_cases h2 : (W.strtod v).2 = v.length
      · exact absurd ⟨h1, h2, rfl⟩ (h _)
      · rw [if_pos (Or.inr h2)]
  · show mapBoolConv v = none
    unfold mapBoolConv
    cases hb : stringToBool v with
    | none => rfl
    | some b =>
      cases b
      · exact absurd (.inr ⟨(stringToBool_iff v).2.1 hb, rfl⟩) (h (.bool false))
      · exact absurd (.inl ⟨(stringToBool_iff v).1.1 hb, rfl⟩) (h (.bool true))

theorem setKvPair_mapS {W : World} {o : Opt} {es : List (Str × MVal)} (h : MapS o es) {k v : Str} {x : MVal}
    (hk : (61 : Byte) ∉ k) (hv : TextValue W o.valueType v x) :
    ∃ o', setKvPair (convOf W o.valueType) o (k ++ c!"=" ++ v) = .ok (Err.success, o', []) ∧
      MapS o' (put es k x) := by
  obtain ⟨hx, st, e1, e2, e3⟩ := convOf_value hv
  obtain ⟨o', f1, f2⟩ := setPair_mapS h k x hx st.upd e3
  refine ⟨o', ?_, f2⟩
  unfold setKvPair
  rw [strchrSplit_pair 61 v k hk]
  simp only [e1, e2, f1, Out.ok_bind]

/-- Storing pairs one after the other. -/
theorem setAll_mapS {W : World} : ∀ (qs : List (Str × Str × MVal)) {o : Opt} {es : List (Str × MVal)},
    MapS o es → (∀ q ∈ qs, (61 : Byte) ∉ q.1 ∧ TextValue W o.valueType q.2.1 q.2.2) →
    ∃ o', setAll (setKvPair (convOf W o.valueType)) o (qs.map (fun q => q.1 ++ c!"=" ++ q.2.1)) =
        .ok (Err.success, o', []) ∧ MapS o' (puts es (qs.map (fun q => (q.1, q.2.2)))) ∧ o'.meta = o.meta
  | [], o, es, h, _ => ⟨o, rfl, h, rfl⟩
  | q :: qs, o, es, h, hq => by
    obtain ⟨o1, e1, e2⟩ := setKvPair_mapS h (hq q (by simp)).1 (hq q (by simp)).2
    have hm : o1.meta = o.meta := setKvPair_meta _ o _ _ e1
    have hvt : o1.valueType = o.valueType := (congrArg Opt.valueType hm : o1.meta.valueType = o.meta.valueType)
    obtain ⟨o2, f1, f2, f3⟩ := setAll_mapS qs e2 (by rw [hvt]; exact fun d hd => hq d (by simp [hd]))
    rw [hvt] at f1
    refine ⟨o2, ?_, f2, f3.trans hm⟩
    rw [List.map_cons, setAll, e1]
    simp only [Out.ok_bind, ne_eq, not_true_eq_false, if_false, f1, List.append_nil]

theorem storeParts_pieces (f : Opt → Str → Out HRes) (o : Opt) (v : Str) :
    storeParts f o v = setAll f o (pieces v) := by
  unfold storeParts pieces
  by_cases hc : (44 : Byte) ∈ v
  · rw [if_pos hc, if_pos (by simpa using hc), ← split_comma]
  · rw [if_neg hc, if_neg (by simpa using hc)]
    unfold setAll
    cases hf : f o v with
    | ub u => rfl
    | ok r =>
      simp only [Out.ok_bind, setAll, List.append_nil]
      by_cases hr : r.1 = Err.success
      · rw [if_neg (by simpa using hr), ← hr]
      · rw [if_pos (by simpa using hr)]

theorem storeParts_mapS {W : World} {o : Opt} {es : List (Str × MVal)} (h : MapS o es) {v : Str}
    {ps : List (Str × MVal)} (hp : PairTexts W o.valueType (pieces v) ps) :
    ∃ o', storeParts (setKvPair (convOf W o.valueType)) o v = .ok (Err.success, o', []) ∧
      MapS o' (puts es ps) ∧ o'.meta = o.meta := by
  obtain ⟨qs, h1, h2, h3⟩ := hp
  obtain ⟨o', e1, e2, e3⟩ := setAll_mapS qs h h3
  refine ⟨o', ?_, by rw [h2]; exact e2, e3⟩
  rw [storeParts_pieces, h1]
  exact e1

/-! ### Rejected texts -/

/-- A piece of text that is not a pair, and the status it is rejected with. -/
inductive BadPair (W : World) (vt : ValueType) : Str → Int → Prop
  | format (s : Str) : (61 : Byte) ∉ s → BadPair W vt s Err.invalidFormat
  | value (k v : Str) : (61 : Byte) ∉ k → (∀ x, ¬ TextValue W vt v x) →
      BadPair W vt (k ++ c!"=" ++ v) Err.invalidValue

theorem split_first (c : Byte) : ∀ s : Str, c ∈ s → ∃ k v : Str, s = k ++ [c] ++ v ∧ c ∉ k
  | [], h => by simp at h
  | b :: s, h => by
    by_cases hb : b = c
    · exact ⟨[], s, by simp [hb], by simp⟩
    · obtain ⟨k, v, h1, h2⟩ := split_first c s (by
        rcases List.mem_cons.1 h with h | h
        · exact absurd h.symm hb
        · exact h)
      exact ⟨b :: k, v, by simp [h1], by simp [h2, Ne.symm hb]⟩

theorem pairTexts_or (W : World) (vt : ValueType) : ∀ texts : List Str,
    (∃ ps, PairTexts W vt texts ps) ∨
    ∃ (good rest : List Str) (bad : Str) (ps : List (Str × MVal)) (st : Int),
      texts = good ++ bad :: rest ∧ PairTexts W vt good ps ∧ BadPair W vt bad st
  | [] => .inl ⟨[], [], rfl, rfl, by simp⟩
  | t :: texts => by
    by_cases h61 : (61 : Byte) ∈ t
    · obtain ⟨k, v, h1, h2⟩ := split_first 61 t h61
      by_cases hx : ∃ x, TextValue W vt v x
      · obtain ⟨x, hx⟩ := hx
        rcases pairTexts_or W vt texts with ⟨ps, qs, g1, g2, g3⟩ | ⟨good, rest, bad, ps, st, g0, ⟨qs, g1, g2, g3⟩, g4⟩
        · refine .inl ⟨(k, x) :: ps, (k, v, x) :: qs, by rw [g1, h1]; rfl, by rw [g2]; rfl, ?_⟩
          intro q hq
          rcases List.mem_cons.1 hq with rfl | hq
          · exact ⟨h2, hx⟩
          · exact g3 q hq
        · refine .inr ⟨t :: good, rest, bad, (k, x) :: ps, st, by rw [g0]; rfl, ⟨(k, v, x) :: qs, ?_, ?_, ?_⟩, g4⟩
          · rw [g1, h1]; rfl
          · rw [g2]; rfl
          · intro q hq
            rcases List.mem_cons.1 hq with rfl | hq
            · exact ⟨h2, hx⟩
            · exact g3 q hq
      · refine .inr ⟨[], texts, t, [], Err.invalidValue, rfl, ⟨[], rfl, rfl, by simp⟩, ?_⟩
        rw [h1]
        exact .value k v h2 (fun x h => hx ⟨x, h⟩)
    · exact .inr ⟨[], texts, t, [], Err.invalidFormat, rfl, ⟨[], rfl, rfl, by simp⟩, .format t h61⟩

theorem setKvPair_bad {W : World} {o : Opt} {s : Str} {st : Int}
    (hvt : o.valueType = .mapString ∨ o.valueType = .mapInt ∨ o.valueType = .mapFloat ∨ o.valueType = .mapBool)
    (hb : BadPair W o.valueType s st) :
    setKvPair (convOf W o.valueType) o s = .ok (st, o, [.error st]) := by
  unfold setKvPair
  cases hb with
  | format _ h => rw [strchrSplit_none 61 s h]
  | value k v h1 h2 => rw [strchrSplit_pair 61 v k h1]; simp only [convOf_none hvt h2]

theorem setAll_append (f : Opt → Str → Out HRes) : ∀ (l r : List Str) (o o1 : Opt),
    setAll f o l = .ok (Err.success, o1, []) →
    setAll f o (l ++ r) = setAll f o1 r
  | [], r, o, o1, h => by
    simp only [setAll, Out.ok.injEq, Prod.mk.injEq, and_true, true_and] at h
    rw [h, List.nil_append]
  | v :: l, r, o, o1, h => by
    rw [setAll] at h
    obtain ⟨x, hx, h1⟩ := Out.bind_eq_ok h
    split at h1
    · rename_i hs
      simp only [Out.ok.injEq] at h1
      subst h1
      exact absurd rfl hs
    · rename_i hs
      obtain ⟨y, hy, h2⟩ := Out.bind_eq_ok h1
      simp only [Out.ok.injEq, Prod.mk.injEq, List.append_eq_nil_iff] at h2
      obtain ⟨e1, e2, e3, e4⟩ := h2
      have hy' : setAll f x.2.1 l = .ok (Err.success, o1, []) := by
        obtain ⟨a, b, c⟩ := y
        simp only at e1 e2 e4
        subst e1 e2 e4
        exact hy
      rw [List.cons_append, setAll, hx]
      simp only [Out.ok_bind]
      rw [if_neg hs, setAll_append f l r _ _ hy', e3]
      cases setAll f o1 r with
      | ub u => rfl
      | ok z => simp only [Out.ok_bind, List.nil_append]

end Argus
