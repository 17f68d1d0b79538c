import Verif.Spec.Safe
import Verif.Lemmas.MapFlags
import Verif.Lemmas.HandlerSet
import Verif.Lemmas.FrameApi
import Verif.Lemmas.Ranges

/-!
# Lemmas: well-made definitions do not run into undefined behaviour
-/

set_option autoImplicit false

namespace Argus

/-! ### Texts -/

/-- What an array or map option must not be given. -/
def Harmless (h : Handler) (t : Str) : Prop :=
  (h.splits = true → pieces t ≠ []) ∧
  (h = .arrayInt → ∀ p ∈ pieces t, ∀ r, parseIntRange p = some r → r.2 ≠ intMax)

/-- What an array or map option in a certain state must not be given. -/
def HarmlessTo (o : Opt) (h : Handler) (t : Str) : Prop :=
  (h.splits = true → o.isSet = false → pieces t ≠ []) ∧
  (h = .arrayInt → ∀ p ∈ pieces t, ∀ r, parseIntRange p = some r → r.2 ≠ intMax)

theorem Harmless.to {h : Handler} {t : Str} (ht : Harmless h t) (o : Opt) : HarmlessTo o h t :=
  ⟨fun hs _ => ht.1 hs, ht.2⟩

/-- A byte that is not a separator is in some field. -/
theorem fields_mem (q : Byte → Bool) : ∀ (s : Str) (c : Byte), c ∈ s → q c = false → ∃ f ∈ fields q s, f ≠ []
  | [], c, h, _ => by simp at h
  | b :: s, c, h, hq => by
    unfold fields
    split
    · rename_i hb
      rcases List.mem_cons.1 h with rfl | h
      · rw [hq] at hb; simp at hb
      · obtain ⟨f, hf, hne⟩ := fields_mem q s c h hq
        exact ⟨f, by simp [hf], hne⟩
    · split
      · exact ⟨[b], by simp, by simp⟩
      · exact ⟨b :: _, List.mem_cons_self, by simp⟩

theorem pieces_ne_nil {t : Str} (h : t = [] ∨ ∃ c ∈ t, c ≠ 44) : pieces t ≠ [] := by
  unfold pieces
  split
  · rename_i hc
    rcases h with rfl | ⟨c, h1, h2⟩
    · simp at hc
    · obtain ⟨f, hf, hne⟩ := fields_mem (· == 44) t c h1 (by simpa using h2)
      intro he
      have : f ∈ (fields (· == 44) t).filter (· ≠ []) := List.mem_filter.2 ⟨hf, by simpa using hne⟩
      rw [he] at this; simp at this
  · simp

/-- What an array or map option must not be given; `b` tells whether it holds something already. -/
def HarmlessAll (b : Bool) (h : Handler) (ts : List Str) : Prop :=
  (h.splits = true → b = false → ∀ t, ts.head? = some t → pieces t ≠ []) ∧
  (h = .arrayInt → ∀ t ∈ ts, ∀ p ∈ pieces t, ∀ r, parseIntRange p = some r → r.2 ≠ intMax)

theorem harmless_of {h : Handler} {ts : List Str} (ht : h.Takes ts) (b : Bool) : HarmlessAll b h ts :=
  ⟨fun hs _ t h1 => pieces_ne_nil (ht.1 hs t h1), fun hi t h1 p hp r hr => ht.2 hi t h1 p hp r.1 r.2 (parseIntRange_iff.1 hr)⟩

theorem HarmlessAll.tail {b : Bool} {h : Handler} {t : Str} {ts : List Str} (ht : HarmlessAll b h (t :: ts)) :
    HarmlessAll true h ts :=
  ⟨fun _ hb => (nomatch hb), fun hi u hu => ht.2 hi u (by simp [hu])⟩

theorem HarmlessAll.head {h : Handler} {t : Str} {ts : List Str} {o : Opt} (ht : HarmlessAll o.isSet h (t :: ts)) :
    HarmlessTo o h t :=
  ⟨fun hs hb => ht.1 hs hb t rfl, fun hi => ht.2 hi t (by simp)⟩

/-! ### What an option holds -/

/-- An array with readable cells; not empty if `b`. -/
def ArrHolds (k : CellKind) (b : Bool) (o : Opt) : Prop :=
  o.valueType.arrayKind = some k ∧
    ∃ cells, Arr o cells ∧ (∀ c ∈ cells, k.readable c = true) ∧ (b = true → cells ≠ [])

/-- A well-formed map; not empty if `b`. -/
def MapHolds (vt : ValueType) (b : Bool) (o : Opt) : Prop :=
  o.valueType = vt ∧ ∃ es, MapS o es ∧ (b = true → es ≠ [])

/-- The option holds a value that goes with its handler. -/
def Carries (h : Handler) (o : Opt) : Prop :=
  match h with
  | .string => o.isAllocated = false ∧
      ((∃ s, o.value = .word (.ptr s)) ∨ (o.value = .null ∧ o.isSet = false))
  | .int | .float => o.isAllocated = false ∧ ∃ b, o.value = .word (.bits b)
  | .flag | .bool | .help | .version => o.isAllocated = false ∧ ∃ w, o.value = .word w
  | .arrayString | .variadicString => ArrHolds .string o.isSet o
  | .arrayInt | .variadicInt => ArrHolds .int o.isSet o
  | .arrayFloat | .variadicFloat => ArrHolds .float o.isSet o
  | .mapString => MapHolds .mapString o.isSet o
  | .mapInt => MapHolds .mapInt o.isSet o
  | .mapFloat => MapHolds .mapFloat o.isSet o
  | .mapBool => MapHolds .mapBool o.isSet o
  | .custom _ => False

/-- What is known of an entry from its declaration. -/
structure Static (o : Opt) : Prop where
  goes : ∀ h, o.handler = some h → ∃ fh, o.freeHandler = some fh ∧ h.Goes o.valueType fh
  bare : o.handler = none → o.validators.getD [] = [] ∧ o.valueType = .none
  subcommand : o.type = .subcommand → o.handler = none
  env : ∀ h, o.handler = some h → h.isCollection = true → o.flags.has .envOverride = false
  checks : ∀ h, o.handler = some h → ∀ v ∈ o.validators.getD [], v.Suits h

theorem Static.of_meta {o o' : Opt} (h : Static o) (hm : o'.meta = o.meta) : Static o' := by
  have e1 : o'.handler = o.handler := (congrArg Opt.handler hm : o'.meta.handler = o.meta.handler)
  have e2 : o'.freeHandler = o.freeHandler := (congrArg Opt.freeHandler hm : o'.meta.freeHandler = o.meta.freeHandler)
  have e3 : o'.valueType = o.valueType := (congrArg Opt.valueType hm : o'.meta.valueType = o.meta.valueType)
  have e4 : o'.validators = o.validators := (congrArg Opt.validators hm : o'.meta.validators = o.meta.validators)
  have e5 : o'.flags = o.flags := (congrArg Opt.flags hm : o'.meta.flags = o.meta.flags)
  have e6 : o'.type = o.type := (congrArg Opt.type hm : o'.meta.type = o.meta.type)
  refine ⟨?_, ?_, ?_, ?_, ?_⟩
  · rw [e1, e2, e3]; exact h.goes
  · rw [e1, e3, e4]; exact h.bare
  · rw [e1, e6]; exact h.subcommand
  · rw [e1, e5]; exact h.env
  · rw [e1, e4]; exact h.checks

/-- An entry in good order. -/
structure Sound (o : Opt) : Prop where
  decl : Static o
  none : o.handler = none → o.isAllocated = false
  holds : ∀ h, o.handler = some h → Carries h o

theorem Opt.Proper.sound {o : Opt} (h : o.Proper) : Sound o := by
  refine ⟨⟨h.goes, h.bare, h.subcommand, fun x hx hc => (h.collection x hx hc).2.2, h.checks⟩,
    fun _ => h.unallocated, fun x hx => ?_⟩
  obtain ⟨fh, _, hg⟩ := h.goes x hx
  have coll : ∀ k, x.isCollection = true → o.valueType.arrayKind = some k → ArrHolds k o.isSet o := by
    intro k hc hk
    obtain ⟨h1, h2, _⟩ := h.collection x hx hc
    exact ⟨hk, [], h1.arr, by simp, by simp [h2]⟩
  have mp : x.isCollection = true → MapHolds o.valueType o.isSet o := by
    intro hc
    obtain ⟨h1, h2, _⟩ := h.collection x hx hc
    exact ⟨rfl, [], h1.mapS, by simp [h2]⟩
  generalize hvt : o.valueType = vt at hg
  cases hg with
  | flag => exact ⟨h.unallocated, h.plain _ hx rfl⟩
  | help => exact ⟨h.unallocated, h.plain _ hx rfl⟩
  | version => exact ⟨h.unallocated, h.plain _ hx rfl⟩
  | bool => exact ⟨h.unallocated, h.plain _ hx rfl⟩
  | string => exact ⟨h.unallocated, h.string hx⟩
  | int => exact ⟨h.unallocated, h.number (.inl hx)⟩
  | float => exact ⟨h.unallocated, h.number (.inr hx)⟩
  | arrayString => exact coll .string rfl (by rw [hvt]; rfl)
  | arrayInt => exact coll .int rfl (by rw [hvt]; rfl)
  | arrayFloat => exact coll .float rfl (by rw [hvt]; rfl)
  | mapString => have := mp rfl; rw [hvt] at this; exact this
  | mapInt => have := mp rfl; rw [hvt] at this; exact this
  | mapFloat => have := mp rfl; rw [hvt] at this; exact this
  | mapBool => have := mp rfl; rw [hvt] at this; exact this
  | variadicString => exact coll .string rfl (by rw [hvt]; rfl)
  | variadicInt => exact coll .int rfl (by rw [hvt]; rfl)
  | variadicFloat => exact coll .float rfl (by rw [hvt]; rfl)

/-! ### Storing -/

/-- A storing step keeps the invariant `I` (which comes in a variant for non-empty collections). -/
def StoreKeeps (I : Bool → Opt → Prop) (f : Opt → Str → Out HRes) (T : Str → Prop) : Prop :=
  ∀ (b : Bool) (o : Opt) (v : Str), T v → I b o →
    ∃ r, f o v = .ok r ∧ I b r.2.1 ∧ (r.1 = Err.success → I true r.2.1)

theorem setAll_keeps {I : Bool → Opt → Prop} {f : Opt → Str → Out HRes} {T : Str → Prop}
    (hf : StoreKeeps I f T) : ∀ (vs : List Str) (b : Bool) (o : Opt), (∀ v ∈ vs, T v) → I b o →
    ∃ r, setAll f o vs = .ok r ∧ I b r.2.1 ∧ (r.1 = Err.success → vs ≠ [] → I true r.2.1)
  | [], b, o, _, h => ⟨_, rfl, h, fun _ hne => absurd rfl hne⟩
  | v :: vs, b, o, hT, h => by
    obtain ⟨r, e1, e2, e3⟩ := hf b o v (hT v (by simp)) h
    unfold setAll
    rw [e1, Out.ok_bind]
    by_cases hr : r.1 = Err.success
    · rw [if_neg (by simpa using hr)]
      obtain ⟨r2, f1, f2, f3⟩ := setAll_keeps hf vs true r.2.1 (fun w hw => hT w (by simp [hw])) (e3 hr)
      obtain ⟨r3, g1, g2, g3⟩ := setAll_keeps hf vs b r.2.1 (fun w hw => hT w (by simp [hw])) e2
      rw [f1] at g1
      simp only [Out.ok.injEq] at g1; subst g1
      rw [f1, Out.ok_bind]
      exact ⟨_, rfl, g2, fun _ _ => f2⟩
    · rw [if_pos (by simpa using hr)]
      exact ⟨r, rfl, e2, fun h => absurd h hr⟩

/-- The array and map handlers. -/
theorem collect_keeps {I : Bool → Opt → Prop} {f : Opt → Str → Out HRes} {T : Str → Prop} {g : Opt → Out Opt}
    (hf : StoreKeeps I f T) (hg : ∀ b o, I b o → ∃ o', g o = .ok o' ∧ I b o')
    (ha : ∀ b o, I b o → I b { o with isAllocated := true }) {b : Bool} {o : Opt} {v : Str} (h : I b o)
    (hT : ∀ p ∈ pieces v, T p) (hne : b = false → pieces v ≠ []) :
    ∃ r, collect f g o (some v) = .ok r ∧ I b r.2.1 ∧ (r.1 = Err.success → I true r.2.1) := by
  obtain ⟨r, e1, e2, e3⟩ := setAll_keeps hf (pieces v) b o hT h
  unfold collect
  simp only
  rw [storeParts_pieces, e1, Out.ok_bind]
  by_cases hr : r.1 = Err.success
  · rw [if_neg (by simpa using hr)]
    have h3 : I true r.2.1 := by
      cases b with
      | true => exact e2
      | false => exact e3 hr (hne rfl)
    obtain ⟨o1, f1, f2⟩ := hg true _ h3
    obtain ⟨o2, f3, f4⟩ := hg b _ e2
    rw [f1] at f3
    simp only [Out.ok.injEq] at f3; subst f3
    rw [f1, Out.ok_bind]
    exact ⟨_, rfl, ha b _ f4, fun _ => ha true _ f2⟩
  · rw [if_pos (by simpa using hr)]
    exact ⟨r, rfl, e2, fun h => absurd h hr⟩

theorem ArrHolds.alloc {k : CellKind} {b : Bool} {o : Opt} (x : Bool) (h : ArrHolds k b o) :
    ArrHolds k b { o with isAllocated := x } := by
  obtain ⟨h1, cells, h2, h3, h4⟩ := h
  exact ⟨h1, cells, ⟨h2.count, h2.val⟩, h3, h4⟩

theorem MapHolds.alloc {vt : ValueType} {b : Bool} {o : Opt} (x : Bool) (h : MapHolds vt b o) :
    MapHolds vt b { o with isAllocated := x } := by
  obtain ⟨h1, cells, h2, h3⟩ := h
  exact ⟨h1, cells, ⟨h2.count, h2.val, h2.nodup, h2.typed⟩, h3⟩

theorem flagged_sub (W : World) (fl : Flags) (k : CellKind) (cells : List Word) :
    ∀ c ∈ flagged W fl k cells, c ∈ cells := by
  have hu : ∀ (l kept : List Word), ∀ c ∈ uniqueLoop k.dup kept l, c ∈ kept ∨ c ∈ l := by
    intro l
    induction l with
    | nil => intro kept c hc; exact .inl hc
    | cons x l ih =>
      intro kept c hc
      unfold uniqueLoop at hc
      split at hc
      · rcases ih _ c hc with h | h
        · exact .inl h
        · exact .inr (by simp [h])
      · rcases ih _ c hc with h | h
        · simp only [List.mem_append, List.mem_singleton] at h
          rcases h with h | rfl
          · exact .inl h
          · exact .inr (by simp)
        · exact .inr (by simp [h])
  have hu2 : ∀ l, ∀ c ∈ uniqueCells k l, c ∈ l := by
    intro l c hc
    unfold uniqueCells at hc
    split at hc
    · exact hc
    · rcases hu _ _ c hc with h | h
      · simp only [List.mem_singleton] at h; subst h; simp
      · simp [h]
  intro c hc
  unfold flagged at hc
  simp only at hc
  have h1 : c ∈ (if fl.has .sorted then sortCells W k cells else cells) := by
    split at hc
    · exact hu2 _ c hc
    · exact hc
  split at h1
  · exact (sortCells_perm W k cells).mem_iff.1 h1
  · exact h1

theorem applyArrayFlags_keeps (W : World) {k : CellKind} (b : Bool) (o : Opt) (h : ArrHolds k b o) :
    ∃ o', applyArrayFlags W o = .ok o' ∧ ArrHolds k b o' := by
  obtain ⟨h1, cells, h2, h3, h4⟩ := h
  obtain ⟨o', e1, e2⟩ := applyArrayFlags_arr W h2 h1 h3
  have hm := applyArrayFlags_meta e1
  refine ⟨o', e1, ?_, _, e2, fun c hc => h3 c (flagged_sub W _ k cells c hc), fun hb => flagged_ne_nil W _ k (h4 hb)⟩
  have : o'.valueType = o.valueType := (congrArg Opt.valueType hm : o'.meta.valueType = o.meta.valueType)
  rw [this]; exact h1

theorem applyMapFlags_keeps (W : World) {vt : ValueType} {k : CellKind} (hk : MapKind vt k) (b : Bool) (o : Opt)
    (h : MapHolds vt b o) : ∃ o', applyMapFlags W o = .ok o' ∧ MapHolds vt b o' := by
  obtain ⟨h1, es, h2, h3⟩ := h
  obtain ⟨o', es', e1, e2, e3, _⟩ := applyMapFlags_mapS W h2 (by rw [h1]; exact hk)
  have hm := applyMapFlags_meta e1
  have : o'.valueType = o.valueType := (congrArg Opt.valueType hm : o'.meta.valueType = o.meta.valueType)
  exact ⟨o', e1, by rw [this]; exact h1, es', e2, fun hb => e3 (h3 hb)⟩

theorem pushCell_keeps {k : CellKind} {o : Opt} {b : Bool} (w : Word) (hw : k.readable w = true)
    (h : ArrHolds k b o) : ∃ o', pushCell o w = .ok o' ∧ ArrHolds k true o' := by
  obtain ⟨h1, cells, h2, h3, h4⟩ := h
  obtain ⟨o', e1, e2⟩ := pushCell_arr w h2
  have hm := pushCell_meta e1
  have : o'.valueType = o.valueType := (congrArg Opt.valueType hm : o'.meta.valueType = o.meta.valueType)
  refine ⟨o', e1, by rw [this]; exact h1, _, e2, ?_, by simp⟩
  intro c hc
  simp only [List.mem_append, List.mem_singleton] at hc
  rcases hc with hc | rfl
  · exact h3 c hc
  · exact hw

theorem ArrHolds.mono {k : CellKind} {b : Bool} {o : Opt} (h : ArrHolds k true o) : ArrHolds k b o := by
  obtain ⟨h1, cells, h2, h3, h4⟩ := h
  exact ⟨h1, cells, h2, h3, fun _ => h4 rfl⟩

theorem MapHolds.mono {vt : ValueType} {b : Bool} {o : Opt} (h : MapHolds vt true o) : MapHolds vt b o := by
  obtain ⟨h1, cells, h2, h4⟩ := h
  exact ⟨h1, cells, h2, fun _ => h4 rfl⟩

theorem setValueString_keeps : StoreKeeps (ArrHolds .string) setValueString (fun _ => True) := by
  intro b o v _ h
  obtain ⟨o', e1, e2⟩ := pushCell_keeps (.ptr v) rfl h
  exact ⟨(Err.success, o', []), by unfold setValueString; rw [e1]; rfl, e2.mono, fun _ => e2⟩

theorem setValueFloat_keeps (W : World) : StoreKeeps (ArrHolds .float) (setValueFloat W) (fun _ => True) := by
  intro b o v _ h
  obtain ⟨o', e1, e2⟩ := pushCell_keeps (.bits (W.strtof v)) rfl h
  exact ⟨(Err.success, o', []), by unfold setValueFloat; rw [e1]; rfl, e2.mono, fun _ => e2⟩

theorem setValueInt_keeps : StoreKeeps (ArrHolds .int) setValueInt
    (fun p => ∀ r, parseIntRange p = some r → r.2 ≠ intMax) := by
  intro b o v hT h
  unfold setValueInt
  cases hp : parseIntRange v with
  | none => exact ⟨_, rfl, h, fun hs => absurd (show Err.invalidFormat = Err.success from hs) (by decide)⟩
  | some r =>
    simp only
    have hr := hT r hp
    obtain ⟨h1, cells, h2, h3, h4⟩ := h
    obtain ⟨o', e1, e2⟩ := addRangeLoop_arr (r.2 - r.1 + 1).toNat r.1 h2
    have hm := addRangeLoop_meta _ _ e1
    have hvt : o'.valueType = o.valueType := (congrArg Opt.valueType hm : o'.meta.valueType = o.meta.valueType)
    have hle : r.1 ≤ r.2 := by
      unfold parseIntRange at hp
      split at hp
      · simp only [Option.some.injEq] at hp; subst hp
        show min _ _ ≤ max _ _
        omega
      · simp only at hp
        split at hp
        · simp at hp
        · simp only [Option.some.injEq] at hp; subst hp; exact Int.le_refl _
    have hres : ArrHolds .int true o' := by
      refine ⟨by rw [hvt]; exact h1, _, e2, ?_, ?_⟩
      · intro c hc
        rcases List.mem_append.1 hc with hc | hc
        · exact h3 c hc
        · obtain ⟨j, _, rfl⟩ := List.mem_map.1 hc; rfl
      · intro _ he
        have := congrArg List.length he
        simp only [List.length_append, List.length_map, List.length_range, List.length_nil] at this
        omega
    refine ⟨(Err.success, o', []), ?_, hres.mono, fun _ => hres⟩
    unfold addRange
    rw [e1, Out.ok_bind, if_neg hr]; rfl

theorem setKvPair_keeps (W : World) {vt : ValueType}
    (hvt : vt = .mapString ∨ vt = .mapInt ∨ vt = .mapFloat ∨ vt = .mapBool) :
    StoreKeeps (MapHolds vt) (setKvPair (convOf W vt)) (fun _ => True) := by
  intro b o p _ h
  unfold setKvPair
  cases hp : strchrSplit 61 p with
  | none => exact ⟨_, rfl, h, fun hs => absurd (show Err.invalidFormat = Err.success from hs) (by decide)⟩
  | some kv =>
    obtain ⟨k, v⟩ := kv
    simp only
    cases hv : convOf W vt v with
    | none => exact ⟨_, rfl, h, fun hs => absurd (show Err.invalidValue = Err.success from hs) (by decide)⟩
    | some st =>
      simp only
      have hx : ∃ x, TextValue W vt v x := by
        by_cases hx : ∃ x, TextValue W vt v x
        · exact hx
        · rw [convOf_none hvt (fun x hx' => hx ⟨x, hx'⟩)] at hv; simp at hv
      obtain ⟨x, hx⟩ := hx
      obtain ⟨ht, st', e1, e2, e3⟩ := convOf_value hx
      rw [hv] at e1
      simp only [Option.some.injEq] at e1; subst e1
      obtain ⟨h1, es, h2, h3⟩ := h
      obtain ⟨o', f1, f2⟩ := setPair_mapS h2 k x (by rw [h1]; exact ht) st.upd (by rw [h1]; exact e3)
      have hm := setPair_meta f1
      have hvt' : o'.valueType = o.valueType := (congrArg Opt.valueType hm : o'.meta.valueType = o.meta.valueType)
      have hres : MapHolds vt true o' := by
        refine ⟨by rw [hvt']; exact h1, _, f2, fun _ he => ?_⟩
        have := congrArg List.length he
        rw [put_length] at this
        split at this
        · rename_i hk
          simp only [List.length_nil] at this
          rw [List.length_eq_zero_iff.1 this] at hk
          simp at hk
        · simp at this
      rw [e2, f1, Out.ok_bind]
      exact ⟨_, rfl, hres.mono, fun _ => hres⟩

theorem variadicNum_keeps (W : World) {k : CellKind} {conv : Str → Option Word}
    (hc : ∀ v w, conv v = some w → k.readable w = true) {b : Bool} {o : Opt} (v : Str) (h : ArrHolds k b o) :
    ∃ r, variadicNum W conv o (some v) = .ok r ∧ ArrHolds k b r.2.1 ∧
      (r.1 = Err.success → ArrHolds k true r.2.1) := by
  obtain ⟨h1, cells, h2, h3, h4⟩ := h
  obtain ⟨o1, e1, e2, e3, e4⟩ := adjustArray_arr h2
  have hm := adjustArray_meta e1
  have hvt : o1.valueType = o.valueType := (congrArg Opt.valueType hm : o1.meta.valueType = o.meta.valueType)
  have h2' : Arr o1 cells := ⟨e3, .inr ⟨e2, by omega, by omega⟩⟩
  unfold variadicNum
  rw [e1, Out.ok_bind]
  simp only
  cases hv : conv v with
  | none =>
    exact ⟨_, rfl, ⟨by rw [hvt]; exact h1, cells, h2', h3, h4⟩,
      fun hs => absurd (show Err.invalidValue = Err.success from hs) (by decide)⟩
  | some w =>
    simp only
    obtain ⟨o2, f1, f2⟩ := storeCell_arr w e2 e3 e4
    have hm2 := storeCell_meta f1
    have hvt2 : o2.valueType = o1.valueType := (congrArg Opt.valueType hm2 : o2.meta.valueType = o1.meta.valueType)
    have hA : ArrHolds k true o2 := by
      refine ⟨by rw [hvt2, hvt]; exact h1, _, f2, ?_, by simp⟩
      intro c hc'
      simp only [List.mem_append, List.mem_singleton] at hc'
      rcases hc' with hc' | rfl
      · exact h3 c hc'
      · exact hc v _ hv
    obtain ⟨o3, g1, g2⟩ := applyArrayFlags_keeps W true o2 hA
    rw [f1, Out.ok_bind, g1, Out.ok_bind]
    exact ⟨_, rfl, (g2.alloc true).mono, fun _ => g2.alloc true⟩

end Argus
