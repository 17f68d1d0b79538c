import Verif.Lemmas.Blame
import Verif.Lemmas.Slots
import Verif.Lemmas.Codes

/-! The messages of the command line are true. -/

set_option autoImplicit false

namespace Argus

theorem TextFault.congr {W : World} {M : Wording} {o o' : Opt} {x : Option Str} {m : Message} (h : TextFault W M o x m)
    (hm : o'.meta = o.meta) : TextFault W M o' x m := by
  have e1 : o'.handler = o.handler := by have := congrArg (fun x : Opt => x.handler) hm; exact this
  have e2 : o'.name = o.name := by have := congrArg (fun x : Opt => x.name) hm; exact this
  have e3 : o'.validators = o.validators := by have := congrArg (fun x : Opt => x.validators) hm; exact this
  cases h with
  | noHandler n h1 h2 => exact .noHandler n (e1.trans h1) (e2.trans h2)
  | noRegex v p hint h1 h2 h3 h4 => exact .noRegex v p hint (e3 ▸ h1) h2 h3 h4
  | noPattern v hint h1 h2 h3 => exact .noPattern v hint (e3 ▸ h1) h2 h3
  | pattern v p hint t h1 h2 h3 h4 h5 h6 => exact .pattern v p hint t (e3 ▸ h1) h2 h3 h4 h5 h6
  | patternHint v p h t h1 h2 h3 h4 h5 h6 => exact .patternHint v p h t (e3 ▸ h1) h2 h3 h4 h5 h6
  | badPattern v p hint h1 h2 h3 h4 => exact .badPattern v p hint (e3 ▸ h1) h2 h3 h4
  | matchFailed v p hint h1 h2 h3 h4 => exact .matchFailed v p hint (e3 ▸ h1) h2 h3 h4
  | bool t h1 h2 h3 h4 => exact .bool t (e1.trans h1) h2 h3 h4
  | boolNull n h1 h2 h3 => exact .boolNull n (e1.trans h1) h2 (e2.trans h3)
  | intPiece t p h1 h2 h3 h4 h5 => exact .intPiece t p (e1.trans h1) h2 h3 h4 h5
  | pair h t p h1 h2 h3 h4 h5 => exact .pair h t p (e1.trans h1) h2 h3 h4 h5
  | pairValue h vt what tail t key value h1 h2 h3 h4 h5 h6 =>
    exact .pairValue h vt what tail t key value (e1.trans h1) h2 h3 h4 h5 h6
  | variadicInt t n h1 h2 h3 h4 => exact .variadicInt t n (e1.trans h1) h2 (e2.trans h3) h4
  | variadicFloat t n h1 h2 h3 h4 => exact .variadicFloat t n (e1.trans h1) h2 (e2.trans h3) h4

theorem Everywhere.builtIn {a : Argus} (hb : Everywhere Opt.BuiltIn a) {p : Ptr} {o : Opt} (ho : a.getOpt p = .ok o) :
    o.BuiltIn := ⟨(hb p o ho).handler, (hb p o ho).validators⟩

/-! ### Positionals -/

theorem handlePositional_explained {W : World} {M : Wording} {a : Argus} {t : Option Nat} {os : List Opt} {pos : Nat}
    {only : Bool} {arg : Str} {rest : List Str} {r : Int × Argus} (hb : Everywhere Opt.BuiltIn a)
    (ht : a.table t = .ok os)
    (hs : only = false → arg.head? ≠ some 45 → ∀ o ∈ os, o.type = .subcommand → ∀ n, o.name = some n → ¬ arg <+: n)
    (h : handlePositional W a t arg pos = .ok r) :
    Explained (ArgFault W M os pos only arg rest) r.1 (positionalMessages W M a t arg pos) := by
  unfold handlePositional at h
  unfold positionalMessages
  rw [ht, Out.ok_bind] at h ⊢
  obtain ⟨k, rfl, hk⟩ := table_eq_ok.1 ht
  rw [findPositional_at] at h ⊢
  cases hsl : slotAt os pos with
  | none =>
    simp only [hsl, Option.map_none, Out.ok.injEq] at h ⊢; subst h
    refine .one (by simp only; decide) (by simp only; decide) ?_
    exact .unknownPositional hsl hs
  | some x =>
    obtain ⟨o, i⟩ := x
    simp only [hsl, Option.map_some] at h ⊢
    have ho : a.getOpt ⟨k, i⟩ = .ok o := getOpt_eq_ok.2 ⟨os, hk, (slotAt_get hsl).1⟩
    exact (execCallbacks_explained ho (hb.builtIn ho) h).imp (fun m hm => .text o _ m (.positional o i hsl) hm)

/-! ### Long options -/

theorem longParts_longName (r : Str) : (longParts r).1 = longName r ∧
    ((∃ n v, r = n ++ c!"=" ++ v ∧ (61 : Byte) ∉ n ∧ longName r = n.take 63 ∧ (longParts r).2 = some v) ∨
     ((61 : Byte) ∉ r ∧ longName r = r.take 63 ∧ (longParts r).2 = none)) := by
  unfold longParts longName
  cases hs : strchrSplit 61 r with
  | none =>
    have h := (strchrSplit_none_iff 61 r).1 hs
    have e : r.takeWhile (fun x => decide (x ≠ 61)) = r := by
      have := List.takeWhile_append_of_pos (p := fun x : Byte => decide (x ≠ 61)) (l₁ := r) (l₂ := []) (fun x hx => by
        simp only [decide_eq_true_eq]
        rintro rfl; exact h hx)
      simpa using this
    rw [e]
    exact ⟨rfl, .inr ⟨h, rfl, rfl⟩⟩
  | some x =>
    obtain ⟨n, v⟩ := x
    obtain ⟨h1, h2⟩ := (strchrSplit_some_iff 61 r n v).1 hs
    have e : r.takeWhile (fun x => decide (x ≠ 61)) = n := by
      rw [h1, List.takeWhile_append_of_pos]
      · simp
      · intro x hx
        simp only [decide_eq_true_eq]
        rintro rfl; exact h2 hx
    rw [e]
    exact ⟨rfl, .inl ⟨n, v, by rw [h1]; simp, h2, rfl, rfl⟩⟩

theorem handleLong_explained {W : World} {M : Wording} {a : Argus} {t : Option Nat} {os : List Opt} {pos : Nat}
    {la : Str} {rest : List Str} {r : OptRes} (hb : Everywhere Opt.BuiltIn a) (ht : a.table t = .ok os)
    (h : handleLong W a t la rest = .ok r) :
    Explained (ArgFault W M os pos false (c!"--" ++ la) rest) r.status (longMessages W M a t la rest) := by
  unfold handleLong at h
  unfold longMessages
  rw [ht, Out.ok_bind] at h ⊢
  obtain ⟨k, rfl, hk⟩ := table_eq_ok.1 ht
  obtain ⟨e1, e2⟩ := longParts_longName la
  rw [e1] at h ⊢
  cases hf : findLname os (longName la) with
  | none =>
    simp only [hf, Out.ok.injEq] at h ⊢; subst h
    refine .one (by simp only; decide) (by simp only; decide) ?_
    have hn : byLong os (longName la) = none := by rw [← findLname_spec, hf]; rfl
    have e : c!"Unknown option: " ++ quoted (c!"--" ++ longName la) = c!"Unknown option: '--" ++ longName la ++ c!"'" := by
      simp [quoted]
    rw [e]; exact .unknownLong la rfl rfl hn
  | some i =>
    simp only [hf] at h ⊢
    obtain ⟨o, ho, h2⟩ := Out.bind_eq_ok h
    rw [ho, Out.ok_bind]
    obtain ⟨o', g1, hby⟩ := findLname_some hf
    have : os[i]? = some o := getOpt_of_table ht ho
    rw [this] at g1; cases g1
    split at h2
    · rename_i hv
      rw [if_pos hv]
      obtain ⟨q, hq, h3⟩ := Out.bind_eq_ok h2
      simp only [Out.ok.injEq] at h3; subst h3
      exact (execCallbacks_explained ho (hb.builtIn ho) hq).imp (fun m hm => .text o _ m (.longFlag la o rfl rfl hby hv) hm)
    · rename_i hv
      rw [if_neg hv]
      rcases e2 with ⟨n, v, g1, g2, g3, g4⟩ | ⟨g2, g3, g4⟩
      · simp only [g4] at h2 ⊢
        obtain ⟨q, hq, h3⟩ := Out.bind_eq_ok h2
        simp only [Out.ok.injEq] at h3; subst h3
        refine (execCallbacks_explained ho (hb.builtIn ho) hq).imp (fun m hm => .text o _ m ?_ hm)
        exact .longValue n v o rfl (by rw [g1]; simp) g2 (g3 ▸ hby) hv
      · cases rest with
        | nil =>
          simp only [g4, Out.ok.injEq] at h2 ⊢; subst h2
          refine .one (by simp only; decide) (by simp only; decide) ?_
          have e : c!"Missing value for option: " ++ quoted (c!"--" ++ longName la) =
              c!"Missing value for option: '--" ++ la.take 63 ++ c!"'" := by rw [g3]; simp [quoted]
          rw [e]; exact .missingLong la o rfl rfl g2 (g3 ▸ hby) hv rfl
        | cons v more =>
          simp only [g4] at h2 ⊢
          obtain ⟨q, hq, h3⟩ := Out.bind_eq_ok h2
          simp only [Out.ok.injEq] at h3; subst h3
          refine (execCallbacks_explained ho (hb.builtIn ho) hq).imp (fun m hm => .text o _ m ?_ hm)
          exact .longNext la v more o rfl rfl g2 (g3 ▸ hby) hv rfl

/-! ### Short options -/

theorem byShort_same {os os' : List Opt} (h : os'.map Opt.meta = os.map Opt.meta) (c : Byte) :
    (byShort os' c).map Opt.meta = (byShort os c).map Opt.meta := by
  have key : ∀ l : List Opt, (byShort l c).map Opt.meta = byShort (l.map Opt.meta) c := by
    intro l
    unfold byShort
    rw [List.find?_map]; rfl
  rw [key, key, h]

theorem handleShort_explained {W : World} {M : Wording} {t : Option Nat} {os : List Opt} {pos : Nat} {rest : List Str}
    {a : Argus} (hb : Everywhere Opt.BuiltIn a) (ht : a.table t = .ok os) {arg : Str} : ∀ (cs before : Str) {b : Argus}
    {r : OptRes}, b.shape = a.shape → arg = c!"-" ++ before ++ cs → Flags? os before →
    handleShort W t rest b cs = .ok r →
    Explained (ArgFault W M os pos false arg rest) r.status (shortMessages W M t rest b cs)
  | [], before, b, r, _, _, _, h => by simp only [handleShort, Out.ok.injEq] at h; subst h; exact .nil
  | c :: cs, before, b, r, hsh, harg, hfl, h => by
    unfold handleShort at h
    unfold shortMessages
    obtain ⟨os', hos', hm⟩ := shape_table hsh ht
    rw [hos', Out.ok_bind] at h ⊢
    obtain ⟨k, rfl, hk⟩ := table_eq_ok.1 hos'
    cases hf : findSname os' c with
    | none =>
      simp only [hf, Out.ok.injEq] at h ⊢; subst h
      refine .one (by simp only; decide) (by simp only; decide) ?_
      have hn : byShort os c = none := by
        have e := byShort_same hm c
        have : byShort os' c = none := by rw [← findSname_spec, hf]; rfl
        rw [this] at e
        cases h : byShort os c with
        | none => rfl
        | some o => rw [h] at e; simp at e
      exact .unknownShort before cs c rfl harg hfl hn
    | some i =>
      simp only [hf] at h ⊢
      obtain ⟨o', ho', h2⟩ := Out.bind_eq_ok h
      rw [ho', Out.ok_bind]
      obtain ⟨o'', g1, hby'⟩ := findSname_some hf
      have : os'[i]? = some o' := getOpt_of_table hos' ho'
      rw [this] at g1; cases g1
      obtain ⟨o, hby, hmo⟩ : ∃ o, byShort os c = some o ∧ o.meta = o'.meta := by
        have e := byShort_same hm c
        rw [hby'] at e
        cases h : byShort os c with
        | none => rw [h] at e; simp at e
        | some o => rw [h] at e; simp only [Option.map_some, Option.some.injEq] at e; exact ⟨o, rfl, e.symm⟩
      have hvt : o.valueType = o'.valueType := by have := congrArg (fun x : Opt => x.valueType) hmo; exact this
      have hbi : o'.BuiltIn := (hb.of_shape hsh).builtIn ho'
      by_cases hv : o'.valueType = .flag
      · rw [if_pos hv] at h2 ⊢
        obtain ⟨q, hq, h3⟩ := Out.bind_eq_ok h2
        rw [hq]
        simp only [Out.ok_bind]
        have he := execCallbacks_explained (M := M) ho' hbi hq
        split at h3
        · rename_i hc
          simp only [if_pos hc]
          simp only [Out.ok.injEq] at h3; subst h3
          refine Explained.ret (he.imp (fun m hm => .text o _ m ?_ (hm.congr hmo)))
          exact .shortFlag before cs c o rfl harg hfl hby (hvt.trans hv)
        · rename_i hc
          simp only [if_neg hc]
          have hc' : q.1 = Err.success := by simpa using hc
          rw [hc'] at he
          refine he.after ?_
          refine handleShort_explained hb ht cs (before ++ [c]) ?_ ?_ ?_ h3
          · exact (execCallbacks_one hq).frame.shape.trans hsh
          · rw [harg]; simp
          · intro d hd
            rcases List.mem_append.1 hd with hd | hd
            · exact hfl d hd
            · simp only [List.mem_singleton] at hd; subst hd
              exact ⟨o, hby, hvt.trans hv⟩
      · rw [if_neg hv] at h2 ⊢
        have hv' : o.valueType ≠ .flag := by rw [hvt]; exact hv
        cases cs with
        | cons d ds =>
          simp only at h2 ⊢
          obtain ⟨q, hq, h3⟩ := Out.bind_eq_ok h2
          simp only [Out.ok.injEq] at h3; subst h3
          refine (execCallbacks_explained ho' hbi hq).imp (fun m hm => .text o _ m ?_ (hm.congr hmo))
          exact .shortValue before (d :: ds) c o rfl harg (by simp) hfl hby hv'
        | nil =>
          cases rest with
          | nil =>
            simp only [Out.ok.injEq] at h2 ⊢; subst h2
            refine .one (by simp only; decide) (by simp only; decide) ?_
            exact .missingShort before c o rfl harg rfl hfl hby hv'
          | cons v more =>
            simp only at h2 ⊢
            obtain ⟨q, hq, h3⟩ := Out.bind_eq_ok h2
            simp only [Out.ok.injEq] at h3; subst h3
            refine (execCallbacks_explained ho' hbi hq).imp (fun m hm => .text o _ m ?_ (hm.congr hmo))
            exact .shortNext before v c more o rfl harg rfl hfl hby hv'

/-! ### Subcommands -/

theorem subFrom_explained {W : World} {M : Wording} {os : List Opt} {pos : Nat} {arg : Str} {rest : List Str} :
    ∀ (tail pre : List Opt) (i : Nat) (sub : Option Nat) (first : Option Opt), os = pre ++ tail →
    sub.isSome = first.isSome →
    (∀ x, first = some x → ∃ p q n, pre = p ++ x :: q ∧ x.type = .subcommand ∧ x.name = some n ∧ arg <+: n ∧ arg ≠ n) →
    Explained (ArgFault W M os pos false arg rest) (findSubFrom arg i sub tail).1 (subMessagesFrom arg first tail)
  | [], pre, i, sub, first, _, _, _ => by unfold findSubFrom subMessagesFrom; exact .nil
  | o :: tail, pre, i, sub, first, hos, hs, hf => by
    have hos' : os = (pre ++ [o]) ++ tail := by rw [hos]; simp
    have hf' : ∀ x, first = some x →
        ∃ p q n, pre ++ [o] = p ++ x :: q ∧ x.type = .subcommand ∧ x.name = some n ∧ arg <+: n ∧ arg ≠ n := by
      intro x hx
      obtain ⟨p, q, n, h1, h2⟩ := hf x hx
      exact ⟨p, q ++ [o], n, by rw [h1]; simp, h2⟩
    have skip : (∀ n, ¬ (o.type = .subcommand ∧ o.name = some n)) → Explained (ArgFault W M os pos false arg rest)
        (findSubFrom arg i sub (o :: tail)).1 (subMessagesFrom arg first (o :: tail)) := by
      intro hno
      have e1 : findSubFrom arg i sub (o :: tail) = findSubFrom arg (i + 1) sub tail := by
        rw [findSubFrom]
        split
        · rename_i n ht hn; exact absurd ⟨ht, hn⟩ (hno n)
        · rfl
      have e2 : subMessagesFrom arg first (o :: tail) = subMessagesFrom arg first tail := by
        rw [subMessagesFrom]
        split
        · rename_i n ht hn; exact absurd ⟨ht, hn⟩ (hno n)
        · rfl
      rw [e1, e2]; exact subFrom_explained tail (pre ++ [o]) (i + 1) sub first hos' hs hf'
    by_cases ht : o.type = .subcommand
    · cases hn : o.name with
      | none => exact skip (fun n h => by rw [hn] at h; simp at h)
      | some n =>
        unfold findSubFrom subMessagesFrom
        simp only [ht, hn]
        by_cases hp : (startsWith arg n).isSome = true
        · have hpre : arg <+: n := by
            obtain ⟨q, hq⟩ := Option.isSome_iff_exists.1 hp
            exact ⟨q, ((startsWith_eq_some_iff _ _ _).1 hq).symm⟩
          simp only [hp, if_true]
          cases first with
          | some x =>
            cases sub with
            | none => simp at hs
            | some j =>
              simp only [Option.isSome_some, if_true]
              obtain ⟨p, q, n1, h1, h2, h3, h4, h5⟩ := hf x rfl
              unfold ambiguousMessage
              rw [h3, hn]
              cases hh1 : x.help with
              | none => intro m hm; simp [nameText] at hm
              | some t1 =>
                cases hh2 : o.help with
                | none => intro m hm; simp [nameText] at hm
                | some t2 =>
                  simp only [nameText, Out.ok_bind]
                  refine .one (by decide) (by decide) ?_
                  have e : quoted arg ++ c!" is ambigous and could match:\n  " ++ quoted n1 ++ c!" - " ++ t1 ++
                      c!"\n  " ++ quoted n ++ c!" - " ++ t2 = c!"'" ++ arg ++ c!"' is ambigous and could match:\n  '" ++
                      n1 ++ c!"' - " ++ t1 ++ c!"\n  '" ++ n ++ c!"' - " ++ t2 := by simp [quoted]
                  rw [e]
                  exact .ambiguous p q tail x o n1 t1 n t2 rfl (by rw [hos, h1]; simp) h2 ht h3 hn hh1 hh2 h4 hpre h5
          | none =>
            cases sub with
            | some j => simp at hs
            | none =>
              simp only [Option.isSome_none, Bool.false_eq_true, if_false]
              by_cases he : strcmp arg n = 0
              · simp only [he, if_true]; exact .nil
              · simp only [he, if_false]
                refine subFrom_explained tail (pre ++ [o]) (i + 1) (some i) (some o) hos' rfl ?_
                intro x hx; cases hx
                refine ⟨pre, [], n, rfl, ht, hn, hpre, ?_⟩
                rintro rfl
                exact he (strcmp_self _)
        · simp only [hp]
          exact subFrom_explained tail (pre ++ [o]) (i + 1) sub first hos' hs hf'
    · exact skip (fun n h => ht h.1)

/-! ### Rounds -/

/-- The status a round ends with. -/
def Step.result : Step → Int
  | .done st _ => st
  | _ => Err.success

theorem OptRes.step_result (r : OptRes) (pos : Nat) : (r.step pos).result = r.status := by
  unfold OptRes.step
  split
  · rfl
  · rename_i h; simp only [ne_eq, Decidable.not_not] at h; rw [h]; rfl

theorem stepPositional_explained {W : World} {M : Wording} {a : Argus} {t : Option Nat} {os : List Opt} {pos : Nat}
    {only : Bool} {arg : Str} {rest : List Str} {s : Step} (hb : Everywhere Opt.BuiltIn a)
    (ht : a.table t = .ok os)
    (hs : only = false → arg.head? ≠ some 45 → ∀ o ∈ os, o.type = .subcommand → ∀ n, o.name = some n → ¬ arg <+: n)
    (h : stepPositional W t a pos only arg = .ok s) :
    Explained (ArgFault W M os pos only arg rest) s.result (positionalMessages W M a t arg pos) := by
  unfold stepPositional at h
  obtain ⟨r, hr, h1⟩ := Out.bind_eq_ok h
  simp only [Out.ok.injEq] at h1; subst h1
  have := handlePositional_explained (M := M) (rest := rest) hb ht hs hr
  split
  · exact this
  · rename_i hc
    have hc : r.1 = Err.success := by simpa using hc
    rw [hc] at this; exact this

theorem parseStep_explained {W : World} {M : Wording} {a : Argus} {t : Option Nat} {pos : Nat}
    {only : Bool} {arg : Str} {rest : List Str} {s : Step} (hb : Everywhere Opt.BuiltIn a)
    (h : parseStep W t a pos only arg rest = .ok s) :
    Explained (fun m => ∃ os, a.table t = .ok os ∧ ArgFault W M os pos only arg rest m) s.result
      (stepMessages W M t a pos only arg rest) := by
  have hpos : ∀ {s : Step}, stepPositional W t a pos only arg = .ok s →
      (∀ os, a.table t = .ok os → only = false → arg.head? ≠ some 45 →
        ∀ o ∈ os, o.type = .subcommand → ∀ n, o.name = some n → ¬ arg <+: n) →
      Explained (fun m => ∃ os, a.table t = .ok os ∧ ArgFault W M os pos only arg rest m) s.result
        (positionalMessages W M a t arg pos) := by
    intro s h hs
    have h0 := h
    unfold stepPositional handlePositional at h0
    obtain ⟨r, hr, _⟩ := Out.bind_eq_ok h0
    obtain ⟨os, hos, _⟩ := Out.bind_eq_ok hr
    exact (stepPositional_explained hb hos (hs os hos) h).imp (fun m hm => ⟨os, hos, hm⟩)
  unfold parseStep at h
  unfold stepMessages
  split at h
  · rename_i hc; rw [if_pos hc]
    simp only [Out.ok.injEq] at h; subst h; exact .nil
  · rename_i hc; rw [if_neg hc]
    cases only with
    | true =>
      simp only [if_true] at h ⊢
      exact hpos h (fun os _ h => by simp at h)
    | false =>
      simp only [Bool.false_eq_true, if_false] at h ⊢
      cases hl : startsWith [45, 45] arg with
      | some la =>
        simp only [hl] at h ⊢
        obtain ⟨r, hr, h1⟩ := Out.bind_eq_ok h
        simp only [Out.ok.injEq] at h1; subst h1
        rw [OptRes.step_result]
        have h0 := hr
        unfold handleLong at h0
        obtain ⟨os, hos, _⟩ := Out.bind_eq_ok h0
        have e : arg = c!"--" ++ la := (startsWith_eq_some_iff _ _ _).1 hl
        rw [e]
        exact (handleLong_explained hb hos hr).imp (fun m hm => ⟨os, hos, hm⟩)
      | none =>
        simp only [hl] at h ⊢
        cases hd : startsWith [45] arg with
        | some sa =>
          simp only [hd] at h ⊢
          obtain ⟨neg, hneg, h1⟩ := Out.bind_eq_ok h
          simp only [hneg, Out.ok_bind]
          have e : arg = c!"-" ++ sa := (startsWith_eq_some_iff _ _ _).1 hd
          split at h1
          · rename_i hc; rw [if_pos hc]
            exact hpos h1 (fun os _ _ hx => by rw [e] at hx; simp at hx)
          · rename_i hc; rw [if_neg hc]
            obtain ⟨r, hr, h2⟩ := Out.bind_eq_ok h1
            simp only [Out.ok.injEq] at h2; subst h2
            rw [OptRes.step_result]
            cases sa with
            | nil =>
              simp only [handleShort, Out.ok.injEq] at hr; subst hr
              simp only [shortMessages]; exact .nil
            | cons c cs =>
              have h0 := hr
              unfold handleShort at h0
              obtain ⟨os, hos, _⟩ := Out.bind_eq_ok h0
              exact (handleShort_explained hb hos (c :: cs) [] rfl (by rw [e]; rfl) (fun d hd => by simp at hd) hr).imp
                (fun m hm => ⟨os, hos, hm⟩)
        | none =>
          simp only [hd] at h ⊢
          obtain ⟨os, hos, h1⟩ := Out.bind_eq_ok h
          refine Explained.imp (P := ArgFault W M os pos false arg rest) ?_ (fun m hm => ⟨os, hos, hm⟩)
          simp only [hos, Out.ok_bind]
          have he : Explained (ArgFault W M os pos false arg rest) (findSub os arg).1 (subMessages os arg) :=
            subFrom_explained os [] 0 none none rfl rfl (by simp)
          by_cases hc : (findSub os arg).1 ≠ Err.success
          · rw [if_pos hc] at h1
            simp only [if_pos hc]
            simp only [Out.ok.injEq] at h1; subst h1
            exact Explained.ret he
          · rw [if_neg hc] at h1
            simp only [if_neg hc]
            have hc' : (findSub os arg).1 = Err.success := by simpa using hc
            have hpos' : (findSub os arg).2 = none → stepPositional W t a pos false arg = .ok s →
                Explained (ArgFault W M os pos false arg rest) s.result
                  (do let _ ← subMessages os arg; positionalMessages W M a t arg pos) := by
              intro hi h1 m hm
              obtain ⟨m1, _, h2⟩ := Out.bind_eq_ok hm
              refine (hpos h1 (fun os' hos' _ _ => ?_)).imp (fun m ⟨os', h3, h4⟩ => ?_) m h2
              · rw [hos] at hos'; cases hos'
                exact findSub_none_inv (by rw [← hc', ← hi])
              · rw [hos] at h3; cases h3; exact h4
            obtain ⟨k, rfl, _⟩ := table_eq_ok.1 hos
            cases hi : (findSub os arg).2 with
            | none => simp only [hi] at h1 ⊢; exact hpos' hi h1
            | some i =>
              simp only [hi] at h1 ⊢
              obtain ⟨e, _, h2⟩ := Out.bind_eq_ok h1
              simp only [Out.ok.injEq] at h2; subst h2
              rw [hc'] at he
              exact Explained.ret he

/-! ### The loop -/

theorem parseStep_done {W : World} {t : Option Nat} {a b : Argus} {pos : Nat} {only : Bool} {arg : Str}
    {rest : List Str} {st : Int} (h : parseStep W t a pos only arg rest = .ok (.done st b)) : st ≠ Err.success := by
  have hopt : ∀ {r : OptRes} {pos : Nat}, r.step pos = .done st b → st ≠ Err.success := by
    intro r pos h
    unfold OptRes.step at h
    split at h
    · rename_i hc; cases h; exact hc
    · cases h
  have hpos : ∀ {only : Bool}, stepPositional W t a pos only arg = .ok (.done st b) → st ≠ Err.success := by
    intro only h
    unfold stepPositional at h
    obtain ⟨r, _, h1⟩ := Out.bind_eq_ok h
    simp only [Out.ok.injEq] at h1
    split at h1
    · rename_i hc; cases h1; exact hc
    · cases h1
  unfold parseStep at h
  split at h
  · cases h
  · split at h
    · exact hpos h
    · split at h
      · obtain ⟨r, _, h1⟩ := Out.bind_eq_ok h
        simp only [Out.ok.injEq] at h1; exact hopt h1
      · split at h
        · obtain ⟨neg, _, h1⟩ := Out.bind_eq_ok h
          split at h1
          · exact hpos h1
          · obtain ⟨r, _, h2⟩ := Out.bind_eq_ok h1
            simp only [Out.ok.injEq] at h2; exact hopt h2
        · obtain ⟨os, _, h1⟩ := Out.bind_eq_ok h
          split at h1
          · rename_i hc; simp only [Out.ok.injEq, Step.done.injEq] at h1; rw [← h1.1]; exact hc
          · split at h1
            · obtain ⟨e, _, h2⟩ := Out.bind_eq_ok h1
              cases h2
            · exact hpos h1

/-- What `parse_args` says of a command line. -/
theorem parseLoop_explained {W : World} {M : Wording} {a0 : Argus} (hb0 : Everywhere Opt.BuiltIn a0) :
    ∀ (n : Nat) (args : List Str) (pre : List Str) (s : PState) (r : Int × Argus), args.length ≤ n → Reach W a0 pre s →
    s.a.shape = a0.shape → parseLoop W s.t s.a s.pos s.only false args = .ok r →
    r.2.shape = a0.shape ∧ (r.1 = Err.success → ∃ s', Reach W a0 (pre ++ args) s' ∧ s'.a = r.2) ∧
    Explained (fun m => ∃ pre' arg rest s' os, pre ++ args = pre' ++ arg :: rest ∧ Reach W a0 pre' s' ∧
      s'.a.table s'.t = .ok os ∧ ArgFault W M os s'.pos s'.only arg rest m) r.1
      (loopMessages W M s.t s.a s.pos s.only false args)
  | _, [], pre, s, r, _, hr, hsh, h => by
    simp only [parseLoop, Out.ok.injEq] at h; subst h
    refine ⟨hsh, fun _ => ⟨s, by simpa using hr, rfl⟩, ?_⟩
    simp only [loopMessages]; exact .nil
  | 0, _ :: _, _, _, _, hl, _, _, _ => by simp at hl
  | n + 1, x :: rest, pre, s, r, hl, hr, hsh, h => by
    have hl' : rest.length ≤ n := by simpa using hl
    have hb := hb0.of_shape hsh
    unfold parseLoop at h
    unfold loopMessages
    obtain ⟨st, hs, h1⟩ := Out.bind_eq_ok h
    have hx := parseStep_explained (M := M) hb hs
    have hf := (parseStep_frame hs).shape
    have hx' : Explained (fun m => ∃ pre' arg rest' s' os, pre ++ x :: rest = pre' ++ arg :: rest' ∧ Reach W a0 pre' s' ∧
        s'.a.table s'.t = .ok os ∧ ArgFault W M os s'.pos s'.only arg rest' m) st.result
        (stepMessages W M s.t s.a s.pos s.only x rest) :=
      hx.imp (fun m ⟨os, h2, h3⟩ => ⟨pre, x, rest, s, os, rfl, hr, h2, h3⟩)
    rw [hs]
    simp only [Out.ok_bind]
    cases st with
    | done st b =>
      simp only [Out.ok.injEq] at h1; subst h1
      exact ⟨hf.trans hsh, fun h => absurd h (parseStep_done hs), hx'.ret⟩
    | next b pos1 only1 used =>
      have hf1 : b.shape = a0.shape := hf.trans hsh
      cases used with
      | false =>
        have hr1 : Reach W a0 (pre ++ [x]) ⟨s.t, b, pos1, only1, false⟩ := by
          refine hr.append ?_
          unfold runPrefix
          rw [if_neg (by simp [hr.skip]), parseStep_unused hs]
          rfl
        have ih := parseLoop_explained (M := M) hb0 n rest (pre ++ [x]) ⟨s.t, b, pos1, only1, false⟩ r hl' hr1 hf1 h1
        simp only [List.append_assoc, List.singleton_append] at ih
        exact ⟨ih.1, ih.2.1, hx'.after ih.2.2⟩
      | true =>
        cases rest with
        | nil => have := parseStep_used hs; cases this
        | cons v rest =>
          simp only [parseLoop] at h1
          simp only [loopMessages]
          have hr1 : Reach W a0 (pre ++ [x, v]) ⟨s.t, b, pos1, only1, false⟩ := by
            refine hr.append ?_
            unfold runPrefix
            rw [if_neg (by simp [hr.skip]), parseStep_value [] rest, hs]
            rfl
          have ih := parseLoop_explained (M := M) hb0 n rest (pre ++ [x, v]) ⟨s.t, b, pos1, only1, false⟩ r
            (by simp at hl'; omega) hr1 hf1 h1
          simp only [List.append_assoc, List.cons_append, List.nil_append] at ih
          exact ⟨ih.1, ih.2.1, hx'.after ih.2.2⟩
    | enter t1 b =>
      have hf1 : b.shape = a0.shape := hf.trans hsh
      have hr1 : Reach W a0 (pre ++ [x]) ⟨t1, b, 0, false, false⟩ := by
        refine hr.append ?_
        unfold runPrefix
        rw [if_neg (by simp [hr.skip]), parseStep_enter_nil hs]
        rfl
      have ih := parseLoop_explained (M := M) hb0 n rest (pre ++ [x]) ⟨t1, b, 0, false, false⟩ r hl' hr1 hf1 h1
      simp only [List.append_assoc, List.singleton_append] at ih
      exact ⟨ih.1, ih.2.1, hx'.after ih.2.2⟩

end Argus
