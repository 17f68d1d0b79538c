import Verif.Lemmas.Floats

/-! # Lemmas: array and variadic options after any texts -/

set_option autoImplicit false

namespace Argus

theorem Arr.strings {o : Opt} {xs : List Str} (h : Arr o (xs.map Word.ptr)) (hne : xs ≠ []) :
    o.Strings xs := by
  refine ⟨_, h.elements (by simpa using hne), ?_⟩
  rw [List.map_map]; rfl

theorem Arr.floats {o : Opt} {xs : List F64} (h : Arr o (xs.map Word.bits)) (hne : xs ≠ []) :
    o.Floats xs := by
  refine ⟨_, h.elements (by simpa using hne), ?_⟩
  rw [List.map_map]; rfl

theorem asInt_of_intD {w : Word} {n : Int} (h : w.asInt.isOk = true) (he : w.intD = n) :
    w.asInt = .ok n := by
  unfold Word.intD at he
  cases hw : w.asInt with
  | ok i => rw [hw] at he; exact congrArg _ he
  | ub u => rw [hw] at h; simp [Out.isOk] at h

theorem Arr.ints {o : Opt} {enc : Int → Word} {xs : List Int} (h : Arr o (xs.map enc)) (hne : xs ≠ [])
    (hx : ∀ x ∈ xs, (enc x).asInt = .ok x) : o.Ints xs := by
  refine ⟨_, h.elements (by simpa using hne), ?_⟩
  rw [List.map_map]
  exact List.map_congr_left hx

theorem strings_after (W : World) {o : Opt} {part : Str → List Str} {ts : List Str}
    (hc : CollectsStrings o part) (hf : o.Fresh) (hne : ts ≠ []) (hs : ∀ t ∈ ts.head?, part t ≠ []) :
    ∃ o' shown, o.giveAll W (ts.map some) = some o' ∧ o'.Strings shown ∧
      Arranged o.flags (fun x y => x ≤ y) (ts.flatMap part) shown ∧
      Arr o' (shown.map Word.ptr) ∧ shown ≠ [] := by
  have main : ∀ h, GivesArr W h .string (fun v => (some (part v)).map (fun l => l.map Word.ptr)) →
      o.handler = some h → o.valueType.arrayKind = some .string → ∃ o' shown, o.giveAll W (ts.map some) = some o' ∧ o'.Strings shown ∧
      Arranged o.flags (fun x y => x ≤ y) (ts.flatMap part) shown ∧
      Arr o' (shown.map Word.ptr) ∧ shown ≠ [] := by
    intro h hg hh hk
    obtain ⟨h1, _⟩ := giveAll_arranged (W := W) (P := fun _ => True) (k := .string) (enc := Word.ptr) (h := h)
      (G := fun v => some (part v)) (le := fun x y => x ≤ y) (fl := o.flags)
      (fun x y _ _ => string_dup x y) cmpString_consistent (fun _ => rfl)
      (fun x y _ _ hxy => strcmp_le_iff.1 hxy) hg (fun _ _ _ _ _ => trivial) ts o hf hh hk rfl
      (fun t ht he => hs t ht (by simpa using he))
    obtain ⟨o', ys, e1, e2, e3, e4⟩ := h1 _ (gather_some _ part ts (fun _ _ => rfl))
    exact ⟨o', ys, e1, e2.strings (e4 hne), e3, e2, e4 hne⟩
  cases hc with
  | array h1 h2 => exact main _ (arrayString_gives W) h1 (by rw [h2]; rfl)
  | variadic h1 h2 => exact main _ (variadicString_gives W) h1 (by rw [h2]; rfl)

theorem floats_after (W : World) {o : Opt} {ts : List Str} {xs : List F64}
    (hc : CollectsFloats W o ts xs) (hf : o.Fresh) (hne : ts ≠ []) (hs : StartsWell ts) :
    ∃ o' shown, o.giveAll W (ts.map some) = some o' ∧ o'.Floats shown ∧
      ArrangedFloats o.flags xs shown ∧ Arr o' (shown.map Word.bits) ∧ shown ≠ [] := by
  cases hc with
  | array h1 h2 =>
    obtain ⟨g1, _⟩ := giveAll_floats (arrayFloat_gives W) ts o hf h1 (by rw [h2]; rfl)
      (fun t ht he => hs t ht (by simpa using he))
    obtain ⟨o', ys, e1, e2, e3, e4⟩ := g1 _ (gather_some _ (fun t => (pieces t).map W.strtof) ts (fun _ _ => rfl))
    refine ⟨o', ys, e1, e2.floats (e4 hne), ?_, e2, e4 hne⟩
    rwa [List.map_flatMap]
  | variadic h1 h2 h3 =>
    have hw : ∀ t ∈ ts, wholeFloat W t = some (W.strtod t).1 := by
      intro t ht
      unfold wholeFloat
      obtain ⟨e1, e2⟩ := h3 t ht
      rw [if_neg]
      rintro (h | h)
      · exact h e2
      · rw [e2] at h; exact e1 (List.length_eq_zero_iff.1 h)
    obtain ⟨g1, _⟩ := giveAll_floats (variadicFloat_gives W) ts o hf h1 (by rw [h2]; rfl) (by
      intro t ht
      rw [hw t (by cases ts <;> simp_all)]
      simp)
    obtain ⟨o', ys, e1, e2, e3, e4⟩ := g1 _ (gather_some _ (fun t => [(W.strtod t).1]) ts (by
      intro t ht; rw [hw t ht]; rfl))
    refine ⟨o', ys, e1, e2.floats (e4 hne), ?_, e2, e4 hne⟩
    rwa [← List.flatMap_singleton' (l := ts.map _), List.flatMap_map] 

theorem isNumeral_strtoll {s : Str} {n : Int} (h : IsNumeral s n) : strtoll s = (clampLL n, []) :=
  strtoll_numeral h

theorem isNumeral_ne_nil {s : Str} {n : Int} (h : IsNumeral s n) : s ≠ [] := by
  obtain ⟨sp, sg, ds, e, _, _, hne, _⟩ := h
  rintro rfl
  cases ds with
  | nil => exact hne rfl
  | cons d ds =>
    have := congrArg List.length e
    simp at this

theorem wholeInt_numeral {s : Str} {n : Int} (h : IsNumeral s n) : wholeInt s = some (clampLL n) := by
  unfold wholeInt
  rw [isNumeral_strtoll h, if_neg]
  rintro (h' | h')
  · exact h' rfl
  · exact isNumeral_ne_nil h h'.symm

theorem ints_after (W : World) {o : Opt} {ts : List Str} {xs : List Int}
    (hc : CollectsInts o ts xs) (hf : o.Fresh) (hne : ts ≠ []) (hs : StartsWell ts) :
    ∃ o' shown, o.giveAll W (ts.map some) = some o' ∧ o'.Ints shown ∧
      Arranged o.flags (fun x y => x ≤ y) xs shown ∧ shown ≠ [] := by
  cases hc with
  | array ps h1 h2 h3 h4 =>
    obtain ⟨g1, _⟩ := giveAll_arranged (W := W) (P := fun x => intMin ≤ x ∧ x ≤ intMax) (k := .int)
      (enc := intCell) (h := .arrayInt) (G := fun v => gather pieceInts (pieces v)) (le := fun x y => x ≤ y)
      (fl := o.flags) (fun x y hx hy => int_dup (intD_intCell hx) (intD_intCell hy))
      (fun _ => cmpInt_consistent _) (fun _ => rfl)
      (fun x y hx hy hxy => by
        have := cmpInt_le_iff.1 hxy
        rwa [intD_intCell hx, intD_intCell hy] at this)
      (arrayInt_gives W) (fun v xs hv => gather_mem (fun _ _ h => (pieceInts_range h).2) _ _ hv)
      ts o hf h1 (by rw [h2]; rfl) rfl
      (fun t ht => gather_ne_nil (fun _ _ h => (pieceInts_range h).1) _ (hs t ht))
    have hws : gather (fun v => gather pieceInts (pieces v)) ts = some (ps.flatMap IntPiece.ints) := by
      rw [gather_flatMap, h3]
      have : ∀ l : List IntPiece, (∀ p ∈ l, p.Fits) →
          gather pieceInts (l.map IntPiece.text) = some (l.flatMap IntPiece.ints) := by
        intro l
        induction l with
        | nil => intro _; rfl
        | cons p l ih =>
          intro h
          rw [List.map_cons, gather, pieceInts_text (h p (by simp)), ih (fun q hq => h q (by simp [hq]))]
          rfl
      exact this ps h4
    obtain ⟨o', ys, e1, e2, e3, e4⟩ := g1 _ hws
    refine ⟨o', ys, e1, e2.ints (e4 hne) (fun x hx => ?_), e3, e4 hne⟩
    have hx' := (e3.mem x).1 hx
    have := gather_mem (P := fun x => intMin ≤ x ∧ x ≤ intMax)
      (fun v xs hv => gather_mem (fun _ _ h => (pieceInts_range h).2) _ _ hv) ts _ hws x hx'
    exact asInt_of_intD rfl (intD_intCell this)
  | variadic ns h1 h2 h3 h4 =>
    have hr : ∀ n ∈ ns, wholeInt n.1 = some n.2 := by
      intro n hn
      obtain ⟨e1, e2, e3⟩ := h4 n hn
      rw [wholeInt_numeral e1, clamp_int e2 e3]
    have hws : gather (fun v => (wholeInt v).map (fun n => [n])) ts = some (ns.map Prod.snd) := by
      rw [h3]
      have : ∀ l : List (Str × Int), (∀ n ∈ l, wholeInt n.1 = some n.2) →
          gather (fun v => (wholeInt v).map (fun n => [n])) (l.map Prod.fst) = some (l.map Prod.snd) := by
        intro l
        induction l with
        | nil => intro _; rfl
        | cons p l ih =>
          intro h
          rw [List.map_cons, gather, h p (by simp), ih (fun q hq => h q (by simp [hq]))]
          rfl
      exact this ns hr
    -- restrict the conversion to the texts at hand
    obtain ⟨g1, _⟩ := giveAll_inv (W := W) (k := .int) (enc := Word.ofInt64) (h := .variadicInt)
      (G := fun v => (wholeInt v).map (fun n => [n])) (fl := o.flags)
      (I := fun zs ys => (∀ x ∈ zs, intMin ≤ x ∧ x ≤ intMax) →
        Arranged o.flags (fun a b => cmpInt (Word.ofInt64 a) (Word.ofInt64 b) ≤ 0) zs ys)
      (fun _ => rfl) (variadicInt_gives W) (by
        intro zs ys v a hi hv hne
        have h0 : ∃ ys1 : List Int, flagged W o.flags .int ((ys ++ a).map Word.ofInt64) = ys1.map Word.ofInt64 := by
          have hw : ∀ w ∈ flagged W o.flags .int ((ys ++ a).map Word.ofInt64), ∃ n, Word.ofInt64 n = w := by
            intro w hw
            have hsub : w ∈ (ys ++ a).map Word.ofInt64 := by
              unfold flagged at hw
              simp only at hw
              have hp : (if o.flags.has .sorted then sortCells W .int ((ys ++ a).map Word.ofInt64)
                  else (ys ++ a).map Word.ofInt64).Perm ((ys ++ a).map Word.ofInt64) := by
                split
                · exact sortCells_perm W _ _
                · exact .refl _
              split at hw
              · have hu : ∀ l : List Word, ∀ w ∈ uniqueCells .int l, w ∈ l := by
                  intro l w hw
                  cases l with
                  | nil => simp [uniqueCells] at hw
                  | cons c cs =>
                    have := (uniqueLoop_sublist CellKind.int.dup cs [c]).subset hw
                    simpa using this
                exact hp.mem_iff.1 (hu _ w hw)
              · exact hp.mem_iff.1 hw
            obtain ⟨n, _, rfl⟩ := List.mem_map.1 hsub
            exact ⟨n, rfl⟩
          have : ∀ l : List Word, (∀ w ∈ l, ∃ n, Word.ofInt64 n = w) → ∃ ys1 : List Int, l = ys1.map Word.ofInt64 := by
            intro l
            induction l with
            | nil => intro _; exact ⟨[], rfl⟩
            | cons w l ih =>
              intro h
              obtain ⟨n, hn⟩ := h w (by simp)
              obtain ⟨ys1, hy⟩ := ih (fun w hw => h w (by simp [hw]))
              exact ⟨n :: ys1, by rw [hy, List.map_cons, hn]⟩
          exact this _ hw
        by_cases hz : ∀ x ∈ zs ++ a, intMin ≤ x ∧ x ≤ intMax
        · have hi' := hi (fun x hx => hz x (List.mem_append_left _ hx))
          obtain ⟨ys1, f1, f2⟩ := flagged_enc W (P := fun x => intMin ≤ x ∧ x ≤ intMax) (k := .int)
            (enc := Word.ofInt64) (fun x y hx hy => int_dup (intD_ofInt64 hx) (intD_ofInt64 hy))
            (fun _ => cmpInt_consistent _) o.flags (ys ++ a) (by
              intro x hx
              rcases List.mem_append.1 hx with hx | hx
              · exact hz x (List.mem_append_left _ ((hi'.mem x).1 hx))
              · exact hz x (List.mem_append_right _ hx))
          exact ⟨ys1, f1, fun _ => hi'.step f2⟩
        · obtain ⟨ys1, hy⟩ := h0
          exact ⟨ys1, hy, fun h => absurd h hz⟩)
      ts o [] [] hf.arr (fun _ => .nil _ _) h1 (by rw [h2]; rfl) rfl (.inr (by
        intro t ht he
        have ht' : t ∈ ts := by cases ts <;> simp_all
        rw [h3] at ht'
        obtain ⟨n, hn, rfl⟩ := List.mem_map.1 ht'
        rw [hr n hn] at he
        simp at he))
    obtain ⟨o', ys, e1, e2, e3, e4⟩ := g1 _ hws
    rw [List.nil_append] at e3
    have hin : ∀ x ∈ ns.map Prod.snd, intMin ≤ x ∧ x ≤ intMax := by
      intro x hx
      obtain ⟨n, hn, rfl⟩ := List.mem_map.1 hx
      exact (h4 n hn).2
    have e3 := e3 hin
    refine ⟨o', ys, e1, e2.ints (e4 hne) (fun x hx => ?_), ?_, e4 hne⟩
    · exact asInt_of_intD rfl (intD_ofInt64 (hin x ((e3.mem x).1 hx)))
    · refine ⟨e3.mem, e3.plain, e3.perm, fun hs => ?_, e3.nodup, e3.firsts⟩
      refine (e3.sorted hs).imp_of_mem (fun {x y} hx hy hxy => ?_)
      have := cmpInt_le_iff.1 hxy
      rwa [intD_ofInt64 (hin x ((e3.mem x).1 hx)), intD_ofInt64 (hin y ((e3.mem y).1 hy))] at this

/-- The pieces of two texts joined by a comma. -/
theorem pieces_comma {s t : Str} (hs : s ≠ []) (ht : t ≠ []) :
    pieces (s ++ c!"," ++ t) = pieces s ++ pieces t := by
  have hf : ∀ x : Str, x ≠ [] → pieces x = (fields (· == 44) x).filter (· ≠ []) := by
    intro x hx
    unfold pieces
    by_cases hm : (44 : Byte) ∈ x
    · rw [if_pos hm]
    · rw [if_neg hm]
      have hw := fields_word (· == 44) x [] (by
        intro c hc
        have : c ≠ 44 := by rintro rfl; exact hm hc
        simpa using this)
      rw [List.append_nil] at hw
      rw [hw]
      simp [fields, hx]
  have hj : ∀ s : Str, (fields (· == 44) (s ++ c!"," ++ t)).filter (· ≠ []) =
      (fields (· == 44) s).filter (· ≠ []) ++ (fields (· == 44) t).filter (· ≠ []) := by
    intro s
    induction s with
    | nil =>
      show (fields (· == 44) (44 :: t)).filter _ = _
      simp [fields]
    | cons c s ih =>
      have e : c :: s ++ c!"," ++ t = c :: (s ++ c!"," ++ t) := rfl
      rw [e]
      by_cases hc : (c == 44) = true
      · rw [fields, if_pos hc, fields, if_pos hc]
        simpa using ih
      · rw [fields, if_neg hc, fields, if_neg hc]
        have h1 := fields_ne_nil (· == 44) (s ++ c!"," ++ t)
        have h2 := fields_ne_nil (· == 44) s
        -- the first field of the longer text is the first field of `s`
        have h3 : ∀ s : Str, (fields (· == 44) (s ++ c!"," ++ t)) = fields (· == 44) s ++ fields (· == 44) t := by
          intro s
          induction s with
          | nil => show fields (· == 44) (44 :: t) = _; simp [fields]
          | cons d s ih =>
            have e : d :: s ++ c!"," ++ t = d :: (s ++ c!"," ++ t) := rfl
            rw [e, fields, fields]
            by_cases hd : (d == 44) = true
            · rw [if_pos hd, if_pos hd, ih]; rfl
            · rw [if_neg hd, if_neg hd, ih]
              cases hs : fields (· == 44) s with
              | nil => exact absurd hs (fields_ne_nil _ s)
              | cons w ws => rfl
        rw [h3]
        cases hs : fields (· == 44) s with
        | nil => exact absurd hs h2
        | cons w ws => simp
  rw [hf s hs, hf t ht, ← hj s, hf _ (by simp [hs])]

theorem searchSep_some {v r : Str} : ∀ {prev : Option Byte}, searchSep prev v = some r →
    (∃ l d sep e r', v = l ++ [d, sep, e] ++ r' ∧ isDigit d = true ∧ (sep = 45 ∨ sep = 58) ∧
      (isDigit e = true ∨ e = 45)) ∨
    (∃ d sep e r', prev = some d ∧ v = [sep, e] ++ r' ∧ isDigit d = true ∧ (sep = 45 ∨ sep = 58) ∧
      (isDigit e = true ∨ e = 45)) := by
  induction v with
  | nil => intro prev h; simp [searchSep] at h
  | cons c v ih =>
    intro prev h
    unfold searchSep at h
    split at h
    · rename_i hc
      simp only [Bool.and_eq_true, Bool.or_eq_true, beq_iff_eq] at hc
      obtain ⟨⟨h1, h2⟩, h3⟩ := hc
      cases prev with
      | none => simp at h2
      | some d =>
        cases v with
        | nil => simp at h3
        | cons e v =>
          simp only [List.head?_cons, Option.any_some, Bool.or_eq_true, beq_iff_eq] at h3 h2
          exact .inr ⟨d, c, e, v, rfl, rfl, h2, h1, h3⟩
    · rcases ih h with ⟨l, d, sep, e, r', h1, h2⟩ | ⟨d, sep, e, r', h1, h2, h3⟩
      · exact .inl ⟨c :: l, d, sep, e, r', by rw [h1]; rfl, h2⟩
      · cases h1
        exact .inl ⟨[], c, sep, e, r', by rw [h2]; rfl, h3⟩

theorem eraseDups_str (l : List Str) : @List.eraseDups Str instBEqOfDecidableEq l = l.eraseDups := by
  have : (instBEqOfDecidableEq : BEq Str) = List.instBEq := by
    have h : ∀ x y : Str, @BEq.beq Str instBEqOfDecidableEq x y = @BEq.beq Str List.instBEq x y := by
      intro x y
      have h1 : @BEq.beq Str instBEqOfDecidableEq x y = true ↔ x = y := decide_eq_true_iff
      have h2 : @BEq.beq Str List.instBEq x y = true ↔ x = y := beq_iff_eq
      exact Bool.eq_iff_iff.2 (h1.trans h2.symm)
    cases hi : (instBEqOfDecidableEq : BEq Str) with
    | mk f =>
      rw [hi] at h
      cases hj : (List.instBEq : BEq Str) with
      | mk g =>
        rw [hj] at h
        congr 1
        funext x y
        exact h x y
  rw [this]

end Argus
