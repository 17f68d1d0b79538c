import Verif.Lemmas.SameText
import Verif.Props.Unread

/-!
# C102: only the value of a text matters
-/

set_option autoImplicit false

namespace Argus

/-- **C102** Two lines ask for the same, but for how values are written: numbers with signs, blanks and zeros in front, truth
    values in their spellings, ranges and comma lists. And the variables say the same but for that. Then the outcome is the
    same in every respect. -/
theorem C102_value_decides (W : World) (env env' : Env) (a : Argus) (args args' : List Str) (he : SameEnv W a env env')
    (h : Alongside (SameAsk W a.tables) (a.asks args) (a.asks args')) : argusParse W env' a args' = argusParse W env a args :=
  argusParse_sameText he h

theorem sameGift_textForText (W : World) : TextForText (SameGift W) where
  none_left h := by
    rcases h with h | ⟨_, _, _, _, _, h, _⟩
    · exact h
    · cases h
  some_left {_ s _} h := by
    rcases h with h | ⟨_, _, _, s', _, _, h, _⟩
    · exact ⟨s, h⟩
    · exact ⟨s', h⟩

/-- **C102** So in a line that is spelled out every value can be written in any other way, a positional in any other way that
    is a word: there is such a line, as long as the first, and it has the same outcome. -/
theorem C102_written_otherwise (W : World) (env : Env) (a : Argus) (args : List Str) (acts acts' : List Act)
    (he : Explicit a.tables (some a.root) 0 false args acts) (ht : Alongside (SameAsk W a.tables) acts acts')
    (hw : Alongside (StaysWord a.tables) acts acts') :
    ∃ args', args'.length = args.length ∧ a.asks args' = acts' ∧
      args'.filter (fun x => x != c!"--") = acts'.map (Act.spelled a.tables) ∧
      argusParse W env a args' = argusParse W env a args := by
  obtain ⟨args', h1, h2⟩ := he.retell (sameGift_textForText W) ht hw
  have e1 : a.asks args = acts := he.written.reads.1
  have e2 : a.asks args' = acts' := h1.written.reads.1
  exact ⟨args', h2, e2, h1.form, C102_value_decides W env env a args args' (fun _ _ _ _ _ => .inl rfl) (by rw [e1, e2]; exact ht)⟩

/-- **C102** Numbers: in place of a numeral an int option or an int argument takes any other numeral of the same value. -/
theorem C102_numerals (W : World) (o : Opt) (s s' : Str) (n : Int) (hh : o.handler = some .int ∨ o.handler = some .variadicInt)
    (hv : ∀ v ∈ o.validators.getD [], v.order = .post) (h : IsNumeral s n) (h' : IsNumeral s' n) :
    SameGift W o (some s) (some s') := by
  rcases hh with hh | hh
  · exact .inr ⟨hv, .int, s, s', hh, rfl, rfl, .number s s' n [] [] h h'⟩
  · exact .inr ⟨hv, .variadicInt, s, s', hh, rfl, rfl, .whole s s' n h h'⟩

/-- Zeros and a plus sign in front, and blanks before that, make no other number. -/
theorem numeral_padded (blanks zeros ds : Str) (plus : Bool) (hb : ∀ c ∈ blanks, isSpace c = true) (hz : ∀ c ∈ zeros, c = 48)
    (hn : ds ≠ []) (hd : ∀ c ∈ ds, isDigit c = true) :
    IsNumeral (blanks ++ (if plus then [43] else []) ++ (zeros ++ ds)) (digitsVal ds) := by
  have h0 : ∀ zs : Str, (∀ c ∈ zs, c = 48) → digitsVal (zs ++ ds) = digitsVal ds := by
    intro zs
    induction zs with
    | nil => intro _; rfl
    | cons z zs ih =>
      intro h
      have hz : z = 48 := h z (by simp)
      subst hz
      have := ih (fun c hc => h c (by simp [hc]))
      rw [← this]
      rfl
  refine ⟨blanks, if plus then [43] else [], zeros ++ ds, by simp, hb, ?_, by simp [hn], ?_, ?_, by simp⟩
  · cases plus
    · exact .inl rfl
    · exact .inr (.inl rfl)
  · intro c hc
    rcases List.mem_append.1 hc with hc | hc
    · rw [hz c hc]; rfl
    · exact hd c hc
  · rw [h0 zeros hz]
    cases plus <;> rfl

/-- **C102** Ranges: `x:y` is the list of the numbers from `x` to `y`, separated by commas. -/
theorem C102_ranges (W : World) (o : Opt) (s s' : Str) (l : List Int) (hh : o.handler = some .arrayInt)
    (hv : ∀ v ∈ o.validators.getD [], v.order = .post) (h : IntsOf s l) (h' : IntsOf s' l) : SameGift W o (some s) (some s') :=
  .inr ⟨hv, .arrayInt, s, s', hh, rfl, rfl, .ints s s' l h h'⟩

/-- The bounds of a number or range. -/
def IntPiece.lo : IntPiece → Int
  | one n => n
  | range a _ b => min a b

/-- The bounds of a number or range. -/
def IntPiece.hi : IntPiece → Int
  | one n => n
  | range a _ b => max a b

theorem IntPiece.fromTo_ints (q : IntPiece) : fromTo q.lo q.hi = q.ints := by
  cases q with
  | one n =>
    simp only [fromTo, IntPiece.lo, IntPiece.hi, IntPiece.ints]
    have : (n - n + 1).toNat = 1 := by omega
    rw [this]
    simp
  | range a c b =>
    simp only [fromTo, IntPiece.lo, IntPiece.hi, IntPiece.ints]
    have : (max a b - min a b + 1).toNat = (max a b - min a b).toNat + 1 := by omega
    rw [this]

theorem IntPiece.means {q : IntPiece} (h : q.Fits) : RangeText q.text q.lo q.hi ∧ q.hi ≠ intMax := by
  cases q with
  | one n => exact ⟨parseIntRange_iff.1 (parseIntRange_one h.1 (by have := h.2; omega)), by have := h.2; simp only [IntPiece.hi]; omega⟩
  | range a c b =>
    obtain ⟨h1, h2, h3, h4⟩ := h
    refine ⟨parseIntRange_iff.1 ?_, by simp only [IntPiece.hi]; omega⟩
    cases c
    · have := parseIntRange_two (a := a) (b := b) (sep := 45) (.inl rfl) h1 (by omega) h3 (by omega)
      simpa [IntPiece.text, IntPiece.lo, IntPiece.hi] using this
    · have := parseIntRange_two (a := a) (b := b) (sep := 58) (.inr rfl) h1 (by omega) h3 (by omega)
      simpa [IntPiece.text, IntPiece.lo, IntPiece.hi] using this

/-- **C102** In particular lists of numbers `n` and ranges `x:y` and `x-y` are the same to an int array if they amount to the same
    integers. -/
theorem C102_lists (W : World) (o : Opt) (s s' : Str) (ps ps' : List IntPiece) (hh : o.handler = some .arrayInt)
    (hv : ∀ v ∈ o.validators.getD [], v.order = .post) (h : pieces s = ps.map IntPiece.text) (h' : pieces s' = ps'.map IntPiece.text)
    (hf : ∀ q ∈ ps, q.Fits) (hf' : ∀ q ∈ ps', q.Fits) (e : ps'.flatMap IntPiece.ints = ps.flatMap IntPiece.ints) :
    SameGift W o (some s) (some s') := by
  have key : ∀ (t : Str) (qs : List IntPiece), pieces t = qs.map IntPiece.text → (∀ q ∈ qs, q.Fits) →
      IntsOf t (qs.flatMap IntPiece.ints) := by
    intro t qs ht hq
    refine ⟨qs.map (fun q => (q.text, q.lo, q.hi)), by rw [ht, List.map_map]; rfl, ?_, ?_⟩
    · intro x hx
      obtain ⟨q, h1, rfl⟩ := List.mem_map.1 hx
      exact q.means (hq q h1)
    · rw [List.flatMap_map]
      simp only [IntPiece.fromTo_ints]
  exact C102_ranges W o s s' _ hh hv (key s ps h hf) (e ▸ key s' ps' h' hf')

/-! ### A case -/

theorem intsOf_of {s : Str} {l : List Int} (qs : List (Str × Int × Int)) (h1 : pieces s = qs.map Prod.fst)
    (h2 : qs.all (fun q => parseIntRange q.1 == some (q.2.1, q.2.2) && q.2.2 != intMax) = true)
    (h3 : qs.flatMap (fun q => fromTo q.2.1 q.2.2) = l) : IntsOf s l := by
  refine ⟨qs, h1, fun q hq => ?_, h3.symm⟩
  have := List.all_eq_true.1 h2 q hq
  simp only [Bool.and_eq_true, beq_iff_eq, bne_iff_ne] at this
  exact ⟨parseIntRange_iff.1 this.1, this.2⟩

/-- The lists `1-3,7` and `1,2,3,007` are the same to an int array. -/
example : IntsOf c!"1-3,7" [1, 2, 3, 7] ∧ IntsOf c!"1,,2:3,007" [1, 2, 3, 7] :=
  ⟨intsOf_of [(c!"1-3", 1, 3), (c!"7", 7, 7)] (by decide +kernel) (by decide +kernel) (by decide +kernel),
   intsOf_of [(c!"1", 1, 1), (c!"2:3", 2, 3), (c!"007", 7, 7)] (by decide +kernel) (by decide +kernel) (by decide +kernel)⟩

/-- And so they are to an int array with FLAG_SORTED, here with the limits of V_COUNT. -/
example (o : Opt) (hh : o.handler = some .arrayInt) (hv : o.validators = some [⟨.count 1 4, .post, true⟩]) :
    SameGift Sample.world o (some c!"1-3,7") (some c!"1,2,3,7") := by
  refine C102_lists _ o _ _ [.range 1 false 3, .one 7] [.one 1, .one 2, .one 3, .one 7] hh (by rw [hv]; simp)
    (by decide +kernel) (by decide +kernel) ?_ ?_ (by decide +kernel)
  · simp [IntPiece.Fits, intMin, intMax]
  · simp [IntPiece.Fits, intMin, intMax]

theorem alike_num : SameAsk Sample.world Sample.prog.tables (.give ⟨0, 3⟩ (some c!"3")) (.give ⟨0, 3⟩ (some c!" +003")) := by
  refine ⟨rfl, fun o ho => ?_⟩
  have h : o.handler = some .int ∧ ∀ v ∈ o.validators.getD [], v.order = .post := by
    have : placeAt Sample.prog.tables ⟨0, 3⟩ = some o → o.handler = some .int ∧ o.validators.getD [] = [] := by
      intro h; cases h; decide +kernel
    obtain ⟨h1, h2⟩ := this ho
    exact ⟨h1, by rw [h2]; simp⟩
  exact C102_numerals _ o _ _ 3 (.inl h.1) h.2 (numeral_padded [] [] c!"3" false (by simp) (by simp) (by decide) (by decide))
    (numeral_padded c!" " c!"00" c!"3" true (by decide) (by decide) (by decide) (by decide))

theorem alike_map : SameAsk Sample.world Sample.prog.tables (.give ⟨0, 5⟩ (some c!"k=7,j=1")) (.give ⟨0, 5⟩ (some c!"k=007,,j=+1")) := by
  refine ⟨rfl, fun o ho => ?_⟩
  have this : placeAt Sample.prog.tables ⟨0, 5⟩ = some o → o.handler = some .mapInt ∧ o.validators.getD [] = [] := by
    intro h; cases h; decide +kernel
  obtain ⟨h1, h2⟩ := this ho
  have e1 : pieces c!"k=7,j=1" = [c!"k" ++ [61] ++ c!"7", c!"j" ++ [61] ++ c!"1"] := by decide +kernel
  have e2 : pieces c!"k=007,,j=+1" = [c!"k" ++ [61] ++ c!"007", c!"j" ++ [61] ++ c!"+1"] := by decide +kernel
  refine .inr ⟨by rw [h2]; simp, .mapInt, _, _, h1, rfl, rfl, .list _ _ _ (by simp [Handler.TakesList]) ?_⟩
  rw [e1, e2]
  exact ⟨.entry _ _ _ _ (by decide) ⟨7, numeral_padded [] [] c!"7" false (by simp) (by simp) (by decide) (by decide),
      numeral_padded [] c!"00" c!"7" false (by simp) (by decide) (by decide) (by decide)⟩,
    .entry _ _ _ _ (by decide) ⟨1, numeral_padded [] [] c!"1" false (by simp) (by simp) (by decide) (by decide),
      numeral_padded [] [] c!"1" true (by simp) (by simp) (by decide) (by decide)⟩, trivial⟩

/-- **C102** applies: the two lines have the same outcome, which is a success. -/
example : argusParse Sample.world Sample.noEnv Sample.prog [c!"--num", c!" +003", c!"--map=k=007,,j=+1", c!"add", c!"5", c!"x"] =
      argusParse Sample.world Sample.noEnv Sample.prog [c!"-n3", c!"-mk=7,j=1", c!"add", c!"5", c!"x"] ∧
    ∃ a', argusParse Sample.world Sample.noEnv Sample.prog [c!"-n3", c!"-mk=7,j=1", c!"add", c!"5", c!"x"] =
      .ok (.returned Err.success, a') := by
  refine ⟨C102_value_decides _ _ _ _ _ _ (fun _ _ _ _ _ => .inl rfl) ?_, _, rfl⟩
  have e1 : Sample.prog.asks [c!"-n3", c!"-mk=7,j=1", c!"add", c!"5", c!"x"] =
      [.give ⟨0, 3⟩ (some c!"3"), .give ⟨0, 5⟩ (some c!"k=7,j=1"), .enter ⟨0, 8⟩, .give ⟨1, 2⟩ (some c!"5"), .give ⟨1, 3⟩ (some c!"x")] := by decide +kernel
  have e2 : Sample.prog.asks [c!"--num", c!" +003", c!"--map=k=007,,j=+1", c!"add", c!"5", c!"x"] =
      [.give ⟨0, 3⟩ (some c!" +003"), .give ⟨0, 5⟩ (some c!"k=007,,j=+1"), .enter ⟨0, 8⟩, .give ⟨1, 2⟩ (some c!"5"), .give ⟨1, 3⟩ (some c!"x")] := by
    decide +kernel
  rw [e1, e2]
  exact ⟨alike_num, alike_map, rfl, ⟨rfl, fun _ _ => .inl rfl⟩, ⟨rfl, fun _ _ => .inl rfl⟩, trivial⟩

end Argus
