import Verif.Spec.Blame
import Verif.Lemmas.MessagesRun
import Verif.Lemmas.Agree
import Verif.Lemmas.Collected
import Verif.Props.Describe

/-! A failing stage prints one message, and it is true. -/

set_option autoImplicit false

namespace Argus

/-- With status `st`: no message for success and exit, otherwise one message with that status of which `P` holds. -/
def Explained (P : Message → Prop) (st : Int) (x : Out (List Message)) : Prop :=
  ∀ m, x = .ok m → ((st = Err.success ∨ st = Err.shouldExit) ∧ m = []) ∨
    (st ≠ Err.success ∧ st ≠ Err.shouldExit ∧ ∃ t, m = [(st, t)] ∧ P (st, t))

namespace Explained
variable {P Q : Message → Prop} {st : Int} {x y : Out (List Message)}

theorem nil : Explained P Err.success (.ok []) := fun m h => by cases h; exact .inl ⟨.inl rfl, rfl⟩

theorem one {t : Str} (h1 : st ≠ Err.success) (h2 : st ≠ Err.shouldExit) (h : P (st, t)) : Explained P st (.ok [(st, t)]) :=
  fun m h3 => by cases h3; exact .inr ⟨h1, h2, t, rfl, h⟩

theorem imp (h : Explained P st x) (hp : ∀ m, P m → Q m) : Explained Q st x := fun m hm => by
  rcases h m hm with h1 | ⟨h1, h2, t, h3, h4⟩
  · exact .inl h1
  · exact .inr ⟨h1, h2, t, h3, hp _ h4⟩

theorem named {o : Option Str} {f : Str → Str} (h1 : st ≠ Err.success) (h2 : st ≠ Err.shouldExit)
    (h : ∀ n, o = some n → P (st, f n)) : Explained P st (do let n ← nameText o; .ok [(st, f n)]) := by
  cases o with
  | none => intro m hm; simp [nameText] at hm
  | some s => exact .one h1 h2 (h s rfl)

/-- A stage that succeeded adds nothing to the messages of the next one. -/
theorem after (h0 : Explained Q Err.success x) (h : Explained P st y) :
    Explained P st (do let m ← x; let m2 ← y; .ok (m ++ m2)) := by
  intro m hm
  obtain ⟨m1, h1, h2⟩ := Out.bind_eq_ok hm
  obtain ⟨m2, h3, h4⟩ := Out.bind_eq_ok h2
  simp only [Out.ok.injEq] at h4; subst h4
  rcases h0 m1 h1 with ⟨_, e⟩ | ⟨e, _⟩
  · subst e; exact h m2 h3
  · exact absurd rfl e

theorem ret (h : Explained P st x) : Explained P st (do let m ← x; .ok m) := by
  intro m hm
  obtain ⟨m1, h1, h2⟩ := Out.bind_eq_ok hm
  simp only [Out.ok.injEq] at h2; subst h2; exact h _ h1

theorem silent {m : List Message} (h : Explained P Err.success x) (hm : x = .ok m) : m = [] := by
  rcases h m hm with ⟨_, e⟩ | ⟨e, _⟩
  · exact e
  · exact absurd rfl e

end Explained

/-- Enough to show: at most one message, and it is true. -/
theorem Explained.of_told {P : Message → Prop} {st : Int} {x : Out (List Message)} {es : List Event}
    (hw : ∀ m, x = .ok m → m.map (·.1) = errorCodes es) (ht : Told st es)
    (hx : ∀ m, x = .ok m → m.length ≤ 1 ∧ ∀ y ∈ m, P y ∧ y.1 ≠ Err.shouldExit) : Explained P st x := by
  intro m hm
  have h1 := hw m hm
  obtain ⟨h2, h3⟩ := hx m hm
  rcases ht with ⟨rfl, hn⟩ | ⟨hne, pre, rfl⟩
  · have : errorCodes es = [] := by
      clear h1 hw hx
      induction es with
      | nil => rfl
      | cons e es ih =>
        cases e with
        | error c => exact absurd List.mem_cons_self (hn c)
        | _ => exact ih (fun c hc => hn c (List.mem_cons_of_mem _ hc))
    rw [this] at h1
    exact .inl ⟨.inl rfl, List.map_eq_nil_iff.1 h1⟩
  · rw [errorCodes_append] at h1
    match m, h2, h3, h1 with
    | [], _, _, h1 => simp [errorCodes] at h1
    | [y], _, h3, h1 =>
      have h4 : y.1 = st := by
        cases hc : errorCodes pre with
        | nil => rw [hc] at h1; simpa [errorCodes] using h1
        | cons c cs => rw [hc] at h1; simp [errorCodes] at h1
      obtain ⟨g1, g2⟩ := h3 y (by simp)
      exact .inr ⟨hne, by rw [← h4]; exact g2, y.2, by rw [← h4], by rw [← h4]; exact g1⟩
    | _ :: _ :: _, h2, _, _ => simp at h2

/-! ### Handlers -/

theorem pieces_eq (v : Str) : (if v.contains 44 then split v [44] else [v]) = pieces v := by
  unfold pieces
  by_cases h : (44 : Byte) ∈ v
  · rw [if_pos (by simpa using h), if_pos h, split_comma]
  · rw [if_neg (by simpa using h), if_neg h]

theorem partsMessages_mem {f : Str → Option Message} {v : Str} {P : Message → Prop}
    (h : ∀ p ∈ pieces v, ∀ m, f p = some m → P m) :
    (partsMessages f v).length ≤ 1 ∧ ∀ y ∈ partsMessages f v, P y := by
  unfold partsMessages
  rw [pieces_eq]
  cases hf : (pieces v).findSome? f with
  | none => simp
  | some m =>
    obtain ⟨p, hp, hm⟩ := List.exists_of_findSome?_eq_some hf
    simp only [Option.toList_some, List.length_cons, List.length_nil, Nat.le_refl, List.mem_singleton, true_and]
    rintro y rfl; exact h p hp _ hm

theorem searchSep_none {v : Str} : ∀ {prev : Option Byte}, searchSep prev v = none →
    ∀ (l : Str) (d sep e : Byte) (r : Str), isDigit d = true → (sep = 45 ∨ sep = 58) → (isDigit e = true ∨ e = 45) →
    v = l ++ [d, sep, e] ++ r → False := by
  induction v with
  | nil => intro prev _ l d sep e r _ _ _ h; simp at h
  | cons c v ih =>
    intro prev h l d sep e r h1 h2 h3 h4
    unfold searchSep at h
    split at h
    · simp at h
    · cases l with
      | cons b l =>
        simp only [List.cons_append, List.cons.injEq] at h4
        exact ih h l d sep e r h1 h2 h3 (by rw [h4.2])
      | nil =>
        simp only [List.nil_append, List.cons_append, List.cons.injEq] at h4
        obtain ⟨rfl, rfl⟩ := h4
        unfold searchSep at h
        rw [if_pos (by
          rcases h2 with rfl | rfl <;> rcases h3 with h3 | rfl <;> simp [h1, *])] at h
        simp at h

theorem intPart_true {p : Str} {m : Message} (h : intPartMessage p = some m) :
    m = (Err.invalidFormat, c!"Invalid integer or range format: '" ++ p ++ c!"'") ∧ ¬ HasSeparator p ∧
      ∀ n, ¬ IsNumeral p n := by
  unfold intPartMessage at h
  split at h
  · simp at h
  · rename_i hp
    simp only [Option.some.injEq] at h
    have hp : parseIntRange p = none := by
      cases h1 : parseIntRange p with
      | none => rfl
      | some x => exact absurd (by rw [h1]; rfl) hp
    refine ⟨h.symm, ?_, ?_⟩
    · rintro ⟨l, d, sep, e, r, h1, h2, h3, h4⟩
      unfold parseIntRange at hp
      split at hp
      · simp at hp
      · rename_i hs
        exact searchSep_none hs l d sep e r h2 h3 h4 h1
    · intro n hn
      unfold parseIntRange at hp
      split at hp
      · simp at hp
      · simp only [isNumeral_strtoll hn] at hp; simp at hp

theorem pair_true {conv : Str → Option MapStore} {what tail p : Str} {m : Message} (h : pairMessage conv what tail p = some m) :
    (m = (Err.invalidFormat, c!"Invalid key-value format, expected 'key=value': '" ++ p ++ c!"'") ∧ (61 : Byte) ∉ p) ∨
    ∃ key value, p = key ++ c!"=" ++ value ∧ (61 : Byte) ∉ key ∧ conv value = none ∧
      m = (Err.invalidValue, c!"Invalid " ++ what ++ c!" value for key '" ++ key ++ c!"': '" ++ value ++ c!"'" ++ tail) := by
  unfold pairMessage at h
  split at h
  · rename_i hs
    simp only [Option.some.injEq] at h
    exact .inl ⟨h.symm, (strchrSplit_none_iff 61 p).1 hs⟩
  · rename_i key value hs
    obtain ⟨h1, h2⟩ := (strchrSplit_some_iff 61 p key value).1 hs
    split at h
    · simp at h
    · rename_i hc
      simp only [Option.some.injEq] at h
      refine .inr ⟨key, value, ?_, ?_, ?_, ?_⟩
      · rw [h1]; simp
      · exact h2
      · cases h3 : conv value with
        | none => rfl
        | some w => exact absurd (by rw [h3]; rfl) hc
      · rw [← h]
        simp [quoted, List.append_assoc]

theorem mapInt_none {W : World} {v : Str} (h : mapIntConv v = none) : ∀ y, ¬ TextValue W .mapInt v y := by
  rintro y ⟨n, hn, _⟩
  unfold mapIntConv at h
  simp only [isNumeral_strtoll hn, isNumeral_ne_nil hn] at h
  simp at h

theorem mapFloat_none {W : World} {v : Str} (h : mapFloatConv W v = none) : ∀ y, ¬ TextValue W .mapFloat v y := by
  rintro y ⟨h1, h2, _⟩
  unfold mapFloatConv at h
  simp [h1, h2] at h

theorem stringToBool_none {v : Str} (h : stringToBool v = none) : ¬ MeansTrue v ∧ ¬ MeansFalse v :=
  ⟨fun h1 => by rw [(stringToBool_iff v).1.2 h1] at h; simp at h, fun h1 => by rw [(stringToBool_iff v).2.2 h1] at h; simp at h⟩

theorem mapBool_none {W : World} {v : Str} (h : mapBoolConv v = none) : ∀ y, ¬ TextValue W .mapBool v y := by
  unfold mapBoolConv at h
  split at h
  · rename_i hs
    obtain ⟨h1, h2⟩ := stringToBool_none hs
    rintro y (⟨h3, _⟩ | ⟨h3, _⟩)
    · exact h1 h3
    · exact h2 h3
  · simp at h

theorem variadicInt_none {v : Str} (h : variadicIntConv v = none) : ∀ n, ¬ IsNumeral v n := by
  intro n hn
  unfold variadicIntConv at h
  have := isNumeral_ne_nil hn
  simp only [isNumeral_strtoll hn] at h
  simp at h
  exact this h

theorem variadicFloat_none {W : World} {v : Str} (h : variadicFloatConv W v = none) :
    v = [] ∨ (W.strtod v).2 ≠ v.length := by
  unfold variadicFloatConv at h
  simp only at h
  split at h
  · rename_i hc
    by_cases h1 : (W.strtod v).2 = v.length
    · left
      rcases hc with hc | hc
      · exact absurd h1 hc
      · rw [hc] at h1; exact List.length_eq_zero_iff.1 h1.symm
    · exact .inr h1
  · simp at h

theorem TextFault.code {W : World} {M : Wording} {o : Opt} {x : Option Str} {m : Message} (h : TextFault W M o x m) :
    m.1 ≠ Err.shouldExit := by cases h <;> (simp only; decide)

theorem map_true {W : World} {M : Wording} {o : Opt} {h : Handler} {arg : Option Str} {conv : Str → Option MapStore}
    {what tail : Str} (hh : o.handler = some h) (hm : h.isMap)
    (hc : ∀ v, conv v = none → ∃ vt, MapWords h vt what tail ∧ ∀ y, ¬ TextValue W vt v y) :
    ∀ m, collectMessages (pairMessage conv what tail) arg = .ok m →
      m.length ≤ 1 ∧ ∀ y ∈ m, TextFault W M o arg y ∧ y.1 ≠ Err.shouldExit := by
  intro m h1
  unfold collectMessages at h1
  split at h1
  · simp at h1
  · rename_i t
    simp only [Out.ok.injEq] at h1; subst h1
    refine partsMessages_mem fun p hp m hm1 => ?_
    suffices g : TextFault W M o (some t) m from ⟨g, g.code⟩
    rcases pair_true hm1 with ⟨rfl, g⟩ | ⟨key, value, g1, g2, g3, rfl⟩
    · exact .pair h t p hh hm rfl hp g
    · obtain ⟨vt, g4, g5⟩ := hc value g3
      exact .pairValue h vt what tail t key value hh g4 rfl (g1 ▸ hp) g2 g5

theorem variadic_true {W : World} {M : Wording} {o : Opt} {arg : Option Str} {conv : Str → Option Word} {what : Str}
    (hc : ∀ t n, arg = some t → conv t = none → o.name = some n → TextFault W M o arg
      (Err.invalidValue, c!"Invalid " ++ what ++ c!" value " ++ quoted t ++ c!" for positional argument " ++ quoted n)) :
    ∀ m, variadicMessages conv what o arg = .ok m →
      m.length ≤ 1 ∧ ∀ y ∈ m, TextFault W M o arg y ∧ y.1 ≠ Err.shouldExit := by
  intro m h1
  unfold variadicMessages at h1
  split at h1
  · simp at h1
  · rename_i t
    split at h1
    · simp only [Out.ok.injEq] at h1; subst h1; simp
    · rename_i hs
      cases hn : o.name with
      | none => rw [hn] at h1; simp [nameText] at h1
      | some n =>
        rw [hn] at h1
        simp only [nameText, Out.ok_bind, Out.ok.injEq] at h1; subst h1
        have hcv : conv t = none := by
          cases h3 : conv t with
          | none => rfl
          | some w => exact absurd (by rw [h3]; rfl) hs
        simp only [List.length_cons, List.length_nil, Nat.le_refl, List.mem_singleton, true_and]
        rintro y rfl
        have g := hc t n rfl hcv hn
        exact ⟨g, g.code⟩

theorem handler_true {W : World} {M : Wording} {o : Opt} {h : Handler} {arg : Option Str} (hh : o.handler = some h)
    (hb : ∀ id, h ≠ .custom id) : ∀ m, handlerMessages W M h o arg = .ok m →
      m.length ≤ 1 ∧ ∀ y ∈ m, TextFault W M o arg y ∧ y.1 ≠ Err.shouldExit := by
  intro m hm
  have nil : ∀ {m : List Message}, Out.ok [] = Out.ok m →
      m.length ≤ 1 ∧ ∀ y ∈ m, TextFault W M o arg y ∧ y.1 ≠ Err.shouldExit := by
    intro m h; simp only [Out.ok.injEq] at h; subst h; simp
  have none : ∀ {m : List Message}, collectMessages (fun _ => none) arg = Out.ok m →
      m.length ≤ 1 ∧ ∀ y ∈ m, TextFault W M o arg y ∧ y.1 ≠ Err.shouldExit := by
    intro m h
    unfold collectMessages at h
    split at h
    · simp at h
    · simp only [Out.ok.injEq] at h; subst h
      exact partsMessages_mem (fun _ _ _ h => by simp at h)
  cases h with
  | flag => exact nil hm
  | string => exact nil hm
  | int => exact nil hm
  | float => exact nil hm
  | help => exact nil hm
  | version => exact nil hm
  | bool =>
    simp only [handlerMessages, boolMessages] at hm
    split at hm
    · cases hn : o.name with
      | none => rw [hn] at hm; simp [nameText] at hm
      | some n =>
        rw [hn] at hm
        simp only [nameText, Out.ok_bind, Out.ok.injEq] at hm; subst hm
        simp only [List.length_cons, List.length_nil, Nat.le_refl, List.mem_singleton, true_and]
        rintro y rfl
        have g : TextFault W M o .none (Err.invalidArgument, c!"Invalid argument for option: '" ++ n ++ c!"'") :=
          .boolNull n hh rfl hn
        exact ⟨g, g.code⟩
    · rename_i t
      split at hm
      · exact nil hm
      · rename_i hs
        simp only [Out.ok.injEq] at hm; subst hm
        simp only [List.length_cons, List.length_nil, Nat.le_refl, List.mem_singleton, true_and]
        rintro y rfl
        have hs : stringToBool t = .none := by
          cases h3 : stringToBool t with
          | none => rfl
          | some w => exact absurd (by rw [h3]; rfl) hs
        obtain ⟨g1, g2⟩ := stringToBool_none hs
        have g : TextFault W M o (some t)
          (Err.invalidArgument, c!"Invalid boolean value: '" ++ t ++ c!"'. Expected 'true' or 'false'") :=
          .bool t hh rfl g1 g2
        have e : c!"Invalid boolean value: " ++ quoted t ++ c!". Expected 'true' or 'false'" =
            c!"Invalid boolean value: '" ++ t ++ c!"'. Expected 'true' or 'false'" := by simp [quoted, List.append_assoc]
        rw [e]
        exact ⟨g, g.code⟩
  | arrayString => exact none hm
  | arrayFloat => exact none hm
  | arrayInt =>
    simp only [handlerMessages] at hm
    unfold collectMessages at hm
    split at hm
    · simp at hm
    · rename_i t
      simp only [Out.ok.injEq] at hm; subst hm
      refine partsMessages_mem fun p hp m hm1 => ?_
      suffices g : TextFault W M o (some t) m from ⟨g, g.code⟩
      obtain ⟨rfl, g1, g2⟩ := intPart_true hm1
      exact .intPiece t p hh rfl hp g1 g2
  | mapString => exact map_true hh (.inl rfl) (fun v hv => by simp [mapStringConv] at hv) _ hm
  | mapInt => exact map_true hh (.inr (.inl rfl)) (fun v hv => ⟨_, .int, mapInt_none hv⟩) _ hm
  | mapFloat => exact map_true hh (.inr (.inr (.inl rfl))) (fun v hv => ⟨_, .float, mapFloat_none hv⟩) _ hm
  | mapBool => exact map_true hh (.inr (.inr (.inr rfl))) (fun v hv => ⟨_, .bool, mapBool_none hv⟩) _ hm
  | variadicString => exact variadic_true (fun t n _ h => by simp at h) _ hm
  | variadicInt =>
    refine variadic_true (fun t n h1 h2 h3 => ?_) _ hm
    have g : TextFault W M o arg _ := .variadicInt t n hh h1 h3 (variadicInt_none h2)
    have e : c!"Invalid " ++ c!"integer" ++ c!" value " ++ quoted t ++ c!" for positional argument " ++ quoted n =
      c!"Invalid integer value '" ++ t ++ c!"' for positional argument '" ++ n ++ c!"'" := by simp [quoted, List.append_assoc]
    rw [e]; exact g
  | variadicFloat =>
    refine variadic_true (fun t n h1 h2 h3 => ?_) _ hm
    have g : TextFault W M o arg _ := .variadicFloat t n hh h1 h3 (variadicFloat_none h2)
    have e : c!"Invalid " ++ c!"float" ++ c!" value " ++ quoted t ++ c!" for positional argument " ++ quoted n =
      c!"Invalid float value '" ++ t ++ c!"' for positional argument '" ++ n ++ c!"'" := by simp [quoted, List.append_assoc]
    rw [e]; exact g
  | custom id => exact absurd rfl (hb id)

theorem runHandler_explained {W : World} {M : Wording} {a : Argus} {o : Opt} {h : Handler} {arg : Option Str} {r : HRes}
    (hh : o.handler = some h) (hb : ∀ id, h ≠ .custom id) (hr : runHandler W a h o arg = .ok r) :
    Explained (TextFault W M o arg) r.1 (handlerMessages W M h o arg) :=
  .of_told (fun m hm => (runHandler_worded (P := False) (fun h => h.elim) hr).codes m hm) (runHandler_told hb hr)
    (handler_true hh hb)

/-! ### Validators before the handler -/

theorem runPre_explained {W : World} {M : Wording} {o : Opt} {v : Validator} {arg : Option Str} {r : VRes}
    (hv : v ∈ o.validators.getD []) (ho : v.order = .pre) (hb : ∀ id, v.kind ≠ .custom id)
    (hr : runPre W v.kind arg = .ok r) : Explained (TextFault W M o arg) r.1 (preMessages W M v.kind arg) := by
  refine .of_told (es := r.2.toList.map .error) (fun m hm => ?_) (runPre_told hb hr).events (fun m hm => ?_)
  · rw [errorCodes_errors]; exact (runPre_worded hr).codes m hm
  · have one : ∀ {y : Message} {m : List Message}, TextFault W M o arg y → Out.ok [y] = Out.ok m →
        m.length ≤ 1 ∧ ∀ y ∈ m, TextFault W M o arg y ∧ y.1 ≠ Err.shouldExit := by
      intro y m g h
      simp only [Out.ok.injEq] at h; subst h
      simp only [List.length_cons, List.length_nil, Nat.le_refl, List.mem_singleton, true_and]
      rintro y rfl
      exact ⟨g, g.code⟩
    cases hk : v.kind with
    | regex p hint =>
      rw [hk] at hm
      simp only [preMessages] at hm
      unfold regexMessages at hm
      by_cases ha : W.regexAvailable = false
      · rw [if_pos ha] at hm; exact one (.noRegex v p hint hv ho hk ha) hm
      · rw [if_neg ha] at hm
        cases p with
        | none => exact one (.noPattern v hint hv ho hk) hm
        | some p =>
          simp only at hm
          cases hx : W.regex p arg with
          | isMatch =>
            simp only [hx, Out.ok.injEq] at hm; subst hm; simp
          | compileError =>
            simp only [hx] at hm
            refine one (?_ : TextFault W M o arg _) hm
            have e : c!"Failed to compile regex " ++ quoted p ++ c!": " ++ M.regexError p =
              c!"Failed to compile regex '" ++ p ++ c!"': " ++ M.regexError p := by simp [quoted, List.append_assoc]
            rw [e]; exact .badPattern v p hint hv ho hk hx
          | otherError => simp only [hx] at hm; exact one (.matchFailed v p hint hv ho hk hx) hm
          | noMatch =>
            simp only [hx] at hm
            cases arg with
            | none => simp [argText, nameText] at hm
            | some t =>
              simp only [argText, nameText, Out.ok_bind] at hm
              by_cases hh : hint.getD [] ≠ []
              · rw [if_pos hh] at hm
                cases hint with
                | none => simp at hh
                | some h =>
                  refine one (?_ : TextFault W M o (some t) _) hm
                  have e : c!"Value " ++ quoted t ++ c!" does not match required pattern: " ++ (some h).getD [] =
                    c!"Value '" ++ t ++ c!"' does not match required pattern: " ++ h := by
                    simp [quoted, List.append_assoc]
                  rw [e]; exact .patternHint v p h t hv ho hk hh rfl hx
              · rw [if_neg hh] at hm
                refine one (?_ : TextFault W M o (some t) _) hm
                have e : c!"Value " ++ quoted t ++ c!" does not match the expected format" =
                  c!"Value '" ++ t ++ c!"' does not match the expected format" := by simp [quoted, List.append_assoc]
                rw [e]
                refine .pattern v p hint t hv ho hk ?_ rfl hx
                cases hint with
                | none => exact .inl rfl
                | some h => simp only [Option.getD_some, ne_eq, Decidable.not_not] at hh; exact .inr (by rw [hh])
    | custom id => exact absurd hk (hb id)
    | _ => rw [hk] at hm; simp [preMessages] at hm

theorem runPreAll_explained {W : World} {M : Wording} {o : Opt} {arg : Option Str} : ∀ (vs : List Validator) {a : Argus}
    {r : Int × Argus}, (∀ v ∈ vs, v ∈ o.validators.getD []) → (∀ v ∈ vs, ∀ id, v.kind ≠ .custom id) →
    runPreAll W a arg vs = .ok r → Explained (TextFault W M o arg) r.1 (preAllMessages W M arg vs)
  | [], a, r, _, _, h => by simp only [runPreAll, Out.ok.injEq] at h; subst h; exact .nil
  | v :: vs, a, r, hv, hb, h => by
    have ih := fun {b : Argus} (h : runPreAll W b arg vs = .ok r) =>
      runPreAll_explained (M := M) vs (fun x hx => hv x (by simp [hx])) (fun x hx => hb x (by simp [hx])) h
    unfold runPreAll at h
    unfold preAllMessages
    split at h
    · rename_i ho
      rw [if_pos ho]
      obtain ⟨q, hq, h2⟩ := Out.bind_eq_ok h
      have he := runPre_explained (M := M) (hv v (by simp)) ho (hb v (by simp)) hq
      simp only [hq, Out.ok_bind]
      split at h2
      · rename_i hc
        simp only [Out.ok.injEq] at h2; subst h2
        simp only [if_pos hc]; exact he.ret
      · rename_i hc
        simp only [if_neg hc]
        have hc' : q.1 = Err.success := by simpa using hc
        rw [hc'] at he
        exact he.after (ih h2)
    · rename_i ho
      rw [if_neg ho]; exact ih h

theorem execCallbacks_explained {W : World} {M : Wording} {a : Argus} {p : Ptr} {o : Opt} {arg : Option Str}
    {r : Int × Argus} (ho : a.getOpt p = .ok o) (hb : o.BuiltIn) (h : execCallbacks W a p arg = .ok r) :
    Explained (TextFault W M o arg) r.1 (execMessages W M a p arg) := by
  unfold execCallbacks at h
  unfold execMessages
  rw [ho, Out.ok_bind] at h ⊢
  cases hh : o.handler with
  | none =>
    simp only [hh, Out.ok.injEq] at h ⊢; subst h
    exact .named (f := fun n => c!"Option " ++ n ++ c!" has no handler") (by simp only; decide) (by simp only; decide)
      (fun n hn => .noHandler n hh hn)
  | some hd =>
    simp only [hh] at h ⊢
    obtain ⟨pre, hp, h1⟩ := Out.bind_eq_ok h
    rw [hp]
    simp only [Out.ok_bind]
    have he := runPreAll_explained (M := M) (o := o) _ (fun _ h => h) hb.validators hp
    split at h1
    · rename_i hc
      simp only [if_pos hc]
      simp only [Out.ok.injEq] at h1; subst h1; exact he.ret
    · rename_i hc
      simp only [if_neg hc]
      have hc' : pre.1 = Err.success := by simpa using hc
      rw [hc'] at he
      refine he.after ?_
      obtain ⟨q, hq, h2⟩ := Out.bind_eq_ok h1
      have hx := runHandler_explained (M := M) hh (fun id hid => hb.handler id (hid ▸ hh)) hq
      split at h2
      · simp only [Out.ok.injEq] at h2; subst h2; exact hx
      · rename_i hs
        have hs' : q.1 = Err.success := by simpa using hs
        rw [hs'] at hx
        simp only [Out.ok.injEq] at h2; subst h2
        intro m hm
        rcases hx m hm with ⟨_, e⟩ | ⟨e, _⟩
        · refine .inl ⟨?_, e⟩
          simp only
          split
          · exact .inr rfl
          · exact .inl rfl
        · exact absurd rfl e

end Argus
