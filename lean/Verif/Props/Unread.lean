import Verif.Lemmas.Unread
import Verif.Props.Explicit
import Verif.Spec.Sample

/-!
# C101: texts are passed on unread

`ToldOtherwise T a b`: the program `b` is `a`, with other texts in the options that do not read them. Which text may stand for
which is an arbitrary relation `T.text`.
-/

set_option autoImplicit false

namespace Argus

variable {T : Telling}

/-- **C101** Two lines ask for the same, but for the texts of string options, string arrays and string lists that have no
    validators but V_COUNT, and two environments say the same but for such texts. Then the outcomes are the same: same end,
    same messages, same subcommands, same error code. Every other option is the same in all respects, and each of these
    options holds the texts of its own line where the other holds those of the other. -/
theorem C101_texts_do_not_matter (W : World) (a b : Argus) (args args' : List Str) (h : ToldOtherwise T a b)
    (he : Alongside (T.Asks a.tables) (a.asks args) (b.asks args')) (w : ParseEnd) (a' : Argus)
    (ha : argusParse W T.env a args = .ok (w, a')) :
    ∃ b', argusParse W T.env' b args' = .ok (w, b') ∧ b'.out = a'.out ∧ b'.stack = a'.stack ∧ b'.errorCode = a'.errorCode ∧
      b'.tables.map List.length = a'.tables.map List.length ∧
      ∀ p o, a'.getOpt p = .ok o → ∃ o', b'.getOpt p = .ok o' ∧ (¬ o.Unread → o' = o) ∧
        (o.Unread → { o' with value := o.value } = o ∧ ToldVal (T.text o.declared) o.value o'.value) := by
  have key := told_argusParse (W := W) h he
  rw [ha] at key
  cases hb : argusParse W T.env' b args' with
  | ub u => rw [hb] at key; exact key.elim
  | ok r =>
    rw [hb] at key
    obtain ⟨h1, h2⟩ := key
    simp only at h1 h2
    refine ⟨r.2, by rw [← h1], h2.out, h2.stack, h2.errorCode, h2.sizes, fun p o ho => ?_⟩
    rcases h2.getOpt p with ⟨x, x', h3, h4, h5⟩ | ⟨u, h3, _⟩
    · rw [ho] at h3; cases h3
      exact ⟨x', h4, h5.reader, fun hu => ⟨h5.same, (h5.otherTexts hu).2⟩⟩
    · rw [ho] at h3; cases h3

/-- **C101** Undefined behaviour does not depend on such texts, either. -/
theorem C101_texts_do_not_matter_ub (W : World) (a b : Argus) (args args' : List Str) (h : ToldOtherwise T a b)
    (he : Alongside (T.Asks a.tables) (a.asks args) (b.asks args')) (u : Ub) (ha : argusParse W T.env a args = .ub u) :
    argusParse W T.env' b args' = .ub u := by
  have key := told_argusParse (W := W) h he
  rw [ha] at key
  cases hb : argusParse W T.env' b args' with
  | ub v => rw [hb] at key; rw [show u = v from key]
  | ok r => rw [hb] at key; exact key.elim

/-! ### Lines that are spelled out -/

/-- What a relation between texts has to respect: nothing for nothing, a text for a text. -/
structure TextForText (G : Opt → Option Str → Option Str → Prop) : Prop where
  none_left : ∀ {o x'}, G o none x' → x' = none
  some_left : ∀ {o s x'}, G o (some s) x' → ∃ s', x' = some s'

theorem given_textForText : TextForText T.Given where
  none_left h := by
    rcases h with ⟨_, h⟩ | ⟨_, ⟨_, h⟩ | ⟨s, s', h, _⟩⟩
    · exact h
    · exact h
    · cases h
  some_left {_ s _} h := by
    rcases h with ⟨_, h⟩ | ⟨_, ⟨h, _⟩ | ⟨t, t', _, h, _⟩⟩
    · exact ⟨s, h⟩
    · cases h
    · exact ⟨t', h⟩

theorem asks_by {tables : List (List Opt)} {x y : Act} (h : T.Asks tables x y) : AskBy T.Given tables x y := by
  cases x <;> cases y <;> exact h

theorem AskBy.give_left {G : Opt → Option Str → Option Str → Prop} {tables : List (List Opt)} {p : Ptr} {x : Option Str} {y : Act}
    (h : AskBy G tables (.give p x) y) : ∃ x', y = .give p x' ∧ ∀ o, placeAt tables p = some o → G o x x' := by
  cases y with
  | give q x' => obtain ⟨rfl, h⟩ := h; exact ⟨x', rfl, h⟩
  | enter _ => exact absurd (show Act.enter _ = Act.give _ _ from h) (by simp)
  | fail _ => exact absurd (show Act.fail _ = Act.give _ _ from h) (by simp)
  | noTable => exact absurd (show Act.noTable = Act.give _ _ from h) (by simp)

/-- A line that is spelled out can be spelled out with other texts. -/
theorem Explicit.retell {G : Opt → Option Str → Option Str → Prop} (hG : TextForText G) {tables : List (List Opt)} {t : Option Nat} {pos : Nat} {only : Bool} {args : List Str} {acts : List Act}
    (he : Explicit tables t pos only args acts) : ∀ {acts' : List Act}, Alongside (AskBy G tables) acts acts' →
    Alongside (StaysWord tables) acts acts' → ∃ args', Explicit tables t pos only args' acts' ∧ args'.length = args.length := by
  induction he with
  | done t pos only =>
    intro acts' h _
    cases acts' with
    | nil => exact ⟨[], .done t pos only, rfl⟩
    | cons _ _ => exact h.elim
  | stop t pos rest acts _ ih =>
    intro acts' h hw
    obtain ⟨r, h1, h2⟩ := ih h hw
    exact ⟨_, .stop t pos r acts' h1, by simp [h2]⟩
  | flag t pos os name i o rest acts hk hn hv g1 g2 g3 _ ih =>
    intro acts' h hw
    cases acts' with
    | nil => exact h.elim
    | cons y ys =>
      obtain ⟨r, h1, h2⟩ := ih h.2 hw.2
      obtain ⟨x', rfl, hx⟩ := h.1.give_left
      cases hG.none_left (hx o (by simp [placeAt, hk, hn.1]))
      exact ⟨_, .flag t pos os name i o r ys hk hn hv g1 g2 g3 h1, by simp [h2]⟩
  | value t pos os name v i o rest acts hk hn hv g1 g2 g3 _ ih =>
    intro acts' h hw
    cases acts' with
    | nil => exact h.elim
    | cons y ys =>
      obtain ⟨r, h1, h2⟩ := ih h.2 hw.2
      obtain ⟨x', rfl, hx⟩ := h.1.give_left
      obtain ⟨v', rfl⟩ := hG.some_left (hx o (by simp [placeAt, hk, hn.1]))
      exact ⟨_, .value t pos os name v' i o r ys hk hn hv g1 g2 g3 h1, by simp [h2]⟩
  | command t pos os name i o rest acts hk hd hn hm _ ih =>
    intro acts' h hw
    cases acts' with
    | nil => exact h.elim
    | cons y ys =>
      obtain ⟨r, h1, h2⟩ := ih h.2 hw.2
      have hy : y = .enter ⟨t, i⟩ := by have := h.1; cases y <;> exact this
      subst hy
      exact ⟨_, .command t pos os name i o r ys hk hd hn hm h1, by simp [h2]⟩
  | word t pos os arg i o rest acts hk hd hb hs _ ih =>
    intro acts' h hw
    cases acts' with
    | nil => exact h.elim
    | cons y ys =>
      obtain ⟨r, h1, h2⟩ := ih h.2 hw.2
      obtain ⟨x', rfl, hx⟩ := h.1.give_left
      obtain ⟨v', rfl⟩ := hG.some_left (hx o (by simp [placeAt, hk, (slotAt_get hs).1]))
      rcases hw.1 with rfl | hp
      · exact ⟨_, .word t pos os v' i o r ys hk hd hb hs h1, by simp [h2]⟩
      · obtain ⟨k1, k2⟩ := hp os o hk (slotAt_get hs).1 (slotAt_get hs).2
        exact ⟨_, .word t pos os v' i o r ys hk k1 k2 hs h1, by simp [h2]⟩
  | number t pos os arg i o rest acts hk hn hs _ ih =>
    intro acts' h hw
    cases acts' with
    | nil => exact h.elim
    | cons y ys =>
      obtain ⟨r, h1, h2⟩ := ih h.2 hw.2
      obtain ⟨x', rfl, hx⟩ := h.1.give_left
      obtain ⟨v', rfl⟩ := hG.some_left (hx o (by simp [placeAt, hk, (slotAt_get hs).1]))
      rcases hw.1 with rfl | hp
      · exact ⟨_, .number t pos os v' i o r ys hk hn hs h1, by simp [h2]⟩
      · obtain ⟨k1, k2⟩ := hp os o hk (slotAt_get hs).1 (slotAt_get hs).2
        exact ⟨_, .word t pos os v' i o r ys hk k1 k2 hs h1, by simp [h2]⟩
  | after t pos os arg i o rest acts hk hn hs _ ih =>
    intro acts' h hw
    cases acts' with
    | nil => exact h.elim
    | cons y ys =>
      obtain ⟨r, h1, h2⟩ := ih h.2 hw.2
      obtain ⟨x', rfl, hx⟩ := h.1.give_left
      obtain ⟨v', rfl⟩ := hG.some_left (hx o (by simp [placeAt, hk, (slotAt_get hs).1]))
      refine ⟨_, .after t pos os v' i o r ys hk ?_ hs h1, by simp [h2]⟩
      rcases hw.1 with rfl | hp
      · exact hn
      · obtain ⟨k1, _⟩ := hp os o hk (slotAt_get hs).1 (slotAt_get hs).2
        rintro rfl
        exact k1 rfl

/-- The same cell on both sides. -/
theorem toldWord_self {r : Str → Str → Prop} (hr : ∀ s, r s s) (w : Word) : ToldWord r w w := by
  cases w <;> first | exact hr _ | exact rfl

theorem alongside_self {α : Type} {r : α → α → Prop} (hr : ∀ x, r x x) : ∀ l : List α, Alongside r l l
  | [] => trivial
  | x :: xs => ⟨hr x, alongside_self hr xs⟩

theorem toldVal_self {r : Str → Str → Prop} (hr : ∀ s, r s s) (v : Val) : ToldVal r v v := by
  cases v with
  | word w => exact toldWord_self hr w
  | arr cs => exact alongside_self (toldWord_self hr) cs
  | map cs => exact rfl
  | dangling => exact rfl

theorem Telling.Given.self (hr : ∀ d s, T.text d s s) (o : Opt) (x : Option Str) : T.Given o x x := by
  by_cases hu : o.Unread
  · refine .inr ⟨hu, ?_⟩
    cases x with
    | none => exact .inl ⟨rfl, rfl⟩
    | some s => exact .inr ⟨s, s, rfl, rfl, fun _ => rfl, alongside_self (hr _) _⟩
  · exact .inl ⟨hu, rfl⟩

/-- A program beside itself, in one environment. -/
theorem toldOtherwise_self (hr : ∀ d s, T.text d s s) {a : Argus} (hp : a.envPrefix = T.envPrefix) (he : T.env' = T.env) :
    ToldOtherwise T a a := by
  refine ⟨rfl, fun p o ho => ⟨o, ho, rfl, ?_, ?_⟩, rfl, hp⟩
  · by_cases hu : o.Unread
    · exact .inr ⟨hu, toldVal_self (hr _) _⟩
    · exact .inl ⟨hu, rfl⟩
  · rw [he]; exact .self hr o _

/-- **C101** In a spelled-out line, the text of such an option or argument can be replaced by any other text behind `--name=`,
    and by any other word in the place of an argument: the line has the same form, and the outcome is the same but for the
    texts. -/
theorem C101_other_text (a : Argus) (args : List Str) (acts acts' : List Act) (hr : ∀ d s, T.text d s s)
    (hp : a.envPrefix = T.envPrefix) (hen : T.env' = T.env) (he : Explicit a.tables (some a.root) 0 false args acts)
    (ht : Alongside (T.Asks a.tables) acts acts') (hw : Alongside (StaysWord a.tables) acts acts') :
    ∃ args', args'.length = args.length ∧ a.asks args' = acts' ∧
      args'.filter (fun x => x != c!"--") = acts'.map (Act.spelled a.tables) ∧
      ∀ (W : World) (w : ParseEnd) (a' : Argus), argusParse W T.env a args = .ok (w, a') →
        ∃ b', argusParse W T.env a args' = .ok (w, b') ∧ b'.out = a'.out ∧ b'.stack = a'.stack ∧
          ∀ p o, a'.getOpt p = .ok o → ∃ o', b'.getOpt p = .ok o' ∧ (¬ o.Unread → o' = o) ∧
            (o.Unread → { o' with value := o.value } = o ∧ ToldVal (T.text o.declared) o.value o'.value) := by
  obtain ⟨args', h1, h2⟩ := he.retell given_textForText (ht.imp fun _ _ h => asks_by h) hw
  refine ⟨args', h2, h1.written.reads.1, h1.form, fun W w a' ha => ?_⟩
  have e1 : a.asks args = acts := he.written.reads.1
  have e2 : a.asks args' = acts' := h1.written.reads.1
  obtain ⟨b', g1, g2, g3, _, _, g4⟩ := C101_texts_do_not_matter W a a args args' (toldOtherwise_self hr hp hen)
    (by rw [e1, e2]; exact ht) w a' ha
  rw [hen] at g1
  exact ⟨b', g1, g2, g3, g4⟩

/-- **C101** So whatever such texts an accepted line has, there is an accepted line with any others. -/
theorem C101_accepted (W : World) (a a' : Argus) (args : List Str) (acts' : List Act) (hl : LongNamed a.tables)
    (hps : PlainSubs a.tables) (hr : ∀ d s, T.text d s s) (hp : a.envPrefix = T.envPrefix) (hen : T.env' = T.env)
    (ht : Alongside (T.Asks a.tables) (a.asks args) acts') (hw : Alongside (StaysWord a.tables) (a.asks args) acts')
    (hok : argusParse W T.env a args = .ok (.returned Err.success, a')) :
    ∃ args' b', a.asks args' = acts' ∧ argusParse W T.env a args' = .ok (.returned Err.success, b') ∧ b'.stack = a'.stack ∧
      ∀ p o, a'.getOpt p = .ok o → ∃ o', b'.getOpt p = .ok o' ∧ (¬ o.Unread → o' = o) ∧
        (o.Unread → { o' with value := o.value } = o ∧ ToldVal (T.text o.declared) o.value o'.value) := by
  obtain ⟨line, he, hline⟩ := C91_accepted W T.env a a' args hl hps hok
  obtain ⟨args', _, g1, _, g⟩ := C101_other_text a line _ acts' hr hp hen he ht hw
  obtain ⟨b', k1, _, k2, k3⟩ := g W _ a' hline
  exact ⟨args', b', g1, k1, k2, k3⟩

/-! ### Reading the options -/

theorem told_findNameIn {a b : Argus} (h : ToldOtherwise T a b) (t : Option Nat) (n : Str) : b.findNameIn t n = a.findNameIn t n := by
  unfold Argus.findNameIn Argus.table
  cases t with
  | none => rfl
  | some k =>
    simp only
    cases hk : a.tables[k]? with
    | none => rw [h.noRow hk]
    | some os =>
      obtain ⟨os', h1, h2⟩ := h.row hk
      rw [h1]
      simp only [Out.ok_bind, findName_retold h2]

theorem told_findRelative {a b : Argus} (h : ToldOtherwise T a b) (n : Str) : ∀ ps : List Ptr, b.findRelative n ps = a.findRelative n ps
  | [] => by
    unfold Argus.findRelative
    rw [h.root]; exact told_findNameIn h _ n
  | p :: ps => by
    unfold Argus.findRelative
    rcases h.getOpt p with ⟨o, o', h1, h2, h3⟩ | ⟨u, h1, h2⟩
    · rw [h1, h2]
      simp only [Out.ok_bind, h3.subOptions, told_findNameIn h, told_findRelative h n ps]
    · rw [h1, h2]; rfl

theorem told_findComponents {a b : Argus} (h : ToldOtherwise T a b) : ∀ (n : Nat) (c : Str) (t : Option Nat) (ps : List Ptr),
    b.findComponents n c t ps = a.findComponents n c t ps
  | 0, c, t, ps => by unfold Argus.findComponents; exact told_findNameIn h _ _
  | n + 1, c, t, ps => by
    unfold Argus.findComponents
    cases strchrSplit 46 c with
    | none => exact told_findNameIn h _ _
    | some x =>
      cases ps with
      | nil => rfl
      | cons p ps =>
        simp only
        rcases h.getOpt p with ⟨o, o', h1, h2, h3⟩ | ⟨u, h1, h2⟩
        · rw [h1, h2]
          simp only [Out.ok_bind, h3.subOptions, h3.name, told_findComponents h n]
        · rw [h1, h2]; rfl

theorem told_findPath {a b : Argus} (h : ToldOtherwise T a b) (path : Str) : b.findPath path = a.findPath path := by
  unfold Argus.findPath
  rw [h.root, h.stack, told_findNameIn h, told_findComponents h, told_findRelative h]

/-- **C101** After both parses, every path names the same option. It is set in both or in neither, it has as many values, and it
    reads the same, or the one text where the other has the other. -/
theorem C101_same_answers (W : World) (a b : Argus) (args args' : List Str) (h : ToldOtherwise T a b)
    (he : Alongside (T.Asks a.tables) (a.asks args) (b.asks args')) (w w' : ParseEnd) (a' b' : Argus)
    (ha : argusParse W T.env a args = .ok (w, a')) (hb : argusParse W T.env' b args' = .ok (w', b')) (path : Str) :
    (do let r ← argusIsSet b' path; Out.ok r.1) = (do let r ← argusIsSet a' path; Out.ok r.1) ∧
    (do let r ← argusCount b' path; Out.ok r.1) = (do let r ← argusCount a' path; Out.ok r.1) ∧
    ∀ v a2, argusGet a' path = .ok (v, a2) → ∃ v' b2, argusGet b' path = .ok (v', b2) ∧ (v' = v ∨ ∃ d, ToldVal (T.text d) v v') := by
  have hk := told_argusParse (W := W) h he
  rw [ha, hb] at hk
  have h2 : ToldOtherwise T a' b' := hk.2
  have key : (∃ u, a'.lookup path = .ub u ∧ b'.lookup path = .ub u) ∨
      (a'.lookup path = .ok none ∧ b'.lookup path = .ok none) ∨
      ∃ o o', a'.lookup path = .ok (some o) ∧ b'.lookup path = .ok (some o') ∧ Retold T o o' := by
    unfold Argus.lookup
    rw [told_findPath h2]
    cases a'.findPath path with
    | ub u => exact .inl ⟨u, rfl, rfl⟩
    | ok q =>
      cases q with
      | none => exact .inr (.inl ⟨rfl, rfl⟩)
      | some p =>
        simp only [Out.ok_bind]
        rcases h2.getOpt p with ⟨o, o', h1, h2, h3⟩ | ⟨u, h1, h2⟩
        · rw [h1, h2]; exact .inr (.inr ⟨o, o', rfl, rfl, h3⟩)
        · rw [h1, h2]; exact .inl ⟨u, rfl, rfl⟩
  unfold argusGet argusIsSet argusCount
  rcases key with ⟨u, e1, e2⟩ | ⟨e1, e2⟩ | ⟨o, o', e1, e2, hr⟩
  · rw [e1, e2]
    exact ⟨rfl, rfl, fun v a2 hv => (nomatch hv)⟩
  · rw [e1, e2]
    refine ⟨rfl, rfl, fun v a2 hv => ?_⟩
    simp only [Out.ok_bind, Out.ok.injEq, Prod.mk.injEq] at hv
    exact ⟨_, _, rfl, .inl hv.1⟩
  · rw [e1, e2]
    simp only [Out.ok_bind, hr.isSet, hr.valueCount, true_and]
    intro v a2 hv
    simp only [Out.ok.injEq, Prod.mk.injEq] at hv
    refine ⟨_, _, rfl, ?_⟩
    rw [← hv.1]
    rcases hr.value with ⟨_, h1⟩ | ⟨_, h1⟩
    · exact .inl h1
    · exact .inr ⟨_, h1⟩

/-! ### A case -/

theorem unread_of {o : Opt} (h : ((o.handler == some .string || (o.handler == some .arrayString || o.handler == some .variadicString) &&
    !o.flags.has .sorted && !o.flags.has .unique) && !o.flags.has .exit && (o.validators.getD []).isEmpty) = true) : o.Unread := by
  simp only [Bool.and_eq_true, Bool.or_eq_true, beq_iff_eq, Bool.not_eq_true', List.isEmpty_iff] at h
  obtain ⟨⟨h1, h2⟩, h3⟩ := h
  refine ⟨?_, h2, by rw [h3]; simp⟩
  rcases h1 with h1 | ⟨⟨h1, h4⟩, h5⟩
  · exact .inl h1
  · exact .inr ⟨h1, h4, h5⟩

theorem asks_text {tables : List (List Opt)} {p : Ptr} {s s' : Str} (h : ∃ o, placeAt tables p = some o ∧ o.Unread ∧
    (o.handler = some .arrayString → s'.contains 44 = s.contains 44) ∧ Alongside (T.text o.declared) (o.values s) (o.values s')) :
    T.Asks tables (.give p (some s)) (.give p (some s')) := by
  obtain ⟨o, h1, h2, h3, h4⟩ := h
  refine ⟨rfl, fun o' ho' => ?_⟩
  rw [h1] at ho'; cases ho'
  exact .inr ⟨h2, .inr ⟨s, s', rfl, rfl, h3, h4⟩⟩

theorem asks_self {tables : List (List Opt)} (hr : ∀ d s, T.text d s s) (x : Act) : T.Asks tables x x := by
  cases x with
  | give p x => exact ⟨rfl, fun o _ => .self hr o x⟩
  | enter _ => exact rfl
  | fail _ => exact rfl
  | noTable => exact rfl

/-- Texts are kept or turned round. -/
def Sample.turned : Telling where
  text _ s s' := s' = s ∨ s' = s.reverse
  env := Sample.noEnv
  env' := Sample.noEnv
  envPrefix := none

/-- One line of the sample program. -/
def Sample.oneLine : List Str :=
  [c!"-v", c!"-o", c!"abc", c!"-t", c!"ab,--cd", c!"report", c!"-n3", c!"add", c!"5", c!"pq", c!"rs"]

/-- Another line with the texts turned round, and written otherwise. -/
def Sample.otherLine : List Str :=
  [c!"--verbose", c!"--output=cba", c!"--tags=ba,dc--", c!"troper", c!"--num", c!"3", c!"add", c!"5", c!"--", c!"qp", c!"sr"]

theorem turned_lines : Alongside (Sample.turned.Asks Sample.prog.tables) (Sample.prog.asks Sample.oneLine)
    (Sample.prog.asks Sample.otherLine) := by
  have e1 : Sample.prog.asks Sample.oneLine = [.give ⟨0, 1⟩ none, .give ⟨0, 2⟩ (some c!"abc"), .give ⟨0, 4⟩ (some c!"ab,--cd"),
      .give ⟨0, 7⟩ (some c!"report"), .give ⟨0, 3⟩ (some c!"3"), .enter ⟨0, 8⟩, .give ⟨1, 2⟩ (some c!"5"),
      .give ⟨1, 3⟩ (some c!"pq"), .give ⟨1, 3⟩ (some c!"rs")] := by decide +kernel
  have e2 : Sample.prog.asks Sample.otherLine = [.give ⟨0, 1⟩ none, .give ⟨0, 2⟩ (some c!"cba"), .give ⟨0, 4⟩ (some c!"ba,dc--"),
      .give ⟨0, 7⟩ (some c!"troper"), .give ⟨0, 3⟩ (some c!"3"), .enter ⟨0, 8⟩, .give ⟨1, 2⟩ (some c!"5"),
      .give ⟨1, 3⟩ (some c!"qp"), .give ⟨1, 3⟩ (some c!"sr")] := by decide +kernel
  have hr : ∀ d s, Sample.turned.text d s s := fun _ _ => .inl rfl
  rw [e1, e2]
  refine ⟨asks_self hr _, asks_text ⟨_, rfl, unread_of (by decide +kernel), ?_, .inr (by decide +kernel), trivial⟩,
    asks_text ⟨_, rfl, unread_of (by decide +kernel), ?_, .inr (by decide +kernel), .inr (by decide +kernel), trivial⟩,
    asks_text ⟨_, rfl, unread_of (by decide +kernel), ?_, .inr (by decide +kernel), trivial⟩, asks_self hr _, asks_self hr _,
    asks_self hr _,
    asks_text ⟨_, rfl, unread_of (by decide +kernel), ?_, .inr (by decide +kernel), trivial⟩,
    asks_text ⟨_, rfl, unread_of (by decide +kernel), ?_, .inr (by decide +kernel), trivial⟩, trivial⟩ <;> decide +kernel

/-- **C101** applies: both lines are accepted, and the second leaves what the first leaves, with the texts kept or turned. -/
example : ∃ a' b', argusParse Sample.world Sample.noEnv Sample.prog Sample.oneLine = .ok (.returned Err.success, a') ∧
    argusParse Sample.world Sample.noEnv Sample.prog Sample.otherLine = .ok (.returned Err.success, b') ∧ b'.stack = a'.stack ∧
    ∀ p o, a'.getOpt p = .ok o → ∃ o', b'.getOpt p = .ok o' ∧ (¬ o.Unread → o' = o) ∧
      (o.Unread → ToldVal (fun s s' => s' = s ∨ s' = s.reverse) o.value o'.value) := by
  have key : ∀ a', argusParse Sample.world Sample.noEnv Sample.prog Sample.oneLine = .ok (.returned Err.success, a') → _ :=
    fun a' h => C101_texts_do_not_matter (T := Sample.turned) Sample.world Sample.prog Sample.prog Sample.oneLine Sample.otherLine
      (toldOtherwise_self (T := Sample.turned) (fun _ s => Or.inl (rfl : s = s)) rfl rfl) turned_lines _ a' h
  obtain ⟨a', h⟩ : ∃ a', argusParse Sample.world Sample.noEnv Sample.prog Sample.oneLine = .ok (.returned Err.success, a') := ⟨_, rfl⟩
  obtain ⟨b', h1, _, h2, _, _, h3⟩ := key a' h
  refine ⟨a', b', h, h1, h2, fun p o ho => ?_⟩
  obtain ⟨o', k1, k2, k3⟩ := h3 p o ho
  exact ⟨o', k1, k2, fun hu => (k3 hu).2⟩

/-- What the second line leaves, seen directly. -/
example : (argusParse Sample.world Sample.noEnv Sample.prog Sample.otherLine).toOption.map (fun r =>
    (r.2.tables[0]?.getD [])[4]?.map (·.value)) = some (some (.arr [.ptr c!"ba", .ptr c!"dc--"])) := by decide +kernel

end Argus
