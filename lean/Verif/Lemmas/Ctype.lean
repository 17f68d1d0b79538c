import Verif.Lemmas.FrameApi
import Verif.Lemmas.SameText
import Verif.Lemmas.Split
import Verif.Lemmas.Strings
import Verif.Model.Ctype
import Verif.Spec.Ctype

/-! # Classification of bytes: the checked parse against the parse -/

set_option autoImplicit false

namespace Argus

/-- The same, or undefined where `P` fails. -/
def Near {α : Type} (P : Prop) (r s : Out α) : Prop := r = s ∨ (¬ P ∧ r = .ub .outOfBounds)

namespace Near
variable {P : Prop} {α β : Type}

theorem refl (r : Out α) : Near P r r := .inl rfl

theorem of_eq {r s : Out α} (h : r = s) : Near P r s := .inl h

theorem bind {r s : Out α} {f g : α → Out β} (h : Near P r s) (hf : ∀ x, s = .ok x → Near P (f x) (g x)) :
    Near P (r >>= f) (s >>= g) := by
  rcases h with rfl | ⟨h1, rfl⟩
  · cases r with
    | ub u => exact .inl rfl
    | ok x => exact hf x rfl
  · exact .inr ⟨h1, rfl⟩

theorem bind_ok {r : Out α} {x : α} {f : α → Out β} {t : Out β} (h : Near P r (.ok x)) (hf : Near P (f x) t) :
    Near P (r >>= f) t := by
  rcases h with rfl | ⟨h1, rfl⟩
  · exact hf
  · exact .inr ⟨h1, rfl⟩

theorem same {r : Out α} {f g : α → Out β} (hf : ∀ x, r = .ok x → Near P (f x) (g x)) : Near P (r >>= f) (r >>= g) :=
  bind (refl r) hf

theorem eq {r s : Out α} (h : Near P r s) (hp : P) : r = s := by
  rcases h with h | ⟨h, _⟩
  · exact h
  · exact absurd hp h

end Near

theorem plainByte_zero : PlainByte 0 := .inl (by decide)

section
variable {P : Prop} {sgn : Bool}

theorem ctypeArg_near {c : Byte} (h : P → sgn = false ∨ PlainByte c) : Near P (ctypeArg sgn c) (.ok c) := by
  unfold ctypeArg
  split
  · rename_i hc
    refine .inr ⟨fun hp => ?_, rfl⟩
    simp only [Bool.and_eq_true, decide_eq_true_eq, bne_iff_ne] at hc
    rcases h hp with h | h | h
    · rw [h] at hc; exact absurd hc.1.1 (by decide)
    · exact absurd h (UInt8.not_lt.2 hc.1.2)
    · exact hc.2 h
  · exact .inl rfl

theorem isDigitC_near {c : Byte} (h : P → sgn = false ∨ PlainByte c) : Near P (isDigitC sgn c) (.ok (isDigit c)) :=
  (ctypeArg_near h).bind_ok (.refl _)

theorem toLowerC_near {c : Byte} (h : P → sgn = false ∨ PlainByte c) : Near P (toLowerC sgn c) (.ok (toLower c)) :=
  (ctypeArg_near h).bind_ok (.refl _)

theorem toUpperC_near {c : Byte} (h : P → sgn = false ∨ PlainByte c) : Near P (toUpperC sgn c) (.ok (toUpper c)) :=
  (ctypeArg_near h).bind_ok (.refl _)

theorem mapBytes_near {f : Byte → Out Byte} {g : Byte → Byte} : ∀ (s : Str), (∀ c ∈ s, Near P (f c) (.ok (g c))) →
    Near P (mapBytes f s) (.ok (s.map g))
  | [], _ => .refl _
  | c :: s, h => by
    unfold mapBytes
    exact (h c (by simp)).bind_ok ((mapBytes_near s (fun d hd => h d (by simp [hd]))).bind_ok (.refl _))

theorem plain_each {s : Str} (h : P → sgn = false ∨ PlainText s) {c : Byte} (hc : c ∈ s) : P → sgn = false ∨ PlainByte c :=
  fun hp => (h hp).imp id (fun h => h c hc)

theorem plain_part {s t : Str} (h : P → sgn = false ∨ PlainText s) (ht : ∀ c ∈ t, c ∈ s) : P → sgn = false ∨ PlainText t :=
  fun hp => (h hp).imp id (fun h c hc => h c (ht c hc))

theorem plain_head {s : Str} (h : P → sgn = false ∨ PlainText s) : P → sgn = false ∨ PlainByte (headByte s) := by
  cases s with
  | nil => exact fun _ => .inr plainByte_zero
  | cons c s => exact plain_each h (c := c) (by simp)

theorem stringToBoolC_near {s : Str} (h : P → sgn = false ∨ PlainText s) : Near P (stringToBoolC sgn s) (.ok (stringToBool s)) := by
  unfold stringToBoolC stringToBool
  split
  · exact .refl _
  · refine (mapBytes_near s (g := toLower) (fun c hc => toLowerC_near (plain_each h hc))).bind_ok ?_
    simp only
    split
    · exact .refl _
    · split
      · exact .refl _
      · exact .refl _

theorem boolHandlerC_near {o : Opt} {arg : Option Str} (h : ∀ s, arg = some s → P → sgn = false ∨ PlainText s) :
    Near P (boolHandlerC sgn o arg) (boolHandler o arg) := by
  unfold boolHandlerC boolHandler
  cases arg with
  | none => exact .refl _
  | some s =>
    refine (stringToBoolC_near (h s rfl)).bind_ok ?_
    exact .refl _

theorem strchrSplit_sub {c : Byte} {s k v : Str} (h : strchrSplit c s = some (k, v)) : s = k ++ c :: v := by
  revert k v
  induction s with
  | nil => intro k v h; exact (nomatch h)
  | cons b s ih =>
    intro k v h
    unfold strchrSplit at h
    split at h
    · rename_i hb
      simp only [Option.some.injEq, Prod.mk.injEq] at h
      obtain ⟨rfl, rfl⟩ := h
      simp only [beq_iff_eq] at hb
      rw [hb]; rfl
    · cases he : strchrSplit c s with
      | none => rw [he] at h; exact (nomatch h)
      | some q =>
        rw [he] at h
        simp only [Option.map_some, Option.some.injEq, Prod.mk.injEq] at h
        obtain ⟨rfl, rfl⟩ := h
        rw [ih (k := q.1) (v := q.2) he]; rfl

theorem setKvBoolC_near {o : Opt} {s : Str} (h : P → sgn = false ∨ PlainText s) :
    Near P (setKvBoolC sgn o s) (setKvPair mapBoolConv o s) := by
  unfold setKvBoolC setKvPair
  cases he : strchrSplit 61 s with
  | none => exact .refl _
  | some q =>
    obtain ⟨k, v⟩ := q
    simp only
    have hs := strchrSplit_sub he
    refine (stringToBoolC_near (plain_part h (fun c hc => by rw [hs]; simp [hc]))).bind_ok ?_
    unfold mapBoolConv
    cases stringToBool v with
    | none => exact .refl _
    | some b => exact .refl _

theorem headByte_digit (r : Str) : isDigit (headByte r) = r.head?.any isDigit := by
  cases r with
  | nil => decide
  | cons c r => rfl

theorem headByte_sep (r : Str) : (r.head?.any fun d => isDigit d || d == 45) = (isDigit (headByte r) || headByte r == 45) := by
  cases r with
  | nil => decide
  | cons c r => rfl

theorem searchSepC_near : ∀ (s : Str) (prev : Option Byte), (P → sgn = false ∨ PlainText s) →
    (∀ p, prev = some p → P → sgn = false ∨ PlainByte p) → Near P (searchSepC sgn prev s) (.ok (searchSep prev s))
  | [], _, _, _ => .refl _
  | c :: r, prev, h, hp => by
    have hr : P → sgn = false ∨ PlainText r := plain_part h (fun d hd => by simp [hd])
    have ih := searchSepC_near r (some c) hr (fun p e => by cases e; exact plain_each h (by simp))
    unfold searchSepC searchSep
    by_cases hc : (c == 45 || c == 58) = true
    · rw [if_pos hc, hc]
      cases prev with
      | none => simpa using ih
      | some p =>
        refine (isDigitC_near (hp p rfl)).bind_ok ?_
        cases hd : isDigit p with
        | false =>
          simp only [Option.any_some, hd, Bool.and_false, Bool.false_and, Bool.false_eq_true, if_false]
          exact ih
        | true =>
          simp only [if_true, Option.any_some, hd, Bool.true_and, headByte_sep]
          refine (isDigitC_near (plain_head hr)).bind_ok ?_
          cases isDigit (headByte r) with
          | true => exact .refl _
          | false =>
            simp only [Bool.false_eq_true, if_false, Bool.false_or, beq_iff_eq]
            split
            · exact .refl _
            · exact ih
    · rw [if_neg hc, if_neg (by simp only [Bool.and_eq_true]; exact fun h => hc h.1.1)]
      exact ih

theorem parseIntRangeC_near {s : Str} (h : P → sgn = false ∨ PlainText s) :
    Near P (parseIntRangeC sgn s) (.ok (parseIntRange s)) := by
  unfold parseIntRangeC parseIntRange
  refine (searchSepC_near s none h (fun p e => (nomatch e))).bind_ok ?_
  cases searchSep none s with
  | some r => exact .refl _
  | none =>
    simp only
    split
    · exact .refl _
    · exact .refl _

theorem setValueIntC_near {o : Opt} {s : Str} (h : P → sgn = false ∨ PlainText s) :
    Near P (setValueIntC sgn o s) (setValueInt o s) := by
  unfold setValueIntC setValueInt
  exact (parseIntRangeC_near h).bind_ok (.refl _)

theorem setAll_near {f g : Opt → Str → Out HRes} : ∀ (vs : List Str) (o : Opt), (∀ o, ∀ v ∈ vs, Near P (f o v) (g o v)) →
    Near P (setAll f o vs) (setAll g o vs)
  | [], _, _ => .refl _
  | v :: vs, o, h => by
    unfold setAll
    refine (h o v (by simp)).bind (fun r _ => ?_)
    split
    · exact .refl _
    · exact (setAll_near vs r.2.1 (fun o w hw => h o w (by simp [hw]))).bind (fun _ _ => .refl _)

theorem fields_bytes {p : Byte → Bool} : ∀ (s : Str), ∀ f ∈ fields p s, ∀ c ∈ f, c ∈ s
  | [], f, hf, c, hc => by
    simp only [fields, List.mem_singleton] at hf
    rw [hf] at hc; exact hc
  | b :: s, f, hf, c, hc => by
    have ih := fields_bytes (p := p) s
    unfold fields at hf
    split at hf
    · rcases List.mem_cons.1 hf with hf | hf
      · rw [hf] at hc; exact (nomatch hc)
      · exact List.mem_cons_of_mem _ (ih f hf c hc)
    · cases he : fields p s with
      | nil =>
        rw [he] at hf
        simp only [List.mem_singleton] at hf
        rw [hf] at hc
        rw [List.mem_singleton.1 hc]; simp
      | cons w ws =>
        rw [he] at hf ih
        rcases List.mem_cons.1 hf with hf | hf
        · rw [hf] at hc
          rcases List.mem_cons.1 hc with hc | hc
          · rw [hc]; simp
          · exact List.mem_cons_of_mem _ (ih w (by simp) c hc)
        · exact List.mem_cons_of_mem _ (ih f (by simp [hf]) c hc)

theorem collect_near {f g : Opt → Str → Out HRes} {fl : Opt → Out Opt} {o : Opt} {arg : Option Str}
    (h : ∀ s, arg = some s → ∀ o v, (∀ c ∈ v, c ∈ s) → Near P (f o v) (g o v)) :
    Near P (collect f fl o arg) (collect g fl o arg) := by
  unfold collect
  cases arg with
  | none => exact .refl _
  | some s =>
    have hs : Near P (storeParts f o s) (storeParts g o s) := by
      unfold storeParts
      split
      · refine setAll_near _ _ (fun o v hv => h s rfl o v ?_)
        rw [split_eq] at hv
        exact fields_bytes s v (List.mem_filter.1 hv).1
      · exact h s rfl o s (fun c hc => hc)
    exact hs.bind (fun _ _ => .refl _)

theorem runHandlerC_near {W : World} {a : Argus} {h : Handler} {o : Opt} {arg : Option Str}
    (hc : h.Classifies → ∀ s, arg = some s → P → sgn = false ∨ PlainText s) :
    Near P (runHandlerC sgn W a h o arg) (runHandler W a h o arg) := by
  unfold runHandlerC
  split
  · exact boolHandlerC_near (hc (.inl rfl))
  · exact collect_near (fun s e o v hv => setValueIntC_near (plain_part (hc (.inr (.inl rfl)) s e) hv))
  · exact collect_near (fun s e o v hv => setKvBoolC_near (plain_part (hc (.inr (.inr rfl)) s e) hv))
  · exact .refl _

theorem execCallbacksC_near {W : World} {a : Argus} {p : Ptr} {arg : Option Str}
    (hc : P → sgn = false ∨ a.Classless ∨ ∀ s, arg = some s → PlainText s) :
    Near P (execCallbacksC sgn W a p arg) (execCallbacks W a p arg) := by
  unfold execCallbacksC execCallbacks
  refine .same (fun o ho => ?_)
  cases hh : o.handler with
  | none => exact .refl _
  | some h =>
    refine .same (fun pre _ => ?_)
    split
    · exact .refl _
    · refine (runHandlerC_near (fun hk s e hp => ?_)).bind (fun _ _ => .refl _)
      rcases hc hp with h1 | h1 | h1
      · exact .inl h1
      · obtain ⟨os, h2, h3⟩ := getOpt_eq_ok.1 ho
        exact absurd hk (h1 os (List.mem_of_getElem? h2) o (List.mem_of_getElem? h3) h hh)
      · exact .inr (h1 s e)

/-! ## The line -/

/-- The arguments are safe for the program. -/
def LineSafe (sgn : Bool) (a : Argus) (args : List Str) : Prop :=
  sgn = false ∨ ((∀ x ∈ args, DashPlain x) ∧ (a.Classless ∨ ∀ x ∈ args, PlainText x))

theorem Argus.Classless.later {a b : Argus} (h : a.Classless) (hs : b.shape = a.shape) : b.Classless := by
  intro os hos o ho hd e
  obtain ⟨k, hk⟩ := List.mem_iff_getElem?.1 hos
  obtain ⟨i, hi⟩ := List.mem_iff_getElem?.1 ho
  have hg : b.getOpt ⟨k, i⟩ = .ok o := getOpt_eq_ok.2 ⟨os, hk, hi⟩
  obtain ⟨o', h1, h2⟩ := shape_getOpt hs.symm hg
  obtain ⟨os', h3, h4⟩ := getOpt_eq_ok.1 h1
  have h5 : o'.handler = o.handler := (congrArg Opt.handler h2 : o'.meta.handler = o.meta.handler)
  exact h os' (List.mem_of_getElem? h3) o' (List.mem_of_getElem? h4) hd (h5.trans e)

theorem LineSafe.later {a b : Argus} {args args' : List Str} (h : P → LineSafe sgn a args) (hs : b.shape = a.shape)
    (hm : ∀ x ∈ args', x ∈ args) : P → LineSafe sgn b args' := fun hp =>
  (h hp).imp id (fun h => ⟨fun x hx => h.1 x (hm x hx), h.2.imp (fun h => h.later hs) (fun h x hx => h x (hm x hx))⟩)

theorem LineSafe.value {a : Argus} {args : List Str} {x v : Str} (h : P → LineSafe sgn a args) (hx : x ∈ args)
    (hv : ∀ c ∈ v, c ∈ x) : P → sgn = false ∨ a.Classless ∨ ∀ s, some v = some s → PlainText s := fun hp =>
  (h hp).imp id (fun h => h.2.imp id (fun h s e => by cases e; exact fun c hc => h x hx c (hv c hc)))

theorem LineSafe.none {a : Argus} : P → sgn = false ∨ a.Classless ∨ ∀ s, (none : Option Str) = some s → PlainText s :=
  fun _ => .inr (.inr (fun _ e => (nomatch e)))

theorem handlePositionalC_near {W : World} {a : Argus} {t : Option Nat} {x : Str} {pos : Nat} {args : List Str}
    (h : P → LineSafe sgn a args) (hx : x ∈ args) :
    Near P (handlePositionalC sgn W a t x pos) (handlePositional W a t x pos) := by
  unfold handlePositionalC handlePositional
  refine .same (fun os _ => ?_)
  cases t with
  | none => exact .refl _
  | some k =>
    cases findPositional os pos with
    | none => exact .refl _
    | some i => exact execCallbacksC_near (LineSafe.value h hx (fun c hc => hc))

theorem longParts_value {arg v : Str} (h : (longParts arg).2 = some v) : ∀ c ∈ v, c ∈ arg := by
  unfold longParts at h
  cases he : strchrSplit 61 arg with
  | none => rw [he] at h; exact (nomatch h)
  | some q =>
    rw [he] at h
    obtain ⟨k, w⟩ := q
    simp only [Option.some.injEq] at h
    subst h
    intro c hc
    rw [strchrSplit_sub he]
    simp [hc]

theorem handleLongC_near {W : World} {a : Argus} {t : Option Nat} {x la : Str} {rest : List Str}
    (h : P → LineSafe sgn a (x :: rest)) (hl : ∀ c ∈ la, c ∈ x) :
    Near P (handleLongC sgn W a t la rest) (handleLong W a t la rest) := by
  unfold handleLongC handleLong
  refine .same (fun os _ => ?_)
  cases t with
  | none => exact .refl _
  | some k =>
    cases findLname os (longParts la).1 with
    | none => exact .refl _
    | some i =>
      refine .same (fun o _ => ?_)
      split
      · exact (execCallbacksC_near LineSafe.none).bind (fun _ _ => .refl _)
      · cases hv : (longParts la).2 with
        | some v =>
          exact (execCallbacksC_near (LineSafe.value h (List.mem_cons_self ..)
            (fun c hc => hl c (longParts_value hv c hc)))).bind (fun _ _ => .refl _)
        | none =>
          cases rest with
          | nil => exact .refl _
          | cons v rest =>
            exact (execCallbacksC_near (LineSafe.value h (x := v) (by simp) (fun c hc => hc))).bind (fun _ _ => .refl _)

theorem handleShortC_near {W : World} {t : Option Nat} {x : Str} {rest : List Str} : ∀ (cs : Str) (a : Argus),
    (P → LineSafe sgn a (x :: rest)) → (∀ c ∈ cs, c ∈ x) →
    Near P (handleShortC sgn W t rest a cs) (handleShort W t rest a cs)
  | [], _, _, _ => .refl _
  | c :: cs, a, h, hs => by
    unfold handleShortC handleShort
    refine .same (fun os _ => ?_)
    cases t with
    | none => exact .refl _
    | some k =>
      cases findSname os c with
      | none => exact .refl _
      | some i =>
        refine .same (fun o _ => ?_)
        split
        · refine (execCallbacksC_near LineSafe.none).bind (fun r hr => ?_)
          split
          · exact .refl _
          · exact handleShortC_near cs r.2 (LineSafe.later h (execCallbacks_one hr).frame.shape (fun _ hx => hx))
              (fun d hd => hs d (by simp [hd]))
        · cases cs with
          | cons d cs =>
            exact (execCallbacksC_near (LineSafe.value h (List.mem_cons_self ..)
              (fun e he => hs e (List.mem_cons_of_mem _ he)))).bind (fun _ _ => .refl _)
          | nil =>
            cases rest with
            | nil => exact .refl _
            | cons v rest =>
              exact (execCallbacksC_near (LineSafe.value h (x := v) (by simp) (fun c hc => hc))).bind (fun _ _ => .refl _)

theorem looksNumericC_near {s : Str} (h : P → sgn = false ∨ DashPlain (45 :: s)) :
    Near P (looksNumericC sgn s) (.ok (looksNumeric s)) := by
  unfold looksNumericC
  have h1 : P → sgn = false ∨ PlainByte (headByte s) := by
    cases s with
    | nil => exact fun _ => .inr plainByte_zero
    | cons c r => exact fun hp => (h hp).imp id (fun h => h.1 c r rfl)
  refine (isDigitC_near h1).bind_ok ?_
  cases s with
  | nil => exact .refl _
  | cons c r =>
    simp only [headByte, List.head?_cons, Option.getD_some, looksNumeric, List.drop_succ_cons, List.drop_zero]
    cases isDigit c with
    | true => exact .refl _
    | false =>
      simp only [Bool.false_eq_true, if_false, Bool.false_or]
      by_cases hc : c = 46
      · subst hc
        simp only [if_true, beq_self_eq_true, Bool.true_and]
        have h2 : P → sgn = false ∨ PlainByte (headByte r) := by
          cases r with
          | nil => exact fun _ => .inr plainByte_zero
          | cons d r => exact fun hp => (h hp).imp id (fun h => h.2 d r rfl)
        have h3 := isDigitC_near h2
        rw [headByte_digit] at h3
        exact h3
      · rw [if_neg hc]
        have : (c == 46) = false := by simpa using hc
        rw [this, Bool.false_and]
        exact .refl _

theorem isNegNumberC_near {a : Argus} {t : Option Nat} {s : Str} {pos : Nat} (h : P → sgn = false ∨ DashPlain (45 :: s)) :
    Near P (isNegNumberC sgn a t s pos) (isNegNumber a t s pos) := by
  unfold isNegNumberC isNegNumber
  exact (looksNumericC_near h).bind_ok (.refl _)

theorem parseStepC_near {W : World} {t : Option Nat} {a : Argus} {pos : Nat} {only : Bool} {x : Str} {rest : List Str}
    (h : P → LineSafe sgn a (x :: rest)) :
    Near P (parseStepC sgn W t a pos only x rest) (parseStep W t a pos only x rest) := by
  have hpos : ∀ b, Near P (stepPositionalC sgn W t a pos b x) (stepPositional W t a pos b x) := fun b =>
    (handlePositionalC_near h (List.mem_cons_self ..)).bind (fun _ _ => .refl _)
  unfold parseStepC parseStep
  split
  · exact .refl _
  split
  · exact hpos true
  cases hl : startsWith [45, 45] x with
  | some la =>
    rw [startsWith_eq_some_iff] at hl
    refine (handleLongC_near (la := la) h (fun c hc => ?_)).bind (fun _ _ => .refl _)
    rw [hl]
    exact List.mem_append_right _ hc
  | none =>
    simp only
    cases hs : startsWith [45] x with
    | some sa =>
      rw [startsWith_eq_some_iff] at hs
      have hd : P → sgn = false ∨ DashPlain (45 :: sa) := fun hp =>
        (h hp).imp id (fun h => by have := h.1 x (List.mem_cons_self ..); rw [hs] at this; exact this)
      refine (isNegNumberC_near hd).bind (fun neg _ => ?_)
      split
      · exact hpos false
      · refine (handleShortC_near sa a h (fun c hc => ?_)).bind (fun _ _ => .refl _)
        rw [hs]
        exact List.mem_append_right _ hc
    | none =>
      refine .same (fun os _ => ?_)
      split
      · exact .refl _
      · cases t with
        | none => exact hpos false
        | some k =>
          cases (findSub os x).2 with
          | none => exact hpos false
          | some i => exact .refl _

theorem parseLoopC_near {W : World} : ∀ (args : List Str) (t : Option Nat) (a : Argus) (pos : Nat) (only skip : Bool),
    (P → LineSafe sgn a args) →
    Near P (parseLoopC sgn W t a pos only skip args) (parseLoop W t a pos only skip args)
  | [], _, _, _, _, _, _ => .of_eq (by simp [parseLoopC, parseLoop])
  | x :: rest, t, a, pos, only, true, h => by
    unfold parseLoopC parseLoop
    exact parseLoopC_near rest t a pos only false (LineSafe.later h rfl (fun y hy => by simp [hy]))
  | x :: rest, t, a, pos, only, false, h => by
    unfold parseLoopC parseLoop
    refine (parseStepC_near h).bind (fun st hst => ?_)
    have hf := parseStep_frame hst
    cases st with
    | done s a1 => exact .refl _
    | next a1 pos1 only1 used =>
      exact parseLoopC_near rest t a1 pos1 only1 used (LineSafe.later h hf.frame.shape (fun y hy => by simp [hy]))
    | enter t1 a1 =>
      exact parseLoopC_near rest t1 a1 0 false false (LineSafe.later h hf.1.shape (fun y hy => by simp [hy]))

/-! ## The environment -/

/-- The names and the environment are safe for the program. -/
def EnvSafe (sgn : Bool) (env : Env) (a : Argus) : Prop :=
  sgn = false ∨ (a.PlainNames ∧ (a.Classless ∨ ∀ n v, env n = some v → PlainText v))

theorem Argus.PlainNames.later {a b : Argus} (h : a.PlainNames) (hs : b.shape = a.shape) (hp : b.envPrefix = a.envPrefix) :
    b.PlainNames := by
  refine ⟨by rw [hp]; exact h.envPrefix, fun os hos o ho => ?_⟩
  obtain ⟨k, hk⟩ := List.mem_iff_getElem?.1 hos
  obtain ⟨i, hi⟩ := List.mem_iff_getElem?.1 ho
  have hg : b.getOpt ⟨k, i⟩ = .ok o := getOpt_eq_ok.2 ⟨os, hk, hi⟩
  obtain ⟨o', h1, h2⟩ := shape_getOpt hs.symm hg
  obtain ⟨os', h3, h4⟩ := getOpt_eq_ok.1 h1
  have e1 : o'.envName = o.envName := (congrArg Opt.envName h2 : o'.meta.envName = o.meta.envName)
  have e2 : o'.flags = o.flags := (congrArg Opt.flags h2 : o'.meta.flags = o.meta.flags)
  have e3 : o'.name = o.name := (congrArg Opt.name h2 : o'.meta.name = o.meta.name)
  have e4 : o'.lname = o.lname := (congrArg Opt.lname h2 : o'.meta.lname = o.meta.lname)
  have := h.names os' (List.mem_of_getElem? h3) o' (List.mem_of_getElem? h4)
  rw [e1, e2, e3, e4] at this
  exact this

theorem EnvSafe.later {env : Env} {a b : Argus} (h : P → EnvSafe sgn env a) (hs : b.shape = a.shape)
    (hp : b.envPrefix = a.envPrefix) : P → EnvSafe sgn env b := fun hP =>
  (h hP).imp id (fun h => ⟨h.1.later hs hp, h.2.imp (fun h => h.later hs) id⟩)

theorem plain_envBuffer {s : Str} (h : PlainText s) : PlainText (envBuffer s) := fun c hc => h c (List.mem_of_mem_take hc)

theorem plain_app {s t : Str} (hs : PlainText s) (ht : PlainText t) : PlainText (s ++ t) := fun c hc =>
  (List.mem_append.1 hc).elim (hs c) (ht c)

theorem plain_us : PlainText ([95] : Str) := fun c hc => by
  simp only [List.mem_singleton] at hc
  subst hc
  exact .inl (by decide)

theorem plain_getD {s : Option Str} (h : ∀ t, s = some t → PlainText t) : PlainText (s.getD []) := by
  cases s with
  | none => exact fun c hc => (nomatch hc)
  | some t => exact h t rfl

theorem envVarNameC_near {env : Env} {a : Argus} {p : Ptr} {o : Opt} (h : P → EnvSafe sgn env a) (ho : a.getOpt p = .ok o) :
    Near P (envVarNameC sgn a.envPrefix o) (.ok (envVarName a.envPrefix o)) := by
  unfold envVarNameC envVarName
  simp only
  cases he : o.envName with
  | some n =>
    simp only
    split
    · exact .refl _
    split
    · exact .refl _
    split
    · exact .refl _
    · exact .refl _
  | none =>
    simp only
    split
    · rename_i hf
      refine Near.bind_ok (x := List.map (fun c => if c == 45 then 95 else toUpper c) _) (mapBytes_near _ (fun c hc => ?_)) (.refl _)
      split
      · exact .refl _
      · refine toUpperC_near (fun hP => ?_)
        rcases h hP with h1 | h1
        · exact .inl h1
        · right
          obtain ⟨os, h2, h3⟩ := getOpt_eq_ok.1 ho
          have hn := h1.1.names os (List.mem_of_getElem? h2) o (List.mem_of_getElem? h3) he hf
          have hpre := plain_getD h1.1.envPrefix
          have hname : PlainText ((o.name.orElse fun _ => o.lname).getD []) := by
            cases e : o.name with
            | none => exact plain_getD hn.2
            | some s => exact hn.1 s e
          split at hc
          · exact plain_envBuffer hname c hc
          · split at hc
            · exact plain_envBuffer (plain_app (plain_app hpre plain_us) hname) c hc
            · exact plain_envBuffer (plain_app hpre hname) c hc
    · exact .refl _

theorem loadEnvStepC_near {W : World} {env : Env} {a : Argus} {p : Ptr} (h : P → EnvSafe sgn env a) :
    Near P (loadEnvStepC sgn W env a p) (loadEnvStep W env a p) := by
  unfold loadEnvStepC loadEnvStep
  refine .same (fun o ho => ?_)
  split
  · exact .refl _
  split
  · exact .refl _
  refine (envVarNameC_near h ho).bind_ok ?_
  cases envVarName a.envPrefix o with
  | none => exact .refl _
  | some n =>
    simp only
    cases hv : env n with
    | none => exact .refl _
    | some v =>
      simp only
      refine (execCallbacksC_near (fun hP => ?_)).bind (fun _ _ => .refl _)
      exact (h hP).imp id (fun h => h.2.imp id (fun h s e => by cases e; exact h n v hv))

theorem loadEnvLoopC_near {W : World} {env : Env} {k : Nat} : ∀ (n i : Nat) (a : Argus), (P → EnvSafe sgn env a) →
    Near P (loadEnvLoopC sgn W env k n i a) (loadEnvLoop W env k n i a)
  | 0, _, _, _ => .refl _
  | n + 1, i, a, h => by
    unfold loadEnvLoopC loadEnvLoop
    refine (loadEnvStepC_near h).bind (fun r hr => ?_)
    have hf := (loadEnvStep_one hr).inTable.frame
    split
    · exact .refl _
    · exact loadEnvLoopC_near n (i + 1) r.2 (EnvSafe.later h hf.shape hf.envPrefix)

theorem loadEnvTableC_near {W : World} {env : Env} {a : Argus} (h : P → EnvSafe sgn env a) (k : Nat) :
    Near P (loadEnvTableC sgn W env a k) (loadEnvTable W env a k) :=
  .same (fun _ _ => loadEnvLoopC_near _ _ _ h)

theorem loadEnvStackC_near {W : World} {env : Env} : ∀ (ps : List Ptr) (a : Argus), (P → EnvSafe sgn env a) →
    Near P (loadEnvStackC sgn W env a ps) (loadEnvStack W env a ps)
  | [], _, _ => .refl _
  | p :: ps, a, h => by
    unfold loadEnvStackC loadEnvStack
    refine .same (fun o _ => ?_)
    cases o.subOptions with
    | none => exact loadEnvStackC_near ps a h
    | some k =>
      refine (loadEnvTableC_near h k).bind (fun r hr => ?_)
      have hf := (loadEnvTable_frame hr).frame
      split
      · exact .refl _
      · exact loadEnvStackC_near ps r.2 (EnvSafe.later h hf.shape hf.envPrefix)

theorem loadEnvVarsC_near {W : World} {env : Env} {a : Argus} (h : P → EnvSafe sgn env a) :
    Near P (loadEnvVarsC sgn W env a) (loadEnvVars W env a) := by
  unfold loadEnvVarsC loadEnvVars
  refine (loadEnvTableC_near h _).bind (fun r hr => ?_)
  have hf := (loadEnvTable_frame hr).frame
  split
  · exact .refl _
  · exact loadEnvStackC_near _ r.2 (EnvSafe.later h hf.shape hf.envPrefix)

end

theorem argusParseC_near {sgn : Bool} {W : World} {env : Env} {a : Argus} {args : List Str} :
    Near (CtypeSafe sgn env a args) (argusParseC sgn W env a args) (argusParse W env a args) := by
  unfold argusParseC argusParse parseArgs
  have hl : CtypeSafe sgn env a args → LineSafe sgn a args := fun h =>
    h.imp id (fun h => ⟨h.2.1, h.2.2.imp id (fun h => h.1)⟩)
  have he : CtypeSafe sgn env a args → EnvSafe sgn env a := fun h =>
    h.imp id (fun h => ⟨h.1, h.2.2.imp id (fun h => h.2)⟩)
  refine (parseLoopC_near args _ a 0 false false hl).bind (fun q hq => ?_)
  obtain ⟨_, _, _, hf⟩ := parseLoop_frame _ hq
  simp only
  split
  · exact .refl _
  split
  · exact .refl _
  refine (loadEnvVarsC_near (EnvSafe.later he (b := { q.2 with errorCode := q.1 }) hf.shape hf.envPrefix)).bind (fun _ _ => ?_)
  exact .refl _

end Argus
