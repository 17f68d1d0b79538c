import Verif.Lemmas.DescMemRun

/-! # Hints and descriptions in memory -/

set_option autoImplicit false

namespace Argus

attribute [local irreducible] sizeAdd

/-! ## Hints -/

theorem isShortD_some {base : Nat → Option Mem} {h : DHeap} {p : Nat} {s : Str} (cfg : HelperConfig) (H : h.Has base p s) :
    isShortD cfg h (some p) = .ok (isShortHint cfg s) := by
  simp only [isShortD, H.text, Out.ok_bind]

theorem soleFormatter_hint (F : Fmt) (cfg : HelperConfig) (o : Opt) :
    validatorHint F cfg o = (soleFormatter o).bind fun k => (formatter F k).filter (isShortHint cfg) := by
  unfold validatorHint soleFormatter
  rcases o.validators with _ | _ | ⟨v, _ | ⟨w, vs⟩⟩
  · rfl
  · rfl
  · simp only [Validator.text]
    cases v.hasFormatter <;> simp
  · rfl

theorem soleFormatter_plain {F : Fmt} {o : Opt} {k : VKind} (hv : ∀ v ∈ o.validators.getD [], v.kind.Plain F)
    (h : soleFormatter o = some k) : k.Plain F := by
  unfold soleFormatter at h
  split at h
  · rename_i v hvs
    split at h
    · simp only [Option.some.injEq] at h
      subst h
      exact hv v (by rw [hvs]; simp)
    · cases h
  · cases h

theorem soleHintD_spec (A : DAlloc) (F : Fmt) (cfg : HelperConfig) (o : Opt) {base : Nat → Option Mem} {h : DHeap}
    (H : h.Is base) (hv : ∀ v ∈ o.validators.getD [], v.kind.Plain F) :
    (∃ h', soleHintD A F cfg o h = .ok (none, h') ∧ h'.Is base ∧ (A.Full → validatorHint F cfg o = none)) ∨
    ∃ p h' s, soleHintD A F cfg o h = .ok (some p, h') ∧ h'.Has base p s ∧ validatorHint F cfg o = some s := by
  rw [soleFormatter_hint]
  unfold soleHintD
  cases hs : soleFormatter o with
  | none => exact .inl ⟨h, rfl, H, fun _ => rfl⟩
  | some k =>
    simp only [Option.bind_some]
    rcases formatD_spec A F H (soleFormatter_plain hv hs) with ⟨e1, e2⟩ | ⟨d, n, e1, hn, ⟨h', e2, h1, h2⟩ | ⟨t, h', e2, T⟩⟩
    · rw [e1, e2]
      exact .inl ⟨h, rfl, H, fun _ => rfl⟩
    · rw [e2]
      exact .inl ⟨h', rfl, h1, fun hf => absurd (h2 hf) (by omega)⟩
    · rw [e1, e2]
      simp only [Out.ok_bind, keepShortD, isShortD_some cfg T]
      by_cases hsh : isShortHint cfg d = true
      · rw [if_pos hsh]
        exact .inr ⟨t, h', d, rfl, T, by simp [Option.filter, hsh]⟩
      · rw [if_neg hsh]
        obtain ⟨h3, f1, f2⟩ := T.free
        rw [f1]
        exact .inl ⟨h3, rfl, f2, fun _ => by simp [Option.filter, hsh]⟩

theorem baseTypeName_plain (t : ValueType) : 0 ∉ baseTypeName t ∧ (baseTypeName t).length < 2 ^ 62 := by
  cases t <;> decide

/-- `get_smart_hint`: NULL for lack of memory, else the hint, or the name of the type in its place. -/
theorem smartHintD_spec (A : DAlloc) (F : Fmt) (cfg : HelperConfig) (o : Opt) {base : Nat → Option Mem} {h : DHeap}
    (H : h.Is base) (hv : ∀ v ∈ o.validators.getD [], v.kind.Plain F) (h0 : 0 ∉ o.hint.getD [])
    (hl : (o.hint.getD []).length < 2 ^ 62) :
    (∃ h', smartHintD A F cfg o h = .ok (none, h') ∧ h'.Is base ∧ ¬ A.Full) ∨
    ∃ p h' s, smartHintD A F cfg o h = .ok (some p, h') ∧ h'.Has base p s ∧
      (s = smartHint F cfg o ∨ (o.hint = none ∧ s = baseTypeName o.valueType ∧ ¬ A.Full)) := by
  unfold smartHintD smartHint
  cases hh : o.hint with
  | some t =>
    rw [hh, Option.getD_some] at h0 hl
    rcases strdupD_spec A H h0 with ⟨h', e, h1, h2⟩ | ⟨p, h', e, T⟩
    · exact .inl ⟨h', e, h1, fun hf => absurd (h2 hf) (by omega)⟩
    · exact .inr ⟨p, h', t, e, T, .inl rfl⟩
  | none =>
    simp only
    obtain ⟨b0, bl⟩ := baseTypeName_plain o.valueType
    rcases soleHintD_spec A F cfg o H hv with ⟨h', e, h1, h2⟩ | ⟨p, h', s, e, T, hs⟩
    · rw [e]
      simp only [Out.ok_bind, Option.isSome_none, Bool.false_eq_true, if_false]
      rcases strdupD_spec A h1 b0 with ⟨h'', e', h1', h2'⟩ | ⟨p, h'', e', T⟩
      · exact .inl ⟨h'', e', h1', fun hf => absurd (h2' hf) (by omega)⟩
      · refine .inr ⟨p, h'', _, e', T, ?_⟩
        by_cases hf : A.Full
        · rw [h2 hf]; exact .inl rfl
        · exact .inr ⟨trivial, rfl, hf⟩
    · rw [e, hs]
      simp only [Out.ok_bind, Option.isSome_some, if_true]
      exact .inr ⟨p, h', s, rfl, T, .inl rfl⟩

theorem optionName_split (F : Fmt) (cfg : HelperConfig) (o : Opt) : optionName F cfg o =
    typedNames o ++ (if o.valueType ≠ .flag then hintText o.valueType (smartHint F cfg o) else []) := by
  unfold optionName typedNames hintText
  congr 1
  by_cases h : o.valueType ≠ .flag
  · rw [if_pos h, if_pos h]
    cases collectionHint o.valueType (smartHint F cfg o) <;> rfl
  · rw [if_neg h, if_neg h]

/-- `print_option_name`: the hint may be missing, or be the name of the type; nothing stays in memory. -/
theorem optionNameD_spec (A : DAlloc) (F : Fmt) (cfg : HelperConfig) (o : Opt) {base : Nat → Option Mem} {h : DHeap}
    (H : h.Is base) (hv : ∀ v ∈ o.validators.getD [], v.kind.Plain F) (h0 : 0 ∉ o.hint.getD [])
    (hl : (o.hint.getD []).length < 2 ^ 62) :
    ∃ t h', optionNameD A F cfg o h = .ok (t, h') ∧ h'.Is base ∧
      (t = optionName F cfg o ∨
        (o.valueType ≠ .flag ∧ ¬ A.Full ∧ (t = typedNames o ∨
          (o.hint = none ∧ t = typedNames o ++ hintText o.valueType (baseTypeName o.valueType))))) := by
  rw [optionName_split]
  unfold optionNameD
  by_cases hf : o.valueType ≠ .flag
  · rw [if_pos hf, if_pos hf]
    rcases smartHintD_spec A F cfg o H hv h0 hl with ⟨h', e, h1, h2⟩ | ⟨p, h', s, e, T, hs⟩
    · rw [e]
      simp only [Out.ok_bind, printHintD, List.append_nil]
      exact ⟨_, h', rfl, h1, .inr ⟨hf, h2, .inl rfl⟩⟩
    · obtain ⟨h3, f1, f2⟩ := T.free
      rw [e]
      simp only [Out.ok_bind, printHintD, T.text, f1]
      refine ⟨_, h3, rfl, f2, ?_⟩
      rcases hs with hs | ⟨e1, e2, e3⟩
      · exact .inl (by rw [hs])
      · exact .inr ⟨hf, e3, .inr ⟨e1, by rw [e2]⟩⟩
  · rw [if_neg hf, if_neg hf]
    exact ⟨_, h, rfl, H, .inl (by simp)⟩

/-! ## Descriptions -/

theorem usedInHintD_spec (A : DAlloc) (F : Fmt) (cfg : HelperConfig) (o : Opt) {base : Nat → Option Mem} {h : DHeap}
    (H : h.Is base) (hv : ∀ v ∈ o.validators.getD [], v.kind.Plain F) :
    ∃ b h', usedInHintD A F cfg o h = .ok (b, h') ∧ h'.Is base ∧
      (b = true → (validatorHint F cfg o).isSome = true ∧ o.hint = none) ∧
      (A.Full → (validatorHint F cfg o).isSome = true ∧ o.hint = none → b = true) := by
  rw [soleFormatter_hint]
  unfold usedInHintD
  split
  · rename_i k hh hs
    rw [hs]
    simp only [Option.bind_some]
    rcases formatD_spec A F H (soleFormatter_plain hv hs) with ⟨e1, e2⟩ | ⟨d, n, e1, hn, ⟨h', e2, h1, h2⟩ | ⟨t, h', e2, T⟩⟩
    · rw [e1, e2]
      exact ⟨false, h, rfl, H, by simp, by simp⟩
    · rw [e2]
      exact ⟨false, h', rfl, h1, by simp, fun hf => absurd (h2 hf) (by omega)⟩
    · obtain ⟨h3, f1, f2⟩ := T.free
      rw [e1, e2]
      simp only [Out.ok_bind, isShortD_some cfg T, f1]
      refine ⟨_, h3, rfl, f2, fun hb => ⟨by simp [Option.filter, hb], hh⟩, fun _ hb => ?_⟩
      cases hsh : isShortHint cfg d with
      | true => rfl
      | false => simp [Option.filter, hsh] at hb
  · rename_i hno
    refine ⟨false, h, rfl, H, by simp, fun _ hb => ?_⟩
    cases hs : soleFormatter o with
    | none => rw [hs] at hb; simp at hb
    | some k => exact absurd hs (hno k hb.2)

theorem fold_notes (F : Fmt) : ∀ (vs : List Validator) (d : Str),
    vs.foldl (fun d v => appendTo d (validatorInfo F v)) d = d ++ (vs.map (validatorInfo F)).flatten
  | [], d => by simp
  | v :: vs, d => by simp [appendTo]

/-- `append_validator_info`: some of the notes, in order. -/
theorem appendValidatorsD_spec (A : DAlloc) (F : Fmt) (cfg : HelperConfig) (o : Opt) {base : Nat → Option Mem} {h : DHeap} {p : Nat}
    {s : Str} (H : h.Has base p s) (hv : ∀ v ∈ o.validators.getD [], v.kind.Plain F) :
    ∃ (q : Nat) (h' : DHeap) (ns : List Str), appendValidatorsD A F cfg o p h = .ok (q, h') ∧ h'.Has base q (s ++ ns.flatten) ∧
      ns.Sublist ((o.validators.getD []).map (validatorInfo F)) ∧
      (A.Full → s.length + 256 * (o.validators.getD []).length < 2 ^ 63 → s ++ ns.flatten = appendValidators F cfg o s) := by
  unfold appendValidatorsD appendValidators
  cases hvs : o.validators with
  | none => exact ⟨p, h, [], rfl, by simpa using H, by simp, fun _ _ => by simp⟩
  | some vs =>
    simp only [Option.getD_some]
    obtain ⟨b, h', e, h1, h2, h3⟩ := usedInHintD_spec A F cfg o H.is hv
    rw [hvs, Option.getD_some] at hv
    rw [e]
    simp only [Out.ok_bind]
    cases b with
    | true =>
      rw [if_pos rfl, if_pos (h2 rfl)]
      exact ⟨p, h', [], rfl, by simpa using H.again h1, by simp, fun _ _ => by simp⟩
    | false =>
      rw [if_neg (by simp)]
      obtain ⟨q, h4, ns, e4, H4, hsub, hfull⟩ := notesD_spec A F vs (H.again h1) hv
      refine ⟨q, h4, ns, e4, H4, hsub, fun hA hl => ?_⟩
      rw [if_neg (fun hb => by simpa using h3 hA hb), hfull hA hl, fold_notes]

/-- The text of the default, if it is shown at all. -/
def defaultText (F : Fmt) (o : Opt) : Out Str :=
  if o.haveDefault = false ∨ o.valueType = .flag then .ok [] else defaultInfo F o

theorem appendDefault_text (F : Fmt) (o : Opt) (d : Str) :
    appendDefault F o d = (defaultText F o).bind fun t => .ok (d ++ t) := by
  unfold appendDefault defaultText
  split
  · simp [Out.bind]
  · rfl

theorem defaultInfo_plain {F : Fmt} {o : Opt} (hd : ∀ s, o.defaultValue.asString = .ok (some s) → 0 ∉ s) (hf : ∀ x, 0 ∉ F.f2 x)
    {t : Str} (h : defaultInfo F o = .ok t) : 0 ∉ t ∧ t.length ≤ 127 := by
  have key : ∀ pre d post : Str, 0 ∉ pre → 0 ∉ d → 0 ∉ post → 0 ∉ snprintf 128 (pre ++ d ++ post) ∧
      (snprintf 128 (pre ++ d ++ post)).length ≤ 127 := fun pre d post h1 h h2 =>
    ⟨snprintf_zero _ (zero_app (zero_app h1 h) h2), snprintf_len _ _⟩
  unfold defaultInfo at h
  split at h
  · obtain ⟨n, _, h⟩ := Out.bind_eq_ok h
    simp only [Out.ok.injEq] at h
    subst h
    exact key _ _ _ (by decide) (showInt_zero n) (by decide)
  · obtain ⟨x, hx, h⟩ := Out.bind_eq_ok h
    cases x with
    | none =>
      simp only [Out.ok.injEq] at h
      subst h; decide
    | some s =>
      simp only [Out.ok.injEq] at h
      subst h
      exact key _ _ _ (by decide) (hd s hx) (by decide)
  · obtain ⟨x, _, h⟩ := Out.bind_eq_ok h
    simp only [Out.ok.injEq] at h
    subst h
    exact key _ _ _ (by decide) (hf x) (by decide)
  · obtain ⟨b, _, h⟩ := Out.bind_eq_ok h
    simp only [Out.ok.injEq] at h
    subst h
    cases b <;> decide
  · simp only [Out.ok.injEq] at h
    subst h; decide

theorem appendDefaultD_spec (A : DAlloc) (F : Fmt) (o : Opt) {base : Nat → Option Mem} {h : DHeap} {p : Nat} {s t : Str}
    (H : h.Has base p s) (hd : ∀ s, o.defaultValue.asString = .ok (some s) → 0 ∉ s) (hf : ∀ x, 0 ∉ F.f2 x)
    (ht : defaultText F o = .ok t) :
    t.length ≤ 127 ∧ ∃ q h' s', appendDefaultD A F o p h = .ok (q, h') ∧ h'.Has base q s' ∧
      (s' = s ++ t ∨ (s' = s ∧ Refuses A (s.length + 128))) := by
  unfold defaultText at ht
  unfold appendDefaultD
  by_cases hc : o.haveDefault = false ∨ o.valueType = .flag
  · rw [if_pos hc] at ht ⊢
    simp only [Out.ok.injEq] at ht
    subst ht
    exact ⟨by simp, p, h, s, rfl, H, .inl (by simp)⟩
  · rw [if_neg hc] at ht ⊢
    obtain ⟨h0, hl⟩ := defaultInfo_plain hd hf ht
    obtain ⟨q, h', s', e, H', hs⟩ := appendToD_spec A H h0 (by omega)
    refine ⟨hl, q, h', s', by rw [ht]; exact e, H', ?_⟩
    rcases hs with hs | ⟨hs, hr⟩
    · exact .inl hs
    · exact .inr ⟨hs, fun hA => by have := hr hA; omega⟩

theorem toUpper_zero {c : Byte} (h : c ≠ 0) : toUpper c ≠ 0 := by
  unfold toUpper
  split
  · rename_i hc
    simp only [Bool.and_eq_true, decide_eq_true_eq, UInt8.le_iff_toNat_le] at hc
    intro hz
    have h1 := congrArg UInt8.toNat hz
    rw [UInt8.toNat_sub_of_le _ _ (by rw [UInt8.le_iff_toNat_le]; exact Nat.le_trans (by decide) hc.1)] at h1
    have h2 : (97 : UInt8).toNat = 97 := rfl
    have h3 : (32 : UInt8).toNat = 32 := rfl
    have h4 : (0 : UInt8).toNat = 0 := rfl
    omega
  · exact h

theorem displayEnvName_plain {envPrefix : Option Str} {o : Opt}
    (h : 0 ∉ envPrefix.getD [] ∧ 0 ∉ o.envName.getD [] ∧ 0 ∉ o.name.getD [] ∧ 0 ∉ o.lname.getD []) {e : Str}
    (he : displayEnvName envPrefix o = some e) : 0 ∉ e := by
  obtain ⟨hp, h1, h2, h3⟩ := h
  unfold displayEnvName at he
  have hsep : (0 : Byte) ∉ (if (envPrefix.getD []).length > 0 ∧ (envPrefix.getD []).getLast? ≠ some 95 then [(95 : Byte)] else []) := by
    split <;> decide
  split at he
  · rename_i n hn
    rw [hn, Option.getD_some] at h1
    simp only at he
    split at he
    · simp only [Option.some.injEq] at he
      exact he ▸ h1
    · split at he
      · simp only [Option.some.injEq] at he
        exact he ▸ h1
      · simp only [Option.some.injEq] at he
        subst he
        exact snprintf_zero _ (zero_app (zero_app hp hsep) h1)
  · simp only at he
    split at he
    · simp only [Option.some.injEq] at he
      subst he
      have hname : (0 : Byte) ∉ (o.name.orElse fun _ => o.lname).getD [] := by
        cases hn : o.name with
        | none => simpa [Option.orElse] using h3
        | some n => rw [hn] at h2; simpa [Option.orElse] using h2
      have hfull : (0 : Byte) ∉ snprintf 128 (if o.flags.has .noEnvPrefix then (o.name.orElse fun _ => o.lname).getD []
          else envPrefix.getD [] ++ (if (envPrefix.getD []).length > 0 ∧ (envPrefix.getD []).getLast? ≠ some 95 then [(95 : Byte)] else []) ++
            (o.name.orElse fun _ => o.lname).getD []) := by
        refine snprintf_zero _ ?_
        split
        · exact hname
        · exact zero_app (zero_app hp hsep) hname
      intro hx
      obtain ⟨c, hc, hcz⟩ := List.mem_map.1 hx
      split at hcz
      · exact absurd hcz (by decide)
      · rename_i hne
        exact toUpper_zero (fun h => hfull (h ▸ hc)) hcz
    · cases he

/-- The parenthesis at the end of a description that is given up for a variable, and lost if there is no memory. -/
theorem variableD_spec (A : DAlloc) {base : Nat → Option Mem} {h : DHeap} {p : Nat} {s e : Str} (H : h.Has base p s) (h0 : 0 ∉ e) :
    ∃ q h' s', variableD A e p h = .ok (q, h') ∧ h'.Has base q s' ∧
      (s' = (if s.getLast? = some 41 then s.dropLast ++ snprintf 256 (c!", env: " ++ e ++ c!")")
          else s ++ snprintf 256 (c!" (env: " ++ e ++ c!")")) ∨
        (s' = (if s.getLast? = some 41 then s.dropLast else s) ∧ Refuses A (s.length + 256))) := by
  obtain ⟨m, hm, hlen, hl⟩ := H.block
  have hb : h.block p = .ok m := by simp only [DHeap.block, hl, upd_self]
  unfold variableD
  simp only [hb, Out.ok_bind, hm.strlen]
  have hlast : (s.length > 0 ∧ m[s.length - 1]? = some 41) ↔ s.getLast? = some 41 := by
    obtain ⟨_, rest, rfl⟩ := hm
    rw [List.getLast?_eq_getElem?]
    constructor
    · rintro ⟨h1, h2⟩
      rwa [List.getElem?_append_left (by omega)] at h2
    · intro h1
      have : s.length > 0 := by
        cases s with
        | nil => simp at h1
        | cons => simp
      exact ⟨this, by rw [List.getElem?_append_left (by omega)]; exact h1⟩
  by_cases hc : s.getLast? = some 41
  · rw [if_pos (hlast.2 hc), if_pos hc, if_pos hc]
    obtain ⟨s1, rfl⟩ := List.getLast?_eq_some_iff.1 hc
    obtain ⟨hz, rest, rfl⟩ := hm
    have hz1 : 0 ∉ s1 := fun hx => hz (by simp [hx])
    have hw : Mem.write (s1 ++ [41] ++ 0 :: rest) ((s1 ++ [41]).length - 1) 0 = .ok (s1 ++ 0 :: 0 :: rest) := by
      have := @Mem.write_at s1 41 0 (0 :: rest)
      simpa using this
    simp only [hw, Out.ok_bind, List.dropLast_concat]
    have H1 : (h.store p (s1 ++ 0 :: 0 :: rest)).Has base p s1 := by
      refine ⟨H.sound, H.fresh, H.lt, s1 ++ 0 :: 0 :: rest, ⟨hz1, 0 :: rest, rfl⟩, ?_, ?_⟩
      · simp only [List.length_append, List.length_cons] at hlen ⊢; omega
      · simp only [DHeap.store, hl, upd_upd]
    obtain ⟨q, h', s', e1, H', hs⟩ := appendToD_spec A H1
      (snprintf_zero 256 (zero_app (zero_app (s := c!", env: ") (by decide) h0) (t := c!")") (by decide)))
      (by have := snprintf_len 256 (c!", env: " ++ e ++ c!")"); omega)
    refine ⟨q, h', s', e1, H', ?_⟩
    rcases hs with hs | ⟨hs, hr⟩
    · exact .inl hs
    · refine .inr ⟨hs, fun hA => ?_⟩
      have h1 := hr hA
      have h2 := snprintf_len 256 (c!", env: " ++ e ++ c!")")
      simp only [List.length_append, List.length_cons] at *; omega
  · rw [if_neg (fun hx => hc (hlast.1 hx)), if_neg hc, if_neg hc]
    have hsl := snprintf_len 256 (c!" (env: " ++ e ++ c!")")
    obtain ⟨q, h', s', e1, H', hs⟩ := appendToD_spec A H
      (snprintf_zero 256 (zero_app (zero_app (s := c!" (env: ") (by decide) h0) (t := c!")") (by decide))) (by omega)
    refine ⟨q, h', s', e1, H', ?_⟩
    rcases hs with hs | ⟨hs, hr⟩
    · exact .inl hs
    · exact .inr ⟨hs, fun hA => by have := hr hA; omega⟩

end Argus
