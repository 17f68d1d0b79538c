import Verif.Lemmas.Ipv6
import Verif.Props.Patterns

/-!
# C60: IPv6 addresses

What the pattern for IPv6 does, measured by the text forms of RFC 4291 and RFC 4007 (Spec/Ipv6).
-/

set_option autoImplicit false

namespace Argus

/-- What the pattern for IPv6 accepts on a line of its own (`C60_network_partial`). -/
def Ipv6Taken (m : Str) : Prop := IsIpv6Groups m ∨ IsIpv6Zone m ∨ IsIpv6Dotted m

/-- `fe80:`, then colons with what follows them, then a zone of letters and digits. -/
def ZonedFe80 (gs : List Str) (zone m : Str) : Prop :=
  m = c!"fe80:" ++ (gs.map (c!":" ++ ·)).flatten ++ c!"%" ++ zone ∧ gs.length ≤ 4 ∧
  (∀ g ∈ gs, g.length ≤ 4 ∧ ∀ x ∈ g, HexDigit x) ∧ zone ≠ [] ∧ ∀ x ∈ zone, Letter x ∨ Digit x

/-- The fields after `fe80::` are groups, or there are none. -/
def ProperFields (gs : List Str) : Prop := gs = [[]] ∨ (gs ≠ [] ∧ ∀ g ∈ gs, g ≠ [])

theorem colons_fe80 {gs : List Str} (h : ∀ g ∈ gs, (58 : Byte) ∉ g) :
    colons (c!"fe80:" ++ (gs.map (c!":" ++ ·)).flatten) = c!"fe80" :: [] :: gs := by
  have e : c!"fe80:" ++ (gs.map (c!":" ++ ·)).flatten = joined c!":" (c!"fe80" :: [] :: gs) := by
    rw [joined_cons]; simp
  rw [e, colons_joined _ (by
    intro g hg
    rcases List.mem_cons.1 hg with rfl | hg
    · decide
    · rcases List.mem_cons.1 hg with rfl | hg
      · simp
      · exact h g hg)]
  rfl

/-- `fe80:` with these fields is an address exactly if the fields are proper. -/
theorem fe80_text_iff {gs : List Str} (hlen : gs.length ≤ 4) (hgs : ∀ g ∈ gs, g.length ≤ 4 ∧ ∀ x ∈ g, HexDigit x) :
    IsIpv6Text (c!"fe80:" ++ (gs.map (c!":" ++ ·)).flatten) ↔ ProperFields gs := by
  have hno : ∀ g ∈ gs, (58 : Byte) ∉ g ∧ (46 : Byte) ∉ g := fun g hg =>
    ⟨fun hc => (hex_not ((hgs g hg).2 _ hc)).1 rfl, fun hc => (hex_not ((hgs g hg).2 _ hc)).2.1 rfl⟩
  have hcol := colons_fe80 (fun g hg => (hno g hg).1)
  have fe : IsGroup c!"fe80" := ⟨by decide, by decide, by simp only [HexDigit, Digit]; decide⟩
  constructor
  · intro h
    rcases h with (⟨ks, e, h8, hk⟩ | ⟨l, r, e, hlr, hk⟩) | ⟨ks, q, e, h6, hk, hq⟩ | ⟨l, r, q, e, h5, hk, hq⟩
    · rw [e, colons_joined _ (fun g hg => (group_no (hk g hg)).1), side_of (by rintro rfl; simp at h8)] at hcol
      exact absurd rfl (group_ne_nil (hk [] (by rw [hcol]; simp)))
    · have hl : ∀ g ∈ l, IsGroup g := fun g hg => hk g (List.mem_append_left _ hg)
      have hr : ∀ g ∈ r, IsGroup g := fun g hg => hk g (List.mem_append_right _ hg)
      rw [e, colons_compressed (fun g hg => (group_no (hl g hg)).1) (fun g hg => (group_no (hr g hg)).1)] at hcol
      by_cases hl0 : l = []
      · subst hl0; exact absurd (List.cons.inj hcol).1 (by decide)
      · rw [side_of hl0] at hcol
        obtain ⟨_, h2⟩ := split_empty (b := [c!"fe80"]) (fun g hg => group_ne_nil (hl g hg)) (by simp) hcol
        by_cases hr0 : r = []
        · subst hr0; exact .inl h2.symm
        · rw [side_of hr0] at h2
          subst h2
          exact .inr ⟨hr0, fun g hg => group_ne_nil (hr g hg)⟩
    · rw [e, colons_joined _ (by
        intro g hg
        rcases List.mem_append.1 hg with hg | hg
        · exact (group_no (hk g hg)).1
        · simp only [List.mem_singleton] at hg; subst hg; exact (quad_no hq).1), side_snoc] at hcol
      have : ([] : Str) ∈ ks ++ [q] := by rw [hcol]; simp
      rcases List.mem_append.1 this with h | h
      · exact absurd rfl (group_ne_nil (hk _ h))
      · simp only [List.mem_singleton] at h; exact absurd h.symm (quad_ne_nil hq)
    · have hl : ∀ g ∈ l, IsGroup g := fun g hg => hk g (List.mem_append_left _ hg)
      have hr : ∀ g ∈ r ++ [q], (58 : Byte) ∉ g := by
        intro g hg
        rcases List.mem_append.1 hg with hg | hg
        · exact (group_no (hk g (List.mem_append_right _ hg))).1
        · simp only [List.mem_singleton] at hg; subst hg; exact (quad_no hq).1
      rw [e, colons_compressed (fun g hg => (group_no (hl g hg)).1) hr, side_snoc] at hcol
      by_cases hl0 : l = []
      · subst hl0; exact absurd (List.cons.inj hcol).1 (by decide)
      · rw [side_of hl0] at hcol
        obtain ⟨_, h2⟩ := split_empty (b := [c!"fe80"]) (fun g hg => group_ne_nil (hl g hg)) (by simp) hcol
        exact absurd (quad_dot hq) (hno q (by rw [← h2]; simp)).2
  · intro h
    left; right
    rcases h with rfl | ⟨h0, h1⟩
    · exact ⟨[c!"fe80"], [], by decide, by decide, by
        intro g hg; simp only [List.append_nil, List.mem_singleton] at hg; subst hg; exact fe⟩
    · refine ⟨[c!"fe80"], gs, ?_, by simp only [List.length_singleton]; omega, ?_⟩
      · have := rights_joined h0
        unfold rights at this
        rw [this]; rfl
      · intro g hg
        rcases List.mem_append.1 hg with hg | hg
        · simp only [List.mem_singleton] at hg; subst hg; exact fe
        · exact ⟨List.length_pos_iff.2 (h1 g hg), (hgs g hg).1, (hgs g hg).2⟩

theorem fe80_no_percent {gs : List Str} (hgs : ∀ g ∈ gs, g.length ≤ 4 ∧ ∀ x ∈ g, HexDigit x) :
    (37 : Byte) ∉ c!"fe80:" ++ (gs.map (c!":" ++ ·)).flatten := by
  intro h
  rcases List.mem_append.1 h with h | h
  · exact absurd h (by decide)
  · obtain ⟨t, ht, hx⟩ := List.mem_flatten.1 h
    obtain ⟨g, hg, rfl⟩ := List.mem_map.1 ht
    rcases List.mem_append.1 hx with h1 | h1
    · exact absurd h1 (by decide)
    · exact (hex_not ((hgs g hg).2 _ h1)).2.2 rfl

/-- A zoned text of the pattern is an address exactly if its fields are proper. -/
theorem zoned_address_iff {gs : List Str} {zone m : Str} (h : ZonedFe80 gs zone m) :
    IsIpv6Address m ↔ ProperFields gs := by
  obtain ⟨rfl, hlen, hgs, hz, _⟩ := h
  rw [← fe80_text_iff hlen hgs]
  constructor
  · rintro (h | ⟨a, z, e, ha, _⟩)
    · exact absurd (by simp) (text_no_percent h)
    · rw [List.append_assoc, List.append_assoc a] at e
      rw [(splits_first (fe80_no_percent hgs) (text_no_percent ha) e).1]
      exact ha
  · intro h
    exact .inr ⟨_, zone, rfl, h, hz⟩

theorem taken_unzoned {m : Str} (h : IsIpv6Groups m ∨ IsIpv6Dotted m) : IsIpv6Text m := by
  rcases h with h | ⟨q, hq, h⟩
  · exact .inl h
  · have q4 := quad6_quad hq
    have ff : IsGroup c!"ffff" := ⟨by decide, by decide, by simp only [HexDigit, Digit]; decide⟩
    right; right
    rcases h with rfl | rfl | ⟨z, rfl, z1, z2, hz⟩ | ⟨gs, rfl, g1, g2, hgs⟩
    · exact ⟨[], [], q, by simp [joined], by decide, by simp, q4⟩
    · exact ⟨[], [c!"ffff"], q, by simp [joined], by decide, by
        intro g hg; simp only [List.nil_append, List.mem_singleton] at hg; subst hg; exact ff, q4⟩
    · refine ⟨[], [c!"ffff", z], q, by simp [joined], by simp, ?_, q4⟩
      intro g hg
      simp only [List.nil_append, List.mem_cons, List.not_mem_nil, or_false] at hg
      rcases hg with rfl | rfl
      · exact ff
      · exact ⟨z1, z2, fun x hx => by rw [hz x hx]; unfold HexDigit Digit; decide⟩
    · exact ⟨gs, [], q, by simp [joined], by simp only [List.length_nil]; omega, by simpa using hgs, q4⟩

/-- **C60** What the pattern for IPv6 accepts wrongly: exactly the texts with `fe80:` and a zone whose fields are not
    proper, such as `fe80:%1` and `fe80::::%1`. -/
theorem C60_ipv6_wrongly_accepted (m : Str) :
    Ipv6Taken m ∧ ¬ IsIpv6Address m ↔ ∃ gs zone, ZonedFe80 gs zone m ∧ ¬ ProperFields gs := by
  constructor
  · rintro ⟨h | ⟨gs, zone, h⟩ | h, hn⟩
    · exact absurd (.inl (taken_unzoned (.inl h))) hn
    · exact ⟨gs, zone, h, fun hp => hn ((zoned_address_iff h).2 hp)⟩
    · exact absurd (.inl (taken_unzoned (.inr h))) hn
  · rintro ⟨gs, zone, h, hp⟩
    exact ⟨.inr (.inl ⟨gs, zone, h⟩), fun ha => hp ((zoned_address_iff h).1 ha)⟩

example : ZonedFe80 [] c!"1" c!"fe80:%1" ∧ ¬ ProperFields [] ∧
    ZonedFe80 [[], []] c!"eth0" c!"fe80:::%eth0" ∧ ¬ ProperFields [[], []] ∧
    ZonedFe80 [c!"1"] c!"eth0" c!"fe80::1%eth0" ∧ ProperFields [c!"1"] := by
  refine ⟨⟨rfl, by decide, by simp, by decide, ?_⟩, by unfold ProperFields; decide,
    ⟨rfl, by decide, by simp, by decide, ?_⟩, by unfold ProperFields; decide,
    ⟨rfl, by decide, ?_, by decide, ?_⟩, by unfold ProperFields; decide⟩
  · simp only [Letter, Digit]; decide
  · simp only [Letter, Digit]; decide
  · simp only [HexDigit, Digit]; decide
  · simp only [Letter, Digit]; decide

/-! ## Addresses that are refused -/

/-- A dotted address after groups, with `::` among them, that the pattern knows. -/
def KnownDotted (left right : List Str) (q : Str) : Prop :=
  IsQuad6 q ∧ ((right = [] ∧ left.length ≤ 4) ∨
    (left = [] ∧ (right = [c!"ffff"] ∨ ∃ z, right = [c!"ffff", z] ∧ ∀ x ∈ z, x = 48)))

theorem dotted_not_taken_full {gs : List Str} {q : Str} (hk : ∀ g ∈ gs, IsGroup g) (hq : IsIpv4 q) :
    ¬ Ipv6Taken (joined c!":" (gs ++ [q])) := by
  have hdot : (46 : Byte) ∈ joined c!":" (gs ++ [q]) := joined_mem (by simp) (quad_dot hq)
  have hgs : ∀ g ∈ gs ++ [q], (58 : Byte) ∉ g ∧ (37 : Byte) ∉ g ∧ g ≠ [] := by
    intro g hg
    rcases List.mem_append.1 hg with hg | hg
    · exact ⟨(group_no (hk g hg)).1, (group_no (hk g hg)).2.2, group_ne_nil (hk g hg)⟩
    · simp only [List.mem_singleton] at hg; subst hg; exact ⟨(quad_no hq).1, (quad_no hq).2, quad_ne_nil hq⟩
  rintro (h | h | ⟨p, hp, h⟩)
  · exact (groups_no_dot h).1 hdot
  · rcases mem_joined (zone_percent h) with h | ⟨g, hg, h⟩
    · exact absurd h (by decide)
    · exact (hgs g hg).2.1 h
  · have hcol := colons_joined _ (fun g hg => (hgs g hg).1)
    rw [side_snoc] at hcol
    have none : ([] : Str) ∉ colons (joined c!":" (gs ++ [q])) := by
      rw [hcol]; exact fun h => (hgs [] h).2.2 rfl
    refine none ?_
    rcases h with h | h | ⟨z, h, _⟩ | ⟨ks, h, _⟩
    · rw [h]; show [] ∈ colons ([] ++ 58 :: (58 :: p)); rw [colons_append]; simp [colons, fields]
    · rw [h]; show [] ∈ colons ([] ++ 58 :: (58 :: (c!"ffff:" ++ p))); rw [colons_append]; simp [colons, fields]
    · rw [h]
      show [] ∈ colons ([] ++ 58 :: (58 :: (c!"ffff:" ++ z ++ c!":" ++ p))); rw [colons_append]; simp [colons, fields]
    · rw [h, List.append_assoc]
      show [] ∈ colons (joined c!":" ks ++ 58 :: (58 :: p))
      rw [colons_append]
      refine List.mem_append_right _ ?_
      show [] ∈ colons ([] ++ 58 :: p)
      rw [colons_append]; simp [colons, fields]

theorem dotted_taken_iff {l r : List Str} {q : Str} (hl : ∀ g ∈ l, IsGroup g) (hr : ∀ g ∈ r, IsGroup g) (hq : IsIpv4 q) :
    Ipv6Taken (joined c!":" l ++ c!"::" ++ joined c!":" (r ++ [q])) ↔ KnownDotted l r q := by
  have hrq : ∀ g ∈ r ++ [q], (58 : Byte) ∉ g := by
    intro g hg
    rcases List.mem_append.1 hg with hg | hg
    · exact (group_no (hr g hg)).1
    · simp only [List.mem_singleton] at hg; subst hg; exact (quad_no hq).1
  have hcol := colons_compressed (fun g hg => (group_no (hl g hg)).1) hrq
  rw [side_snoc] at hcol
  constructor
  · rintro (h | h | ⟨p, hp, h⟩)
    · exact absurd (List.mem_append_right _ (joined_mem (by simp) (quad_dot hq))) (groups_no_dot h).1
    · have htext : IsIpv6Text (joined c!":" l ++ c!"::" ++ joined c!":" (r ++ [q])) → False :=
        fun ht => text_no_percent ht (zone_percent h)
      exfalso
      rcases List.mem_append.1 (zone_percent h) with h1 | h1
      · rcases List.mem_append.1 h1 with h2 | h2
        · rcases mem_joined h2 with h3 | ⟨g, hg, h3⟩
          · exact absurd h3 (by decide)
          · exact (group_no (hl g hg)).2.2 h3
        · exact absurd h2 (by decide)
      · rcases mem_joined h1 with h3 | ⟨g, hg, h3⟩
        · exact absurd h3 (by decide)
        · rcases List.mem_append.1 hg with hg | hg
          · exact (group_no (hr g hg)).2.2 h3
          · simp only [List.mem_singleton] at hg; subst hg; exact (quad_no hq).2 h3
    · have p4 := quad6_quad hp
      have pc := colons_word (quad_no p4).1
      -- the side before `::` is empty if the text begins with `::`
      have empty : ∀ t : List Str, side l ++ [] :: (r ++ [q]) = [] :: [] :: t → l = [] ∧ r ++ [q] = t := by
        intro t ht
        by_cases h0 : l = []
        · subst h0; exact ⟨rfl, by simpa [side] using ht⟩
        · rw [side_of h0] at ht
          cases l with
          | nil => exact absurd rfl h0
          | cons g l => exact absurd (List.cons.inj ht).1 (group_ne_nil (hl g (by simp)))
      rcases h with h | h | ⟨z, h, z1, z2, hz⟩ | ⟨ks, h, k1, k2, hk⟩
      · rw [h] at hcol
        have e : colons (c!"::" ++ p) = [[], [], p] := by
          show colons ([] ++ 58 :: ([] ++ 58 :: p)) = _
          rw [colons_append, colons_append, pc]; rfl
        rw [e] at hcol
        obtain ⟨rfl, e2⟩ := empty [p] hcol.symm
        obtain ⟨rfl, e3⟩ := List.append_inj' (show r ++ [q] = [] ++ [p] from e2) rfl
        cases e3
        exact ⟨hp, .inl ⟨rfl, by simp⟩⟩
      · rw [h] at hcol
        have e : colons (c!"::ffff:" ++ p) = [[], [], c!"ffff", p] := by
          show colons ([] ++ 58 :: ([] ++ 58 :: (c!"ffff" ++ 58 :: p))) = _
          rw [colons_append, colons_append, colons_append, pc]; rfl
        rw [e] at hcol
        obtain ⟨rfl, e2⟩ := empty [c!"ffff", p] hcol.symm
        obtain ⟨rfl, e3⟩ := List.append_inj' (show r ++ [q] = [c!"ffff"] ++ [p] from e2) rfl
        cases e3
        exact ⟨hp, .inr ⟨rfl, .inl rfl⟩⟩
      · rw [h] at hcol
        have zc : colons z = [z] := colons_word (fun hc => absurd (hz _ hc) (by decide))
        have e : colons (c!"::ffff:" ++ z ++ c!":" ++ p) = [[], [], c!"ffff", z, p] := by
          have : c!"::ffff:" ++ z ++ c!":" ++ p = [] ++ 58 :: ([] ++ 58 :: (c!"ffff" ++ 58 :: (z ++ 58 :: p))) := by simp
          rw [this, colons_append, colons_append, colons_append, colons_append, pc, zc]; rfl
        rw [e] at hcol
        obtain ⟨rfl, e2⟩ := empty [c!"ffff", z, p] hcol.symm
        obtain ⟨rfl, e3⟩ := List.append_inj' (show r ++ [q] = [c!"ffff", z] ++ [p] from e2) rfl
        cases e3
        exact ⟨hp, .inr ⟨rfl, .inr ⟨z, rfl, hz⟩⟩⟩
      · rw [h] at hcol
        have e : colons (joined c!":" ks ++ c!"::" ++ p) = ks ++ [] :: [p] := by
          rw [List.append_assoc]
          show colons (joined c!":" ks ++ 58 :: ([] ++ 58 :: p)) = _
          rw [colons_append, colons_append, pc, colons_joined _ (fun g hg => (group_no (hk g hg)).1),
            side_of (by rintro rfl; simp at k1)]
          rfl
        rw [e] at hcol
        by_cases h0 : l = []
        · subst h0
          cases ks with
          | nil => simp at k1
          | cons g ks => exact absurd (List.cons.inj hcol).1 (group_ne_nil (hk g (by simp)))
        · rw [side_of h0] at hcol
          obtain ⟨rfl, e2⟩ := split_empty (fun g hg => group_ne_nil (hk g hg)) (fun g hg => group_ne_nil (hl g hg)) hcol
          obtain ⟨e3, e4⟩ := List.append_inj' (show r ++ [q] = [] ++ [p] from e2.symm) rfl
          cases e3; cases e4
          exact ⟨hp, .inl ⟨rfl, k2⟩⟩
  · rintro ⟨hq6, ⟨rfl, h4⟩ | ⟨rfl, rfl | ⟨z, rfl, hz⟩⟩⟩
    · refine .inr (.inr ⟨q, hq6, ?_⟩)
      by_cases h0 : l = []
      · subst h0; exact .inl (by simp [joined])
      · exact .inr (.inr (.inr ⟨l, by simp [joined], List.length_pos_iff.2 h0, h4, hl⟩))
    · exact .inr (.inr ⟨q, hq6, .inr (.inl (by simp [joined]))⟩)
    · have hz' := hr z (by simp)
      exact .inr (.inr ⟨q, hq6, .inr (.inr (.inl ⟨z, by simp [joined], hz'.1, hz'.2.1, hz⟩))⟩)

theorem zoned_taken_iff {a zone : Str} (ha : IsIpv6Text a) :
    Ipv6Taken (a ++ c!"%" ++ zone) ↔ ∃ gs, ZonedFe80 gs zone (a ++ c!"%" ++ zone) := by
  constructor
  · rintro (h | ⟨gs, z, e, h1, h2, h3⟩ | h)
    · exact absurd (by simp) (groups_no_dot h).2
    · have e' := e
      rw [List.append_assoc, List.append_assoc _ c!"%" z] at e'
      obtain ⟨_, ez⟩ := splits_first (text_no_percent ha) (fe80_no_percent h2) e'
      cases ez
      exact ⟨gs, e, h1, h2, h3⟩
    · exact absurd (by simp) (dotted_no_percent h)
  · rintro ⟨gs, h⟩; exact .inr (.inl ⟨gs, zone, h⟩)

/-- **C60** What the pattern for IPv6 refuses wrongly: exactly the addresses of six groups and a dotted address, those
    with a dotted address after other groups than the pattern knows, and those with a zone it does not know. -/
theorem C60_ipv6_wrongly_refused (m : Str) :
    IsIpv6Address m ∧ ¬ Ipv6Taken m ↔
      (∃ gs q, m = joined c!":" (gs ++ [q]) ∧ gs.length = 6 ∧ (∀ g ∈ gs, IsGroup g) ∧ IsIpv4 q) ∨
      (∃ left right q, m = joined c!":" left ++ c!"::" ++ joined c!":" (right ++ [q]) ∧
        left.length + right.length ≤ 5 ∧ (∀ g ∈ left ++ right, IsGroup g) ∧ IsIpv4 q ∧ ¬ KnownDotted left right q) ∨
      (∃ a zone, m = a ++ c!"%" ++ zone ∧ IsIpv6Text a ∧ zone ≠ [] ∧ ¬ ∃ gs, ZonedFe80 gs zone m) := by
  constructor
  · rintro ⟨(h | ⟨gs, q, rfl, h6, hk, hq⟩ | ⟨l, r, q, rfl, h5, hk, hq⟩) | ⟨a, z, rfl, ha, hz⟩, hn⟩
    · exact absurd (.inl h) hn
    · exact .inl ⟨gs, q, rfl, h6, hk, hq⟩
    · exact .inr (.inl ⟨l, r, q, rfl, h5, hk, hq, fun h => hn ((dotted_taken_iff
        (fun g hg => hk g (List.mem_append_left _ hg)) (fun g hg => hk g (List.mem_append_right _ hg)) hq).2 h)⟩)
    · exact .inr (.inr ⟨a, z, rfl, ha, hz, fun h => hn ((zoned_taken_iff ha).2 h)⟩)
  · rintro (⟨gs, q, rfl, h6, hk, hq⟩ | ⟨l, r, q, rfl, h5, hk, hq, h⟩ | ⟨a, z, rfl, ha, hz, h⟩)
    · exact ⟨.inl (.inr (.inl ⟨gs, q, rfl, h6, hk, hq⟩)), dotted_not_taken_full hk hq⟩
    · exact ⟨.inl (.inr (.inr ⟨l, r, q, rfl, h5, hk, hq⟩)), fun ht => h ((dotted_taken_iff
        (fun g hg => hk g (List.mem_append_left _ hg)) (fun g hg => hk g (List.mem_append_right _ hg)) hq).1 ht)⟩
    · exact ⟨.inr ⟨a, z, rfl, ha, hz⟩, fun ht => h ((zoned_taken_iff ha).1 ht)⟩

theorem group_one {x : Byte} (h : HexDigit x) : IsGroup [x] :=
  ⟨by simp, by simp, fun y hy => by simp only [List.mem_singleton] at hy; subst hy; exact h⟩

theorem quad_sample : IsIpv4 c!"1.2.3.4" :=
  ⟨c!"1", c!"2", c!"3", c!"4", rfl, by
    refine ⟨⟨by decide, by decide, ?_, by decide⟩, ⟨by decide, by decide, ?_, by decide⟩,
      ⟨by decide, by decide, ?_, by decide⟩, ⟨by decide, by decide, ?_, by decide⟩⟩ <;> simp only [Digit] <;> decide⟩

/-- `1:2:3:4:5:6:1.2.3.4` and `1::2:1.2.3.4` are addresses and refused. -/
example : (IsIpv6Address c!"1:2:3:4:5:6:1.2.3.4" ∧ ¬ Ipv6Taken c!"1:2:3:4:5:6:1.2.3.4") ∧
    (IsIpv6Address c!"1::2:1.2.3.4" ∧ ¬ Ipv6Taken c!"1::2:1.2.3.4") := by
  have one : ∀ x ∈ c!"123456", IsGroup [x] := by
    intro x hx
    refine group_one ?_
    revert x; simp only [HexDigit, Digit]; decide
  constructor
  · refine (C60_ipv6_wrongly_refused _).2 (.inl ⟨[c!"1", c!"2", c!"3", c!"4", c!"5", c!"6"], c!"1.2.3.4", rfl, rfl, ?_,
      quad_sample⟩)
    intro g hg
    simp only [List.mem_cons, List.not_mem_nil, or_false] at hg
    rcases hg with rfl | rfl | rfl | rfl | rfl | rfl <;> exact one _ (by decide)
  · refine (C60_ipv6_wrongly_refused _).2 (.inr (.inl ⟨[c!"1"], [c!"2"], c!"1.2.3.4", rfl, by decide, ?_, quad_sample, ?_⟩))
    · intro g hg
      simp only [List.cons_append, List.nil_append, List.mem_cons, List.not_mem_nil, or_false] at hg
      rcases hg with rfl | rfl <;> exact one _ (by decide)
    · rintro ⟨_, ⟨h, _⟩ | ⟨h, _⟩⟩ <;> exact absurd h (by decide)

/-- **C60** The validator with the pattern for IPv6, for every text without a newline: what it accepts is an address, except
    for zoned texts with improper fields; what it refuses as invalid is none, except for dotted and zoned addresses the
    pattern does not know. (Full statement: without the exceptions. `C60_ipv6_wrongly_accepted` and
    `C60_ipv6_wrongly_refused` say that each exception is one.) -/
theorem C60_ipv6_partial (W : World) (hW : FollowsPcre W) (s : Str) (hnl : (10 : Byte) ∉ s) :
    (regexValidator W (some s) (some reIpv6) = .pass → IsIpv6Address s ∨
      ∃ gs zone, ZonedFe80 gs zone s ∧ ¬ ProperFields gs) ∧
    (regexValidator W (some s) (some reIpv6) = .fail Err.invalidValue → ¬ IsIpv6Address s ∨
      (∃ gs q, s = joined c!":" (gs ++ [q]) ∧ gs.length = 6 ∧ (∀ g ∈ gs, IsGroup g) ∧ IsIpv4 q) ∨
      (∃ left right q, s = joined c!":" left ++ c!"::" ++ joined c!":" (right ++ [q]) ∧
        left.length + right.length ≤ 5 ∧ (∀ g ∈ left ++ right, IsGroup g) ∧ IsIpv4 q ∧ ¬ KnownDotted left right q) ∨
      (∃ a zone, s = a ++ c!"%" ++ zone ∧ IsIpv6Text a ∧ zone ≠ [] ∧ ¬ ∃ gs, ZonedFe80 gs zone s)) := by
  have hd : Decides W reIpv6 (OrWithNewline Ipv6Taken) :=
    C60_network_partial W hW (reIpv6, fun m => IsIpv6Groups m ∨ IsIpv6Zone m ∨ IsIpv6Dotted m) List.mem_cons_self
  constructor
  · intro h
    have ht : Ipv6Taken s := (orWithNewline_line hnl).1 (hd.accepts s h)
    by_cases ha : IsIpv6Address s
    · exact .inl ha
    · exact .inr ((C60_ipv6_wrongly_accepted s).1 ⟨ht, ha⟩)
  · intro h
    have ht : ¬ Ipv6Taken s := fun ht => hd.refuses s h ((orWithNewline_line hnl).2 ht)
    by_cases ha : IsIpv6Address s
    · exact .inr ((C60_ipv6_wrongly_refused s).1 ⟨ha, ht⟩)
    · exact .inl ha

/-- `::1` is accepted and an address. -/
example : ∃ W, FollowsPcre W ∧ regexValidator W (some c!"::1") (some reIpv6) = .pass ∧ IsIpv6Address c!"::1" := by
  have h1 : IsGroup c!"1" := group_one (by unfold HexDigit Digit; decide)
  have hg : IsIpv6Groups c!"::1" := .inr ⟨[], [c!"1"], rfl, by decide, by
    intro g hg; simp only [List.nil_append, List.mem_singleton] at hg; subst hg; exact h1⟩
  exact ⟨pcreWorld, pcreWorld_follows, pcreWorld_accepts parse_ipv6 ((found_ipv6 parse_ipv6 _).2 ⟨_, .inl rfl, .inl hg⟩),
    .inl (.inl hg)⟩

end Argus
