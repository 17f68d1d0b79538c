import Verif.Lemmas.PatternsIpv6
import Verif.Props.Order
import Verif.Props.Validation
import Verif.Spec.Sample

/-!
# C59 – C65: the predefined patterns

`Decides W p P` says what `V_REGEX` with the pattern `p` does to every text: it accepts only texts with `P`, refuses as
invalid values only texts without, and reports anything else only when the engine gives up. The engine is any that obeys
the semantics of the PCRE2 syntax (`FollowsPcre`).
-/

set_option autoImplicit false

namespace Argus

/-- The validator with the pattern `p` tells the texts with `P` from the others. -/
structure Decides (W : World) (p : Str) (P : Str → Prop) : Prop where
  /-- what is accepted has the property -/
  accepts : ∀ s, regexValidator W (some s) (some p) = .pass → P s
  /-- what is refused as an invalid value has not -/
  refuses : ∀ s, regexValidator W (some s) (some p) = .fail Err.invalidValue → ¬ P s
  /-- otherwise the engine ran out of resources -/
  otherwise : ∀ s, regexValidator W (some s) (some p) = .pass ∨ regexValidator W (some s) (some p) = .fail Err.invalidValue ∨
    (regexValidator W (some s) (some p) = .fail Err.invalidFormat ∧ W.regex p (some s) = .otherError)

/-- A text of the given kind, or one followed by a newline. -/
def OrWithNewline (P : Str → Prop) (s : Str) : Prop := P s ∨ ∃ m, s = m ++ [10] ∧ P m

theorem orWithNewline_iff (P : Str → Prop) (s : Str) : OrWithNewline P s ↔ ∃ m, Line s m ∧ P m := by
  unfold OrWithNewline Line
  constructor
  · rintro (h | ⟨m, e, h⟩)
    · exact ⟨s, .inl rfl, h⟩
    · exact ⟨m, .inr e, h⟩
  · rintro ⟨m, rfl | e, h⟩
    · exact .inl h
    · exact .inr ⟨m, e, h⟩

theorem decides_of_found {W : World} (hW : FollowsPcre W) {p : Str} {r : Re} {P : Str → Prop} (hp : Re.parse p = some r)
    (h : ∀ s, r.Found s ↔ P s) : Decides W p P := by
  refine ⟨fun s hs => ?_, fun s hs => ?_, fun s => ?_⟩
  · unfold regexValidator at hs
    rw [if_neg (by rw [hW.available]; decide)] at hs
    cases hr : W.regex p (some s) <;> simp only [hr] at hs
    · exact (h s).1 (hW.isMatch p r s hp hr)
    all_goals exact absurd hs (by decide)
  · unfold regexValidator at hs
    rw [if_neg (by rw [hW.available]; decide)] at hs
    cases hr : W.regex p (some s) <;> simp only [hr] at hs
    rotate_left
    · rw [← h s]; exact hW.noMatch p r s hp hr
    all_goals exact absurd hs (by decide)
  · unfold regexValidator
    rw [if_neg (by rw [hW.available]; decide)]
    cases hr : W.regex p (some s) <;> simp only [hr]
    · exact .inl trivial
    · exact .inr (.inl trivial)
    · exact absurd hr (hW.compiles p r s hp)
    · exact .inr (.inr ⟨trivial, trivial⟩)

theorem decides_line {W : World} (hW : FollowsPcre W) {p : Str} {r : Re} {P : Str → Prop} (hp : Re.parse p = some r)
    (h : ∀ s, r.Found s ↔ ∃ m, Line s m ∧ P m) : Decides W p (OrWithNewline P) :=
  decides_of_found hW hp (fun s => by rw [h s, orWithNewline_iff])

/-! ## Engines -/

/-- An engine with unlimited resources. -/
noncomputable def pcreWorld : World := { Sample.world with
  regexAvailable := true
  regex := fun p s =>
    match s, Re.parse p with
    | some s, some r => @ite _ (r.Found s) (Classical.propDecidable _) .isMatch .noMatch
    | _, _ => .otherError }

theorem pcreWorld_follows : FollowsPcre pcreWorld := by
  have key : ∀ p r s, Re.parse p = some r →
      pcreWorld.regex p (some s) = @ite _ (r.Found s) (Classical.propDecidable _) .isMatch .noMatch := by
    intro p r s hp
    show (match some s, Re.parse p with
      | some s, some r => @ite _ (r.Found s) (Classical.propDecidable _) RegexResult.isMatch .noMatch
      | _, _ => .otherError) = _
    rw [hp]
  refine ⟨rfl, ?_, ?_, ?_⟩
  · intro p r s hp; rw [key p r s hp]; split <;> simp
  · intro p r s hp; rw [key p r s hp]; split
    · intro _; assumption
    · simp
  · intro p r s hp; rw [key p r s hp]; split
    · simp
    · intro _; assumption

/-- It accepts what the patterns describe. -/
theorem pcreWorld_accepts {p : Str} {r : Re} {s : Str} (hp : Re.parse p = some r) (h : r.Found s) :
    regexValidator pcreWorld (some s) (some p) = .pass := by
  have e : pcreWorld.regex p (some s) = .isMatch := by
    show (match some s, Re.parse p with
      | some s, some r => @ite _ (r.Found s) (Classical.propDecidable _) RegexResult.isMatch .noMatch
      | _, _ => .otherError) = _
    rw [hp]
    simp only [if_pos h]
  unfold regexValidator
  rw [if_neg (by show ¬ (true = false); decide)]
  simp only [e]

/-- An engine that knows one answer and gives up otherwise: enough to run the examples. -/
def oneAnswer (p s : Str) : World := { Sample.world with
  regexAvailable := true
  regex := fun q t => if q = p ∧ t = some s then .isMatch else .otherError }

theorem oneAnswer_follows {p s : Str} {r : Re} (hp : Re.parse p = some r) (h : r.Found s) : FollowsPcre (oneAnswer p s) := by
  have key : ∀ q t, (oneAnswer p s).regex q t = if q = p ∧ t = some s then .isMatch else .otherError := fun _ _ => rfl
  refine ⟨rfl, ?_, ?_, ?_⟩
  · intro q r' t _; rw [key]; split <;> simp
  · intro q r' t hq; rw [key]; split
    · rename_i hc
      intro _
      obtain ⟨rfl, e⟩ := hc
      cases e
      rw [hp] at hq; cases hq
      exact h
    · simp
  · intro q r' t _; rw [key]; split <;> simp

/-! ## After a parse -/

/-- **C59 – C64** After a successful parse every text the command line gave to an option with `V_REGEX` is of the kind the
    pattern stands for. -/
theorem patterns_checked {W : World} {p : Str} {P : Str → Prop} (hd : Decides W p P) {env : Env} {a a' : Argus} {args : List Str}
    {q : Ptr} {o : Opt} {hint : Option Str} (hok : argusParse W env a args = .ok (.returned Err.success, a'))
    (ho : a.getOpt q = .ok o) (hv : vRegex (some p) hint ∈ o.validators.getD []) {s : Str}
    (hs : some s ∈ allTexts env a args q o) : P s := by
  obtain ⟨h1, p', e, h2⟩ := C26_texts W env a a' args q o hok ho (some s) hs _ hv rfl
  cases e
  refine hd.accepts s ?_
  unfold regexValidator
  rw [if_neg (by rw [h1]; decide)]
  simp only [h2]

/-- The value of a string option with `V_REGEX`, given on the command line or in the environment, is of that kind. -/
theorem pattern_value {W : World} {p : Str} {P : Str → Prop} (hd : Decides W p P) {env : Env} {a a' : Argus} {args : List Str}
    {q : Ptr} {o : Opt} {hint : Option Str} {earlier : List (Option Str)} {s : Str}
    (hok : argusParse W env a args = .ok (.returned Err.success, a')) (ho : a.getOpt q = .ok o)
    (ht : o.type ≠ .subcommand) (hh : o.handler = some .string)
    (hv : vRegex (some p) hint ∈ o.validators.getD []) (hlast : allTexts env a args q o = earlier ++ [some s]) :
    ∃ o', a'.getOpt q = .ok o' ∧ o'.ReadsString s ∧ P s := by
  obtain ⟨o', h1, h2, _⟩ := C11_last_text W env a a' args q o .string earlier s hok ho ht hh rfl hlast
  exact ⟨o', h1, h2, patterns_checked hd hok ho hv (by rw [hlast]; simp)⟩

theorem orWithNewline_line {P : Str → Prop} {s : Str} (h : (10 : Byte) ∉ s) : OrWithNewline P s ↔ P s := by
  unfold OrWithNewline
  constructor
  · rintro (h1 | ⟨m, rfl, _⟩)
    · exact h1
    · exact absurd (by simp) h
  · exact .inl

/-- What a parse guarantees about an option whose pattern stands for `P`: the texts it was given are of that kind, and so is
    the value of a string option. -/
structure Guarantees (W : World) (p : Str) (P : Str → Prop) : Prop where
  texts : ∀ (env : Env) (a a' : Argus) (args : List Str) (q : Ptr) (o : Opt) (hint : Option Str) (s : Str),
    argusParse W env a args = .ok (.returned Err.success, a') → a.getOpt q = .ok o →
    vRegex (some p) hint ∈ o.validators.getD [] → some s ∈ allTexts env a args q o → P s
  value : ∀ (env : Env) (a a' : Argus) (args : List Str) (q : Ptr) (o : Opt) (hint : Option Str)
    (earlier : List (Option Str)) (s : Str),
    argusParse W env a args = .ok (.returned Err.success, a') → a.getOpt q = .ok o →
    o.type ≠ .subcommand → o.handler = some .string →
    vRegex (some p) hint ∈ o.validators.getD [] → allTexts env a args q o = earlier ++ [some s] →
    ∃ o', a'.getOpt q = .ok o' ∧ o'.ReadsString s ∧ P s

theorem guarantees_of_decides {W : World} {p : Str} {P : Str → Prop} (h : Decides W p P) : Guarantees W p P :=
  ⟨fun _ _ _ _ _ _ _ _ h1 h2 h3 h4 => patterns_checked h h1 h2 h3 h4,
   fun _ _ _ _ _ _ _ _ _ h1 h2 h3 h4 h5 h6 => pattern_value h h1 h2 h3 h4 h5 h6⟩

/-! ## C59: numbers and versions -/

/-- includes/argus/regex.h:194-216: the patterns for numbers and versions, and what they stand for. -/
def numberKinds : List (Str × (Str → Prop)) :=
  [(rePosInt, IsPosInt), (reNegInt, IsNegInt), (reFloat, IsDecimal), (reHex, IsHexNumber), (reSemver, IsSemver)]

/-- **C59** The patterns for numbers and versions accept exactly these, but also a newline after them.
    Missing: the newline, which a text may have (`C59_newline_accepted`). -/
theorem C59_numbers_partial (W : World) (hW : FollowsPcre W) :
    ∀ k ∈ numberKinds, Decides W k.1 (OrWithNewline k.2) := by
  simp only [numberKinds, List.forall_mem_cons]
  exact ⟨decides_line hW parse_posInt (found_posInt parse_posInt), decides_line hW parse_negInt (found_negInt parse_negInt),
    decides_line hW parse_float (found_float parse_float), decides_line hW parse_hex (found_hex parse_hex),
    decides_line hW parse_semver (found_semver parse_semver), by simp⟩

/-- **C59** After a parse. -/
theorem C59_parsed_partial (W : World) (hW : FollowsPcre W) :
    ∀ k ∈ numberKinds, Guarantees W k.1 (OrWithNewline k.2) :=
  fun k hk => guarantees_of_decides (C59_numbers_partial W hW k hk)

/-- **C59** is false as it stands: `$` matches before a newline that ends the text. -/
theorem C59_newline_accepted : ∃ W, FollowsPcre W ∧ regexValidator W (some c!"42\n") (some rePosInt) = .pass ∧
    ¬ IsPosInt c!"42\n" := by
  refine ⟨pcreWorld, pcreWorld_follows, pcreWorld_accepts parse_posInt ?_, ?_⟩
  · exact (found_posInt parse_posInt _).2 ⟨c!"42", .inr rfl, 42, by omega, by decide⟩
  · intro h
    obtain ⟨x, t, e, _, _, h3⟩ := (posNumeral_iff _).1 h
    cases e
    have := digit_nat.1 (h3 10 (by decide))
    simp at this

/-- A string option for versions. -/
def semverOption : Opt := { optString 118 c!"ver" with validators := some [vRegex (some reSemver) (some c!"semver")] }

theorem semver_example : IsSemver c!"1.0.0-beta+build" :=
  ⟨1, 0, 0, c!"-beta", c!"+build", by decide, .inr ⟨[c!"beta"], by decide, by decide, by
    intro i hi; simp at hi; subst hi
    refine ⟨⟨by decide, ?_⟩, ?_⟩
    · simp only [Letter, Digit]; decide
    · intro h; exact absurd (h 98 (by decide)) (by unfold Digit; decide)⟩,
   .inr ⟨[c!"build"], by decide, by decide, by
    intro i hi; simp at hi; subst hi
    refine ⟨by decide, ?_⟩
    simp only [Letter, Digit]; decide⟩⟩

set_option maxRecDepth 20000 in
/-- A conforming engine and a program for which all this is not vacuous. -/
example : ∃ W a a' q o s, FollowsPcre W ∧ argusParse W Sample.noEnv a [c!"--ver=1.0.0-beta+build"] =
      .ok (.returned Err.success, a') ∧ a.getOpt q = .ok o ∧ vRegex (some reSemver) (some c!"semver") ∈ o.validators.getD [] ∧
      o.type ≠ .subcommand ∧ o.handler = some .string ∧
      allTexts Sample.noEnv a [c!"--ver=1.0.0-beta+build"] q o = [] ++ [some s] :=
  ⟨oneAnswer reSemver c!"1.0.0-beta+build", argusInit [[semverOption]] c!"p" none, _, ⟨0, 0⟩, _, c!"1.0.0-beta+build",
    oneAnswer_follows parse_semver ((found_semver parse_semver _).2 ⟨_, .inl rfl, semver_example⟩), rfl, rfl,
    by decide, by decide, by decide, by decide⟩

/-! ## C60: network addresses -/

/-- includes/argus/regex.h:97-136: the anchored patterns for addresses. -/
def networkKinds : List (Str × (Str → Prop)) :=
  [(reIpv6, fun m => IsIpv6Groups m ∨ IsIpv6Zone m ∨ IsIpv6Dotted m), (reDomain, IsDomain), (reUrl, IsUrl),
   (reHttp, IsHttpUrl), (rePort, IsPort)]

/-- **C60** The patterns for addresses accept exactly these, but also a newline after them.
    Missing: the newline; and the zoned addresses the pattern knows need not be IPv6 addresses (`C60_zone_accepted`). -/
theorem C60_network_partial (W : World) (hW : FollowsPcre W) :
    ∀ k ∈ networkKinds, Decides W k.1 (OrWithNewline k.2) := by
  simp only [networkKinds, List.forall_mem_cons]
  exact ⟨decides_line hW parse_ipv6 (found_ipv6 parse_ipv6), decides_line hW parse_domain (found_domain parse_domain),
    decides_line hW parse_url (found_url parse_url), decides_line hW parse_http (found_http parse_http),
    decides_line hW parse_port (found_port parse_port), by simp⟩

/-- **C60** The pattern for IPv4 accepts exactly the texts that begin with an address.
    Missing: what follows the address is not looked at (`C60_ipv4_tail_accepted`). -/
theorem C60_ipv4_partial (W : World) (hW : FollowsPcre W) :
    Decides W reIpv4 (fun s => ∃ m rest, s = m ++ rest ∧ IsIpv4 m) :=
  decides_of_found hW parse_ipv4 (found_ipv4 parse_ipv4)

/-- **C60** After a parse. -/
theorem C60_parsed_partial (W : World) (hW : FollowsPcre W) :
    (∀ k ∈ networkKinds, Guarantees W k.1 (OrWithNewline k.2)) ∧
      Guarantees W reIpv4 (fun s => ∃ m rest, s = m ++ rest ∧ IsIpv4 m) :=
  ⟨fun k hk => guarantees_of_decides (C60_network_partial W hW k hk), guarantees_of_decides (C60_ipv4_partial W hW)⟩

/-- **C60** is false for IPv4: the pattern lacks its `$`. -/
theorem C60_ipv4_tail_accepted (tail : Str) : ∃ W, FollowsPcre W ∧
    regexValidator W (some (c!"10.0.0.1" ++ tail)) (some reIpv4) = .pass := by
  refine ⟨pcreWorld, pcreWorld_follows, pcreWorld_accepts parse_ipv4 ?_⟩
  refine (found_ipv4 parse_ipv4 _).2 ⟨c!"10.0.0.1", tail, rfl, c!"10", c!"0", c!"0", c!"1", rfl, ?_, ?_, ?_, ?_⟩ <;>
    refine ⟨by decide, by decide, ?_, by decide⟩ <;> (simp only [Digit]; decide)

/-- **C60** is false for IPv6: `fe80:%1` is accepted. -/
theorem C60_zone_accepted : ∃ W, FollowsPcre W ∧ regexValidator W (some c!"fe80:%1") (some reIpv6) = .pass := by
  refine ⟨pcreWorld, pcreWorld_follows, pcreWorld_accepts parse_ipv6 ?_⟩
  refine (found_ipv6 parse_ipv6 _).2 ⟨_, .inl rfl, .inr (.inl ⟨[], c!"1", rfl, by simp, by simp, by simp, ?_⟩)⟩
  simp only [Letter, Digit]; decide

/-- An engine and a program with a port option. -/
example : ∃ W a a' q o s, FollowsPcre W ∧ argusParse W Sample.noEnv a [c!"-p", c!"8080"] =
      .ok (.returned Err.success, a') ∧ a.getOpt q = .ok o ∧ vRegex (some rePort) (some c!"port") ∈ o.validators.getD [] ∧
      some s ∈ allTexts Sample.noEnv a [c!"-p", c!"8080"] q o :=
  ⟨oneAnswer rePort c!"8080",
    argusInit [[{ optString 112 c!"port" with validators := some [vRegex (some rePort) (some c!"port")] }]] c!"p" none,
    _, ⟨0, 0⟩, _, c!"8080",
    oneAnswer_follows parse_port ((found_port parse_port _).2 ⟨_, .inl rfl, 8080, by omega, by omega, by decide +kernel⟩),
    rfl, rfl, by decide, by decide⟩

/-! ## C61: email addresses -/

/-- includes/argus/regex.h:138-151. -/
def mailKinds : List (Str × (Str → Prop)) := [(reEmail, IsEmail), (reEmailStrict, IsStrictEmail)]

/-- **C61** The patterns for email addresses accept exactly these, but also a newline after them.
    Missing: the newline; and the basic pattern accepts hosts with empty labels (`C61_empty_label_accepted`). -/
theorem C61_mail_partial (W : World) (hW : FollowsPcre W) : ∀ k ∈ mailKinds, Decides W k.1 (OrWithNewline k.2) := by
  simp only [mailKinds, List.forall_mem_cons]
  exact ⟨decides_line hW parse_email (found_email parse_email),
    decides_line hW parse_emailStrict (found_emailStrict parse_emailStrict), by simp⟩

/-- **C61** After a parse. -/
theorem C61_parsed_partial (W : World) (hW : FollowsPcre W) : ∀ k ∈ mailKinds, Guarantees W k.1 (OrWithNewline k.2) :=
  fun k hk => guarantees_of_decides (C61_mail_partial W hW k hk)

/-- **C61** `a@..com` is accepted. -/
theorem C61_empty_label_accepted : ∃ W, FollowsPcre W ∧ regexValidator W (some c!"a@..com") (some reEmail) = .pass := by
  refine ⟨pcreWorld, pcreWorld_follows, pcreWorld_accepts parse_email ?_⟩
  refine (found_email parse_email _).2 ⟨_, .inl rfl, c!"a", c!".", c!"com", rfl, by simp, ?_, by simp, ?_, by simp, ?_⟩
  · simp only [Letter, Digit]; decide
  · simp only [Letter, Digit]; decide
  · simp only [Letter]; decide

example : IsStrictEmail c!"user.name+tag@example.com" := by
  refine ⟨c!"user.name+tag", [c!"example", c!"com"], by decide, by simp, ?_, by simp, ?_⟩
  · simp only [Letter, Digit]; decide
  · intro l hl
    simp at hl
    rcases hl with rfl | rfl <;> (unfold IsLabel; simp only [Letter, Digit]; decide)

/-! ## C62: dates and times -/

/-- includes/argus/regex.h:153-166. -/
def dateKinds : List (Str × (Str → Prop)) := [(reIsoDate, IsDate), (reIsoTime, IsDateTime)]

/-- **C62** The patterns for dates and times accept exactly these, but also a newline after them.
    Missing: the newline; and the length of months is not looked at (`C62_calendar_ignored`). -/
theorem C62_dates_partial (W : World) (hW : FollowsPcre W) : ∀ k ∈ dateKinds, Decides W k.1 (OrWithNewline k.2) := by
  simp only [dateKinds, List.forall_mem_cons]
  exact ⟨decides_line hW parse_isoDate (found_isoDate parse_isoDate),
    decides_line hW parse_isoTime (found_isoTime parse_isoTime), by simp⟩

/-- **C62** After a parse. -/
theorem C62_parsed_partial (W : World) (hW : FollowsPcre W) : ∀ k ∈ dateKinds, Guarantees W k.1 (OrWithNewline k.2) :=
  fun k hk => guarantees_of_decides (C62_dates_partial W hW k hk)

/-- **C62** The 30th of February is accepted. -/
theorem C62_calendar_ignored : ∃ W, FollowsPcre W ∧ regexValidator W (some c!"2023-02-30") (some reIsoDate) = .pass := by
  refine ⟨pcreWorld, pcreWorld_follows, pcreWorld_accepts parse_isoDate ?_⟩
  refine (found_isoDate parse_isoDate _).2 ⟨_, .inl rfl, c!"2023", c!"02", c!"30", rfl, ?_, ?_, ?_⟩ <;>
    (unfold Digits; simp only [Digit]; decide)

example : IsDateTime c!"2024-03-15T14:30:00" := by
  refine ⟨c!"2024-03-15", c!"14", c!"30", c!"00", rfl, ⟨c!"2024", c!"03", c!"15", rfl, ?_, ?_, ?_⟩, ?_, ?_, ?_⟩ <;>
    (unfold Digits; simp only [Digit]; decide)

/-! ## C63: identities -/

/-- includes/argus/regex.h:168-182. -/
def identityKinds : List (Str × (Str → Prop)) := [(reUser, IsUser), (rePasswd, IsPassword), (reUuid, IsUuid)]

/-- **C63** The patterns for user names, passwords and UUIDs accept exactly these, but also a newline after them.
    Missing: the newline. -/
theorem C63_identities_partial (W : World) (hW : FollowsPcre W) :
    ∀ k ∈ identityKinds, Decides W k.1 (OrWithNewline k.2) := by
  simp only [identityKinds, List.forall_mem_cons]
  exact ⟨decides_line hW parse_user (found_user parse_user), decides_line hW parse_passwd (found_passwd parse_passwd),
    decides_line hW parse_uuid (found_uuid parse_uuid), by simp⟩

/-- **C63** After a parse. -/
theorem C63_parsed_partial (W : World) (hW : FollowsPcre W) :
    ∀ k ∈ identityKinds, Guarantees W k.1 (OrWithNewline k.2) :=
  fun k hk => guarantees_of_decides (C63_identities_partial W hW k hk)

/-- **C63** is false as it stands: a password may end in a newline. -/
theorem C63_newline_accepted : ∃ W, FollowsPcre W ∧ regexValidator W (some c!"password123\n") (some rePasswd) = .pass ∧
    ¬ IsPassword c!"password123\n" := by
  refine ⟨pcreWorld, pcreWorld_follows, pcreWorld_accepts parse_passwd ?_, ?_⟩
  · refine (found_passwd parse_passwd _).2 ⟨c!"password123", .inr rfl, by decide, ?_, ?_, ?_⟩ <;>
      (simp only [Letter, Digit]; decide)
  · intro h
    exact alnum_ne_nl h.2.1 (by decide)

/-! ## C64: files and paths -/

/-- includes/argus/regex.h:184-192. -/
def fileKinds : List (Str × (Str → Prop)) := [(reUnixPath, IsUnixPath), (reFilename, IsFilename)]

/-- **C64** The patterns for files accept exactly absolute paths without spaces and file names with an extension, but also
    a newline after them. Missing: the newline; and absolute paths with spaces are refused (`C64_space_refused`). -/
theorem C64_files_partial (W : World) (hW : FollowsPcre W) : ∀ k ∈ fileKinds, Decides W k.1 (OrWithNewline k.2) := by
  simp only [fileKinds, List.forall_mem_cons]
  exact ⟨decides_line hW parse_unixPath (found_unixPath parse_unixPath),
    decides_line hW parse_filename (found_filename parse_filename), by simp⟩

/-- **C64** After a parse. -/
theorem C64_parsed_partial (W : World) (hW : FollowsPcre W) : ∀ k ∈ fileKinds, Guarantees W k.1 (OrWithNewline k.2) :=
  fun k hk => guarantees_of_decides (C64_files_partial W hW k hk)

/-- **C64** No engine accepts `/My Documents`. -/
theorem C64_space_refused (W : World) (hW : FollowsPcre W) :
    regexValidator W (some c!"/My Documents") (some reUnixPath) ≠ .pass := by
  intro h
  have := (C64_files_partial W hW (reUnixPath, IsUnixPath) (by simp [fileKinds])).accepts _ h
  rw [orWithNewline_line (by decide)] at this
  obtain ⟨t, e, ht⟩ := this
  cases e
  exact ht (by decide)

example : IsUnixPath c!"/path/to/file" ∧ IsFilename c!"document.pdf" := by
  refine ⟨⟨c!"path/to/file", rfl, by decide⟩, c!"document", c!"pdf", rfl, by simp, ?_, by simp, by simp, ?_⟩
  · simp only [Letter, Digit, Space]; decide
  · simp only [Letter]; decide

/-! ## C65: builds without regular expressions -/

/-- **C65** Without PCRE2 the validator refuses every text as an invalid value, whatever the pattern. -/
theorem C65_refused (W : World) (hW : W.regexAvailable = false) (s p : Option Str) :
    regexValidator W s p = .fail Err.invalidValue := by
  unfold regexValidator; rw [if_pos hW]

/-- **C65** So no parse succeeds that gives a text, from the command line or the environment, to an option with `V_REGEX`. -/
theorem C65_no_parse (W : World) (hW : W.regexAvailable = false) (env : Env) (a a' : Argus) (args : List Str) (q : Ptr)
    (o : Opt) (p hint : Option Str) (s : Option Str) (ho : a.getOpt q = .ok o)
    (hv : vRegex p hint ∈ o.validators.getD []) (hs : s ∈ allTexts env a args q o) :
    argusParse W env a args ≠ .ok (.returned Err.success, a') := by
  intro hok
  have := (C26_texts W env a a' args q o hok ho s hs _ hv rfl).1
  rw [hW] at this; cases this

set_option maxRecDepth 20000 in
example : ∃ (a : Argus) (q : Ptr) (o : Opt) (s : Option Str), Sample.world.regexAvailable = false ∧ a.getOpt q = .ok o ∧
    vRegex (some reSemver) (some c!"semver") ∈ o.validators.getD [] ∧ s ∈ allTexts Sample.noEnv a [c!"--ver=1.0.0"] q o :=
  ⟨argusInit [[semverOption]] c!"p" none, ⟨0, 0⟩, _, some c!"1.0.0", rfl, rfl, by decide, by decide⟩

end Argus
