import Verif.Model.Types

/-!
# The regular expressions of `includes/argus/regex.h`

The patterns are kept as the C source writes them. `Re.parse` reads the part of the PCRE2 syntax they use, and
`Re.M` says what PCRE2 matches without options (no UTF, no multi-line mode, LF as newline). The
patterns use neither back references nor atomic groups nor possessive quantifiers, so the order in which
PCRE2 tries alternatives does not affect whether there is a match.

The engine itself is the parameter `World.regex`; `FollowsPcre` says that it obeys this semantics.
-/

set_option autoImplicit false

namespace Argus

/-- A character class: ranges of bytes, possibly negated. -/
structure Cls where
  neg : Bool
  ranges : List (Byte × Byte)
  deriving DecidableEq, Repr

/-- Does the class contain a byte? -/
def Cls.has (c : Cls) (x : Byte) : Bool := c.neg != c.ranges.any (fun r => r.1 ≤ x && x ≤ r.2)

/-- Regular expressions. -/
inductive Re where
  | eps
  | cls (c : Cls)
  | seq (r s : Re)
  | alt (r s : Re)
  /-- at least `lo` and at most `hi` times -/
  | rep (r : Re) (lo : Nat) (hi : Option Nat)
  /-- `^` -/
  | bol
  /-- `$` -/
  | eol
  /-- `(?=r)` and `(?!r)` -/
  | ahead (neg : Bool) (r : Re)
  /-- `(?<=r)` and `(?<!r)` -/
  | behind (neg : Bool) (r : Re)
  deriving DecidableEq, Repr

/-! ### Syntax -/

/-- `\d`, `\w`, `\s`, in the "C" locale. -/
def escRanges : Byte → Option (List (Byte × Byte))
  | 100 => some [(48, 57)]
  | 119 => some [(48, 57), (65, 90), (95, 95), (97, 122)]
  | 115 => some [(9, 13), (32, 32)]
  | _ => none

/-- Letters and digits: their escapes other than the above are not supported. -/
def isAlnum (x : Byte) : Bool := (48 ≤ x && x ≤ 57) || (65 ≤ x && x ≤ 90) || (97 ≤ x && x ≤ 122)

/-- The members of a class up to its `]`. -/
def parseMembers : Str → Option (List (Byte × Byte) × Str)
  | [] => none
  | 93 :: rest => some ([], rest)
  | 92 :: x :: rest =>
    match escRanges x with
    | some rs => (parseMembers rest).map fun p => (rs ++ p.1, p.2)
    | none => if isAlnum x then none else (parseMembers rest).map fun p => ((x, x) :: p.1, p.2)
  | x :: 45 :: 93 :: rest => some ([(x, x), (45, 45)], rest)
  | x :: 45 :: y :: rest =>
    if y = 92 ∨ y < x then none else (parseMembers rest).map fun p => ((x, y) :: p.1, p.2)
  | x :: rest => if x = 91 ∨ x = 92 then none else (parseMembers rest).map fun p => ((x, x) :: p.1, p.2)

/-- A class, after its `[`. -/
def parseClass : Str → Option (Cls × Str)
  | 94 :: rest => (parseMembers rest).map fun p => (⟨true, p.1⟩, p.2)
  | rest => (parseMembers rest).map fun p => (⟨false, p.1⟩, p.2)

/-- The digits at the beginning. -/
def takeNum (s : Str) : Option (Nat × Str) :=
  if (s.takeWhile isDigit).isEmpty then none else some (digitsVal (s.takeWhile isDigit), s.dropWhile isDigit)

/-- `{n}`, `{n,}` or `{n,m}`, after the `{`. -/
def parseBraces (s : Str) : Option ((Nat × Option Nat) × Str) :=
  match takeNum s with
  | none => none
  | some (n, 125 :: rest) => some ((n, some n), rest)
  | some (n, 44 :: 125 :: rest) => some ((n, none), rest)
  | some (n, 44 :: rest) =>
    match takeNum rest with
    | some (m, 125 :: rest') => some ((n, some m), rest')
    | _ => none
  | _ => none

/-- A quantifier, if there is one. -/
def parseQuant (r : Re) : Str → Option (Re × Str)
  | 42 :: rest => some (.rep r 0 none, rest)
  | 43 :: rest => some (.rep r 1 none, rest)
  | 63 :: rest => some (.rep r 0 (some 1), rest)
  | 123 :: rest => (parseBraces rest).map fun p => (.rep r p.1.1 p.1.2, p.2)
  | rest => some (r, rest)

/-- After a quantifier `?` and `+` would make it lazy or possessive, and a further one is an error: not
    supported. -/
def notQuant : Str → Bool
  | 42 :: _ => false
  | 43 :: _ => false
  | 63 :: _ => false
  | 123 :: _ => false
  | _ => true

/-- The byte as a class. -/
def Re.byte (x : Byte) : Re := .cls ⟨false, [(x, x)]⟩

mutual
/-- Alternatives, up to `)` or the end. The number bounds the recursion. -/
def parseAlt : Nat → Str → Option (Re × Str)
  | 0, _ => none
  | n + 1, s =>
    match parseSeq n s with
    | some (r, 124 :: rest) => (parseAlt n rest).map fun p => (.alt r p.1, p.2)
    | x => x

/-- A sequence, up to `|`, `)` or the end. -/
def parseSeq : Nat → Str → Option (Re × Str)
  | 0, _ => none
  | _, [] => some (.eps, [])
  | _, 124 :: rest => some (.eps, 124 :: rest)
  | _, 41 :: rest => some (.eps, 41 :: rest)
  | n + 1, s =>
    match parseAtom n s with
    | none => none
    | some (r, rest) =>
      match parseQuant r rest with
      | none => none
      | some (q, rest') =>
        if notQuant rest' then (parseSeq n rest').map fun p => (.seq q p.1, p.2) else none

/-- An atom. -/
def parseAtom : Nat → Str → Option (Re × Str)
  | 0, _ => none
  | _, [] => none
  | n + 1, 40 :: 63 :: 58 :: rest => parseGroup n (fun r => r) rest
  | n + 1, 40 :: 63 :: 61 :: rest => parseGroup n (.ahead false) rest
  | n + 1, 40 :: 63 :: 33 :: rest => parseGroup n (.ahead true) rest
  | n + 1, 40 :: 63 :: 60 :: 61 :: rest => parseGroup n (.behind false) rest
  | n + 1, 40 :: 63 :: 60 :: 33 :: rest => parseGroup n (.behind true) rest
  | _, 40 :: 63 :: _ => none
  | n + 1, 40 :: rest => parseGroup n (fun r => r) rest
  | _, 91 :: rest => (parseClass rest).map fun p => (.cls p.1, p.2)
  | _, 92 :: x :: rest =>
    match escRanges x with
    | some rs => some (.cls ⟨false, rs⟩, rest)
    | none => if isAlnum x then none else some (.byte x, rest)
  | _, 46 :: rest => some (.cls ⟨true, [(10, 10)]⟩, rest)
  | _, 94 :: rest => some (.bol, rest)
  | _, 36 :: rest => some (.eol, rest)
  | _, x :: rest =>
    if x = 41 ∨ x = 42 ∨ x = 43 ∨ x = 63 ∨ x = 92 ∨ x = 123 ∨ x = 124 then none else some (.byte x, rest)

/-- A group, after its opening. -/
def parseGroup : Nat → (Re → Re) → Str → Option (Re × Str)
  | 0, _, _ => none
  | n + 1, f, s =>
    match parseAlt n s with
    | some (r, 41 :: rest) => some (f r, rest)
    | _ => none
end

/-- A whole pattern. -/
def Re.parse (s : Str) : Option Re :=
  match parseAlt (4 * s.length + 4) s with
  | some (r, []) => some r
  | _ => none

/-! ### Meaning -/

/-- `n` matches of `P`, one after the other. -/
def Reps (P : Str → Str → Str → Prop) : Nat → Str → Str → Str → Prop
  | 0, _, m, _ => m = []
  | n + 1, b, m, a => ∃ x y, m = x ++ y ∧ P b x (y ++ a) ∧ Reps P n (b ++ x) y a

/-- `r.M b m a`: in the subject `b ++ m ++ a` the expression matches `m`. `$` also matches before a newline that ends
    the subject. -/
def Re.M : Re → Str → Str → Str → Prop
  | .eps, _, m, _ => m = []
  | .cls c, _, m, _ => ∃ x, m = [x] ∧ c.has x = true
  | .seq r s, b, m, a => ∃ x y, m = x ++ y ∧ r.M b x (y ++ a) ∧ s.M (b ++ x) y a
  | .alt r s, b, m, a => r.M b m a ∨ s.M b m a
  | .rep r lo hi, b, m, a => ∃ n, lo ≤ n ∧ (∀ k ∈ hi, n ≤ k) ∧ Reps r.M n b m a
  | .bol, b, m, _ => m = [] ∧ b = []
  | .eol, _, m, a => m = [] ∧ (a = [] ∨ a = [10])
  | .ahead neg r, b, m, a => m = [] ∧ ((∃ x y, a = x ++ y ∧ r.M b x y) ↔ neg = false)
  | .behind neg r, b, m, a => m = [] ∧ ((∃ x y, b = x ++ y ∧ r.M x y a) ↔ neg = false)

/-- `pcre2_match` finds a match somewhere in the subject. -/
def Re.Found (r : Re) (s : Str) : Prop := ∃ b m a, s = b ++ m ++ a ∧ r.M b m a

/-- The engine obeys the semantics wherever it gives an answer (it may run out of resources). A pattern in the supported syntax
    compiles. -/
structure FollowsPcre (W : World) : Prop where
  available : W.regexAvailable = true
  compiles : ∀ p r s, Re.parse p = some r → W.regex p (some s) ≠ .compileError
  isMatch : ∀ p r s, Re.parse p = some r → W.regex p (some s) = .isMatch → r.Found s
  noMatch : ∀ p r s, Re.parse p = some r → W.regex p (some s) = .noMatch → ¬ r.Found s

/-! ### Patterns -/

/-- includes/argus/regex.h:98-101 `ARGUS_RE_IPV4`. -/
def reIpv4 : Str :=
  c!"^((25[0-5]|2[0-4][0-9]|[01]?[0-9][0-9]?)\\.){3}(25[0-5]|2[0-4][0-9]|[01]?[0-9][0-9]?)"

/-- includes/argus/regex.h:104-120 `ARGUS_RE_IPV6`. -/
def reIpv6 : Str :=
  c!"^(([0-9a-fA-F]{1,4}:){7,7}[0-9a-fA-F]{1,4}|([0-9a-fA-F]{1,4}:){1,7}:|([0-9a-fA-F]{1,4}:){1,6}:[0-9a-fA-F]{1,4}|([0-9a-fA-F]{1,4}:){1,5}(:[0-9a-fA-F]{1,4}){1,2}|([0-9a-fA-F]{1,4}:){1,4}(:[0-9a-fA-F]{1,4}){1,3}|([0-9a-fA-F]{1,4}:){1,3}(:[0-9a-fA-F]{1,4}){1,4}|([0-9a-fA-F]{1,4}:){1,2}(:[0-9a-fA-F]{1,4}){1,5}|[0-9a-fA-F]{1,4}:((:[0-9a-fA-F]{1,4}){1,6})|:((:[0-9a-fA-F]{1,4}){1,7}|:)|fe80:(:[0-9a-fA-F]{0,4}){0,4}%[0-9a-zA-Z]{1,}|::(ffff(:0{1,4}){0,1}:){0,1}((25[0-5]|(2[0-4]|1{0,1}[0-9]){0,1}[0-9])\\.){3,3}(25[0-5]|(2[0-4]|1{0,1}[0-9]){0,1}[0-9])|([0-9a-fA-F]{1,4}:){1,4}:((25[0-5]|(2[0-4]|1{0,1}[0-9]){0,1}[0-9])\\.){3,3}(25[0-5]|(2[0-4]|1{0,1}[0-9]){0,1}[0-9]))$"

/-- includes/argus/regex.h:123-124 `ARGUS_RE_DOMAIN`. -/
def reDomain : Str := c!"^(?=.{1,253}$)((?!-)[A-Za-z0-9-]{1,63}(?<!-)\\.)+[A-Za-z]{2,}$"

/-- includes/argus/regex.h:127 `ARGUS_RE_URL`. -/
def reUrl : Str := c!"^([a-zA-Z][a-zA-Z0-9+.-]*):\\/\\/[^\\s/$.?#].[^\\s]*$"

/-- includes/argus/regex.h:130 `ARGUS_RE_HTTP`. -/
def reHttp : Str := c!"^https?:\\/\\/[^\\s/$.?#].[^\\s]*$"

/-- includes/argus/regex.h:133-136 `ARGUS_RE_PORT`. -/
def rePort : Str :=
  c!"^([1-9][0-9]{0,3}|[1-5][0-9]{4}|6[0-4][0-9]{3}|65[0-4][0-9]{2}|655[0-2][0-9]|6553[0-5])$"

/-- includes/argus/regex.h:143 `ARGUS_RE_EMAIL`. -/
def reEmail : Str := c!"^[a-zA-Z0-9._%+-]+@[a-zA-Z0-9.-]+\\.[a-zA-Z]{2,}$"

/-- includes/argus/regex.h:146-151 `ARGUS_RE_EMAIL_STRICT`. -/
def reEmailStrict : Str :=
  c!"^[a-zA-Z0-9.!#$%&'*+/=?^_`{|}~-]+@[a-zA-Z0-9](?:[a-zA-Z0-9-]{0,61}[a-zA-Z0-9])?(?:\\.[a-zA-Z0-9](?:[a-zA-Z0-9-]{0,61}[a-zA-Z0-9])?)*$"

/-- includes/argus/regex.h:158-159 `ARGUS_RE_ISO_DATE`. -/
def reIsoDate : Str := c!"^\\d{4}-([0][1-9]|[1][0-2])-([0][1-9]|[1-2][0-9]|[3][0-1])$"

/-- includes/argus/regex.h:162-166 `ARGUS_RE_ISOTIME`. -/
def reIsoTime : Str :=
  c!"^\\d{4}-([0][1-9]|[1][0-2])-([0][1-9]|[1-2][0-9]|[3][0-1])T([0][0-9]|[1][0-9]|[2][0-3]):([0-5][0-9]):([0-5][0-9])$"

/-- includes/argus/regex.h:173 `ARGUS_RE_USER`. -/
def reUser : Str := c!"^[a-zA-Z0-9_-]{3,20}$"

/-- includes/argus/regex.h:176 `ARGUS_RE_PASSWD`. -/
def rePasswd : Str := c!"^(?=.*[A-Za-z])(?=.*\\d)[A-Za-z\\d]{8,}$"

/-- includes/argus/regex.h:179-182 `ARGUS_RE_UUID`. -/
def reUuid : Str :=
  c!"^[0-9a-fA-F]{8}-[0-9a-fA-F]{4}-4[0-9a-fA-F]{3}-[89abAB][0-9a-fA-F]{3}-[0-9a-fA-F]{12}$"

/-- includes/argus/regex.h:189 `ARGUS_RE_UNIX_PATH`. -/
def reUnixPath : Str := c!"^(/[^/ ]*)+/?$"

/-- includes/argus/regex.h:192 `ARGUS_RE_FILENAME`. -/
def reFilename : Str := c!"^[\\w,\\s-]+\\.[A-Za-z]{1,5}$"

/-- includes/argus/regex.h:199-204 `ARGUS_RE_SEMVER`. -/
def reSemver : Str :=
  c!"^(0|[1-9]\\d*)\\.(0|[1-9]\\d*)\\.(0|[1-9]\\d*)(?:-((?:0|[1-9]\\d*|\\d*[a-zA-Z-][0-9a-zA-Z-]*)(?:\\.(?:0|[1-9]\\d*|\\d*[a-zA-Z-][0-9a-zA-Z-]*))*))?(?:\\+([0-9a-zA-Z-]+(?:\\.[0-9a-zA-Z-]+)*))?$"

/-- includes/argus/regex.h:207 `ARGUS_RE_POS_INT`. -/
def rePosInt : Str := c!"^[1-9][0-9]*$"

/-- includes/argus/regex.h:210 `ARGUS_RE_NEG_INT`. -/
def reNegInt : Str := c!"^-[1-9][0-9]*$"

/-- includes/argus/regex.h:213 `ARGUS_RE_FLOAT`. -/
def reFloat : Str := c!"^[-+]?[0-9]*\\.?[0-9]+$"

/-- includes/argus/regex.h:216 `ARGUS_RE_HEX`. -/
def reHex : Str := c!"^0x[0-9a-fA-F]+$"

end Argus
