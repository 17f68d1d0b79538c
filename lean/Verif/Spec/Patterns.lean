import Verif.Model.Bytes

/-!
# What the predefined patterns of `regex.h` stand for

Each predicate says when a text is of the kind the pattern is named after.
-/

set_option autoImplicit false

namespace Argus

/-- `0` to `9`. -/
def Digit (x : Byte) : Prop := 48 ≤ x ∧ x ≤ 57

/-- A letter of ASCII. -/
def Letter (x : Byte) : Prop := (65 ≤ x ∧ x ≤ 90) ∨ (97 ≤ x ∧ x ≤ 122)

/-- A hexadecimal digit. -/
def HexDigit (x : Byte) : Prop := Digit x ∨ (65 ≤ x ∧ x ≤ 70) ∨ (97 ≤ x ∧ x ≤ 102)

/-- White space: tab, line feed, vertical tab, form feed, carriage return and space. -/
def Space (x : Byte) : Prop := (9 ≤ x ∧ x ≤ 13) ∨ x = 32

/-- The digits of a number between two bounds, in a given number of digits. -/
def Digits (len lo hi : Nat) (m : Str) : Prop :=
  m.length = len ∧ (∀ x ∈ m, Digit x) ∧ lo ≤ digitsVal m ∧ digitsVal m ≤ hi

/-- A port number. -/
def IsPort (m : Str) : Prop := ∃ n : Nat, 1 ≤ n ∧ n ≤ 65535 ∧ m = natDigits n

/-- A positive integer. -/
def IsPosInt (m : Str) : Prop := ∃ n : Nat, 1 ≤ n ∧ m = natDigits n

/-- A negative integer. -/
def IsNegInt (m : Str) : Prop := ∃ n : Nat, 1 ≤ n ∧ m = c!"-" ++ natDigits n

/-- A decimal number: sign, digits, point, digits, where only the last digits are mandatory. -/
def IsDecimal (m : Str) : Prop := ∃ sign i point f, m = sign ++ i ++ point ++ f ∧
  (sign = [] ∨ sign = c!"-" ∨ sign = c!"+") ∧ (∀ x ∈ i, Digit x) ∧ (point = [] ∨ point = c!".") ∧
  f ≠ [] ∧ ∀ x ∈ f, Digit x

/-- A hexadecimal number. -/
def IsHexNumber (m : Str) : Prop := ∃ h, m = c!"0x" ++ h ∧ h ≠ [] ∧ ∀ x ∈ h, HexDigit x

/-- A user name. -/
def IsUser (m : Str) : Prop :=
  3 ≤ m.length ∧ m.length ≤ 20 ∧ ∀ x ∈ m, Letter x ∨ Digit x ∨ x = 95 ∨ x = 45

/-- A password. -/
def IsPassword (m : Str) : Prop :=
  8 ≤ m.length ∧ (∀ x ∈ m, Letter x ∨ Digit x) ∧ (∃ x ∈ m, Letter x) ∧ ∃ x ∈ m, Digit x

/-- A UUID of version 4. -/
def IsUuid (m : Str) : Prop := ∃ a b c y d e, m = a ++ c!"-" ++ b ++ c!"-4" ++ c ++ c!"-" ++ [y] ++ d ++ c!"-" ++ e ∧
  a.length = 8 ∧ b.length = 4 ∧ c.length = 3 ∧ (y ∈ c!"89abAB") ∧ d.length = 3 ∧ e.length = 12 ∧
  ∀ x ∈ a ++ b ++ c ++ d ++ e, HexDigit x

/-- Year, month and day, without regard to the length of the months. -/
def IsDate (m : Str) : Prop := ∃ y mo d, m = y ++ c!"-" ++ mo ++ c!"-" ++ d ∧
  Digits 4 0 9999 y ∧ Digits 2 1 12 mo ∧ Digits 2 1 31 d

/-- Date and time. -/
def IsDateTime (m : Str) : Prop := ∃ d h mi s, m = d ++ c!"T" ++ h ++ c!":" ++ mi ++ c!":" ++ s ∧
  IsDate d ∧ Digits 2 0 23 h ∧ Digits 2 0 59 mi ∧ Digits 2 0 59 s

/-- A part of an IPv4 address: one to three digits, at most 255. -/
def IsOctet (m : Str) : Prop :=
  1 ≤ m.length ∧ m.length ≤ 3 ∧ (∀ x ∈ m, Digit x) ∧ digitsVal m ≤ 255

/-- An IPv4 address. -/
def IsIpv4 (m : Str) : Prop := ∃ a b c d, m = a ++ c!"." ++ b ++ c!"." ++ c ++ c!"." ++ d ∧
  IsOctet a ∧ IsOctet b ∧ IsOctet c ∧ IsOctet d

/-- The texts with a separator between them. -/
def joined (sep : Str) : List Str → Str
  | [] => []
  | [x] => x
  | x :: y :: xs => x ++ sep ++ joined sep (y :: xs)

/-- A label of a domain name: up to 63 letters, digits and hyphens, with no hyphen at the ends. -/
def IsLabel (m : Str) : Prop :=
  1 ≤ m.length ∧ m.length ≤ 63 ∧ (∀ x ∈ m, Letter x ∨ Digit x ∨ x = 45) ∧ m.head? ≠ some 45 ∧ m.getLast? ≠ some 45

/-- A domain name: labels, the last of which consists of at least two letters. -/
def IsDomain (m : Str) : Prop := m.length ≤ 253 ∧ ∃ labels tld, labels ≠ [] ∧
  m = joined c!"." (labels ++ [tld]) ∧ (∀ l ∈ labels, IsLabel l) ∧ 2 ≤ tld.length ∧ ∀ x ∈ tld, Letter x

/-- What follows the slashes of a URL: a byte that is no white space and none of `/$.?#`, a byte other than
    a newline, and no white space. -/
def IsUrlRest (m : Str) : Prop := ∃ x y t, m = x :: y :: t ∧ ¬ Space x ∧ x ∉ c!"/$.?#" ∧ y ≠ 10 ∧ ∀ z ∈ t, ¬ Space z

/-- A URL. -/
def IsUrl (m : Str) : Prop := ∃ x scheme rest, m = x :: scheme ++ c!"://" ++ rest ∧ Letter x ∧
  (∀ z ∈ scheme, Letter z ∨ Digit z ∨ z ∈ c!"+.-") ∧ IsUrlRest rest

/-- A URL of `http` or `https`. -/
def IsHttpUrl (m : Str) : Prop := ∃ scheme rest, m = scheme ++ c!"://" ++ rest ∧
  (scheme = c!"http" ∨ scheme = c!"https") ∧ IsUrlRest rest

/-- An email address. -/
def IsEmail (m : Str) : Prop := ∃ user host tld, m = user ++ c!"@" ++ host ++ c!"." ++ tld ∧
  user ≠ [] ∧ (∀ x ∈ user, Letter x ∨ Digit x ∨ x ∈ c!"._%+-") ∧
  host ≠ [] ∧ (∀ x ∈ host, Letter x ∨ Digit x ∨ x = 46 ∨ x = 45) ∧ 2 ≤ tld.length ∧ ∀ x ∈ tld, Letter x

/-- An email address, strictly. -/
def IsStrictEmail (m : Str) : Prop := ∃ user labels, m = user ++ c!"@" ++ joined c!"." labels ∧
  user ≠ [] ∧ (∀ x ∈ user, Letter x ∨ Digit x ∨ x ∈ c!".!#$%&'*+/=?^_`{|}~-") ∧
  labels ≠ [] ∧ ∀ l ∈ labels, IsLabel l

/-- An absolute path without spaces. -/
def IsUnixPath (m : Str) : Prop := ∃ t, m = c!"/" ++ t ∧ (32 : Byte) ∉ t

/-- A file name with an extension of up to five letters. -/
def IsFilename (m : Str) : Prop := ∃ base ext, m = base ++ c!"." ++ ext ∧
  base ≠ [] ∧ (∀ x ∈ base, Letter x ∨ Digit x ∨ Space x ∨ x ∈ c!"_,-") ∧
  1 ≤ ext.length ∧ ext.length ≤ 5 ∧ ∀ x ∈ ext, Letter x

/-- An identifier of a semantic version: letters, digits and hyphens. -/
def IsVersionIdent (m : Str) : Prop := m ≠ [] ∧ ∀ x ∈ m, Letter x ∨ Digit x ∨ x = 45

/-- An identifier of a pre-release: if it is a number, it has no leading zeros. -/
def IsReleaseIdent (m : Str) : Prop :=
  IsVersionIdent m ∧ ((∀ x ∈ m, Digit x) → ∃ n, m = natDigits n)

/-- A semantic version (semver.org, version 2.0.0). -/
def IsSemver (m : Str) : Prop := ∃ (major minor patch : Nat) (pre build : Str),
  m = natDigits major ++ c!"." ++ natDigits minor ++ c!"." ++ natDigits patch ++ pre ++ build ∧
  (pre = [] ∨ ∃ ids, ids ≠ [] ∧ pre = c!"-" ++ joined c!"." ids ∧ ∀ i ∈ ids, IsReleaseIdent i) ∧
  (build = [] ∨ ∃ ids, ids ≠ [] ∧ build = c!"+" ++ joined c!"." ids ∧ ∀ i ∈ ids, IsVersionIdent i)

/-- A group of an IPv6 address. -/
def IsGroup (m : Str) : Prop := 1 ≤ m.length ∧ m.length ≤ 4 ∧ ∀ x ∈ m, HexDigit x

/-- An IPv6 address made of groups: eight of them, or fewer with `::` in place of at least one. -/
def IsIpv6Groups (m : Str) : Prop :=
  (∃ gs, m = joined c!":" gs ∧ gs.length = 8 ∧ ∀ g ∈ gs, IsGroup g) ∨
  (∃ left right, m = joined c!":" left ++ c!"::" ++ joined c!":" right ∧ left.length + right.length ≤ 7 ∧
    ∀ g ∈ left ++ right, IsGroup g)

/-- A part of a dotted IPv4 address inside an IPv6 address: three digits only from 100 on. -/
def IsOctet6 (m : Str) : Prop := IsOctet m ∧ (m.length = 3 → m.head? ≠ some 48)

/-- A dotted IPv4 address inside an IPv6 address. -/
def IsQuad6 (m : Str) : Prop := ∃ a b c d, m = a ++ c!"." ++ b ++ c!"." ++ c ++ c!"." ++ d ∧
  IsOctet6 a ∧ IsOctet6 b ∧ IsOctet6 c ∧ IsOctet6 d

/-- A link-local address with a zone, as the pattern has it: after `fe80:` up to four colons, each followed by up to
    four hexadecimal digits. -/
def IsIpv6Zone (m : Str) : Prop := ∃ (gs : List Str) (zone : Str), m = c!"fe80:" ++ (gs.map (c!":" ++ ·)).flatten ++ c!"%" ++ zone ∧
  gs.length ≤ 4 ∧ (∀ g ∈ gs, g.length ≤ 4 ∧ ∀ x ∈ g, HexDigit x) ∧ zone ≠ [] ∧ ∀ x ∈ zone, Letter x ∨ Digit x

/-- An IPv6 address that ends in a dotted IPv4 address: after `::`, after `::ffff:`, after `::ffff:0:`, or after one to
    four groups and `::`. -/
def IsIpv6Dotted (m : Str) : Prop := ∃ q, IsQuad6 q ∧
  (m = c!"::" ++ q ∨ m = c!"::ffff:" ++ q ∨
    (∃ z, m = c!"::ffff:" ++ z ++ c!":" ++ q ∧ 1 ≤ z.length ∧ z.length ≤ 4 ∧ ∀ x ∈ z, x = 48) ∨
    ∃ gs, m = joined c!":" gs ++ c!"::" ++ q ∧ 1 ≤ gs.length ∧ gs.length ≤ 4 ∧ ∀ g ∈ gs, IsGroup g)

end Argus
