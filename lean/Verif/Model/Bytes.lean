/-!
# Bytes, C strings and the string helpers

A C string is the list of its bytes without the terminating NUL.
-/

set_option autoImplicit false

namespace Argus

/-- One `char`, seen as unsigned. -/
abbrev Byte := UInt8

/-- A NUL-terminated C string: the bytes before the terminator. -/
abbrev Str := List Byte

open Lean in
/-- `c!"text"` is the byte list of a literal. -/
macro:max "c!" s:str : term => do
  let elems : Array (TSyntax `term) :=
    (s.getString.toUTF8.toList.map (fun b => ⟨Syntax.mkNumLit (toString b.toNat)⟩)).toArray
  `(([$elems,*] : List UInt8))

/-- `isspace` in the "C" locale. -/
def isSpace (b : Byte) : Bool := b == 32 || (9 ≤ b && b ≤ 13)

/-- `isdigit`. -/
def isDigit (b : Byte) : Bool := 48 ≤ b && b ≤ 57

/-- `tolower` in the "C" locale. -/
def toLower (b : Byte) : Byte := if 65 ≤ b && b ≤ 90 then b + 32 else b

/-- `toupper` in the "C" locale. -/
def toUpper (b : Byte) : Byte := if 97 ≤ b && b ≤ 122 then b - 32 else b

/-- Sign of `strcmp`: bytes compared as unsigned, a proper prefix is smaller. -/
def strcmp : Str → Str → Int
  | [], [] => 0
  | [], _ :: _ => -1
  | _ :: _, [] => 1
  | a :: as, b :: bs => if a < b then -1 else if b < a then 1 else strcmp as bs

/-- `strncmp(s, t, n) == 0`: the first `n` bytes agree, where a string that ends earlier
    must end in both. -/
def strncmpEq : Nat → Str → Str → Bool
  | 0, _, _ => true
  | _ + 1, [], [] => true
  | _ + 1, [], _ :: _ => false
  | _ + 1, _ :: _, [] => false
  | n + 1, a :: as, b :: bs => a == b && strncmpEq n as bs

/-- `strchr(s, c)` for a non-NUL `c`: the part of `s` before the first `c` and the part after it. -/
def strchrSplit (c : Byte) : Str → Option (Str × Str)
  | [] => none
  | b :: bs => if b == c then some ([], bs) else (strchrSplit c bs).map (fun p => (b :: p.1, p.2))

/-- source/utils/strings.c:26-36 `starts_with`: the rest of `str` after `prefix`.
    Both arguments are non-NULL here. -/
def startsWith (pre str : Str) : Option Str :=
  if strncmpEq pre.length str pre then some (str.drop pre.length) else none

/-- Value of a string of decimal digits. -/
def digitsVal (ds : Str) : Nat := ds.foldl (fun acc d => 10 * acc + (d.toNat - 48)) 0

def llongMax : Int := 9223372036854775807
def llongMin : Int := -9223372036854775808
def intMax : Int := 2147483647
def intMin : Int := -2147483648

/-- Saturation to the range of `long long`. -/
def clampLL (v : Int) : Int := if v < llongMin then llongMin else if llongMax < v then llongMax else v

/-- The optional sign of a numeral: whether it is negative, and the rest. -/
def strtollSign : Str → Bool × Str
  | b :: r => if b == 45 then (true, r) else if b == 43 then (false, r) else (false, b :: r)
  | [] => (false, [])

/-- `strtoll(s, &end, 10)` and `strtol` (LP64): value and the text at `end`.
    White space, optional sign, digits; without digits the value is 0 and `end = s`. -/
def strtoll (s : Str) : Int × Str :=
  let p := strtollSign (s.dropWhile isSpace)
  let ds := p.2.takeWhile isDigit
  if ds = [] then (0, s)
  else
    let v : Int := if p.1 then - (digitsVal ds : Int) else (digitsVal ds : Int)
    (clampLL v, p.2.dropWhile isDigit)

/-- source/utils/strings.c:38-52 `count_words`; the two nested loops as one loop with the flag
    "inside a word". -/
def countWords (charset : Str) : Bool → Str → Nat
  | _, [] => 0
  | inWord, c :: r =>
    if charset.contains c then countWords charset false r
    else if inWord then countWords charset true r
    else countWords charset true r + 1

/-- source/utils/strings.c:54-61 `word_len`. -/
def wordLen (charset : Str) : Str → Nat
  | [] => 0
  | c :: r => if charset.contains c then 0 else wordLen charset r + 1

/-- source/utils/strings.c:63-70 `skip_charset`. -/
def skipCharset (charset : Str) : Str → Nat
  | [] => 0
  | c :: r => if charset.contains c then skipCharset charset r + 1 else 0

/-- source/utils/strings.c:94-105, the loop of `split` for a given number of words.
    `safe_strndup(tmp, len)` is `take len`. Allocation succeeds. -/
def splitLoop (charset : Str) : Nat → Str → List Str
  | 0, _ => []
  | n + 1, tmp =>
    let tmp1 := tmp.drop (skipCharset charset tmp)
    let len := wordLen charset tmp1
    tmp1.take len :: splitLoop charset n (tmp1.drop len)

/-- source/utils/strings.c:85-108 `split`. -/
def split (str charset : Str) : List Str := splitLoop charset (countWords charset false str) str

/-- Spellings accepted as true, source/callbacks/handlers/bool_handler.c:22. -/
def trueValues : List Str := [c!"1", c!"true", c!"yes", c!"y", c!"on", c!"0x1", c!"0b1"]

/-- Spellings accepted as false, source/callbacks/handlers/bool_handler.c:21. -/
def falseValues : List Str := [c!"0", c!"false", c!"no", c!"n", c!"off", c!"0x0", c!"0b0"]

/-- source/callbacks/handlers/bool_handler.c:18-42 `string_to_bool`
    (map_bool_handler.c:32-57 is the same function). `none` stands for -1. -/
def stringToBool (arg : Str) : Option Bool :=
  if arg.length > 5 then none
  else
    let value := arg.map toLower
    if trueValues.contains value then some true
    else if falseValues.contains value then some false
    else none

/-- Decimal digits of a natural number, most significant first (`%d` formatting). -/
def natDigitsAux : Nat → Nat → Str
  | 0, _ => []
  | fuel + 1, n =>
    if n < 10 then [UInt8.ofNat (48 + n)]
    else natDigitsAux fuel (n / 10) ++ [UInt8.ofNat (48 + n % 10)]

/-- Decimal representation of a natural number. -/
def natDigits (n : Nat) : Str := natDigitsAux (n + 1) n

/-- `printf("%lld", n)`. -/
def showInt (n : Int) : Str :=
  if n < 0 then 45 :: natDigits n.natAbs else natDigits n.natAbs

end Argus
