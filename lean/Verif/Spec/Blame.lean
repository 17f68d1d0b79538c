import Verif.Model.Messages
import Verif.Spec.Constraints
import Verif.Spec.Maps
import Verif.Spec.Meaning
import Verif.Spec.Describe

/-!
# What an error message claims, and when the claim is true

Every constructor pairs the text of a message with the facts that make it true. The facts speak of the declarations, the
texts given and the values held, not of the functions that print.
-/

set_option autoImplicit false

namespace Argus

/-- The map handlers that can refuse a value: the type of the map, how the message calls the type, how it ends. -/
inductive MapWords : Handler → ValueType → Str → Str → Prop
  | int : MapWords .mapInt .mapInt c!"integer" []
  | float : MapWords .mapFloat .mapFloat c!"float" []
  | bool : MapWords .mapBool .mapBool c!"boolean" c!" (expected true/false, yes/no, 1/0, on/off, y/n)"

/-- The map handlers. -/
def Handler.isMap (h : Handler) : Prop := h = .mapString ∨ h = .mapInt ∨ h = .mapFloat ∨ h = .mapBool

/-- The text `x` given to option `o` deserves the message. -/
inductive TextFault (W : World) (M : Wording) (o : Opt) (x : Option Str) : Message → Prop
  | noHandler (n : Str) : o.handler = none → o.name = some n →
      TextFault W M o x (Err.invalidHandler, c!"Option " ++ n ++ c!" has no handler")
  | noRegex (v : Validator) (p hint : Option Str) : v ∈ o.validators.getD [] → v.order = .pre →
      v.kind = .regex p hint → W.regexAvailable = false →
      TextFault W M o x (Err.invalidValue, c!"regex support is not available")
  | noPattern (v : Validator) (hint : Option Str) : v ∈ o.validators.getD [] → v.order = .pre →
      v.kind = .regex none hint → TextFault W M o x (Err.invalidValue, c!"Regular expression pattern is NULL")
  | pattern (v : Validator) (p : Str) (hint : Option Str) (t : Str) : v ∈ o.validators.getD [] → v.order = .pre →
      v.kind = .regex (some p) hint → (hint = none ∨ hint = some []) → x = some t → W.regex p x = .noMatch →
      TextFault W M o x (Err.invalidValue, c!"Value '" ++ t ++ c!"' does not match the expected format")
  | patternHint (v : Validator) (p h t : Str) : v ∈ o.validators.getD [] → v.order = .pre →
      v.kind = .regex (some p) (some h) → h ≠ [] → x = some t → W.regex p x = .noMatch →
      TextFault W M o x (Err.invalidValue, c!"Value '" ++ t ++ c!"' does not match required pattern: " ++ h)
  | badPattern (v : Validator) (p : Str) (hint : Option Str) : v ∈ o.validators.getD [] → v.order = .pre →
      v.kind = .regex (some p) hint → W.regex p x = .compileError →
      TextFault W M o x (Err.invalidFormat, c!"Failed to compile regex '" ++ p ++ c!"': " ++ M.regexError p)
  | matchFailed (v : Validator) (p : Str) (hint : Option Str) : v ∈ o.validators.getD [] → v.order = .pre →
      v.kind = .regex (some p) hint → W.regex p x = .otherError →
      TextFault W M o x (Err.invalidFormat,
        c!"Internal error: Regex match failed with error code " ++ showInt (M.regexCode p x))
  | bool (t : Str) : o.handler = some .bool → x = some t → ¬ MeansTrue t → ¬ MeansFalse t →
      TextFault W M o x (Err.invalidArgument, c!"Invalid boolean value: '" ++ t ++ c!"'. Expected 'true' or 'false'")
  | boolNull (n : Str) : o.handler = some .bool → x = none → o.name = some n →
      TextFault W M o x (Err.invalidArgument, c!"Invalid argument for option: '" ++ n ++ c!"'")
  | intPiece (t p : Str) : o.handler = some .arrayInt → x = some t → p ∈ pieces t → ¬ HasSeparator p →
      (∀ n, ¬ IsNumeral p n) → TextFault W M o x (Err.invalidFormat, c!"Invalid integer or range format: '" ++ p ++ c!"'")
  | pair (h : Handler) (t p : Str) : o.handler = some h → h.isMap → x = some t → p ∈ pieces t → (61 : Byte) ∉ p →
      TextFault W M o x (Err.invalidFormat, c!"Invalid key-value format, expected 'key=value': '" ++ p ++ c!"'")
  | pairValue (h : Handler) (vt : ValueType) (what tail t key value : Str) : o.handler = some h → MapWords h vt what tail →
      x = some t → key ++ c!"=" ++ value ∈ pieces t → (61 : Byte) ∉ key → (∀ y, ¬ TextValue W vt value y) →
      TextFault W M o x (Err.invalidValue, c!"Invalid " ++ what ++ c!" value for key '" ++ key ++ c!"': '" ++ value ++
        c!"'" ++ tail)
  | variadicInt (t n : Str) : o.handler = some .variadicInt → x = some t → o.name = some n →
      (∀ i, ¬ IsNumeral t i) →
      TextFault W M o x (Err.invalidValue, c!"Invalid integer value '" ++ t ++ c!"' for positional argument '" ++ n ++ c!"'")
  | variadicFloat (t n : Str) : o.handler = some .variadicFloat → x = some t → o.name = some n →
      (t = [] ∨ (W.strtod t).2 ≠ t.length) →
      TextFault W M o x (Err.invalidValue, c!"Invalid float value '" ++ t ++ c!"' for positional argument '" ++ n ++ c!"'")

/-- The name part of what follows `--`: up to the `=`, and at most 63 bytes. -/
def longName (r : Str) : Str := (r.takeWhile (· ≠ 61)).take 63

/-- All of these are short names of flags. -/
def Flags? (os : List Opt) (cs : Str) : Prop := ∀ d ∈ cs, ∃ o, byShort os d = some o ∧ o.valueType = .flag

/-- The argument `arg`, met at positional place `pos` of a table, gives option `o` the text `x` (none for a flag); `only`
    tells whether `--` was seen, `rest` are the arguments that follow. -/
inductive GivesTo (os : List Opt) (pos : Nat) (only : Bool) (arg : Str) (rest : List Str) : Opt → Option Str → Prop
  | longFlag (r : Str) (o : Opt) : only = false → arg = c!"--" ++ r → byLong os (longName r) = some o →
      o.valueType = .flag → GivesTo os pos only arg rest o none
  | longValue (n v : Str) (o : Opt) : only = false → arg = c!"--" ++ n ++ c!"=" ++ v → (61 : Byte) ∉ n →
      byLong os (n.take 63) = some o → o.valueType ≠ .flag → GivesTo os pos only arg rest o (some v)
  | longNext (n v : Str) (more : List Str) (o : Opt) : only = false → arg = c!"--" ++ n → (61 : Byte) ∉ n →
      byLong os (n.take 63) = some o → o.valueType ≠ .flag → rest = v :: more → GivesTo os pos only arg rest o (some v)
  | shortFlag (before after : Str) (c : Byte) (o : Opt) : only = false → arg = c!"-" ++ before ++ c :: after →
      Flags? os before → byShort os c = some o → o.valueType = .flag → GivesTo os pos only arg rest o none
  | shortValue (before v : Str) (c : Byte) (o : Opt) : only = false → arg = c!"-" ++ before ++ c :: v → v ≠ [] →
      Flags? os before → byShort os c = some o → o.valueType ≠ .flag → GivesTo os pos only arg rest o (some v)
  | shortNext (before v : Str) (c : Byte) (more : List Str) (o : Opt) : only = false → arg = c!"-" ++ before ++ [c] →
      rest = v :: more → Flags? os before → byShort os c = some o → o.valueType ≠ .flag →
      GivesTo os pos only arg rest o (some v)
  | positional (o : Opt) (i : Nat) : slotAt os pos = some (o, i) → GivesTo os pos only arg rest o (some arg)

/-- The argument `arg`, met at positional place `pos` of a table, deserves the message. -/
inductive ArgFault (W : World) (M : Wording) (os : List Opt) (pos : Nat) (only : Bool) (arg : Str) (rest : List Str) :
    Message → Prop
  | unknownLong (r : Str) : only = false → arg = c!"--" ++ r → byLong os (longName r) = none →
      ArgFault W M os pos only arg rest (Err.invalidArgument, c!"Unknown option: '--" ++ longName r ++ c!"'")
  | missingLong (n : Str) (o : Opt) : only = false → arg = c!"--" ++ n → (61 : Byte) ∉ n →
      byLong os (n.take 63) = some o → o.valueType ≠ .flag → rest = [] →
      ArgFault W M os pos only arg rest (Err.missingValue, c!"Missing value for option: '--" ++ n.take 63 ++ c!"'")
  | unknownShort (before after : Str) (c : Byte) : only = false → arg = c!"-" ++ before ++ c :: after →
      Flags? os before → byShort os c = none →
      ArgFault W M os pos only arg rest (Err.invalidArgument, c!"Unknown option: '-" ++ [c] ++ c!"'")
  | missingShort (before : Str) (c : Byte) (o : Opt) : only = false → arg = c!"-" ++ before ++ [c] → rest = [] →
      Flags? os before → byShort os c = some o → o.valueType ≠ .flag →
      ArgFault W M os pos only arg rest (Err.missingValue, c!"Missing value for option: '-" ++ [c] ++ c!"'")
  | unknownPositional : slotAt os pos = none →
      (only = false → arg.head? ≠ some 45 → ∀ o ∈ os, o.type = .subcommand → ∀ n, o.name = some n → ¬ arg <+: n) →
      ArgFault W M os pos only arg rest (Err.invalidArgument, c!"Unknown positional: '" ++ arg ++ c!"'")
  | ambiguous (pre mid post : List Opt) (o1 o2 : Opt) (n1 h1 n2 h2 : Str) : only = false →
      os = pre ++ o1 :: (mid ++ o2 :: post) → o1.type = .subcommand → o2.type = .subcommand →
      o1.name = some n1 → o2.name = some n2 → o1.help = some h1 → o2.help = some h2 → arg <+: n1 → arg <+: n2 → arg ≠ n1 →
      ArgFault W M os pos only arg rest (Err.ambiguousSubcommand, c!"'" ++ arg ++ c!"' is ambigous and could match:\n  '" ++
        n1 ++ c!"' - " ++ h1 ++ c!"\n  '" ++ n2 ++ c!"' - " ++ h2)
  | text (o : Opt) (x : Option Str) (m : Message) : GivesTo os pos only arg rest o x → TextFault W M o x m →
      ArgFault W M os pos only arg rest m

/-- The value of option `o` deserves the message of a validator of this kind. The list of choices is complete if
    each number fits its buffer. -/
inductive ValueFault (M : Wording) (o : Opt) : VKind → Message → Prop
  | emptyRange (mn mx : Int) (k : VKind) : k = .range mn mx ∨ k = .length mn mx ∨ k = .count mn mx → mx < mn →
      ValueFault M o k (Err.invalidRange, c!"Range is invalid " ++ interval mn mx)
  | negativeRange (mn mx : Int) (k : VKind) : k = .length mn mx ∨ k = .count mn mx → mn < 0 ∨ mx < 0 →
      ValueFault M o k (Err.invalidRange, c!"Range is negative")
  | range (mn mx n : Int) : o.ReadsInt n → n < mn ∨ mx < n →
      ValueFault M o (.range mn mx) (Err.invalidRange, c!"Value " ++ showInt n ++ c!" is out of range " ++ interval mn mx)
  | noString (mn mx : Int) : o.value = .word .null → ValueFault M o (.length mn mx) (Err.invalidValue, c!"Value is NULL")
  | length (mn mx : Int) (s : Str) : o.ReadsString s → (s.length : Int) < mn ∨ mx < s.length →
      ValueFault M o (.length mn mx) (Err.invalidRange,
        c!"Value length " ++ showInt s.length ++ c!" is out of range " ++ interval mn mx)
  | count (mn mx : Int) : (o.valueCount : Int) < mn ∨ mx < o.valueCount →
      ValueFault M o (.count mn mx) (Err.invalidRange,
        c!"Values count " ++ showInt o.valueCount ++ c!" is out of range " ++ interval mn mx)
  | choiceStr (cs : List Str) (s : Str) : o.ReadsString s → s ∉ cs →
      ValueFault M o (.choiceStr cs) (Err.invalidChoice, c!"Value '" ++ s ++ c!"' is not one of [" ++ bars cs ++ c!"]")
  | choiceInt (cs : List Int) (n : Int) (list : Str) : o.ReadsInt n → n ∉ cs →
      ((∀ c ∈ cs, -2 ^ 63 ≤ c ∧ c < 2 ^ 63) → list = bars (cs.map showInt)) →
      ValueFault M o (.choiceInt cs) (Err.invalidChoice, c!"Value '" ++ showInt n ++ c!"' is not one of [" ++ list ++ c!"]")
  | choiceFloat (cs : List F64) (x : F64) (list : Str) : o.ReadsFloat x → (∀ c ∈ cs, F64.eq x c = false) →
      ((∀ c ∈ cs, (M.g2 c).length ≤ 20) → list = bars (cs.map M.g2)) →
      ValueFault M o (.choiceFloat cs) (Err.invalidChoice, c!"Value '" ++ M.f6 x ++ c!"' is not one of [" ++ list ++ c!"]")

/-- The table deserves the message after parsing. -/
inductive TableFault (M : Wording) (os : List Opt) : Message → Prop
  | positional (o : Opt) (n : Str) : o ∈ os → o.type = .positional → o.flags.has .required = true → o.isSet = false →
      o.name = some n → TableFault M os (Err.missingRequired, c!"Required positional argument missing: '" ++ n ++ c!"'")
  | requirement (o r : Opt) (n n' : Str) : o ∈ os → o.isSet = true → o.name = some n → n' ∈ o.require.getD [] →
      Refers os n' r → r.isSet = false →
      TableFault M os (Err.missingRequired, c!"Required option is missing: '" ++ n' ++ c!"' with option '" ++ n ++ c!"'")
  | conflict (o r : Opt) (n n' : Str) : o ∈ os → o.isSet = true → o.name = some n → n' ∈ o.conflict.getD [] →
      Refers os n' r → r.isSet = true →
      TableFault M os (Err.conflictingOptions, c!"Conflict between '" ++ n ++ c!"' and '" ++ n' ++ c!"'")
  | exclusive (g o1 o2 : Opt) (pre mid1 mid2 post : List Opt) (n n1 n2 : Str) :
      os = pre ++ g :: (mid1 ++ o1 :: (mid2 ++ o2 :: post)) → g.type = .group → g.flags.has .exclusive = true →
      (∀ o ∈ mid1 ++ o1 :: (mid2 ++ [o2]), o.type ≠ .group) → o1.isSet = true → o2.isSet = true →
      g.name = some n → o1.name = some n1 → o2.name = some n2 →
      TableFault M os (Err.exclusiveGroup,
        c!"Exclusive options group '" ++ n ++ c!"' conflict: '" ++ n1 ++ c!"' and '" ++ n2 ++ c!"'")
  | value (o : Opt) (v : Validator) (m : Message) : o ∈ os → o.isSet = true → v ∈ o.validators.getD [] → v.order = .post →
      ValueFault M o v.kind m → TableFault M os m

/-- The parse of `args` deserves the message: an argument, a variable of the environment, or the values held at the end. -/
inductive Deserved (W : World) (M : Wording) (env : Env) (a : Argus) (args : List Str) (m : Message) : Prop
  | argument (pre : List Str) (arg : Str) (rest : List Str) (s : PState) (os : List Opt) : args = pre ++ arg :: rest →
      Reach W a pre s → s.a.table s.t = .ok os → ArgFault W M os s.pos s.only arg rest m → Deserved W M env a args m
  | variable (s : PState) (p : Ptr) (o : Opt) (n v : Str) : Reach W a args s → s.a.OnPath p.tbl →
      s.a.getOpt p = .ok o → o.type ≠ .group → o.type ≠ .subcommand → envVarName a.envPrefix o = some n → env n = some v →
      TextFault W M o (some v) m → Deserved W M env a args m
  | values (s : PState) (b : Argus) (k : Nat) (os : List Opt) : Reach W a args s →
      loadEnvVars W env { s.a with errorCode := Err.success } = .ok (Err.success, b) → b.OnPath k → b.table (some k) = .ok os → TableFault M os m →
      Deserved W M env a args m

end Argus
