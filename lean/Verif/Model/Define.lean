import Verif.Model.Types

/-!
# Definition macros, includes/argus/options.h:64-250

Fields given by the optional macros (`HELP`, `FLAGS`, `VALIDATOR`, ...) are set with record update.
-/

set_option autoImplicit false

namespace Argus

/-- includes/argus/options.h:74 `DEFINE_NAME`. -/
def defineName (lname : Option Str) (sname : Byte) : Str := lname.getD [sname]

/-- includes/argus/options.h:148-153 `OPTION_BASE`. -/
def optionBase (sname : Byte) (lname : Option Str) (vt : ValueType) (h : Handler)
    (fh : FreeHandler := .default) : Opt :=
  { type := .option, name := some (defineName lname sname), sname, lname, valueType := vt
    handler := some h, freeHandler := some fh }

/-- includes/argus/options.h:155-159 `POSITIONAL_BASE`. -/
def positionalBase (name : Str) (vt : ValueType) (h : Handler) (fh : FreeHandler := .default) : Opt :=
  { type := .positional, name := some name, valueType := vt, handler := some h
    freeHandler := some fh, flags := Flags.ofList [.required] }

/-- includes/argus/options.h:161-164 `GROUP_BASE`, options.h:221-222 `GROUP_START`, `GROUP_END`. -/
def groupBase (name : Option Str) (flags : Flags := 0) : Opt := { type := .group, name, flags }

/-- includes/argus/options.h:166-169 `SUBCOMMAND_BASE`, options.h:250 `SUBCOMMAND`. -/
def subcommand (name : Str) (sub : Nat) (action : Option Nat := none) : Opt :=
  { type := .subcommand, name := some name, subOptions := some sub, action }

/-- includes/argus/options.h:175-184. -/
def optFlag (s : Byte) (l : Option Str) : Opt := optionBase s l .flag .flag
def optBool (s : Byte) (l : Option Str) : Opt := optionBase s l .bool .bool
def optString (s : Byte) (l : Option Str) : Opt := optionBase s l .string .string
def optInt (s : Byte) (l : Option Str) : Opt := optionBase s l .int .int
def optFloat (s : Byte) (l : Option Str) : Opt := optionBase s l .float .float

/-- includes/argus/options.h:186-194. -/
def optArrayString (s : Byte) (l : Option Str) : Opt :=
  optionBase s l .arrayString .arrayString .arrayString
def optArrayInt (s : Byte) (l : Option Str) : Opt := optionBase s l .arrayInt .arrayInt
def optArrayFloat (s : Byte) (l : Option Str) : Opt := optionBase s l .arrayFloat .arrayFloat

/-- includes/argus/options.h:196-207. -/
def optMapString (s : Byte) (l : Option Str) : Opt := optionBase s l .mapString .mapString .mapString
def optMapInt (s : Byte) (l : Option Str) : Opt := optionBase s l .mapInt .mapInt .mapInt
def optMapFloat (s : Byte) (l : Option Str) : Opt := optionBase s l .mapFloat .mapFloat .mapFloat
def optMapBool (s : Byte) (l : Option Str) : Opt := optionBase s l .mapBool .mapBool .mapBool

/-- includes/argus/options.h:212-216 `HELP_OPTION`, `VERSION_OPTION`. -/
def helpOption : Opt :=
  { optionBase 104 (some c!"help") .flag .help with
    help := some c!"Show help message", flags := Flags.ofList [.exit] }
def versionOption : Opt :=
  { optionBase 86 (some c!"version") .flag .version with
    help := some c!"Show version information", flags := Flags.ofList [.exit] }

/-- includes/argus/options.h:227-234. -/
def posString (n : Str) : Opt := positionalBase n .string .string
def posInt (n : Str) : Opt := positionalBase n .int .int
def posBool (n : Str) : Opt := positionalBase n .bool .bool
def posFloat (n : Str) : Opt := positionalBase n .float .float

/-- includes/argus/options.h:239-245. -/
def posManyString (n : Str) : Opt := positionalBase n .variadicString .variadicString .variadicString
def posManyInt (n : Str) : Opt := positionalBase n .variadicInt .variadicInt
def posManyFloat (n : Str) : Opt := positionalBase n .variadicFloat .variadicFloat

/-- includes/argus/options.h:75-78 `DEFAULT(val)`: the value as `uintptr_t`. -/
def Opt.withDefault (o : Opt) (w : Word) : Opt :=
  { o with value := .word w, defaultValue := w, isSet := true, haveDefault := true }

/-- includes/argus/options.h:105-136 `V_RANGE`, ... -/
def vRange (mn mx : Int) : Validator := ⟨.range mn mx, .post, true⟩
def vLength (mn mx : Int) : Validator := ⟨.length mn mx, .post, true⟩
def vCount (mn mx : Int) : Validator := ⟨.count mn mx, .post, true⟩
def vRegex (pattern hint : Option Str) : Validator := ⟨.regex pattern hint, .pre, true⟩
def vChoiceStr (cs : List Str) : Validator := ⟨.choiceStr cs, .post, true⟩
def vChoiceInt (cs : List Int) : Validator := ⟨.choiceInt cs, .post, true⟩
def vChoiceFloat (cs : List F64) : Validator := ⟨.choiceFloat cs, .post, true⟩

/-- source/api/argus_init.c:20-38 `_argus_init_validate` without validation: the options array is
    table 0 of the arena. -/
def argusInit (tables : List (List Opt)) (programName : Str) (version : Option Str) : Argus :=
  { tables, root := 0, programName, version }

end Argus
