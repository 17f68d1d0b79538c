import Verif.Model.Types

/-!
# Validators, source/callbacks/validators

A validator returns its status and the code of the error message it printed, if any.
-/

set_option autoImplicit false

namespace Argus

/-- Result of a validator: status and reported code. -/
abbrev VRes := Int × Option Int

/-- Success without a message. -/
def VRes.pass : VRes := (Err.success, none)

/-- An error message and the same code as status. -/
def VRes.fail (code : Int) : VRes := (code, some code)

/-- `option->value.as_int`. -/
def Opt.asInt (o : Opt) : Out Int :=
  match o.value with
  | .word w => w.asInt
  | _ => .ub .uninit

/-- `option->value.as_float`. -/
def Opt.asFloat (o : Opt) : Out F64 :=
  match o.value with
  | .word w => w.asFloat
  | _ => .ub .uninit

/-- `option->value.as_string`, about to be dereferenced if not NULL. -/
def Opt.asString (o : Opt) : Out (Option Str) :=
  match o.value with
  | .word w => w.asString
  | _ => .ub .badCallback

/-- source/callbacks/validators/range_validator.c:17-35. -/
def rangeValidator (o : Opt) (mn mx : Int) : Out VRes :=
  if mn > mx then .ok (.fail Err.invalidRange)
  else do
    let v ← o.asInt
    if v < mn ∨ v > mx then .ok (.fail Err.invalidRange) else .ok .pass

/-- source/callbacks/validators/length_validator.c:19-47. -/
def lengthValidator (o : Opt) (mn mx : Int) : Out VRes := do
  match ← o.asString with
  | none => .ok (.fail Err.invalidValue)
  | some s =>
    if mn < 0 ∨ mx < 0 then .ok (.fail Err.invalidRange)
    else if mn > mx then .ok (.fail Err.invalidRange)
    else if (s.length : Int) < mn ∨ (s.length : Int) > mx then .ok (.fail Err.invalidRange)
    else .ok .pass

/-- source/callbacks/validators/count_validator.c:18-42. Counts stay below `2^63`. -/
def countValidator (o : Opt) (mn mx : Int) : VRes :=
  if mn < 0 ∨ mx < 0 then .fail Err.invalidRange
  else if mn > mx then .fail Err.invalidRange
  else if (o.valueCount : Int) < mn ∨ (o.valueCount : Int) > mx then .fail Err.invalidRange
  else .pass

/-- source/callbacks/validators/choices_validator.c:22-41. `strcmp(NULL, ...)` is undefined, but only
    reached with a choice to compare with; the message prints the value with `%s`. -/
def choicesString (o : Opt) (cs : List Str) : Out VRes := do
  match ← o.asString with
  | none => .ub .nullDeref
  | some s => if cs.any (fun c => strcmp s c == 0) then .ok .pass else .ok (.fail Err.invalidChoice)

/-- source/callbacks/validators/choices_validator.c:43-63: `int` against `int64_t`. -/
def choicesInt (o : Opt) (cs : List Int) : Out VRes := do
  let v ← o.asInt
  if cs.any (fun c => v == c) then .ok .pass else .ok (.fail Err.invalidChoice)

/-- source/callbacks/validators/choices_validator.c:65-85. -/
def choicesFloat (o : Opt) (cs : List F64) : Out VRes := do
  let v ← o.asFloat
  if cs.any (fun c => F64.eq v c) then .ok .pass else .ok (.fail Err.invalidChoice)

/-- source/callbacks/validators/regex_validator.c:31-85. -/
def regexValidator (W : World) (arg pattern : Option Str) : VRes :=
  if W.regexAvailable = false then .fail Err.invalidValue
  else
    match pattern with
    | none => .fail Err.invalidValue
    | some p =>
      match W.regex p arg with
      | .isMatch => .pass
      | .noMatch => .fail Err.invalidValue
      | .compileError => .fail Err.invalidFormat
      | .otherError => .fail Err.invalidFormat

/-- Call of a validator with `ORDER_PRE`, which receives the argument text
    (execute_callbacks.c:28-29). The validators for parsed values would read it as an option. -/
def runPre (W : World) (k : VKind) (arg : Option Str) : Out VRes :=
  match k with
  | .regex p _ => .ok (regexValidator W arg p)
  | .custom id => .ok (W.preValidator id arg)
  | _ => .ub .badCallback

/-- Call of a validator with `ORDER_POST`, which receives the option
    (post_parse_validation.c:55-56). -/
def runPost (W : World) (k : VKind) (o : Opt) : Out VRes :=
  match k with
  | .range mn mx => rangeValidator o mn mx
  | .length mn mx => lengthValidator o mn mx
  | .count mn mx => .ok (countValidator o mn mx)
  | .choiceStr cs => choicesString o cs
  | .choiceInt cs => choicesInt o cs
  | .choiceFloat cs => choicesFloat o cs
  | .regex _ _ => .ub .badCallback
  | .custom id => .ok (W.postValidator id o)

end Argus
