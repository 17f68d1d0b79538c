import Verif.Model.Parse

/-!
# Validators that look at other options

A validator called after parsing receives `argus` besides its option (post_parse_validation.c:56), and may read any other
option with `argus_get` (docs/docs/advanced/custom-validators.md:154-188). `World.postValidator` sees the option only. Here the
validation is modelled with user validators that see everything.
-/

set_option autoImplicit false

namespace Argus

/-- User validators called after parsing: id, `argus`, option. The result is the status and the code of the message, if any. -/
abbrev Overview := Nat → Argus → Opt → VRes

/-- What a validator gets to see of `argus`: everything but the messages, which are not part of it, and `error_code`
    (includes/argus/types.h:330). The latter is a simplification: `error_code` is 0 when the validation starts, unless a user
    callback reported an error and still returned success; and `argus_get`, called by a validator, sets it. -/
def Argus.silent (a : Argus) : Argus := { a with errorCode := 0, out := [] }

/-- source/core/parsing/post_parse_validation.c:55-56, call of a validator with `ORDER_POST`. -/
def runPostIn (V : Overview) (a : Argus) (k : VKind) (o : Opt) : Out VRes :=
  match k with
  | .custom id => .ok (V id a.silent o)
  | .range mn mx => rangeValidator o mn mx
  | .length mn mx => lengthValidator o mn mx
  | .count mn mx => .ok (countValidator o mn mx)
  | .choiceStr cs => choicesString o cs
  | .choiceInt cs => choicesInt o cs
  | .choiceFloat cs => choicesFloat o cs
  | .regex _ _ => .ub .badCallback

/-- source/core/parsing/post_parse_validation.c:48-62 `call_validators`. -/
def callValidatorsIn (V : Overview) (a : Argus) (o : Opt) : List Validator → Out (Int × List Int)
  | [] => .ok (Err.success, [])
  | v :: vs =>
    if v.order = .post then do
      let r ← runPostIn V a v.kind o
      if r.1 ≠ Err.success then .ok (r.1, r.2.toList)
      else do
        let r2 ← callValidatorsIn V a o vs
        .ok (r2.1, r.2.toList ++ r2.2)
    else callValidatorsIn V a o vs

/-- source/core/parsing/post_parse_validation.c:64-114 `validate_options_set`, as `validateSet`. -/
def validateSetIn (V : Overview) (a : Argus) (os : List Opt) : (excl : Bool) → (first : Option Str) →
    List Opt → Out (Int × List Int)
  | _, _, [] => .ok (Err.success, [])
  | excl, first, o :: rest =>
    if o.type = .group then validateSetIn V a os (o.flags.has .exclusive) none rest
    else if o.type = .positional ∧ o.flags.has .required ∧ o.isSet = false then
      .ok (Err.missingRequired, [Err.missingRequired])
    else if o.isSet then
      if excl ∧ first.isSome then .ok (Err.exclusiveGroup, [Err.exclusiveGroup])
      else do
        let r ← callValidatorsIn V a o (o.validators.getD [])
        if r.1 ≠ Err.success then .ok r
        else
          let q := validateRequired os (o.require.getD [])
          if q.1 ≠ Err.success then .ok (q.1, r.2 ++ q.2.toList)
          else
            let c := validateConflicts os (o.conflict.getD [])
            if c.1 ≠ Err.success then .ok (c.1, r.2 ++ c.2.toList)
            else do
              let r2 ← validateSetIn V a os excl (if excl then o.name else first) rest
              .ok (r2.1, r.2 ++ r2.2)
    else validateSetIn V a os excl first rest

/-- `validate_options_set` for an options pointer, with its messages. -/
def validateTableIn (V : Overview) (a : Argus) (t : Option Nat) : Out (Int × Argus) := do
  let os ← a.table t
  let r ← validateSetIn V a os false none os
  .ok (r.1, a.emits (r.2.map .error))

/-- source/core/parsing/post_parse_validation.c:124-129, the loop over the subcommand stack. -/
def validateStackIn (V : Overview) : Argus → List Ptr → Out (Int × Argus)
  | a, [] => .ok (Err.success, a)
  | a, p :: ps => do
    let cmd ← a.getOpt p
    let r ← validateTableIn V a cmd.subOptions
    if r.1 ≠ Err.success then .ok r else validateStackIn V r.2 ps

/-- source/core/parsing/post_parse_validation.c:116-132 `post_parse_validation`. -/
def postValidationIn (V : Overview) (a : Argus) : Out (Int × Argus) := do
  let r ← validateTableIn V a (some a.root)
  if r.1 ≠ Err.success then .ok r else validateStackIn V r.2 r.2.stack

/-- source/api/argus_parse.c:21-50 `argus_parse`, as `argusParse`, with validators that see everything. -/
def argusParseIn (W : World) (V : Overview) (env : Env) (a : Argus) (args : List Str) : Out (ParseEnd × Argus) := do
  let r ← parseArgs W a (some a.root) args
  let a1 := { r.2 with errorCode := r.1 }
  if r.1 = Err.shouldExit then do
    let a2 ← argusFree a1
    .ok (.exited, a2)
  else if r.1 ≠ Err.success then do
    let a2 ← argusFree ((a1.emit (.usage none)).emit .tryHelp)
    .ok (.returned r.1, a2)
  else do
    let e ← loadEnvVars W env a1
    if e.1 ≠ Err.success then do
      let a2 ← argusFree e.2
      .ok (.returned e.1, a2)
    else do
      let v ← postValidationIn V e.2
      if v.1 ≠ Err.success then do
        let a2 ← argusFree v.2
        .ok (.returned v.1, a2)
      else .ok (.returned v.1, v.2)

end Argus
