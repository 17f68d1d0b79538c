import Verif.Spec.Ranges
import Verif.Spec.Depth
import Verif.Spec.History

/-!
# Well-made definitions and harmless texts
-/

set_option autoImplicit false

namespace Argus

/-- The value type and the free handler that the macros of includes/argus/options.h:177-248 give to an
    entry with a built-in handler. -/
inductive Handler.Goes : Handler → ValueType → FreeHandler → Prop
  | flag : Goes .flag .flag .default
  | help : Goes .help .flag .default
  | version : Goes .version .flag .default
  | bool : Goes .bool .bool .default
  | string : Goes .string .string .default
  | int : Goes .int .int .default
  | float : Goes .float .float .default
  | arrayString : Goes .arrayString .arrayString .arrayString
  | arrayInt : Goes .arrayInt .arrayInt .default
  | arrayFloat : Goes .arrayFloat .arrayFloat .default
  | mapString : Goes .mapString .mapString .mapString
  | mapInt : Goes .mapInt .mapInt .mapInt
  | mapFloat : Goes .mapFloat .mapFloat .mapFloat
  | mapBool : Goes .mapBool .mapBool .mapBool
  | variadicString : Goes .variadicString .variadicString .variadicString
  | variadicInt : Goes .variadicInt .variadicInt .default
  | variadicFloat : Goes .variadicFloat .variadicFloat .default

/-- A validator used where it belongs: numbers with number validators, strings with string validators,
    regular expressions before the handler runs. User validators fit everywhere. -/
def Validator.Suits (v : Validator) (h : Handler) : Prop :=
  match v.order, v.kind with
  | .pre, .regex _ _ => True
  | .pre, .custom _ => True
  | .pre, _ => False
  | .post, .range _ _ => h = .int ∨ h = .float
  | .post, .choiceInt _ => h = .int
  | .post, .choiceFloat _ => h = .float
  | .post, .length _ _ => h = .string
  | .post, .choiceStr _ => h = .string
  | .post, .count _ _ => True
  | .post, .custom _ => True
  | .post, .regex _ _ => False

/-- An entry as the macros make it, before any parsing:
    its handler is built-in and goes with its value type and free handler; validators are used where they
    belong; arrays, maps and variadic positionals have no default value and do not have FLAG_ENV_OVERRIDE;
    a string default is not NULL; groups and subcommands have neither handler, validators nor value type. -/
structure Opt.Proper (o : Opt) : Prop where
  unallocated : o.isAllocated = false
  goes : ∀ h, o.handler = some h → ∃ fh, o.freeHandler = some fh ∧ h.Goes o.valueType fh
  bare : o.handler = none → o.validators.getD [] = [] ∧ o.valueType = .none
  subcommand : o.type = .subcommand → o.handler = none
  collection : ∀ h, o.handler = some h → h.isCollection = true →
    o.Fresh ∧ o.isSet = false ∧ o.flags.has .envOverride = false
  plain : ∀ h, o.handler = some h → h.isCollection = false → ∃ w, o.value = .word w
  string : o.handler = some .string → (∃ s, o.value = .word (.ptr s)) ∨ (o.value = .null ∧ o.isSet = false)
  number : o.handler = some .int ∨ o.handler = some .float → ∃ b, o.value = .word (.bits b)
  checks : ∀ h, o.handler = some h → ∀ v ∈ o.validators.getD [], v.Suits h

/-- All entries are proper, and the root table and the tables of all subcommands exist. -/
structure Argus.Proper (a : Argus) : Prop where
  entries : ∀ os ∈ a.tables, ∀ o ∈ os, o.Proper
  root : a.root < a.tables.length
  subs : ∀ os ∈ a.tables, ∀ o ∈ os, o.type = .subcommand → ∃ k, o.subOptions = some k ∧ k < a.tables.length

/-- The handlers that split their text at commas. -/
def Handler.splits : Handler → Bool
  | .arrayString | .arrayInt | .arrayFloat | .mapString | .mapInt | .mapFloat | .mapBool => true
  | _ => false

/-- Texts that the handler can take one after the other. For arrays and maps: the first is not made of commas only. For
    int arrays: no piece of any of them means a range that ends at INT_MAX. -/
def Handler.Takes (h : Handler) (ts : List Str) : Prop :=
  (h.splits = true → ∀ t, ts.head? = some t → t = [] ∨ ∃ c ∈ t, c ≠ 44) ∧
  (h = .arrayInt → ∀ t ∈ ts, ∀ p ∈ pieces t, ∀ lo hi, RangeText p lo hi → hi ≠ 2147483647)

/-- The texts meant for an option: those the command line gives to it, then the value of its variable in the
    environment. -/
def Argus.textsFor (a : Argus) (args : List Str) (env : Env) (q : Ptr) (o : Opt) : List (Option Str) :=
  textsOf q (a.asks args) ++ ((envVarName a.envPrefix o).bind env).toList.map some

/-- For arrays and maps, the first text meant for the option is not made of commas only. For int arrays, no piece of any
    text means a range that ends at INT_MAX. -/
def Argus.TextsFit (a : Argus) (args : List Str) (env : Env) : Prop :=
  ∀ (q : Ptr) (o : Opt) (h : Handler), a.getOpt q = .ok o → o.handler = some h →
    (h.splits = true → ∀ t, (a.textsFor args env q o).head? = some (some t) → t = [] ∨ ∃ c ∈ t, c ≠ 44) ∧
    (h = .arrayInt → ∀ t, some t ∈ a.textsFor args env q o → ∀ p ∈ pieces t, ∀ lo hi, RangeText p lo hi →
      hi ≠ 2147483647)

/-- Table `k` is the root table or the table of a selected subcommand. -/
def Argus.Selected (a : Argus) (k : Nat) : Prop :=
  k = a.root ∨ ∃ q ∈ a.stack, ∃ cmd, a.getOpt q = .ok cmd ∧ cmd.subOptions = some k

/-- No entry of table `k` holds an allocated value. -/
def Argus.Released (a : Argus) (k : Nat) : Prop :=
  ∀ i o, a.getOpt ⟨k, i⟩ = .ok o → o.isAllocated = false

/-- A call of the library by the program. -/
inductive Call where
  | parse (env : Env) (args : List Str)
  | free

/-- A call. -/
def Call.run (W : World) (a : Argus) : Call → Out Argus
  | .parse env args => (argusParse W env a args).bind (fun r => .ok r.2)
  | .free => argusFree a

/-- Calls one after the other on the same context. -/
def runCalls (W : World) (a : Argus) : List Call → Out Argus
  | [] => .ok a
  | c :: cs => (c.run W a).bind (fun a1 => runCalls W a1 cs)

/-- The context after several successful parses, the first listed first. -/
inductive Parses (W : World) (a : Argus) : List (Env × List Str) → Argus → Prop
  | none : Parses W a [] a
  | more (b b1 : Argus) (ps : List (Env × List Str)) (r : Env × List Str) : Parses W a ps b →
      argusParse W r.1 b r.2 = .ok (.returned Err.success, b1) → Parses W a (ps ++ [r]) b1

end Argus
