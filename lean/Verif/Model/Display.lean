import Verif.Model.Buffer
import Verif.Model.Lookup

/-!
# Help, usage, version and command lists, source/display

What the functions print to stdout, as text. Allocation succeeds. `printf` of floats and the formatters of user
validators are parameters (`Fmt`). A text is `Out (Option Str)`: undefined behaviour, a loop that never ends (`none`),
or the bytes printed.
-/

set_option autoImplicit false

namespace Argus

/-- Formatting that the library does not implement itself. -/
structure Fmt where
  /-- `printf("%.2g", x)` -/
  g2 : F64 → Str
  /-- `printf("%.2f", x)` -/
  f2 : F64 → Str
  /-- the formatter of a user validator: NULL or a text -/
  custom : Nat → Option Str

/-- What `snprintf(buffer, size, ...)` leaves in the buffer, for a text `s`. -/
def snprintf (size : Nat) (s : Str) : Str := s.take (size - 1)

/-- `safe_strcat(buffer, size, s)` on the strings held, cross_platform.h:88-100; see C49_strcat. -/
def catFit (size : Nat) (d s : Str) : Str := if d.length + s.length ≥ size then d else d ++ s

/-- source/utils/strings.c:123-128 `putnchar(' ', n)`. -/
def spaces (n : Nat) : Str := List.replicate n 32

/-- `%s` or `strlen` applied to a name that may be NULL. -/
def nameText : Option Str → Out Str
  | some s => .ok s
  | none => .ub .nullDeref

/-! ## Output -/

/-- A printed text. -/
abbrev Text := Out (Option Str)

/-- Printing a fixed text. -/
def Text.lit (s : Str) : Text := .ok (some s)

/-- Printing one text after another. -/
def Text.cat (x y : Text) : Text := do
  match ← x with
  | none => .ok none
  | some s => do
    let b ← y
    .ok (b.map (s ++ ·))

/-- Printing several texts. -/
def Text.all : List Text → Text
  | [] => .lit []
  | x :: xs => x.cat (Text.all xs)

/-! ## Organisation, source/display/help/help_organizer.c -/

/-- includes/argus/internal/help.h `help_data_t`: lists of entries, which are indices into the table. -/
structure HelpData where
  positionals : List Nat := []
  groups : List (Str × List Nat) := []
  ungrouped : List Nat := []
  subcommands : List Nat := []
  deriving DecidableEq, Repr

/-- source/display/help/help_organizer.c:46-73 `find_or_create_group`: the position of the group. -/
def findOrCreateGroup (gs : List (Str × List Nat)) (name : Str) : List (Str × List Nat) × Nat :=
  match gs.findIdx? (fun g => strcmp g.1 name = 0) with
  | some k => (gs, k)
  | none => (gs ++ [(name, [])], gs.length)

/-- State of the loop of `organize_options`: `current_group` and `group`. -/
structure OrgState where
  data : HelpData := {}
  current : Option Str := none
  group : Option Nat := none

/-- help_organizer.c:89-99: a visible option. -/
def organizeOption (s : OrgState) (i : Nat) : OrgState :=
  match s.current with
  | some name =>
    let r := match s.group with
      | some k => (s.data.groups, k)
      | none => findOrCreateGroup s.data.groups name
    { s with
      data := { s.data with groups := r.1.modify r.2 (fun g => (g.1, g.2 ++ [i])) }
      group := some r.2 }
  | none => { s with data := { s.data with ungrouped := s.data.ungrouped ++ [i] } }

/-- help_organizer.c:80-112: one round of the loop. -/
def organizeStep (s : OrgState) (i : Nat) (o : Opt) : OrgState :=
  match o.type with
  | .group => { s with current := o.name, group := none }
  | .option => if o.flags.has .hidden then s else organizeOption s i
  | .positional => { s with data := { s.data with positionals := s.data.positionals ++ [i] } }
  | .subcommand => { s with data := { s.data with subcommands := s.data.subcommands ++ [i] } }

/-- help_organizer.c:80-112: the loop from entry `i`. -/
def organizeLoop : Nat → List Opt → OrgState → OrgState
  | _, [], s => s
  | i, o :: os, s => organizeLoop (i + 1) os (organizeStep s i o)

/-- source/display/help/help_organizer.c:75-113 `organize_options`. -/
def organize (os : List Opt) : HelpData := (organizeLoop 0 os {}).data

/-! ## Hints and descriptions, source/display/help/help_formatter.c -/

/-- source/display/help/help_formatter.c:35-51 `get_base_type_name`. -/
def baseTypeName : ValueType → Str
  | .int => c!"NUM"
  | .string => c!"STR"
  | .float => c!"FLOAT"
  | .bool => c!"BOOL"
  | .flag => c!"FLAG"
  | _ => c!"VALUE"

/-- source/display/help/help_formatter.c:53-70 `get_collection_format` and `format_collection_hint` with its buffer
    of 64 bytes. -/
def collectionHint (vt : ValueType) (hint : Str) : Option Str :=
  if vt.isVariadic then some (snprintf 64 (hint ++ c!"..."))
  else if vt.isArray then some (snprintf 64 (hint ++ c!",..."))
  else if vt.isMap then some (snprintf 64 (c!"KEY=" ++ hint ++ c!",..."))
  else none

/-- source/callbacks/validators/choices_validator.c:93-137 on strings: the items are appended while they fit. -/
def choicesJoin (size : Nat) : Str → List Str → Str
  | acc, [] => acc
  | acc, x :: xs =>
    if xs.isEmpty then choicesJoin size (catFit size acc x) xs
    else choicesJoin size (catFit size (catFit size acc x) c!"|") xs

/-- The size reserved: the sum and the separators, choices_validator.c:93-110. -/
def choicesSize (ws : List Nat) : Nat := ws.sum + (ws.length - 1) + 1

/-- source/callbacks/validators/regex_validator.c:87-114 `format_regex_validator`. -/
def formatRegex (pattern hint : Option Str) : Str :=
  if hint.getD [] ≠ [] then hint.getD []
  else if pattern.getD [] ≠ [] ∧ (pattern.getD []).length ≤ 15 then pattern.getD []
  else c!"pattern"

/-- The `formatter` of a validator: range_validator.c:37-45, length_validator.c:49-57, count_validator.c:44-52,
    choices_validator.c:87-140, regex_validator.c:87-114. -/
def formatter (F : Fmt) : VKind → Option Str
  | .range mn mx => some (snprintf 32 (showInt mn ++ c!"-" ++ showInt mx))
  | .length mn mx => some (snprintf 32 (showInt mn ++ c!"-" ++ showInt mx ++ c!" chars"))
  | .count mn mx => some (snprintf 32 (showInt mn ++ c!"-" ++ showInt mx))
  | .choiceStr cs => some (choicesJoin (choicesSize (cs.map List.length)) [] cs)
  | .choiceInt cs => some (choicesJoin (choicesSize (cs.map fun _ => 20)) [] (cs.map fun n => snprintf 32 (showInt n)))
  | .choiceFloat cs => some (choicesJoin (choicesSize (cs.map fun _ => 20)) [] (cs.map fun x => snprintf 32 (F.g2 x)))
  | .regex p h => some (formatRegex p h)
  | .custom id => F.custom id

/-- `validator->formatter ? validator->formatter(validator->data) : NULL`. -/
def Validator.text (F : Fmt) (v : Validator) : Option Str := if v.hasFormatter then formatter F v.kind else none

/-- source/display/help/help_formatter.c:72-82 `is_short_hint`. -/
def isShortHint (cfg : HelperConfig) (hint : Str) : Bool :=
  decide (hint.length ≤ cfg.smartHintMaxLength) && (cfg.smartHintAllowSpaces || !hint.contains 32)

/-- source/display/help/help_formatter.c:84-97 `has_single_validator`; help_formatter.c:104-109, 305-310: the text of
    the only validator, if there is exactly one and its text is short. -/
def validatorHint (F : Fmt) (cfg : HelperConfig) (o : Opt) : Option Str :=
  match o.validators with
  | some [v] => (v.text F).filter (isShortHint cfg)
  | _ => none

/-- source/display/help/help_formatter.c:99-112 `get_smart_hint`. -/
def smartHint (F : Fmt) (cfg : HelperConfig) (o : Opt) : Str :=
  match o.hint with
  | some h => h
  | none =>
    match validatorHint F cfg o with
    | some h => h
    | none => baseTypeName o.valueType

/-- source/display/help/help_formatter.c:122-161 `get_env_var_name_for_display`. -/
def displayEnvName (envPrefix : Option Str) (o : Opt) : Option Str :=
  let pre : Str := envPrefix.getD []
  let sep : Str := if pre.length > 0 ∧ pre.getLast? ≠ some 95 then [95] else []
  match o.envName with
  | some e =>
    if o.flags.has .noEnvPrefix then some e
    else if envPrefix.isSome ∧ strncmpEq pre.length e pre = true then some e
    else some (snprintf 128 (pre ++ sep ++ e))
  | none =>
    if o.flags.has .autoEnv then
      let name : Str := (o.name.orElse fun _ => o.lname).getD []
      let full := snprintf 128 (if o.flags.has .noEnvPrefix then name else pre ++ sep ++ name)
      some (full.map fun c => if c = 45 then 95 else toUpper c)
    else none

/-- One iteration of the scanning loop, help_formatter.c:175-181: from `text + line_start`, the number of bytes
    scanned before the end, a newline or `w` bytes, and the offset of the last space among them (0 if none). -/
def wrapScan (w : Nat) : (n sp : Nat) → Str → Nat × Nat
  | n, sp, [] => (n, sp)
  | n, sp, c :: r =>
    if n < w ∧ c ≠ 10 then wrapScan w (n + 1) (if c = 32 then n else sp) r
    else (n, sp)

/-- source/display/help/help_formatter.c:174-208, the loop of `print_wrapped_text`, on the text from `line_start`;
    `w` is `line_width - indent - 2`. `none` when `fuel` rounds are not enough. -/
def wrapLoop (w : Nat) (pad : Str) : Nat → Str → Option Str
  | _, [] => some []
  | 0, _ :: _ => none
  | fuel + 1, rest =>
    let n := (wrapScan w 0 0 rest).1
    let sp := (wrapScan w 0 0 rest).2
    if n < rest.length ∧ (rest.drop n).head? = some 10 then
      (wrapLoop w pad fuel (rest.drop (n + 1))).map fun out =>
        rest.take n ++ c!"\n" ++ (if rest.drop (n + 1) ≠ [] then pad else []) ++ out
    else if n ≥ w then
      if sp > 0 then
        (wrapLoop w pad fuel (rest.drop (sp + 1))).map fun out =>
          rest.take sp ++ c!"\n" ++ (if rest.drop (sp + 1) ≠ [] then pad else []) ++ out
      else
        (wrapLoop w pad fuel (rest.drop n)).map fun out =>
          rest.take n ++ c!"\n" ++ (if rest.drop n ≠ [] then pad else []) ++ out
    else some rest

/-- The number of bytes per line, help_formatter.c:176 (`size_t`). -/
def wrapWidth (indent lineWidth : Nat) : Nat := sizeSub (sizeSub lineWidth indent) 2

/-- source/display/help/help_formatter.c:163-209 `print_wrapped_text`. A loop that ends does so within as many rounds
    as there are bytes (`wrapText_fuel`). -/
def wrapText (text : Str) (indent lineWidth : Nat) : Option Str :=
  wrapLoop (wrapWidth indent lineWidth) (spaces (indent + 2)) text.length text

/-- source/display/help/help_formatter.c:242-258 `append_to_description`. -/
def appendTo (description suffix : Str) : Str := description ++ suffix

/-- help_formatter.c:316-344: what is shown for one validator; nothing for user validators. -/
def validatorInfo (F : Fmt) (v : Validator) : Str :=
  match v.text F with
  | none => []
  | some d =>
    match v.kind with
    | .regex _ _ => snprintf 256 (c!" (pattern: " ++ d ++ c!")")
    | .choiceStr _ => snprintf 256 (c!" [" ++ d ++ c!"]")
    | .choiceInt _ => snprintf 256 (c!" [" ++ d ++ c!"]")
    | .choiceFloat _ => snprintf 256 (c!" [" ++ d ++ c!"]")
    | .length _ _ => snprintf 256 (c!" (" ++ d ++ c!")")
    | .range _ _ => snprintf 256 (c!" (range: " ++ d ++ c!")")
    | .count _ _ => snprintf 256 (c!" (count: " ++ d ++ c!")")
    | .custom _ => []

/-- source/display/help/help_formatter.c:299-348 `append_validator_info`. -/
def appendValidators (F : Fmt) (cfg : HelperConfig) (o : Opt) (description : Str) : Str :=
  match o.validators with
  | none => description
  | some vs =>
    if (validatorHint F cfg o).isSome ∧ o.hint = none then description
    else vs.foldl (fun d v => appendTo d (validatorInfo F v)) description

/-- help_formatter.c:266-293: the text of the default value, in a buffer of 128 bytes. -/
def defaultInfo (F : Fmt) (o : Opt) : Out Str :=
  match o.valueType with
  | .int => do
    let n ← o.defaultValue.asInt
    .ok (snprintf 128 (c!" (default: " ++ showInt n ++ c!")"))
  | .string => do
    match ← o.defaultValue.asString with
    | some s => .ok (snprintf 128 (c!" (default: \"" ++ s ++ c!"\")"))
    | none => .ok c!" (default: null)"
  | .float => do
    let x ← o.defaultValue.asFloat
    .ok (snprintf 128 (c!" (default: " ++ F.f2 x ++ c!")"))
  | .bool => do
    let b ← o.defaultValue.asBool
    .ok (if b then c!" (default: true)" else c!" (default: false)")
  | _ => .ok c!" (default: )"

/-- source/display/help/help_formatter.c:261-296 `append_default_info`. -/
def appendDefault (F : Fmt) (o : Opt) (description : Str) : Out Str :=
  if o.haveDefault = false ∨ o.valueType = .flag then .ok description
  else do
    let s ← defaultInfo F o
    .ok (appendTo description s)

/-- source/display/help/help_formatter.c:351-368 `append_env_info`. -/
def appendEnv (envPrefix : Option Str) (o : Opt) (description : Str) : Str :=
  match displayEnvName envPrefix o with
  | none => description
  | some e =>
    if description.getLast? = some 41 then
      appendTo description.dropLast (snprintf 256 (c!", env: " ++ e ++ c!")"))
    else appendTo description (snprintf 256 (c!" (env: " ++ e ++ c!")"))

/-- source/display/help/help_formatter.c:371-388 `append_flag_info`, with its buffer of 32 bytes. -/
def appendFlags (o : Opt) (description : Str) : Str :=
  let b1 : Str := if o.flags.has .exit then catFit 32 [] c!" (exit)" else []
  let b2 := if o.flags.has .required then catFit 32 b1 c!" (required)" else b1
  let b3 := if o.flags.has .deprecated then catFit 32 b2 c!" (deprecated)" else b2
  let b4 := if o.flags.has .experimental then catFit 32 b3 c!" (experimental)" else b3
  appendTo description b4

/-- source/display/help/help_formatter.c:390-413 `build_option_description`. -/
def buildDescription (F : Fmt) (a : Argus) (o : Opt) : Out Str := do
  let d ← appendDefault F o (appendValidators F a.helper o (o.help.getD []))
  .ok (appendFlags o (appendEnv a.envPrefix o d))

/-- help_formatter.c:419-422: what comes before the description. -/
def descHead (cfg : HelperConfig) (padding : Nat) : Str :=
  (if padding < 4 then c!"\n" ++ spaces cfg.descriptionColumn else spaces padding) ++ c!"- "

/-- source/display/help/help_formatter.c:415-435 `print_option_description`. -/
def optionDescription (F : Fmt) (a : Argus) (o : Opt) (padding : Nat) : Text := do
  let d ← buildDescription F a o
  .ok ((wrapText d a.helper.descriptionColumn a.helper.maxLineWidth).map
    fun s => descHead a.helper padding ++ s ++ c!"\n")

/-! ## Sections, source/display/help/help_renderer.c -/

/-- source/display/help/help_formatter.c:211-239 `print_option_name`, after the indentation. -/
def optionName (F : Fmt) (cfg : HelperConfig) (o : Opt) : Str :=
  (if o.sname ≠ 0 then [45, o.sname] ++ (if o.lname.isSome then c!", " else []) else []) ++
  (match o.lname with
   | some l => c!"--" ++ l
   | none => []) ++
  (if o.valueType ≠ .flag then
    match collectionHint o.valueType (smartHint F cfg o) with
    | some s => c!" <" ++ s ++ c!">"
    | none => c!" <" ++ smartHint F cfg o ++ c!">"
   else [])

/-- help_renderer.c:25-29, 56-60, 72-76: the padding after a name that ends in column `width`. -/
def padding (cfg : HelperConfig) (width : Nat) : Nat :=
  if cfg.descriptionColumn > width then cfg.descriptionColumn - width else 2

/-- An indented name followed by the description. -/
def entryText (F : Fmt) (a : Argus) (o : Opt) (name : Str) : Text :=
  (Text.lit (spaces a.helper.optionIndent ++ name)).cat
    (optionDescription F a o (padding a.helper (a.helper.optionIndent + name.length)))

/-- source/display/help/help_renderer.c:21-32 `print_option`. -/
def printOption (F : Fmt) (a : Argus) (o : Opt) : Text := entryText F a o (optionName F a.helper o)

/-- The name of a positional, help_renderer.c:38-54 and usage_display.c:40-50. -/
def positionalName (o : Opt) (name : Str) : Str :=
  if o.flags.has .required then
    if o.valueType.isVariadic then c!"<" ++ name ++ c!"...>" else c!"<" ++ name ++ c!">"
  else
    if o.valueType.isVariadic then c!"[" ++ name ++ c!"...]" else c!"[" ++ name ++ c!"]"

/-- source/display/help/help_renderer.c:34-63 `print_positional`. -/
def printPositional (F : Fmt) (a : Argus) (o : Opt) : Text := do
  let n ← nameText o.name
  entryText F a o (positionalName o n)

/-- source/display/help/help_renderer.c:65-79 `print_subcommand`. -/
def printSubcommand (F : Fmt) (a : Argus) (o : Opt) : Text := do
  let n ← nameText o.name
  entryText F a o n

/-- `print_option_list`, `print_positional_list`, `print_subcommand_list`, help_renderer.c:81-106. -/
def printList (print : Opt → Text) (os : List Opt) (is : List Nat) : Text :=
  Text.all (is.map fun i =>
    match os[i]? with
    | some o => print o
    | none => .ub .nullDeref)

/-- The names of the subcommands on the stack, each after a space. -/
def stackNames (a : Argus) : List Ptr → Out Str
  | [] => .ok []
  | p :: ps => do
    let o ← a.getOpt p
    let n ← nameText o.name
    let r ← stackNames a ps
    .ok (32 :: n ++ r)

/-- A section: nothing without entries, else its title and the list. -/
def section' (title : Str) (is : List Nat) (body : Text) : Text :=
  if is = [] then .lit [] else (Text.lit (c!"\n" ++ title ++ c!":\n")).cat body

/-- help_renderer.c:135-138: the line after the list of commands. -/
def commandHint (a : Argus) : Text := do
  let s ← stackNames a a.stack
  Text.lit (c!"\nRun '" ++ a.programName ++ s ++ c!" COMMAND --help' for more information on a command.\n")

/-- source/display/help/help_renderer.c:108-140 `print_help_sections`, with the tests help_organizer.c:153-161
    `has_entries` and `has_groups`. -/
def helpSections (F : Fmt) (a : Argus) (os : List Opt) (d : HelpData) : Text :=
  (section' c!"Arguments" d.positionals (printList (printPositional F a) os d.positionals)).cat
  ((Text.all (d.groups.map fun g => section' g.1 g.2 (printList (printOption F a) os g.2))).cat
  ((section' c!"Options" d.ungrouped (printList (printOption F a) os d.ungrouped)).cat
   (section' c!"Commands" d.subcommands
     ((printList (printSubcommand F a) os d.subcommands).cat (commandHint a)))))

/-- source/display/help_display.c:24-35 `display_help` for the active options (the handler of `--help`
    passes them, and source/api/argus_display.c:19-22 `argus_print_help` passes NULL, which stands for them). -/
def displayHelp (F : Fmt) (a : Argus) : Text := do
  let t ← a.activeOptions
  let os ← a.table t
  (helpSections F a os (organize os)).cat (.lit c!"\n")

/-! ## Usage, version and lists of commands -/

/-- source/display/usage_display.c:38-52: the positionals in the usage line. -/
def usagePositionals : List Opt → Out Str
  | [] => .ok []
  | o :: os =>
    if o.type = .positional then do
      let n ← nameText o.name
      let r ← usagePositionals os
      .ok (32 :: positionalName o n ++ r)
    else usagePositionals os

/-- source/display/usage_display.c:15-22, 55-56: the placeholder for a subcommand. -/
def usageCommand (os : List Opt) : Str := if os.any (fun o => o.type == .subcommand) then c!" COMMAND" else []

/-- source/display/usage_display.c:24-59 `display_usage`, called by source/api/argus_display.c:29-32
    `argus_print_usage`. -/
def displayUsage (a : Argus) : Out Str := do
  let t ← a.activeOptions
  let os ← a.table t
  let s ← stackNames a a.stack
  let p ← usagePositionals os
  .ok (c!"Usage: " ++ a.programName ++ s ++ c!" [OPTIONS]" ++ p ++ usageCommand os ++ c!"\n")

/-- source/display/version_display.c:14-25 `display_version`, called by source/api/argus_display.c:39-42
    `argus_print_version`. -/
def displayVersion (a : Argus) : Str :=
  a.programName ++
  (match a.version with
   | some v => c!" v" ++ v
   | none => []) ++ c!"\n" ++
  (match a.description with
   | some d => c!"\n" ++ d ++ c!"\n"
   | none => [])

/-- source/display/command_display.c:22-40 `print_command_line`. -/
def commandLine (cfg : HelperConfig) (path : Str) (help : Option Str) : Str :=
  c!"  " ++ path ++
  spaces (if cfg.descriptionColumn > path.length + 2 then cfg.descriptionColumn - path.length - 2 else 2) ++
  (match help with
   | some h => c!"- " ++ h
   | none => []) ++ c!"\n"

/-- source/display/command_display.c:89-102 `has_executable_subcommands`. -/
def hasExecutable (a : Argus) (o : Opt) : Out Bool :=
  match o.subOptions with
  | none => .ok false
  | some k => do
    let os ← a.table (some k)
    .ok (os.any fun s => s.type == .subcommand && s.action.isSome)

/-- source/display/command_display.c:42-69, the loop of `print_subcommand_paths`; `nested` is the recursive call on the
    table of a subcommand. `blank` is `!*first_in_group` until the first subcommand. -/
def pathsLoop (a : Argus) (nested : Str → Nat → Text) (base : Str) : (blank : Bool) → List Opt → Text
  | _, [] => Text.lit []
  | blank, o :: os =>
    if o.type = .subcommand then do
      let n ← nameText o.name
      (Text.lit ((if blank then c!"\n" else []) ++ commandLine a.helper (snprintf 512 (base ++ c!" " ++ n)) o.help)).cat
        ((match o.subOptions with
          | none => Text.lit []
          | some k => nested (snprintf 512 (base ++ c!" " ++ n)) k).cat
          (pathsLoop a nested base false os))
    else pathsLoop a nested base blank os

/-- source/display/command_display.c:42-69 `print_subcommand_paths` on table `k`; `none` when `fuel` levels are not
    enough (in C, a table that contains itself is walked without end). Both callers pass a true `first_in_group`. -/
def subcommandPaths (a : Argus) : (fuel : Nat) → (base : Str) → (k : Nat) → Text
  | 0, _, _ => .ok none
  | fuel + 1, base, k => do
    let os ← a.table (some k)
    pathsLoop a (subcommandPaths a fuel) base false os

/-- source/display/command_display.c:71-87 `display_available_subcommands`. -/
def displayAvailable (a : Argus) (fuel : Nat) (command : Opt) : Text := do
  let n ← nameText command.name
  let s ← stackNames a a.stack
  (Text.lit (c!"The '" ++ n ++ c!"' command cannot be executed by itself.\n\nAvailable commands:\n")).cat
    ((match command.subOptions with
      | none => Text.lit []
      | some k => subcommandPaths a fuel n k).cat
      (.lit (c!"\nRun '" ++ a.programName ++ s ++ c!" SUBCOMMAND --help' for more information.\n")))

/-- source/display/command_display.c:104-108 `is_effectively_simple_command`. -/
def isSimpleCommand (a : Argus) (o : Opt) : Out Bool :=
  if o.type = .subcommand ∧ o.action.isSome then do
    let e ← hasExecutable a o
    .ok (!e)
  else .ok false

/-- source/display/command_display.c:136-137: whether the entry heads a family. -/
def isFamily (a : Argus) (o : Opt) : Out Bool := if o.type = .subcommand then hasExecutable a o else .ok false

/-- source/display/command_display.c:110-127 `print_simple_commands_group`: the text and whether anything was
    printed. -/
def simpleCommands (a : Argus) : List Opt → Out (Str × Bool)
  | [] => .ok ([], false)
  | o :: os => do
    let e ← isSimpleCommand a o
    if e then do
      let n ← nameText o.name
      let r ← simpleCommands a os
      .ok (commandLine a.helper (snprintf 512 (a.programName ++ c!" " ++ n)) o.help ++ r.1, true)
    else simpleCommands a os

/-- command_display.c:151-161: the commands below one. -/
def familyLines (cfg : HelperConfig) (base : Str) : List Opt → Out Str
  | [] => .ok []
  | s :: os =>
    if s.type = .subcommand ∧ s.action.isSome then do
      let n ← nameText s.name
      let r ← familyLines cfg base os
      .ok (commandLine cfg (snprintf 1024 (base ++ c!" " ++ n)) s.help ++ r)
    else familyLines cfg base os

/-- source/display/command_display.c:129-165 `print_command_families`; `blank` says that an empty line comes
    first. -/
def commandFamilies (a : Argus) : (blank : Bool) → List Opt → Out Str
  | _, [] => .ok []
  | blank, o :: os => do
    let e ← isFamily a o
    if e then do
      let n ← nameText o.name
      let subs ← a.table o.subOptions
      let lines ← familyLines a.helper (snprintf 512 (a.programName ++ c!" " ++ n)) subs
      let r ← commandFamilies a true os
      .ok ((if blank then c!"\n" else []) ++
        (if o.action.isSome then commandLine a.helper (snprintf 512 (a.programName ++ c!" " ++ n)) o.help else []) ++
        lines ++ r)
    else commandFamilies a blank os

/-- source/display/command_display.c:167-179 `display_all_commands`. -/
def displayAllCommands (a : Argus) : Out Str := do
  let os ← a.table (some a.root)
  let s ← simpleCommands a os
  let f ← commandFamilies a s.2 os
  .ok (c!"No command specified.\n\nAvailable commands:\n" ++ s.1 ++ f ++ c!"\nRun '" ++ a.programName ++
    c!" COMMAND --help' for more information on a specific command.\n")

end Argus
