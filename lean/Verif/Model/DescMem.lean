import Verif.Model.HelpMem

/-!
# Memory: hints and descriptions of the help, source/display/help/help_formatter.c

Model/Display builds names and descriptions as plain texts. Here every text that the code keeps in allocated memory is a block
of bytes, an allocation may fail, and every access is checked: a block is live until it is freed, and an address is never given
out twice. Texts that stay in arrays on the stack (`default_buf`, `validator_info`, `env_buf`, `attrs_buf`, `full_name`) are
taken from Model/Display. A block given out has arbitrary contents. No block has 2^63 bytes or more (PTRDIFF_MAX). The formatter
of a user validator returns NULL or a copy of its text in a block of its own.
-/

set_option autoImplicit false

namespace Argus

/-- Memory: the blocks allocated and not yet released, the next unused address and the number of calls so far. -/
structure DHeap where
  live : Nat → Option Mem
  next : Nat
  calls : Nat

/-- An allocator: for the number of the call, NULL or the contents of the block given out. -/
abbrev DAlloc := Nat → Option (Nat → Byte)

/-- `malloc(n)`. -/
def DHeap.malloc (A : DAlloc) (h : DHeap) (n : Nat) : Option Nat × DHeap :=
  match A h.calls with
  | none => (none, { h with calls := h.calls + 1 })
  | some g =>
    if n < 2 ^ 63 then (some h.next, ⟨upd h.live h.next (some ((List.range n).map g)), h.next + 1, h.calls + 1⟩)
    else (none, { h with calls := h.calls + 1 })

/-- Access to the block at an address. -/
def DHeap.block (h : DHeap) (p : Nat) : Out Mem :=
  match h.live p with
  | none => .ub .outOfBounds
  | some m => .ok m

/-- The block at an address after a write. -/
def DHeap.store (h : DHeap) (p : Nat) (m : Mem) : DHeap := { h with live := upd h.live p (some m) }

/-- `free(p)`. -/
def DHeap.free (h : DHeap) : Option Nat → Out DHeap
  | none => .ok h
  | some p =>
    match h.live p with
    | none => .ub .badFree
    | some _ => .ok { h with live := upd h.live p none }

/-- The string at the beginning of a block. -/
def cText : Mem → Out Str
  | [] => .ub .outOfBounds
  | b :: r => if b = 0 then .ok [] else do
    let s ← cText r
    .ok (b :: s)

/-- The string at an address. -/
def DHeap.text (h : DHeap) (p : Nat) : Out Str := do
  let m ← h.block p
  cText m

/-- Writing to the block at an address; nothing for NULL. -/
def DHeap.fill (h : DHeap) (f : Mem → Out Mem) : Option Nat → Out (Option Nat × DHeap)
  | none => .ok (none, h)
  | some p => do
    let m ← h.block p
    let m1 ← f m
    .ok (some p, h.store p m1)

/-- `malloc(n)`, and if it succeeds writing to the block. -/
def DHeap.make (A : DAlloc) (h : DHeap) (n : Nat) (f : Mem → Out Mem) : Out (Option Nat × DHeap) :=
  (h.malloc A n).2.fill f (h.malloc A n).1

/-- `safe_strdup(s)`, cross_platform.h:62: the library's `strdup`. -/
def strdupD (A : DAlloc) (h : DHeap) (s : Str) : Out (Option Nat × DHeap) :=
  h.make A (s.length + 1) fun m => cCopy m 0 (s ++ [0])

/-- range_validator.c:39-44, length_validator.c:51-56, count_validator.c:46-51: `malloc(32)` and `snprintf`. -/
def snprintfD (A : DAlloc) (h : DHeap) (s : Str) : Out (Option Nat × DHeap) :=
  h.make A 32 fun m => cCopy m 0 (snprintf 32 s ++ [0])

/-- What a function of cross_platform.h leaves in its destination. -/
def keepD (old : Mem) (x : Out (Bool × Option Mem)) : Out Mem := do
  let r ← x
  .ok (r.2.getD old)

/-- regex_validator.c:94-98, 103-108: `malloc(strlen(s) + 1)` and `safe_strcpy`. -/
def copyD (A : DAlloc) (h : DHeap) (s : Str) : Out (Option Nat × DHeap) :=
  h.make A (sizeAdd s.length 1) fun m => keepD m (safeStrcpy (some m) (sizeAdd s.length 1) (some (s ++ [0])))

/-- source/callbacks/validators/regex_validator.c:87-114 `format_regex_validator`. -/
def regexD (A : DAlloc) (h : DHeap) (pattern hint : Option Str) : Out (Option Nat × DHeap) :=
  if hint.getD [] ≠ [] then copyD A h (hint.getD [])
  else if pattern.getD [] ≠ [] ∧ (pattern.getD []).length ≤ 15 then copyD A h (pattern.getD [])
  else strdupD A h c!"pattern"

/-- choices_validator.c:92-139, with `w` the length reserved for a choice and `f` its text. -/
def choicesD {α : Type} (A : DAlloc) (h : DHeap) (w : α → Nat) (f : α → Str) (cs : List α) : Out (Option Nat × DHeap) :=
  h.make A (sizeAdd (choicesLength w 0 cs) 1) fun m => do
    let r ← choicesFill f (sizeAdd (choicesLength w 0 cs) 1) cs (some m)
    .ok (r.getD m)

/-- `validator->formatter(validator->data)`: range_validator.c:37-45, length_validator.c:49-57, count_validator.c:44-52,
    choices_validator.c:87-140, regex_validator.c:87-114. -/
def formatD (A : DAlloc) (F : Fmt) (h : DHeap) : VKind → Out (Option Nat × DHeap)
  | .range mn mx => snprintfD A h (showInt mn ++ c!"-" ++ showInt mx)
  | .length mn mx => snprintfD A h (showInt mn ++ c!"-" ++ showInt mx ++ c!" chars")
  | .count mn mx => snprintfD A h (showInt mn ++ c!"-" ++ showInt mx)
  | .choiceStr cs => choicesD A h List.length id cs
  | .choiceInt cs => choicesD A h (fun _ => 20) (fun n => snprintf 32 (showInt n)) cs
  | .choiceFloat cs => choicesD A h (fun _ => 20) (fun x => snprintf 32 (F.g2 x)) cs
  | .regex p t => regexD A h p t
  | .custom id =>
    match F.custom id with
    | none => .ok (none, h)
    | some s => strdupD A h s

/-- source/display/help/help_formatter.c:72-82 `is_short_hint`, with its test for NULL. -/
def isShortD (cfg : HelperConfig) (h : DHeap) : Option Nat → Out Bool
  | none => .ok false
  | some p => do
    let s ← h.text p
    .ok (isShortHint cfg s)

/-- help_formatter.c:84-97 `has_single_validator`, and `validators[0]` if it has a formatter. -/
def soleFormatter (o : Opt) : Option VKind :=
  match o.validators with
  | some [v] => if v.hasFormatter then some v.kind else none
  | _ => none

/-- help_formatter.c:106-108: the text is returned if it is short, and freed otherwise. -/
def keepShortD (cfg : HelperConfig) (h : DHeap) (p : Option Nat) : Out (Option Nat × DHeap) := do
  let short ← isShortD cfg h p
  if short then .ok (p, h)
  else do
    let h1 ← h.free p
    .ok (none, h1)

/-- help_formatter.c:104-109: the text of the only validator if it is short. -/
def soleHintD (A : DAlloc) (F : Fmt) (cfg : HelperConfig) (o : Opt) (h : DHeap) : Out (Option Nat × DHeap) :=
  match soleFormatter o with
  | none => .ok (none, h)
  | some k => do
    let r ← formatD A F h k
    keepShortD cfg r.2 r.1

/-- source/display/help/help_formatter.c:99-112 `get_smart_hint`. -/
def smartHintD (A : DAlloc) (F : Fmt) (cfg : HelperConfig) (o : Opt) (h : DHeap) : Out (Option Nat × DHeap) :=
  match o.hint with
  | some t => strdupD A h t
  | none => do
    let r ← soleHintD A F cfg o h
    if r.1.isSome then .ok r
    else strdupD A r.2 (baseTypeName o.valueType)

/-- help_formatter.c:215-222: the names in `print_option_name`. -/
def typedNames (o : Opt) : Str :=
  (if o.sname ≠ 0 then [45, o.sname] ++ (if o.lname.isSome then c!", " else []) else []) ++
  (match o.lname with
   | some l => c!"--" ++ l
   | none => [])

/-- help_formatter.c:227-233: the hint as it is printed. -/
def hintText (vt : ValueType) (s : Str) : Str := c!" <" ++ (collectionHint vt s).getD s ++ c!">"

/-- help_formatter.c:226-235: printing the hint and freeing it. -/
def printHintD (vt : ValueType) (h : DHeap) : Option Nat → Out (Str × DHeap)
  | none => .ok ([], h)
  | some p => do
    let s ← h.text p
    let h1 ← h.free (some p)
    .ok (hintText vt s, h1)

/-- source/display/help/help_formatter.c:211-239 `print_option_name`, after the indentation. -/
def optionNameD (A : DAlloc) (F : Fmt) (cfg : HelperConfig) (o : Opt) (h : DHeap) : Out (Str × DHeap) :=
  if o.valueType ≠ .flag then do
    let r ← smartHintD A F cfg o h
    let q ← printHintD o.valueType r.2 r.1
    .ok (typedNames o ++ q.1, q.2)
  else .ok (typedNames o, h)

/-- help_formatter.c:252-253: what is written to the new block. -/
def joinD (size : Nat) (description suffix new : Mem) : Out Mem := do
  let m1 ← keepD new (safeStrcpy (some new) size (some description))
  keepD m1 (safeStrcat (some m1) size (some suffix))

/-- help_formatter.c:250-257: after `malloc`. -/
def appendedD (size : Nat) (p : Nat) (suffix : Mem) (h : DHeap) : Option Nat → Out (Nat × DHeap)
  | none => .ok (p, h)
  | some q => do
    let new ← h.block q
    let old ← h.block p
    let m ← joinD size old suffix new
    let h1 ← (h.store q m).free (some p)
    .ok (q, h1)

/-- source/display/help/help_formatter.c:242-258 `append_to_description`. -/
def appendToD (A : DAlloc) (h : DHeap) (p : Nat) (suffix : Str) : Out (Nat × DHeap) :=
  if suffix = [] then .ok (p, h)
  else do
    let m ← h.block p
    let n ← cStrlen m
    let size := sizeAdd (sizeAdd n suffix.length) 1
    appendedD size p (suffix ++ [0]) (h.malloc A size).2 (h.malloc A size).1

/-- source/display/help/help_formatter.c:261-296 `append_default_info`. -/
def appendDefaultD (A : DAlloc) (F : Fmt) (o : Opt) (p : Nat) (h : DHeap) : Out (Nat × DHeap) :=
  if o.haveDefault = false ∨ o.valueType = .flag then .ok (p, h)
  else do
    let s ← defaultInfo F o
    appendToD A h p s

/-- help_formatter.c:319-336: what is shown for the text of a validator; nothing for user validators. -/
def noteOf (k : VKind) (d : Str) : Str :=
  match k with
  | .regex _ _ => snprintf 256 (c!" (pattern: " ++ d ++ c!")")
  | .choiceStr _ => snprintf 256 (c!" [" ++ d ++ c!"]")
  | .choiceInt _ => snprintf 256 (c!" [" ++ d ++ c!"]")
  | .choiceFloat _ => snprintf 256 (c!" [" ++ d ++ c!"]")
  | .length _ _ => snprintf 256 (c!" (" ++ d ++ c!")")
  | .range _ _ => snprintf 256 (c!" (range: " ++ d ++ c!")")
  | .count _ _ => snprintf 256 (c!" (count: " ++ d ++ c!")")
  | .custom _ => []

/-- help_formatter.c:305-310: whether the text of the only validator is short; it is freed in any case. -/
def usedInHintD (A : DAlloc) (F : Fmt) (cfg : HelperConfig) (o : Opt) (h : DHeap) : Out (Bool × DHeap) :=
  match o.hint, soleFormatter o with
  | none, some k => do
    let r ← formatD A F h k
    let short ← isShortD cfg r.2 r.1
    let h1 ← r.2.free r.1
    .ok (short, h1)
  | _, _ => .ok (false, h)

/-- help_formatter.c:318-343: the text of a validator, NULL or not. -/
def noteD (A : DAlloc) (k : VKind) (p : Nat) (h : DHeap) : Option Nat → Out (Nat × DHeap)
  | none => .ok (p, h)
  | some t => do
    let s ← h.text t
    let r ← appendToD A h p (noteOf k s)
    let h1 ← r.2.free (some t)
    .ok (r.1, h1)

/-- help_formatter.c:314-345: the loop over the validators. -/
def notesD (A : DAlloc) (F : Fmt) : List Validator → Nat → DHeap → Out (Nat × DHeap)
  | [], p, h => .ok (p, h)
  | v :: vs, p, h =>
    if v.hasFormatter then do
      let t ← formatD A F h v.kind
      let r ← noteD A v.kind p t.2 t.1
      notesD A F vs r.1 r.2
    else notesD A F vs p h

/-- source/display/help/help_formatter.c:299-348 `append_validator_info`. The condition of line 313 is `!used`: `used` is true only
    for a single validator and without a hint. -/
def appendValidatorsD (A : DAlloc) (F : Fmt) (cfg : HelperConfig) (o : Opt) (p : Nat) (h : DHeap) : Out (Nat × DHeap) :=
  match o.validators with
  | none => .ok (p, h)
  | some vs => do
    let u ← usedInHintD A F cfg o h
    if u.1 then .ok (p, u.2) else notesD A F vs p u.2

/-- help_formatter.c:358-367: the variable `e`; the last byte is overwritten first if it is a parenthesis. -/
def variableD (A : DAlloc) (e : Str) (p : Nat) (h : DHeap) : Out (Nat × DHeap) := do
  let m ← h.block p
  let n ← cStrlen m
  if n > 0 ∧ m[n - 1]? = some 41 then do
    let m1 ← m.write (n - 1) 0
    appendToD A (h.store p m1) p (snprintf 256 (c!", env: " ++ e ++ c!")"))
  else appendToD A h p (snprintf 256 (c!" (env: " ++ e ++ c!")"))

/-- source/display/help/help_formatter.c:351-368 `append_env_info`. -/
def appendEnvD (A : DAlloc) (envPrefix : Option Str) (o : Opt) (p : Nat) (h : DHeap) : Out (Nat × DHeap) :=
  match displayEnvName envPrefix o with
  | none => .ok (p, h)
  | some e => variableD A e p h

/-- source/display/help/help_formatter.c:371-388 `append_flag_info`; the marks are those of Model/Display. -/
def appendFlagsD (A : DAlloc) (o : Opt) (p : Nat) (h : DHeap) : Out (Nat × DHeap) := appendToD A h p (appendFlags o [])

/-- help_formatter.c:404-410: the four additions to a description. -/
def describeD (A : DAlloc) (F : Fmt) (a : Argus) (o : Opt) (p : Nat) (h : DHeap) : Out (Nat × DHeap) := do
  let r1 ← appendValidatorsD A F a.helper o p h
  let r2 ← appendDefaultD A F o r1.1 r1.2
  let r3 ← appendEnvD A a.envPrefix o r2.1 r2.2
  appendFlagsD A o r3.1 r3.2

/-- help_formatter.c:394-412: NULL if the help text cannot be copied. -/
def describedD (A : DAlloc) (F : Fmt) (a : Argus) (o : Opt) (h : DHeap) : Option Nat → Out (Option Nat × DHeap)
  | none => .ok (none, h)
  | some p => do
    let r ← describeD A F a o p h
    .ok (some r.1, r.2)

/-- source/display/help/help_formatter.c:390-413 `build_option_description`. -/
def buildDescriptionD (A : DAlloc) (F : Fmt) (a : Argus) (o : Opt) (h : DHeap) : Out (Option Nat × DHeap) := do
  let r ← strdupD A h (o.help.getD [])
  describedD A F a o r.2 r.1

/-! ## Printing -/

/-- A part of the help that uses memory: undefined behaviour, a loop that never ends, or a text and memory afterwards. -/
abbrev DText := DHeap → Out (Option (Str × DHeap))

/-- Printing a text that needs no memory. -/
def DText.of (t : Text) : DText := fun h => Ends.bind t fun s => .ok (some (s, h))

/-- Printing one part after another. -/
def DText.cat (x y : DText) : DText := fun h =>
  Ends.bind (x h) fun r => Ends.bind (y r.2) fun q => .ok (some (r.1 ++ q.1, q.2))

/-- Printing several parts. -/
def DText.all : List DText → DText
  | [] => DText.of (.lit [])
  | x :: xs => x.cat (DText.all xs)

/-- help_formatter.c:425-434: printing the description and freeing it. -/
def printedD (cfg : HelperConfig) (head : Str) (h : DHeap) : Option Nat → Out (Option (Str × DHeap))
  | none => .ok (some (head ++ c!"Error: Memory allocation failed\n", h))
  | some p => do
    let d ← h.text p
    Ends.bind (.ok (wrapText d cfg.descriptionColumn cfg.maxLineWidth)) fun s =>
      (h.free (some p)).bind fun h1 => .ok (some (head ++ s ++ c!"\n", h1))

/-- source/display/help/help_formatter.c:415-435 `print_option_description`. -/
def optionDescriptionD (A : DAlloc) (F : Fmt) (a : Argus) (o : Opt) (padding : Nat) : DText := fun h => do
  let r ← buildDescriptionD A F a o h
  printedD a.helper (descHead a.helper padding) r.2 r.1

/-- An indented name followed by the description. -/
def entryTextD (A : DAlloc) (F : Fmt) (a : Argus) (o : Opt) (name : Str) : DText :=
  (DText.of (.lit (spaces a.helper.optionIndent ++ name))).cat
    (optionDescriptionD A F a o (padding a.helper (a.helper.optionIndent + name.length)))

/-- source/display/help/help_renderer.c:21-32 `print_option`. -/
def printOptionD (A : DAlloc) (F : Fmt) (a : Argus) (o : Opt) : DText := fun h => do
  let r ← optionNameD A F a.helper o h
  entryTextD A F a o r.1 r.2

/-- source/display/help/help_renderer.c:34-63 `print_positional`. -/
def printPositionalD (A : DAlloc) (F : Fmt) (a : Argus) (o : Opt) : DText := fun h => do
  let n ← nameText o.name
  entryTextD A F a o (positionalName o n) h

/-- source/display/help/help_renderer.c:65-79 `print_subcommand`. -/
def printSubcommandD (A : DAlloc) (F : Fmt) (a : Argus) (o : Opt) : DText := fun h => do
  let n ← nameText o.name
  entryTextD A F a o n h

/-- The entry at an index of the table. -/
def printAtD (print : Opt → DText) (os : List Opt) (i : Nat) : DText :=
  match os[i]? with
  | some o => print o
  | none => fun _ => .ub .nullDeref

/-- `print_option_list`, `print_positional_list`, `print_subcommand_list`, help_renderer.c:81-106. -/
def printListD (print : Opt → DText) (os : List Opt) (is : List Nat) : DText := DText.all (is.map (printAtD print os))

/-- A section: nothing without entries, else its title and the list. -/
def sectionD (title : Str) (is : List Nat) (body : DText) : DText :=
  if is = [] then DText.of (.lit []) else (DText.of (.lit (c!"\n" ++ title ++ c!":\n"))).cat body

/-- source/display/help/help_renderer.c:108-140 `print_help_sections`. -/
def helpSectionsD (A : DAlloc) (F : Fmt) (a : Argus) (os : List Opt) (d : HelpData) : DText :=
  (sectionD c!"Arguments" d.positionals (printListD (printPositionalD A F a) os d.positionals)).cat
  ((DText.all (d.groups.map fun g => sectionD g.1 g.2 (printListD (printOptionD A F a) os g.2))).cat
  ((sectionD c!"Options" d.ungrouped (printListD (printOptionD A F a) os d.ungrouped)).cat
   (sectionD c!"Commands" d.subcommands
     ((printListD (printSubcommandD A F a) os d.subcommands).cat (DText.of (commandHint a))))))

/-- source/display/help_display.c:24-35 `display_help` for the active options, with the memory of its lists (Model/HelpMem) and of
    its texts. The two are kept apart, each with an allocator of its own. -/
def displayHelpD (F : Fmt) (a : Argus) (A : Nat → Bool) (B : DAlloc) (m : HMem) (h : DHeap) : Out (Option (Str × HMem × DHeap)) := do
  let t ← a.activeOptions
  let os ← a.table t
  Ends.bind (organizeM A os m) fun x =>
    Ends.bind (readHelp x.1 x.2) fun d =>
      Ends.bind (helpSectionsD B F a os d h) fun s =>
        Ends.bind (freeHelp x.1 x.2) fun m1 => .ok (some (s.1 ++ c!"\n", m1, s.2))

end Argus
