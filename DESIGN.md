# Design: a Lean 4 model of Argus and proofs of its user-visible properties

Code under study: `lucocozz/Argus` as found in `/repo` (read as text only).
Properties: `properties.jsonl`. Status per property: `MANIFEST.json`. Trials with wrong programs: `seeded/LOG.jsonl`.

## 1. Layout

* `lean/Verif/Model`: the model. Every definition cites the C file and lines it follows.
* `lean/Verif/Spec`: small specifications that the theorems are stated with, and sample programs. They do not use the
  model's helpers, only its types.
* `lean/Verif/Lemmas`: auxiliary proofs.
* `lean/Verif/Props`: the theorems of the properties, named `Cnn_...`, each with a concrete case.

## 2. Model

| Lean module | C code followed |
|---|---|
| `Model/Bytes` | C strings, the functions of libc on them, `source/utils/strings.c`, `string_to_bool` of `bool_handler.c` |
| `Model/Float` | comparison of doubles on their bit patterns |
| `Model/Types` | `includes/argus/types.h`, `errors.h`; the parameters (`World`) |
| `Model/Define` | the macros of `includes/argus/options.h` |
| `Model/Defaults` | the macro DEFAULT of `includes/argus/options.h` |
| `Model/Lookup` | `source/utils/option_lookup.c` |
| `Model/Collections` | `source/utils/multi_values.c` |
| `Model/Handlers` | `source/callbacks/handlers/*.c`, `free_option_value` |
| `Model/Validators` | `source/callbacks/validators/*.c` |
| `Model/Parse` | `source/core/parsing/*.c`, `source/api/argus_parse.c`, `argus_free.c`, `argus_exec.c` |
| `Model/Access` | `source/api/argus_value_access.c`, `source/core/error.c` |
| `Model/Structure` | `source/core/validation/*.c`, `source/api/argus_init.c` |
| `Model/Buffer` | `includes/argus/internal/cross_platform.h`, `format_choices_validator` |
| `Model/Display` | `source/display/**`, the formatters of the validators |
| `Model/Messages` | the texts of all messages of a parse: `ARGUS_PARSING_ERROR` in `source/core/parsing`, `source/callbacks`, `source/utils/option_lookup.c`, and the end of `argus_parse` |
| `Model/HelpMem` | the linked lists of `source/display/help/help_organizer.c` and their release |
| `Model/DescMem` | names, hints and descriptions of `source/display/help/help_formatter.c` and the formatters of validators as blocks of memory |
| `Model/Complaints` | what `source/core/validation` prints about a definition, `argus_struct_error` in `includes/argus/errors.h` |
| `Model/Values` | the rest of `source/utils/value_utils.c` |
| `Model/Stream` | `source/utils/stream.c` |
| `Model/Statics` | the static variables of `validate_structure.c`, `load_env_vars.c` and `help_formatter.c`, with the functions around them |
| `Model/Ctype` | the parse with the calls of `isdigit`, `tolower` and `toupper` checked |
| `Model/Regex` | the patterns of `includes/argus/regex.h` with PCRE2, the syntax they use, and what a search finds |
| `Model/Heap` | all allocations of the array, variadic and map handlers: `multi_values.c`, `split`, `value_utils.c` |

### Representation

* A C string is the list of its bytes without the terminating NUL; the theorems do not need the bytes to differ from NUL.
  A `char *` that may be NULL is an `Option`. Where buffers matter (`Model/Buffer`, `Model/Stream`) memory is a list of
  bytes and every access is checked.
* Option tables live in an arena (`tables : List (List Opt)`); `sub_options` is an index into it. Shared and cyclic tables are
  therefore represented. The `TYPE_NONE` terminator is the end of the list.
* The value union is an 8-byte word. `as_int` is the signed low 32 bits, `as_int64` all 64 bits, `as_float` the bit pattern
  of a double. A word of which only some bytes were written in fresh memory is a separate constructor, so that reading the other
  bytes is visibly indeterminate.
* Undefined behaviour is a separate outcome `Out.ub`: NULL dereference, out-of-bounds access, command-stack overflow,
  signed overflow, read of an uninitialised cell, `realloc`/`free` of a wrong pointer, callback type confusion.
* `exit` is a separate result of `argus_parse`. A loop that never ends is a separate result where it can happen (wrapping,
  lists of commands, validation, streams).
* Messages are recorded as events (error code, help, version, usage); their texts are computed by `Model/Messages`.
* Doubles are compared exactly on their bit patterns (IEEE order, and `fabs(a-b) < 1e-7` with correct rounding).

### Parameters

Every theorem holds for all values of these: `strtof`, `strtod`, the regex engine, `qsort`, user-supplied handlers, validators,
free handlers, formatters and actions (`World`, `Fmt`); the decisions of `malloc`, `realloc`, `pipe`, `dup`, `dup2`, `read`
(`Allocator`, `RedirectOs`, `ReadOs`). The laws assumed are fields of `World`: `qsort` returns a permutation, sorted when the
comparison is consistent on the elements (`Consistent`), and does not look at anything but comparisons; `strtof` returns a widened
binary32 value; `strtod` consumes at most the whole string. A concrete instance (`Sample.world`) shows that
the laws can be met.

### Simplifications

* `size_t` and `int` counters are unbounded naturals, except where a property is about the limit (`Model/Buffer`, wrapping).
* Allocation succeeds outside `Model/Buffer`, `Model/Heap`, `Model/HelpMem`, `Model/DescMem` and `Model/Stream`.
* `isdigit`, `tolower`, `toupper`, `isspace` follow the "C" locale and are defined for all bytes (`Model/Ctype` and C104 check their range). LP64 is assumed (`long` has 64 bits).
* `qsort` returns a permutation even for an inconsistent comparison.
* User handlers write only the value fields of their own option.
* User handlers and validators see only their own option and text. `Model/Context` lifts this for validators called after parsing
  (C88), which there see everything but `error_code`.
* Cells beyond `value_count` are forgotten after FLAG_UNIQUE; an iterator holds a snapshot of the block.
* The string choice validator on a NULL value is undefined even for an empty list of choices.
* `Model/Structure` leaves out messages and what validators run on defaults do to the error code. The static variable
  `subcommand_depth` is a parameter (C103 shows that it may be).
* `Model/Buffer`: source and destination do not overlap; the MSVC branch is not modelled; choices only as the macros make them.
* `Model/Statics`: calls of the library from within callbacks are left out; `snprintf` writes its text and NUL and nothing more.
* `Model/Stdout`: what user callbacks print is left out, and the order between the two streams.
* `Model/Display`: `%s` of NULL is undefined; the cast of a precision to `int` is ignored; only the text on stdout; help for the
  active options.
* `Model/Stream`: the contents of files that are not pipes are not recorded; the Windows branch is not modelled; the
  standard descriptors are open; the `dup2` inside cleanup succeeds.
* `Model/Regex`: only the syntax used in `regex.h`; whether a pattern is found, not where; texts of up to the limits of the engine
  (a failure of the engine for other reasons is a possible answer in `FollowsPcre`).
* `Model/HelpMem`: an address is never given out twice; the lists are read before the first section is printed.
* `Model/DescMem`: an address is never given out twice; arrays on the stack are plain texts; a user formatter returns NULL or a copy of its text; lists (`Model/HelpMem`) and texts have separate allocators, which covers every interleaving of refusals.
* `Model/Heap`: an address is never given out twice; `split` writes its addresses at the end; messages are left out.
* `Model/Values`: `%s` of NULL is undefined; pointers to different copies of one text are not told apart. These functions are
  never called in the library.
* `Model/Messages`: allocation succeeds; the texts of user callbacks, of PCRE2 and of `%f` are parameters (`Wording`).
* Not modelled: the texts of messages about invalid definitions, colours, the generic macros of `api.h`.

## 3. Property by property

Theorem names are in `MANIFEST.json`; each theorem stands in `lean/Verif/Props` with a comment saying what it claims and
with a concrete case meeting its hypotheses. Names ending in `_partial` prove part of a property; the last column says what
is missing. "False" means that the code violates the property: the theorem named there is a concrete counterexample.

| Property | Modelled by | Proof | Missing |
|---|---|---|---|
| C01 --name=value and --name value are the same command line | `parseStep`, `handleLong`, `argusParse` | the two command lines run through equal states (equation between runs, any prefix and rest) | - |
| C02 -ovalue and -o value are the same command line | `parseStep`, `handleShort` | equation between the two runs | the case where `-o` itself reads as a negative number for a numeric positional is excluded by a hypothesis, as in the statement of the syntax |
| C03 Clustered short flags equal separate flags | `handleShort` | equation between the two runs, by unfolding one letter of the cluster | - |
| C04 Unknown options are always rejected | `handleLong`, `handleShort`, `argusParse` | decision logic after any prefix | false for long names: exactly the first 63 bytes count (`C04_first_63_bytes`, `C04_long_name_cut`) |
| C05 A value-taking option at the end of the line is rejected | `handleLong`, `handleShort` | decision logic after any prefix | false for declared names of 64 bytes and more (`C05_long_name_cut`); of a longer name given, the first 63 bytes decide |
| C06 After -- everything is positional | `parseStep` with `only_positional` | induction over the arguments after `--`, frame for everything else | the case of `--` right after an option that needs a value is separate: there `--` is the value (`C06_dashes_as_value`, deviation 41) |
| C07 Positional arguments fill their slots in declaration order | `findPositional`, `handlePositional`, `parseLoop` | induction over arguments against the slot specification `slotAt` and the count `SlotCount` | - |
| C08 Negative numbers are accepted as positional values | `isNegNumber`, `parseStep` | decision logic after any prefix | false for variadic numeric positionals (`C08_variadic_rejects_negative`; `C08_other_slots_refuse` for all of them) |
| C09 Subcommand resolution by name or unambiguous prefix | `findSub`, `enterSub` | induction over the table against the list of matching subcommands | false for a full name that begins an earlier name (`C09_full_name_can_be_ambiguous`); the theorems together decide every word |
| C10 Arguments after a parse error never matter | `argusParse` | induction over the prefix | - |
| C11 The last occurrence of a scalar option wins | `execCallbacks`, handlers, `argusParse` | refinement of the parse to a list of requests, then induction over it | - |
| C12 Parsing touches nothing it was not asked to | all of `argusParse` | frame invariant by induction over arguments, tables and the command stack | - |
| C13 Array options accumulate, comma lists equal repetition | array and variadic handlers, `split` | refinement to list functions, induction over pieces and occurrences; on whole lines for all arrays and maps (`C13_line_partial`): storing is additive in the pieces and does not look at `is_set` and `is_allocated`, so both lines go through the same state | false for a first text of commas only (`C13_only_commas`); on whole lines without flags that sort or remove values |
| C14 Comma splitting yields exactly the non-empty fields | `split` | refinement to `fields` by induction over the text | - |
| C15 Integer ranges expand exactly | `parseIntRange`, `addRange` | induction over the range; decimal round trip; for every other text the exact meaning `RangeText` (`C15_every_text`, `C15_every_parse`, `C15_one_text`) | false beyond `int`, at INT_MAX and for text around a separator (`C15_truncated`, `C15_int_max`, `C15_garbage_accepted`) |
| C16 FLAG_SORTED arrays are sorted after every history | `applyArrayFlags`, `qsort` (law) | invariant over histories | false beyond `int` (`C16_int64_order`) and for doubles with a NaN among them (`C16_nan_order`); a first text of commas only excluded |
| C17 FLAG_UNIQUE arrays never contain duplicates and never lose a value | `applyArrayFlags` | invariant over histories | false beyond `int` and for doubles (`C17_int64_lost`, `C17_near_lost`, `C17_infinity_twice`, `C17_sorted_unique_lost`) |
| C18 Map options behave as a finite map: last write per key wins | map handlers | refinement to a finite map, induction over pairs and occurrences | false for a first text of commas only (`C18_only_commas`) |
| C19 Map flags: unique values and sorting | `applyMapFlags` | invariant over histories | false for ints beyond 32 bits (`C19_int64_values`) |
| C20 Integer options read decimal numbers exactly | `strtoll`, int handlers | decimal round trip by induction on digits; what any text stands for: `C20_every_text` | false: an int option accepts any text (`C20_garbage_accepted`) |
| C21 Boolean spellings | `stringToBool`, bool and bool map handlers | decision logic against the list of spellings | - |
| C22 V_RANGE is sound and complete on int options | `rangeValidator`, `argusParse` | invariant of a successful parse | false for `as_int64` (`C22_int64_escapes`) |
| C23 V_RANGE and V_CHOICE on float options | `rangeValidator`, `choicesFloat` | invariant of a successful parse | false for V_RANGE and for choices that binary32 cannot hold (`C23_range_ignores_the_value`, `C23_choice_misses`) |
| C24 Choice validators accept exactly the listed values | `choicesString`, `choicesInt` | invariant of a successful parse; decision logic | false for `as_int64` (`C24_int64_escapes`) |
| C25 Length and count validators accept exactly the given interval | `lengthValidator`, `countValidator` | invariant of a successful parse; decision logic | - |
| C26 A successful parse satisfies every declared constraint | `validateSet`, `postValidation` | equivalence with a declarative specification, by induction over tables and the command stack | - |
| C27 FLAG_REQUIRED options must be given | `validateSet`, `argusParse` | from C26 and the frame | false for options (`C27_required_option_ignored`) |
| C28 Precedence: command line over environment over default | `loadEnvVars` | induction over tables and the command stack; `C28_final_state` gives the state of every option after a successful parse from the texts of the command line and the environment | false for every option with a default (`C28_default_wins`, `C28_default_hides_environment`); for collections FLAG_ENV_OVERRIDE adds instead of replacing (`C28_override_adds`) |
| C29 Environment variable naming | `envVarName` | decision logic; `C29_exactly` is an equivalence that says in which cases the documented variable is read | false for names of 128 bytes and more, for prefixes that are not upper case and for names that merely begin with the prefix (three witnesses); `C29_exactly` has all such cases |
| C30 Only declared environment variables influence parsing | `loadEnvVars` | two runs in lock step | - |
| C31 Option path lookup | `findPath` | induction over components and the command stack | false for abbreviated components (`C31_abbreviated_path`) |
| C32 Indexed and keyed access is total and exact | getters | decision logic; safety from C42 | false after a first text of commas only (`C32_only_commas`) |
| C33 Iterators enumerate each element exactly once, in order, and reset restarts | iterators | induction over sequences of steps and resets | - |
| C34 argus_exec runs the deepest selected command | `argusExec`, `parseLoop` | invariant of the command stack, decision logic | - |
| C35 Exiting options end the process at once | `execCallbacks`, `argusParse` | decision logic after any prefix | - |
| C36 argus_free releases everything and may be called again | `argusFree`, `argusParse` | induction over tables | the release is undefined after a first text of commas only (`C42_only_commas`) |
| C37 Return value and error code agree | `argusParse` | induction over all stages | false for FLAG_EXIT options read from the environment (`C37_exit_from_environment`) |
| C38 Collections never write outside their buffer | array and map handlers | invariant over histories | false after a first text of commas only (`C38_only_commas`) |
| C39 No double free and no leak over an option's life | `Model/Heap` | simulation of the model without memory, counting of live blocks | false in general: ten witnesses for leaks and unchecked allocations; proved for the cases named in the theorems |
| C40 Definitions accepted in debug mode are well formed | `Model/Structure` | equivalence with a specification of well-formed definitions, by induction over tables and nesting | - |
| C41 Subcommand nesting never overflows the command stack | `enterSub`, `parseLoop` | invariant of the depth; witness for nine levels | - |
| C42 Parsing is free of undefined behaviour | all of `argusParse` and `argusFree` | typing invariant of options, preserved by every step | false for a first text of commas only, for an int array that gets a range ending at INT_MAX (`C42_int_max_iff` is the exact condition), for arrays with a default, for a rejected override and for a validator of another type (seven witnesses); the texts of messages are in C71 |
| C43 Help lists every visible option exactly once | `organize`, `helpSections` | invariant of the organising loop; equation for the text | - |
| C44 Help text wrapping loses nothing and respects the width | `wrapText` | induction over the text | false for a width of at most the indentation plus 2 (`C44_endless`, `C44_narrow`); nothing is lost at any width but the endless one (`C44_nothing_lost`, `C44_ends_iff`) |
| C45 Help shows the variable that is actually read | `displayEnvName`, `envVarName`, `appendEnv` | equation between the two functions; `C45_shown_cut` says what is shown of names of any length | false for names above 247 bytes, of which 248 bytes are shown (`C45_cut`, `C45_shown_cut`) |
| C46 Choice hints list all choices | `formatChoices` | induction over the choices in memory, with 64-bit sizes | - |
| C47 Output redirection is undone by restore | `Model/Stream` | state machine invariant over arbitrary sequences of calls | false for a failing `dup2` and for cleanup of stdout (`C47_dup2_ignored`, `C47_cleanup_misses_stdout`) |
| C48 Reading a redirected stream returns all bytes | `streamRead` | induction over chunks | false for text pending in stdio and for more text than the pipe holds (`C48_earlier_text`, `C48_full_pipe`) |
| C49 Bounded string helpers never overflow and never drop the terminator | `Model/Buffer` | induction over the bytes | false for `safe_strncat` on a destination longer than its size (`C49_strncat_beyond`) |
| C50 Untouched options keep their default | `argusParse` | frame and environment lemmas | false for the set mark of options with a default (`C50_default_counts_as_set`) |
| C51 Independent options may be given in any order | `argusParse` | commutation of two requests, refinement of the parse to requests | - |
| C52 A context can be reused for another parse | histories of `argusParse` and `argusFree` | typing invariant over histories | false for options that collect values and for nine parses with a subcommand (three witnesses) |
| C53 Every reported error code has its own description | `strerror`, `argusParse` | case analysis of all stages, with a witness for each code | false for ARGUS_ERROR_AMBIGUOUS_SUBCOMMAND (`C53_ambiguous_unknown`) |
| C54 Queries do not disturb the parsed state | getters and iterators | equation | - |
| C55 The usage line names the way to the present command and its positionals | `displayUsage` | equation | - |
| C56 The overview lists every executable command once | `displayAllCommands` | induction over tables; `C56_cut_partial` for names of every length, cut as the buffers cut them | false from the third level on (`C56_third_level`); paths are cut to 511 bytes on the first level and 1023 on the second |
| C57 The list of subcommands of a command is complete | `subcommandPaths` | induction over the depth; `C57_cut_partial` for names of every length, `C57_ends_iff` for exactly which tables the list ends | paths of 512 bytes and more are cut (`C57_path_cut`); a table that contains itself never ends (`C57_endless`) |
| C58 A command line has one reading, fixed by the declarations | all of `parseArgs` | refinement of the parsing loop to the abstract reading `meaning`, by induction over the arguments | - |
| C59 The patterns for numbers and versions accept numbers and versions | `Model/Regex`: parser and semantics of patterns, `regexValidator`, `argusParse` | the language of each pattern is computed from its text and shown equal to the specification, by induction over repetitions; refinement of the parse | a newline at the end of the text is accepted as well (`C59_newline_accepted`) |
| C60 The patterns for network addresses accept addresses | as C59 | as C59; the twelve alternatives for IPv6 one by one; Spec/Ipv6 has the forms of RFC 4291 and RFC 4007 and Props/Ipv6 the exact difference in both directions | a newline at the end; anything may follow an IPv4 address (`C60_ipv4_tail_accepted`), zoned texts need not be addresses (`C60_zone_accepted`; exactly which in `C60_ipv6_wrongly_accepted`), and some dotted or zoned addresses are refused (`C60_ipv6_wrongly_refused`) |
| C61 The patterns for email accept email addresses | as C59 | as C59 | a newline at the end; empty labels in hosts (`C61_empty_label_accepted`) |
| C62 The patterns for dates accept dates | as C59 | as C59 | a newline at the end; the lengths of months (`C62_calendar_ignored`) |
| C63 The patterns for identities accept user names, passwords and UUIDs | as C59 | as C59, with lookahead as a condition on the rest | a newline at the end (`C63_newline_accepted`) |
| C64 The patterns for files accept paths and file names | as C59 | as C59 | a newline at the end; paths with spaces are refused (`C64_space_refused`) |
| C65 Without PCRE2 no text passes V_REGEX | `regexValidator`, `argusParse` | decision logic, refinement of the parse | - |
| C66 The help frees what it allocates and shows what it was given | `Model/HelpMem`: linked lists in memory, `malloc` that may fail | refinement of the linked lists to the plain lists of C43, by induction over the table, with an owner for every node | false when `malloc` fails: a group that is refused is used as a NULL pointer (`C66_group_null`), an entry that is refused is not shown (`C66_entry_dropped`) |
| C67 The help says what was declared about an option | `buildDescription`, `optionName`, `printPositional` | equation for the whole entry with an independent specification of the text; exact condition for lost marks | texts beyond the buffers (31, 63, 127 and 255 bytes), where `C67_note_exactly`, `C67_default_int_exactly`, `C67_default_string_exactly`, `C67_default_float_exactly` and `C67_name_exactly` say that the sizes are exact; false for positionals with one short constraint (`C67_positional_hidden`), for three marks (`C67_marks`, `C67_mark_lost`), and for some defaults (`C67_default_truncated`, `C67_default_empty`, `C67_default_cut`) |
| C68 What is displayed depends on the declarations and the selected command only | all of `Model/Display`, `argusParse` | every display function factors through the declarations; frame of the parse | - |
| C69 DEFAULT sets the default | `Opt.default`: `(uintptr_t)(val)` on every type of argument, `argusParse` | frame of the parse (C50); case analysis over the exponents of doubles | false for floats: only zero survives (`C69_float_only_zero`, `C69_documented`), and negative ones are undefined (`C69_negative`) |
| C70 Values are compared and printed faithfully | `Model/Values` | decision logic, induction over the array | false for integers beyond 32 bits or far apart, NULL and NaN (`C70_overflow`, `C70_int64_equal`, `C70_null_both_ways`, `C70_nan_both_ways`, `C70_print_fails`) |
| C71 A failing parse prints one true message | `Model/Messages`: the text of every message of a parse | every stage prints exactly one message with its status, and the message satisfies an independent relation `Deserved`; induction over the command line, the tables and the stack | false for subcommands without a help text: an ambiguous prefix prints NULL (`C71_undefined`); messages about ranges, lengths, counts and choices do not name the option (`C71_unnamed`) |
| C72 Everything on an accepted command line is used | `Model/Parse`; the grammar is the inductive relation `Written` of `Spec/Spelling` | reading (C58) and writing are inverse to each other: induction over the derivation in one direction, over the length of the line in the other | false for a lone dash, a second `--`, a value attached to a flag and names of more than 63 bytes, which are ignored (`C72_dropped`, `C72_value_dropped`) |
| C73 The help frees the texts it builds and survives lack of memory | `Model/DescMem`, with `Model/HelpMem` for the lists | invariant: one block per text in hand, everything else as before, for each function from malloc upwards; refinement of `Model/Display` when no call is refused; `Opt.Left` lists what may be missing | false where append_env_info has removed a parenthesis and gets no memory (`C73_bracket_lost`); a constraint may be shown nowhere (`C73_constraint_hidden`); a refused group is C66; texts on the stack are not in memory blocks; the two kinds of blocks have separate allocators |
| C74 A refused definition is explained | `Model/Complaints`, with the statuses of `Model/Structure` | induction over the tables and over the nesting of subcommands; one rule per message in `Spec/Complaints`, exact in both directions; refinement of the statuses, so that refusal means a message | false where a validator that accepts a default value follows one that refuses it: NULL is printed (`C74_claim_false`); `C74_defined_partial` says exactly when it is defined; some messages are repeated for entries that are not to blame (`C74_innocent`); the message about the flags of an option never appears (`C74_option_flags_unsaid`); how often and in which order messages appear is in the model but not in the theorem |
| C75 The outcome of a parse is determined option by option | `argusParse`; the outcome is the structure `Accepted` of `Spec/Outcome`, which says for each entry what happens to it and mentions no order between entries | refinement in both directions: the three stages are sequences of changes at single entries, and such a sequence is the same as its restriction to each entry; `C75_scalar_takes_all` and `C75_collection_takes` (`Props/Takes`) say by the texts alone which of them a scalar, an array, a variadic or a map option takes | - |
| C76 The columns of the help line up | entries of `displayHelp`: names, padding, dash, wrapped description | exact form of an entry, then of its lines, from C44 and C67 | widths below the column plus 3, where wrapping does not keep to the width or does not end (`C44_endless`, `C44_narrow`); the place of the dash is proved at every width (`C76_dash`) |
| C77 Further options do no harm | `argusParse` of a program and of the same with more entries in one array | refinement: reading the line, running it, the environment, validation and release each commute with adding the entries; the conditions are shown to be needed by `C77_require_needed`, `C77_default_needed` and `C77_call_needed`, and that a new name may hide an outer one by `C77_name_hides` | - |
| C78 Commands that are not called do not matter | `argusParse` of two programs that agree on the arrays of the commands called | simulation: every step of the parse reads and writes only those arrays | - |
| C79 Constraints only restrict | `argusParse` of a program and of the same with fewer constraints | C75 in both directions: handlers commute with exchanging the declared constraints (`runHandler_wear`), and the reading of a line depends on types, names and arrays only (`meaning_keys`) | - |
| C80 Texts for the help do not influence the parse | `argusParse`, `parseStderr` and the accessors of two programs that differ in what they show | simulation: every step of the parse keeps the relation `ShownOtherwise` and prints the same | the case of an ambiguous abbreviation is seen by users: it quotes the help texts of subcommands (`C80_command_texts_quoted`) |
| C81 Options may be declared in any order | `argusParse` and `lookup` of two programs whose arrays differ in their order | exchange of two neighbours: reading the line, each entry's changes, constraints and groups, and lookup commute with it (by C75 the order of entries does not occur in the outcome), then induction over exchanges; that positionals and subcommands have to stay is shown by `C81_positionals_stay` and `C81_subcommands_stay` | - |
| C82 Results do not depend on the C library's sort | `argusParse` in two worlds that differ in `qsort` only | invariant (what the cells of each kind of option hold, keys of maps are unique) under which the comparison has no ties, so that two sorted permutations are equal; then the two runs agree step by step | maps sorted by value with equal values (`C82_equal_values`), sorted variadic ints that agree in their low 32 bits (`C82_large_ints`), sorted doubles, where NaN is equal to everything (`C82_nan`) |
| C83 The two names of an option are the same | `argusParse` on two lines that differ in the name used | refinement: the two handlers reach the same entry and do the same with it | long names of more than 63 bytes, which are cut, or with `=` in them (`C83_equals_sign`); short names that are digits where a number is expected (`C83_digit`) |
| C84 A variable acts like the option it stands for | `argusParse` with the variable and with the option | refinement through the exact characterisation of success (C75), by induction over what happens to each entry | options with a default, which ignore their variable (`C84_default_ignores_variable`); options with FLAG_ENV_OVERRIDE, which read it also when they are given; positionals are covered by the general theorem only; refused lines may be refused for another of several faults |
| C85 Truth values in the environment | `argusParse` on an option with a variable, `boolHandler`, flags in `runHandler` | decision logic after the history of the option (C28) | flags: they become true whatever the text is, also for 0, false and off (`C85_flag_any_text`); options with a default, as in C84 |
| C86 argus_is_set tells what the user gave | `argusIsSet` after `argusParse` | refinement: from everything an option is handed (C28), the exact characterisation of success (C75) and the lookup of paths (C31, C32) | options with a default: they always count as set, whatever the user gave (`C86_default_always_set`). A bare name refers to the innermost entry of that name (`C86_bare_name_is_innermost`) |
| C87 Limits on the number of values hold for every collection | `argusParse`, `validateSet`, `countValidator` | invariant; the violation by refinement through the exact characterisation of success (C75): an accepted line that leaves an entry unset is accepted whatever validators, requirements and conflicts that entry has | collections that are not given: no limit is looked at (`C87_absent_not_checked`, `C87_documented_case`) |
| C88 Validators that look at other options see the outcome | `argusParseIn` and the functions it calls (Model/Context.lean), with user validators as arbitrary functions of the whole state | refinement: a run with such validators is a run with validators that are shown its outcome (`C88_see_the_outcome`, `C88_single_run`), so the exact characterisation of success (C75) and every other statement about single runs carry over | the case of a bare name in a validator is worth knowing: it is looked up in the innermost command first (`C88_documented_shadowed`) |
| C89 The advice to ask for help can be followed | `argusParse`, `tryText`, `parseStderr` (Model/Messages.lean) | induction over what the line asks for: a refused run has entered a prefix of the selected commands, whose full names select them again (`meaning_chain_named`); then the run of the advised line is computed | false for faults found after the line was read: no advice is printed for them (`C89_no_advice_later`, `C89_silent_case`) |
| C90 Every value given can be read under the name of its option | `argusParse`, `argusGet`, `argusIsSet`, `argusCount`, `argusArrayGet`, `Argus.findPath`, `validateStructure` | an exact characterisation of the entries that some path finds (`C90_has_path`), by taking every text apart as a path and by induction over the selected commands; what is given belongs to a selected table by induction over the line (`meaning_given_below`); the value by C11 and C13 | false for an entry that stands after another of the same name in its table, which no path ever finds (`C90_hidden`); such a definition is accepted in debug mode (`C90_hidden_case`). The same for names with dots below the main program (`C90_dotted_case`) |
| C91 Every command line can be spelled out | `Explicit` (Spec/Explicit.lean), a grammar of plain lines beside `Written`, the grammar of all lines (C72); `Act.spelled` computes the plain argument of a wish | by induction over the derivation of the line, giving the plain line for the same wishes; both read as the same wishes (C72), and lines that read alike have the same outcome (C58); uniqueness because the plain line without `--` is computed from the wishes | - |
| C92 Standard output carries what was asked for | `Model/Stdout`: what each function of the parse prints to stdout, as text, beside `parseStderr` (Model/Messages) for stderr | the loop of the parser prints what carrying out the wishes prints (refinement, `loopStdout_run`), then induction over the wishes; the text belongs to the declarations and the selected command (C68); stderr by C71 | false for a line that is refused: the usage line goes to standard output, the rest of the report to standard error (`C92_refused_partial` says exactly this, `C92_usage_on_stdout`). Left open: a variable that calls for help (C37), what user callbacks print, the order between the streams |
| C93 Values can be written as a command line and read back | `Wanted`, `writeSettings` (Spec/RoundTrip) against `argusParse`, `argusGet`, `argusArrayGet`, `argusMapGet` | induction over the settings on the refined reading of the line, the values by C08–C19, the path by C90, acceptance by C75; the limits are invariants of what any texts leave in the option (C14, C15, C18) | the case of settings on several levels of commands at once is covered by C90 for each level |
| C94 Saying it twice or leaving out what is optional changes nothing else | `SaysAt` (Props/LeaveOut) and `Accepted` (Spec) against `argusParse` | the reading of a line splits at an argument (`meaning_append`, induction over the grammar), the two lines then have the same changes for every option but one (C75), for which the last text wins or the declaration stays; collections by C16 and C18 | the case of lists of numbers with FLAG_UNIQUE is that of C17, where infinity is kept twice |
| C95 Of several faults the first is reported | `FirstFault` with `LineStops`, `EnvStops` and `LevelStops` (Spec/FirstFault) against `argusParse` | each stage that does not succeed is cut at its first fault (induction over the acts of the line, the entries looked up and the entries validated, with the invariant `Passed` for exclusive groups), the specification is shown to have one first fault only and none if the line is accepted (C75); together this is an equivalence | the case of parses that run into undefined behaviour is that of C42; help options are taken to end the program and all entries to be named, as the definition macros have it |
| C96 Callbacks of the program are called for what was given, and for nothing else | `SameWhereCalled`, `IsGiven`, `VariableGives`, `BecomesSet` (Spec/Calls) against `argusParse` with other callbacks (`World.withCallbacks`) | two parses side by side: the states stay equal along the line, the environment and the validation, by induction over the acts, the entries and the levels, with an invariant that says which entries are set (`Along`); the line up to a fault is enough for the rest of the parse; in a successful run every text given went through `execCallbacks` | the case of callbacks that keep state of their own or print is out of the model: a callback is a function of what it is shown |
| C97 A subcommand is a program of its own | `CallsCommand`, `Argus.standAlone`, `Argus.inside`, `Argus.outside` (Spec/Subprogram): the same tables with another main table, parsed by the same `argusParse` | the words behind the name are read by the same function from the table of the command (`meaning_append`, `meaning_call`); the specifications of accepted parses (C75) and of first faults (C95) split into a part of the tables outside and one of those inside, and are put together again (`pickTables`) | the case of a command that contains itself is excluded by `Apart`: it shares its table with the call around it, so its values are not its own; a call nested deeper than eight levels writes outside of the command stack (C41) |
| C98 A whole program gives back its memory | `MemArgus`, `argusParseH`, `argusFreeH` (Model/HeapParse): all options of a program in one heap (Model/Heap); `MemArgus.Holds`, `Argus.WrittenKey`, `Argus.DifferentKeys` (Spec/HeapParse) | refinement: each option owns its blocks (`Entry`, `Rep` of C39), the blocks of different options are disjoint (`Shares`), and each step of the parse keeps this relation to the parse without memory (`Held.exec`, `Held.run`, `Held.envVars`); the release visits the root table and those of the command stack, which are all where blocks can be (`pathTables`, `Held.free`); lost keys are tracked through all steps (`Tracks`) | keys lost by maps (`C98_key_leaks`) and the blocks of an option whose first text is refused (`C98_refused_leaks`); `C98_claim_false` refutes the full claim `C98_claim`. `malloc` and `realloc` do not fail here (C39 has the case of failure for one option) |
| C99 Names are only names | `argusParse`, `argusGet`, `argusIsSet` and `argusCount` of two programs that differ in names (`NamedOtherwise`, Spec/Rename) | simulation: every step of the parse, reading of the environment, validation and release keep the relation `NamedOtherwise` (`named_argusParse`); a spelled-out line of the one program is turned into one of the other by induction over its derivation (`Explicit.rename`), and by C91 every accepted line can be spelled out | the case of abbreviated subcommands is different: an abbreviation of the old name need not be one of the new name, so lines are translated with full names; words for positionals must not begin the new name of a subcommand (`FreeWords`); of paths with dots only the bare names are covered by `C99_same_answers` |
| C100 A program that runs out of memory | `argusParseH`, `argusFreeH` (Model/HeapParse) under an arbitrary `Allocator`; `Argus.ChecksMemory`, `GivenBack` (Spec/HeapShort) | refinement: each handler under a failing allocator does what it does under one that never fails, or reports the lack of memory (`SameOr`, `runHandlerH_ample`); so each step of the parse keeps the relation of C98 or ends with the blocks of one option outside it (`Short`, `Held.execShort`, `Held.runShort`, `Held.envVarsShort`, `parse_short`) | number arrays and maps (`C100_map_crashes`), a failing `realloc` (`C100_realloc_overruns`) and the blocks of one option (`C100_first_value_leaks`); `C100_claim_false` refutes the full claim `C100_claim` |
| C101 Texts are passed on unread | `argusParse`, `argusGet`, `argusIsSet`, `argusCount`; `Opt.Unread`, `Telling`, `ToldOtherwise`, `Telling.Asks` (Spec/Unread) | relational induction: the parses of two programs that differ in such texts go in step, through every handler, validator, environment variable and post-parse check (`told_argusParse`); lines are retold by induction on `Explicit` (`Explicit.retell`) | the case: a text for an array has to have a comma exactly if the other has one, for `array_string_handler` splits at commas; a new text for a positional has to be a word that the parser takes as one |
| C102 Only the value of a text matters | `argusParse`, `runHandler`; `SameText`, `IntsOf`, `SamePart`, `SameEnv` (Spec/SameText), stated with the grammar of numerals (Spec/Numeral), of ranges (Spec/Ranges) and the list of spellings (Spec/Scalar) | equation between parses: every handler does the same with two texts for one value (`runHandler_same`), so every step of the line and every variable does (`run_same`, `loadEnvVars_same`) | the case: options with a validator of the text (V_REGEX, or a validator of the program called before the handler) are left out, for these may look at the writing |
| C103 Static variables carry nothing over | `validateStructureS`, `getEnvVarNameS`, `loadEnvVarsS`, `argusParseS`, `appendEnvS`, `printHintS`, `optionNameS`, `callsS` (Model/Statics): the functions once more, with the static variables as state and the buffers as bytes | refinement: each of these functions agrees with the one of the other models, which has no static variables (`validateStructureS_eq`, `argusParseS_eq`, `appendEnvS_eq`, `optionNameS_eq`), then induction on the sequence of calls | the case: the fifth static variable, `streams`, is the subject of C47 and C48; calls of the library from within callbacks are left out |
| C104 Classification of bytes stays in its range | `argusParseC` and the functions below it (Model/Ctype): the parse once more, with every call of `<ctype.h>` checked; `CtypeSafe` (Spec/Ctype) | simulation: the checked parse is the parse, or undefined where the condition fails (`argusParseC_near`), by induction over the line, the tables and the command stack | false with a signed `char`: every program on `-é` (`C104_every_program`), booleans, maps of booleans, integer arrays and AUTO_ENV names (`C104_bool`, `C104_handlers`); true with an unsigned one (`C104_unsigned`), for ASCII (`C104_ascii_partial`) and for texts that no one classifies (`C104_strings_partial`) |
| C105 What is kept is no larger than what was given | `argusParse` with the counts, capacities and contents of all options; `lineBytes`, `Opt.textSize`, `Argus.total`, `Argus.envBytes` (Spec/Size) | every handler adds no more than its text (case analysis, induction over the parts); the texts handed to different options are different parts of the line (induction over the line); the history of each option (C75) | int arrays: `0:n` leaves n+1 entries for every n below INT_MAX (`C105_one_range`, `C105_claim_false`); for them the bound has the factor 2^32 (`C105_entries_ranges`). The bound for texts is complete (`C105_texts`) |
| C106 What the help shows can be typed | `parseArgs` with the lookups, `optionName`, `argusInitValidate`; `OwnLong`, `OwnShort`, `OwnCommand`, `NamesApart` (Props/HelpNames) | refinement of the parse by its reading (C58), position of the first match, frame of the handlers: in each direction, so that the conditions are exact (`C106_long_flag`, `C106_long_value`, `C106_short_flag`, `C106_short_value`, `C106_command`, `C106_accepted`) | names with `=` or of more than 63 bytes, short names that are digits beside a numeric positional, and subcommand names that begin an earlier one are accepted and shown but do not reach the entry (`C106_claim_false`, `C106_number_case`, `C106_prefix_case`) |
| C107 What the help shows as a value can be given | `parseArgs`, the scalar handlers, `runPost`, the words of a validator (`Validator.words`, what `Validator.text` prints by C67), `appendDefault`; `ShownOption`, `ShownDefault`, `Opt.ReadsDefault` (Props/HelpValues), `ShownPositional` (Props/HelpValuesPos) | composition of C106 with the text that is printed and the decisions of the validators (C22, C24); round trip of decimal numbers; for floats the argument that two values with one text cannot both be read back | numbers beyond 32 bits (`C107_claim_false`, `C107_range_case`); defaults that are floats, unless their two decimals read as the float (`C107_float_default`); for positional arguments, typed after `--` and the words before, a choice or default that is `--` itself, which is dropped (C72) |
| C108 A command that is listed can be called as it is listed | `displayAllCommands`, `displayAvailable`, `displayUsage`, `parseArgs`, `argusExec`; `CallableNames`, `spaced`, `Argus.namesOf` (Props/Listed) | induction over the tree of commands: what is listed is a chain of names (`below_chain`, `executables_chain`), and a chain of names is read as entering these commands (`meaning_names`, `run_enters`); composition with C56 and C57; `spaced_words`: the words are determined by the line | names that begin an earlier name or contain a space, which debug mode accepts (`C108_claim_false`, `C108_space_case`); paths of 512 bytes and more; lists that do not end (C57) |
| C109 The parser stays within argv | `parseArgv`, `parseFrom`, `parseStepAt`, `handleLongAt`, `handleShortAt`, `nextArg` (Model/Argv): the loop of `parse_args` on an array of pointers with checked reads, checked pointers and checked `int` arithmetic; `ArgsAt` (Props/Argv) | refinement: induction over the arguments with the invariant that the array from the index on holds them (`parseFrom_eq`), step by step equal to the model on lists (`parseStepAt_eq`); `C109_within` by comparing both arrays with the same list | - |
| C110 Tables are read up to their end and no further | `tableEntry`, `walkTable`, `findLnameAt`, `findSnameAt`, `findNameAt`, `findPositionalAt`, `findSubAt`, `checkNamesAt`, `callValidatorsAt`, `validateSetAt` (Model/Walk), `freeOptionsAt`, `loadEnvAt` (Model/WalkWrite), `validatePlacementAt`, `lnameIsUniqueAt`, `validateNamingAt` (Model/WalkDefine), `validateDependenciesAt` (Model/WalkDepend), `validateDefaultAt`, `validateTypeFormatAt` (Model/WalkType): the loops on the memory of a table, with checked reads and checked `++i` | refinement: induction over the entries for the loop with any body (`C110_loop`), then each lookup against the one on lists (`findLname`, `findSname`, `findName`, `findPositional`, `findSub`) that all other theorems are about, and the checks after the parse against `validateSet` (`C110_checks`), `free_options` against `freeOpts` and `load_env` against `loadEnvTable`, where a step keeps the length of the table (`C110_free`, `C110_environment`), `validate_placement` and `validate_naming` with its nested loop and its array of 256 flags (`C110_placement`, `C110_naming`), `validate_dependencies` with its lists of names (`C110_dependencies`), `validate_default_value` (`C110_default`) and `validate_type_format` (`C110_entries`); `C110_no_end` shows that the end mark is needed | the case `C110_case` has an option behind the end that is not found, and is found when the end mark is left out. The loops of the display are covered by `C110_loop` with any body, they are not written out again on memory |

## 4. Where the code disagrees with its documentation

Found while reading and proving; each has a theorem with a concrete counterexample.

1. `--tags=,` (commas only, first occurrence) on an array or map: count 1 without a buffer, later NULL dereference
   (`C13_only_commas`, `C18_only_commas`, `C32_only_commas`, `C38_only_commas`, `C42_only_commas`).
2. DEFAULT marks an option as set: the environment is ignored for it, and it takes part in conflicts and groups
   (`C28_default_hides_environment`, `C50_default_counts_as_set`).
3. FLAG_REQUIRED is only enforced for positionals (`C27_required_option_ignored`). tests/unit/test_robustness.c `missing_required` expects a
   refusal, but that file is not listed in tests/unit/meson.build and so never runs (see section 7).
4. More than 8 selected subcommands, also over several parses, overflow `subcommand_stack` (`C41_deeper_overflows`, `C52_ninth_parse`).
5. Validators and comparisons look at 32 bits of values stored with 64 (`C22_int64_escapes`, `C24_int64_escapes`, `C16_int64_order`,
   `C17_int64_lost`, `C19_int64_values`).
6. Int and float options accept any text (`C20_garbage_accepted`); ranges accept text around them (`C15_garbage_accepted`).
7. A full subcommand name can be ambiguous (`C09_full_name_can_be_ambiguous`).
8. Negative numbers are refused for variadic numeric positionals (`C08_variadic_rejects_negative`).
9. Long names are cut to 63 bytes (`C04_long_name_cut`, `C05_long_name_cut`).
10. Path components may be abbreviated (`C31_abbreviated_path`).
11. `argus_free` leaves `value_count`: a further parse goes wrong (`C52_array_after_free`, `C52_array_overflow_after_free`).
12. DEFAULT on an array is handed to `realloc` (`C42_array_default`).
13. A rejected override restores a pointer that may be released (`C42_env_override`).
14. A range ending at INT_MAX overflows (`C15_int_max`, `C42_int_max`); larger numbers are truncated (`C15_truncated`).
15. V_RANGE on floats compares half of the bit pattern (`C23_range_ignores_the_value`); float choices miss (`C23_choice_misses`).
16. FLAG_UNIQUE on doubles (`C17_near_lost`, `C17_infinity_twice`, `C17_sorted_unique_lost`).
17. Memory: leaks of keys, of rejected first occurrences, unchecked `malloc`, `realloc` and `strndup` (ten theorems `C39_...`; for whole programs `C98_key_leaks`, `C98_refused_leaks`,
    `C100_map_crashes`, `C100_realloc_overruns`, `C100_first_value_leaks`).
18. Names of environment variables (`C29_prefix_text_taken_for_prefix`, `C29_prefix_upper_cased`, `C29_long_name_truncated`).
19. FLAG_EXIT from the environment returns with error code 0 (`C37_exit_from_environment`).
20. `argus_strerror` does not know AMBIGUOUS_SUBCOMMAND (`C53_ambiguous_unknown`), nor the codes that the value getters leave:
    NO_VALUE, INVALID_TYPE, INVALID_INDEX, INVALID_KEY (`C53_access_undescribed`).
21. Validation of definitions: flags are never checked, cycles never end, and more (`C40_flags_not_checked`, `C40_cycle_never_ends`,
    `C40_same_subcommand_twice`, `C40_name_order`, `C40_two_optional_many`, `C40_sorted_many_rejected`).
22. Help: endless wrapping (`C44_endless`), overlong lines (`C44_narrow`), cut variable names (`C45_cut`), commands below the
    second level missing (`C56_third_level`), endless lists (`C57_endless`).
23. Streams: cleanup misses stdout, a failing `dup2` is ignored, pending text is read, a full pipe blocks
    (`C47_cleanup_misses_stdout`, `C47_dup2_ignored`, `C48_earlier_text`, `C48_full_pipe`).
24. `safe_strncat` computes the room left by subtraction without a check (`C49_strncat_beyond`).
25. Patterns: `$` accepts a newline at the end (`C59_newline_accepted`, `C63_newline_accepted`); ARGUS_RE_IPV4 has no `$`, so that
    `10.0.0.1 and more` is an address (`C60_ipv4_tail_accepted`); `fe80:%1` is one too (`C60_zone_accepted`); `a@..com` is an email
    address (`C61_empty_label_accepted`), 2023-02-30 a date (`C62_calendar_ignored`), `/My Documents` no path (`C64_space_refused`).
26. Help without memory: `find_or_create_group` returns NULL and `&group->options` is used (`C66_group_null`); an option is left out
    without a word (`C66_entry_dropped`).
27. Help entries: the only constraint of a positional is shown nowhere if its text is short (`C67_positional_hidden`); (experimental)
    is dropped beside two other marks (`C67_marks`); defaults are truncated to 32 bits, cut at 127 bytes, or empty
    (`C67_default_truncated`, `C67_default_cut`, `C67_default_empty`).
28. DEFAULT casts its argument to an integer: DEFAULT(0.8) is 0.0, DEFAULT(1.0) is 4.9e-324, and no float but zero survives
    (`C69_float_only_zero`, `C69_documented`, `C69_negative`). The documentation uses both.
29. `cmp_value` overflows, compares only 32 bits, and calls NULL and NaN less than anything and vice versa; `print_value` hands NULL
    to `%s` (`C70_overflow`, `C70_int64_equal`, `C70_null_both_ways`, `C70_nan_both_ways`, `C70_print_fails`).
30. An ambiguous subcommand prefix prints the help texts of both subcommands with `%s`; they may be NULL (`C71_undefined`). Only
    the debug-time validation asks for help texts; the documentation has subcommands without.
31. Messages about ranges, lengths, counts and choices do not say which option is meant (`C71_unnamed`).
32. A lone `-`, a second `--`, the value in `--flag=value` and the bytes of a long name after the 63rd are ignored without a
    message (`C72_dropped`); `--flag=false` sets the flag (`C72_value_dropped`).
33. Help texts without memory: `append_env_info` removes the last parenthesis before it asks for memory, and does not put it back
    (`C73_bracket_lost`); a constraint may be shown neither in the name nor in the description (`C73_constraint_hidden`); an error
    stands in place of a description (`C73_error_shown`), but `display_help` does not fail.
34. `validate_default_value` keeps its status from one validator to the next: after a refusal every later validator is reported
    too, and for one that prints nothing, `read_stderr` returns NULL, which is printed with `%s` (`C74_claim_false`). The messages
    about mixing positionals are repeated for every later entry (`C74_innocent`). `C40` does not depend on this: the definition is
    refused in any case.
35. FLAG_ENV_OVERRIDE on an array or map adds the elements of the variable to those of the command line (`C28_override_adds`).
36. ARGUS_RE_IPV6 refuses addresses of six groups and a dotted IPv4 address, dotted addresses with groups after the `::` other than
    `ffff` and `ffff:0`, and zones on addresses that do not begin with a lower-case `fe80:` (`C60_ipv6_wrongly_refused`).
37. What `qsort` makes of equal elements shows: the order of map entries with equal values under FLAG_SORTED_VALUE, the order of
    large variadic ints and, with FLAG_UNIQUE, which of them is kept, and the order of doubles beside a NaN differ between
    platforms (`C82_equal_values`, `C82_large_ints`, `C82_nan`).
38. A flag read from its variable becomes true whatever the text is: VERBOSE=0, VERBOSE=false and VERBOSE= switch it on
    (`C85_flag_any_text`). docs/docs/features/environment.md:239-243 says that flags take truth values.
39. `argus_is_set` is true for every option with a default (`C86_default_always_set`), so it cannot "distinguish between default
    values and user-provided values" (docs/docs/fundamentals/accessing-values.md). It is exact for all other options and for
    subcommands.
40. V_COUNT says nothing about a collection that is not given: `./tool` is accepted by the documented program with
    `VALIDATOR(V_COUNT(1, 5))` (`C87_documented_case`), as by every other (`C87_absent_not_checked`).
    docs/docs/features/validation.md and collections.md show an error message for it.

41. `--output -- file.txt` gives `--` to `--output` and ends nothing (`C06_dashes_as_value`).
    docs/docs/fundamentals/option-formats.md:190 offers this line as the unambiguous way to separate the two.
42. No help is suggested for faults found in the environment or by the validators (`C89_no_advice_later`, `C89_silent_case`:
    `prog --port 0` prints one line only). docs/docs/fundamentals/help-and-errors.md:439 says that help is suggested when
    parsing fails, and line 606 that the error was already displayed with a suggestion to use --help.
43. An entry that stands after another of the same name in its table can be read by no path (`C90_hidden`). Debug mode refuses
    `--output` before a positional `output`, but accepts the other order: `prog x --output y` then gives `y` to an option that
    `argus_get` never finds (`C90_hidden_case`). It also accepts positionals whose name contains a dot, which cannot be read below
    the main program (`C90_dotted_case`).
44. After an error on the command line the usage line goes to standard output, while the message before it and the advice after
    it go to standard error (`C92_usage_on_stdout`): `prog --nope > file` writes it into the file.
45. `isdigit`, `tolower` and `toupper` are called with a plain `char`, which C does not define for negative values other than
    `EOF`. Where `char` is signed, every program is undefined on an argument such as `-é` (`C104_every_program`), and so are
    booleans, maps of booleans and integer arrays with such texts, and AUTO_ENV names (`C104_bool`, `C104_handlers`). A cast to
    `unsigned char` in five places removes this (`C104_unsigned`).
46. A range of an integer array is stored number by number without any limit: a text of at most 22 bytes, `0:n`, makes the
    program allocate and fill n + 1 entries, for every n below INT_MAX (`C105_one_range`). All other handlers keep no more
    than they are given (`C105_entries_partial`, `C105_texts`, `C105_room_partial`).

47. The help shows names that cannot be typed. A flag named `a=b` is accepted in debug mode and shown as `--a=b`, which is read as
    a value for `--a` (`C106_claim_false`). A flag `-5` beside a numeric positional is shown, and `-5` is the positional's number
    (`C106_number_case`). A subcommand `add` declared after `address` is shown, and `add` is refused as ambiguous
    (`C106_prefix_case`). The exact conditions are in `C106_accepted` and `C106_command`.

48. V_CHOICE_INT and V_RANGE take 64-bit numbers and the help shows them, but the validators compare `as_int`, the lower 32 bits: the
    listed choice 5000000000 and the upper limit 4294967295 are refused (`C107_claim_false`, `C107_range_case`).
49. A command whose name begins the name of one declared before it, or contains a space, is accepted in debug mode and listed, but
    the listed words do not call it: `prog in` is ambiguous beside `install` (`C108_claim_false`, `C108_space_case`).

## 5. Trials with wrong programs

`seeded/LOG.jsonl` has one line per trial: a definition of the model was edited in a scratch copy as a realistic bug would, and
everything was rebuilt. `theorems_failed` lists the property theorems that no longer prove (directly, or because a lemma they
rest on no longer proves). `tightened` names theorems that were added or strengthened because of the trial.

## 6. Trusted base

* Lean 4.33.0's kernel. `#print axioms` of every theorem lists at most `propext`, `Classical.choice` and `Quot.sound`.
* The hand translation from C to Lean in `lean/Verif/Model`, as described above.
* The C compiler, libc (beyond the stated laws), the operating system and PCRE2 are outside the model.

## 7. The project's own tests, run on the model

The files under `lean/Verif/Check` state what the project's tests expect and evaluate the model on the same inputs. They are examples on
literals: they prove none of the properties, they only help to trust the hand translation. `Check/Parses.lean` holds the tests of whole
parses (tests/fonctionnel, the edge case, variadic, validator, post validation and subcommand tests of tests/integration, and
tests/unit/test_robustness.c). `Check/Units.lean` holds the tests of single functions (tests/integration/test_parsing.c and
test_validation.c, and tests/unit: handlers, validators, smart hints, debug mode, option lookup, strings, values, collections).

* Every test which the build of the project runs agrees with the model.
* One test disagrees: `missing_required` of tests/unit/test_robustness.c, which asks that an absent option with FLAG_REQUIRED is refused. The
  code looks at positionals only. The file is not listed in tests/unit/meson.build, so the test never runs. Check/Parses.lean states what the
  code does.
* Left out: calls with a NULL name or text (the model's functions take a text), tests that only ask a printing function not to crash, and the
  exact digits of floats (the checks fix the double that each tested text stands for). The few regular expressions of the tests are given as
  functions.
