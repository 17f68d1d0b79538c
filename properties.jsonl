{"id": "C01", "title": "--name=value and --name value are the same command line", "statement": "For an option that takes a value, writing '--name=value' as one argument has exactly the same effect as writing '--name' 'value' as two arguments: same status, same values, same error code, same output, whatever surrounds it on the command line.", "quantifier": "for every option table, option, name of at most 63 bytes without '=', value string, context state and remaining argument list", "why_tests_cant": "The set of values and surrounding command lines is unbounded; values may themselves contain '=' or start with '-'.", "anchors": ["source/core/parsing/option_handle_long.c:handle_long_option", "source/core/parsing/parse_args.c:parse_args"]}
{"id": "C02", "title": "-ovalue and -o value are the same command line", "statement": "For a value-taking option with short name o, the attached form '-ovalue' and the separate form '-o' 'value' have exactly the same effect, for every non-empty value.", "quantifier": "for every option table, short name, non-empty value, context state and remaining argument list", "why_tests_cant": "Unbounded values and contexts; the interplay with clustering and negative numbers is combinatorial.", "anchors": ["source/core/parsing/option_handle_short.c:handle_short_option", "source/core/parsing/parse_args.c:parse_args"]}
{"id": "C03", "title": "Clustered short flags equal separate flags", "statement": "A cluster '-fREST' whose first character names a flag has exactly the same effect as '-f' followed by '-REST' (when REST could not be read as a number or a long option), so '-abc' is '-a -b -c'.", "quantifier": "for every option table, flag, cluster tail, context state and remaining argument list", "why_tests_cant": "Clusters have unbounded length and any mixture of flags followed by a value-taking option.", "anchors": ["source/core/parsing/option_handle_short.c:handle_short_option", "source/core/parsing/parse_args.c:parse_args"]}
{"id": "C04", "title": "Unknown options are always rejected", "statement": "An argument '--name' or '-c' that names no declared option at the current level makes argus_parse return ARGUS_ERROR_INVALID_ARGUMENT; it is never silently skipped and never stored as a positional.", "quantifier": "for every option table, every undeclared name and every remaining argument list", "why_tests_cant": "The set of undeclared names and following arguments is infinite.", "anchors": ["source/core/parsing/option_handle_long.c:handle_long_option", "source/core/parsing/option_handle_short.c:handle_short_option"]}
{"id": "C05", "title": "A value-taking option at the end of the line is rejected", "statement": "If the last argument names a value-taking option and supplies no value, argus_parse returns ARGUS_ERROR_MISSING_VALUE and leaves the option's value and set status as they were.", "quantifier": "for every option table, value-taking option (long or short form), and context state", "why_tests_cant": "Holds for every table and every prior history, not for sampled ones.", "anchors": ["source/core/parsing/option_handle_long.c:handle_long_option", "source/core/parsing/option_handle_short.c:handle_short_option"]}
{"id": "C06", "title": "After -- everything is positional", "statement": "After the argument '--', every further argument other than another '--' is delivered unchanged to the positional slots in order: it is never taken as an option or a subcommand, whatever its spelling.", "quantifier": "for every option table, context state and list of arguments after '--'", "why_tests_cant": "Argument lists after '--' are arbitrary and unbounded.", "anchors": ["source/core/parsing/parse_args.c:parse_args", "source/core/parsing/option_handle_positional.c:handle_positional"]}
{"id": "C07", "title": "Positional arguments fill their slots in declaration order", "statement": "The k-th positional argument goes to the k-th declared positional; a POSITIONAL_MANY slot receives its own argument and all later ones; a positional argument with no slot makes the parse fail with ARGUS_ERROR_INVALID_ARGUMENT.", "quantifier": "for every option table and every position k", "why_tests_cant": "Tables and argument counts are unbounded, options and groups may be interleaved with positionals.", "anchors": ["source/utils/option_lookup.c:find_positional", "source/core/parsing/option_handle_positional.c:handle_positional"]}
{"id": "C08", "title": "Negative numbers are accepted as positional values", "statement": "An argument starting with '-' and a digit (or '-.' and a digit) is taken as a positional value when the next positional slot is numeric, and otherwise as short options. The documentation promises this for every numeric positional.", "quantifier": "for every option table, argument text and position", "why_tests_cant": "All numerals and all tables; the decision depends on the parse history through the positional index.", "anchors": ["source/core/parsing/parse_args.c:parse_args", "source/utils/option_lookup.c:find_positional"]}
{"id": "C09", "title": "Subcommand resolution by name or unambiguous prefix", "statement": "An argument that is a prefix of exactly one subcommand name selects that subcommand; a prefix of none is not a subcommand; a prefix of several is rejected as ambiguous unless it is the exact name of one of them. A full subcommand name always selects that subcommand.", "quantifier": "for every option table and every argument string", "why_tests_cant": "Depends on all pairs of names in a table of any size and on their order.", "anchors": ["source/core/parsing/parse_args.c:find_subcommand", "source/utils/strings.c:starts_with"]}
{"id": "C10", "title": "Arguments after a parse error never matter", "statement": "Parsing is strictly left to right: when a prefix of the command line makes the parse fail (for a reason other than a missing value at its end) or reach an exiting option, appending any further arguments changes neither the status nor any observable result.", "quantifier": "for every option table, context state, failing argument prefix and every continuation", "why_tests_cant": "Quantifies over all continuations of all failing prefixes (a two-run property).", "anchors": ["source/core/parsing/parse_args.c:parse_args", "source/api/argus_parse.c:argus_parse"]}
{"id": "C11", "title": "The last occurrence of a scalar option wins", "statement": "When a scalar option (string, int, float, bool) is given several times, its final value is the one of its last occurrence, independent of the earlier values, of defaults and of anything in between that concerns other options.", "quantifier": "for every option table, every sequence of occurrences and values", "why_tests_cant": "Histories of occurrences are unbounded.", "anchors": ["source/core/parsing/execute_callbacks.c:execute_callbacks", "source/callbacks/handlers/string_handler.c:string_handler", "source/callbacks/handlers/int_handler.c:int_handler", "source/callbacks/handlers/bool_handler.c:bool_handler"]}
{"id": "C12", "title": "Parsing touches nothing it was not asked to", "statement": "argus_parse never changes option metadata (names, flags, validators, handlers, dependencies, defaults), never changes the number of options, and never changes any option of a level that is not on the selected subcommand path.", "quantifier": "for every option table forest, argument list, environment and context state", "why_tests_cant": "A frame condition over all executions and all unselected options.", "anchors": ["source/core/parsing/parse_args.c:parse_args", "source/core/parsing/load_env_vars.c:load_env_vars", "source/api/argus_parse.c:argus_parse"]}
{"id": "C13", "title": "Array options accumulate, comma lists equal repetition", "statement": "Without SORTED/UNIQUE, the elements of an array option after any sequence of occurrences are the concatenation, in order, of the non-empty comma-separated pieces of each value (a value without a comma counts as one piece even if empty); so '--x a,b --x c' equals '--x a,b,c'.", "quantifier": "for every sequence of values given to an array option, starting from an unset option", "why_tests_cant": "Sequences of values of any length cross the growth boundaries of the buffer any number of times.", "anchors": ["source/callbacks/handlers/array_string_handler.c:array_string_handler", "source/callbacks/handlers/array_float_handler.c:array_float_handler", "source/utils/multi_values.c:adjust_array_size", "source/utils/strings.c:split"]}
{"id": "C14", "title": "Comma splitting yields exactly the non-empty fields", "statement": "Splitting a value on commas yields exactly the maximal comma-free non-empty pieces, in order, with no byte lost or invented.", "quantifier": "for every string and every separator set", "why_tests_cant": "All strings, including leading, trailing and repeated separators.", "anchors": ["source/utils/strings.c:split", "source/utils/strings.c:count_words", "source/utils/strings.c:word_len", "source/utils/strings.c:skip_charset"]}
{"id": "C15", "title": "Integer ranges expand exactly", "statement": "A range 'a-b' or 'a:b' written in decimal given to an int array option appends every integer from min(a,b) to max(a,b), each once, in increasing order; a single decimal number appends just that number; text that is not a number is rejected with ARGUS_ERROR_INVALID_FORMAT.", "quantifier": "for every pair of 32-bit integers a, b (negative included)", "why_tests_cant": "2^64 pairs of bounds; the limit INT_MAX is an overflow boundary.", "anchors": ["source/callbacks/handlers/array_int_handler.c:parse_int_range", "source/callbacks/handlers/array_int_handler.c:search_range_separator", "source/callbacks/handlers/array_int_handler.c:add_range_values"]}
{"id": "C16", "title": "FLAG_SORTED arrays are sorted after every history", "statement": "After every successful occurrence, an array or variadic option with FLAG_SORTED presents its elements in ascending order, and its elements are a permutation of the elements given so far (when UNIQUE is not set).", "quantifier": "for every sequence of values, every conforming qsort", "why_tests_cant": "All histories of insertions and all orders returned by an unstable sort.", "anchors": ["source/utils/multi_values.c:apply_array_flags", "source/utils/multi_values.c:sort_int_array", "source/utils/multi_values.c:sort_string_array"]}
{"id": "C17", "title": "FLAG_UNIQUE arrays never contain duplicates and never lose a value", "statement": "After every successful occurrence, an array or variadic option with FLAG_UNIQUE contains no two equal elements, every value ever given is represented, and nothing else is; without SORTED the first-occurrence order is kept.", "quantifier": "for every sequence of values", "why_tests_cant": "All histories; int elements are 64-bit while comparison is not, which sampled tests with small numbers cannot see.", "anchors": ["source/utils/multi_values.c:apply_array_flags", "source/utils/multi_values.c:make_int_array_unique", "source/utils/multi_values.c:make_string_array_unique"]}
{"id": "C18", "title": "Map options behave as a finite map: last write per key wins", "statement": "After any sequence of key=value occurrences, a map option holds exactly one entry per distinct key, with the value last written for it, in order of first insertion (when no sort flag is set); a pair without '=' is rejected with ARGUS_ERROR_INVALID_FORMAT.", "quantifier": "for every sequence of key=value texts", "why_tests_cant": "All histories of inserts and updates of any length.", "anchors": ["source/callbacks/handlers/map_string_handler.c:set_kv_pair", "source/callbacks/handlers/map_int_handler.c:set_kv_pair", "source/utils/multi_values.c:map_find_key"]}
{"id": "C19", "title": "Map flags: unique values and sorting", "statement": "With FLAG_UNIQUE_VALUE no two entries share a value and the first entry of each value survives; with FLAG_SORTED_KEY keys ascend; with FLAG_SORTED_VALUE (and not SORTED_KEY) values ascend; sorting loses and invents no entry.", "quantifier": "for every map content and every conforming qsort", "why_tests_cant": "All map contents and all unstable sort results.", "anchors": ["source/utils/multi_values.c:apply_map_flags", "source/utils/multi_values.c:make_map_values_unique", "source/utils/multi_values.c:sort_map_by_keys"]}
{"id": "C20", "title": "Integer options read decimal numbers exactly", "statement": "Giving an int option the decimal representation of any 64-bit integer stores exactly that integer; out-of-range numerals saturate; text that is not a number is rejected as the documentation promises.", "quantifier": "for every 64-bit integer and every string", "why_tests_cant": "2^64 values and all malformed texts.", "anchors": ["source/callbacks/handlers/int_handler.c:int_handler"]}
{"id": "C21", "title": "Boolean spellings", "statement": "A bool option or bool map value accepts exactly true/yes/1/on/y/0x1/0b1 and false/no/0/off/n/0x0/0b0 in any letter case with the evident meaning, and rejects every other text with an error and without changing the value.", "quantifier": "for every string", "why_tests_cant": "All strings, in particular long ones around the fixed-size buffer.", "anchors": ["source/callbacks/handlers/bool_handler.c:string_to_bool", "source/callbacks/handlers/map_bool_handler.c:string_to_bool"]}
{"id": "C22", "title": "V_RANGE is sound and complete on int options", "statement": "If argus_parse succeeds, the value of a set int option with V_RANGE(min,max) lies in [min,max]; a value outside makes it fail with ARGUS_ERROR_INVALID_RANGE. The user may read the value as as_int or as as_int64.", "quantifier": "for every range and every value text", "why_tests_cant": "All 64-bit values; the failure needs values beyond 32 bits.", "anchors": ["source/callbacks/validators/range_validator.c:range_validator", "source/core/parsing/post_parse_validation.c:call_validators"]}
{"id": "C23", "title": "V_RANGE and V_CHOICE on float options", "statement": "A float option with V_RANGE(min,max) accepts exactly the values in [min,max], and one with V_CHOICE_FLOAT accepts exactly the listed values.", "quantifier": "for every range or choice list and every float value", "why_tests_cant": "All double bit patterns.", "anchors": ["source/callbacks/validators/range_validator.c:range_validator", "source/callbacks/validators/choices_validator.c:choices_float_validator", "source/callbacks/handlers/float_handler.c:float_handler"]}
{"id": "C24", "title": "Choice validators accept exactly the listed values", "statement": "A set string (int) option with V_CHOICE passes validation if and only if its value equals one of the listed strings (ints); otherwise parsing fails with ARGUS_ERROR_INVALID_CHOICE.", "quantifier": "for every choice list and every value", "why_tests_cant": "All values and lists.", "anchors": ["source/callbacks/validators/choices_validator.c:choices_string_validator", "source/callbacks/validators/choices_validator.c:choices_int_validator"]}
{"id": "C25", "title": "Length and count validators accept exactly the given interval", "statement": "V_LENGTH(min,max) passes exactly when the string length lies in [min,max]; V_COUNT(min,max) passes exactly when the number of values lies in [min,max]; negative or inverted bounds never pass.", "quantifier": "for every bounds pair and every option value", "why_tests_cant": "All lengths and bounds.", "anchors": ["source/callbacks/validators/length_validator.c:length_validator", "source/callbacks/validators/count_validator.c:count_validator"]}
{"id": "C26", "title": "A successful parse satisfies every declared constraint", "statement": "If argus_parse returns success then at every level of the selected path: every required positional is set; every set option passes all its validators; the options it requires are set; the options it conflicts with are not set; at most one option of each exclusive group is set. Conversely if one of these fails the parse does not succeed.", "quantifier": "for every option table forest, argument list, environment and history", "why_tests_cant": "Constraint combinations are exponential in the table size and the inputs unbounded.", "anchors": ["source/core/parsing/post_parse_validation.c:validate_options_set", "source/core/parsing/post_parse_validation.c:post_parse_validation"]}
{"id": "C27", "title": "FLAG_REQUIRED options must be given", "statement": "An option declared with FLAG_REQUIRED ('Option must be specified') that is neither on the command line nor in the environment makes argus_parse fail.", "quantifier": "for every option table with a required option and every argument list not naming it", "why_tests_cant": "All command lines that omit the option.", "anchors": ["includes/argus/types.h:FLAG_REQUIRED", "source/core/parsing/post_parse_validation.c:validate_options_set"]}
{"id": "C28", "title": "Precedence: command line over environment over default", "statement": "A value given on the command line is never replaced by the environment unless the option has FLAG_ENV_OVERRIDE; an option not given on the command line takes the environment value if its variable is set; otherwise it keeps its default.", "quantifier": "for every option table, argument list and environment", "why_tests_cant": "All combinations of the three sources and their values.", "anchors": ["source/core/parsing/load_env_vars.c:load_env", "includes/argus/options.h:DEFAULT"]}
{"id": "C29", "title": "Environment variable naming", "statement": "The variable consulted for an option is env_name with the prefix and one underscore prepended (unless FLAG_NO_ENV_PREFIX or already prefixed), or with FLAG_AUTO_ENV the upper-cased name with '-' turned into '_' and the prefix prepended; options with neither consult none. Names up to 127 bytes are never truncated.", "quantifier": "for every prefix, option name and flags", "why_tests_cant": "All prefixes and names, in particular lengths around the 128-byte buffer.", "anchors": ["source/core/parsing/load_env_vars.c:get_env_var_name"]}
{"id": "C30", "title": "Only declared environment variables influence parsing", "statement": "Two environments that agree on the variables consulted for the options of the selected path give identical parse results.", "quantifier": "for every pair of environments, option table and argument list", "why_tests_cant": "A two-run non-interference property over all environments.", "anchors": ["source/core/parsing/load_env_vars.c:load_env_vars", "source/api/argus_parse.c:argus_parse"]}
{"id": "C31", "title": "Option path lookup", "statement": "A bare name refers to the option of that name at the deepest selected level that has one, falling back outward to the root; '.name' refers to the root option; 'cmd.sub.name' refers to that option under exactly that selected command path, and to nothing if the path is not the selected one.", "quantifier": "for every selected path and every path string", "why_tests_cant": "All path strings and nestings; the comparison uses lengths of components.", "anchors": ["source/utils/option_lookup.c:find_option_by_active_path", "source/utils/option_lookup.c:find_from_relative_path"]}
{"id": "C32", "title": "Indexed and keyed access is total and exact", "statement": "argus_array_get(i) returns the i-th element for i below argus_count and otherwise an all-zero value with ARGUS_ERROR_INVALID_INDEX; argus_map_get(k) returns the entry of key k, otherwise zero with ARGUS_ERROR_INVALID_KEY; wrong option kinds give ARGUS_ERROR_INVALID_TYPE and unknown paths ARGUS_ERROR_NO_VALUE. None of them is undefined after a successful parse.", "quantifier": "for every state reachable by a successful parse, every path, index and key", "why_tests_cant": "All reachable states; the failing ones need values consisting only of separators.", "anchors": ["source/api/argus_value_access.c:argus_array_get", "source/api/argus_value_access.c:argus_map_get", "source/core/parsing/execute_callbacks.c:execute_callbacks"]}
{"id": "C33", "title": "Iterators enumerate each element exactly once, in order, and reset restarts", "statement": "Stepping an array or map iterator yields exactly the elements in index order and then false for ever; after a reset, at any point, it yields them all again.", "quantifier": "for every collection, every number of steps and every interleaving of resets", "why_tests_cant": "All interleavings of next and reset of any length.", "anchors": ["source/api/argus_value_access.c:argus_array_next", "source/api/argus_value_access.c:argus_array_reset", "source/api/argus_value_access.c:argus_map_next"]}
{"id": "C34", "title": "argus_exec runs the deepest selected command", "statement": "argus_exec runs the action of the innermost subcommand on the command line, exactly once, and returns its result; with no subcommand it returns ARGUS_ERROR_NO_COMMAND and with no action ARGUS_ERROR_INVALID_HANDLER, running nothing. argus_has_command tells whether a subcommand was selected.", "quantifier": "for every option table forest and argument list", "why_tests_cant": "All nesting depths and command lines.", "anchors": ["source/api/argus_exec.c:argus_exec", "source/core/parsing/option_handle_subcommand.c:handle_subcommand"]}
{"id": "C35", "title": "Exiting options end the process at once", "statement": "When an option with FLAG_EXIT (such as --help or --version) is reached on the command line and its handler succeeds, the process exits with status 0, no later argument is processed, no environment variable is read and no constraint is checked.", "quantifier": "for every option table, prefix without error, exiting option and remaining argument list", "why_tests_cant": "All continuations, including ones that would be errors.", "anchors": ["source/core/parsing/execute_callbacks.c:execute_callbacks", "source/api/argus_parse.c:argus_parse"]}
{"id": "C36", "title": "argus_free releases everything and may be called again", "statement": "After argus_free no option of the selected path holds an allocation; calling argus_free again, also after a failed parse which has already freed, changes nothing and frees nothing twice.", "quantifier": "for every state reachable by parsing", "why_tests_cant": "All parse outcomes including failures halfway through a value list.", "anchors": ["source/api/argus_free.c:argus_free", "source/utils/value_utils.c:free_option_value"]}
{"id": "C37", "title": "Return value and error code agree", "statement": "When argus_parse returns, argus.error_code equals the returned status, for tables using the built-in handlers and validators.", "quantifier": "for every option table, argument list and environment", "why_tests_cant": "All failing paths in handlers, environment loading and validation.", "anchors": ["source/api/argus_parse.c:argus_parse", "includes/argus/errors.h:argus_parsing_error"]}
{"id": "C38", "title": "Collections never write outside their buffer", "statement": "Starting from an unset option, every sequence of occurrences of an array, variadic or map option keeps the element count within the buffer capacity and every write inside the buffer, whatever the number of elements.", "quantifier": "for every sequence of values of any length", "why_tests_cant": "Growth boundaries are crossed at unboundedly many sizes.", "anchors": ["source/utils/multi_values.c:adjust_array_size", "source/utils/multi_values.c:adjust_map_size"]}
{"id": "C39", "title": "No double free and no leak over an option's life", "statement": "For any sequence of occurrences followed by argus_free, every heap block allocated for the option is freed exactly once, none is used after being freed, for every placement decision of realloc and every allocation failure.", "quantifier": "for every sequence of values, every allocator behaviour (moving or not, failing at any point)", "why_tests_cant": "Allocation failures at every point and every history; leaks are invisible to functional tests.", "anchors": ["source/utils/multi_values.c:adjust_array_size", "source/callbacks/handlers/array_string_handler.c:array_string_handler", "source/callbacks/handlers/map_string_handler.c:set_kv_pair", "source/utils/value_utils.c:free_option_value"]}
{"id": "C40", "title": "Definitions accepted in debug mode are well formed", "statement": "If argus_init with validation accepts an option forest then at every level: short names are pairwise distinct and neither space nor hyphen; a help option exists; every option and positional has a handler; every subcommand has options; required and conflicting names exist; required positionals precede optional ones; nesting is at most 8 deep.", "quantifier": "for every option forest", "why_tests_cant": "All forests; the checks are spread over several functions with partially dead conditions.", "anchors": ["source/core/validation/validate_structure.c:validate_structure", "source/core/validation/validate_structure.c:validate_naming", "source/core/validation/validate_arguments.c:validate_option"]}
{"id": "C41", "title": "Subcommand nesting never overflows the command stack", "statement": "For definitions whose nesting depth is at most 8, a parse from a fresh context never writes beyond the 8-entry subcommand stack, whatever the command line; and for deeper ones some command line does.", "quantifier": "for every option forest and argument list", "why_tests_cant": "Depends on every path through the command forest.", "anchors": ["source/core/parsing/option_handle_subcommand.c:handle_subcommand", "includes/argus/types.h:MAX_SUBCOMMAND_DEPTH"]}
{"id": "C42", "title": "Parsing is free of undefined behaviour", "statement": "For definitions accepted by validation and using the built-in handlers, argus_parse from a fresh context, followed by argus_free, has no undefined behaviour on any command line and environment.", "quantifier": "for every accepted option forest, argument list and environment", "why_tests_cant": "All inputs.", "anchors": ["source/api/argus_parse.c:argus_parse", "source/api/argus_free.c:argus_free"]}
{"id": "C43", "title": "Help lists every visible option exactly once", "statement": "The help text of a level lists every option, positional and subcommand of the level exactly once except options with FLAG_HIDDEN, in declaration order within its section and group.", "quantifier": "for every option table", "why_tests_cant": "All tables with any grouping.", "anchors": ["source/display/help/help_organizer.c:organize_options"]}
{"id": "C44", "title": "Help text wrapping loses nothing and respects the width", "statement": "Wrapped help text contains exactly the characters of the text in order, with line breaks only in place of single spaces or newlines or inside over-long words; no printed line exceeds the configured width; wrapping terminates.", "quantifier": "for every text, width and indentation", "why_tests_cant": "All texts and widths, including the degenerate widths.", "anchors": ["source/display/help/help_formatter.c:print_wrapped_text"]}
{"id": "C45", "title": "Help shows the variable that is actually read", "statement": "The environment variable name shown in the help for an option is the one argus_parse reads for it.", "quantifier": "for every option and prefix", "why_tests_cant": "Two separate implementations must agree on all inputs.", "anchors": ["source/display/help/help_formatter.c:get_env_var_name_for_display", "source/core/parsing/load_env_vars.c:get_env_var_name"]}
{"id": "C46", "title": "Choice hints list all choices", "statement": "The formatted choice list of a validator is exactly the choices in order separated by '|', for string and int choices; the buffer computed for it is never exceeded.", "quantifier": "for every list of choices", "why_tests_cant": "All lists; the length computation and the writing are separate loops.", "anchors": ["source/callbacks/validators/choices_validator.c:format_choices_validator"]}
{"id": "C47", "title": "Output redirection is undone by restore", "statement": "After redirect and restore of a stream, the descriptor again refers to the original file and no descriptor is leaked, for any interleaving over stdout and stderr and with failures of pipe or dup at any point; cleanup restores every stream still redirected.", "quantifier": "for every sequence of redirect, read, restore and cleanup calls and every failure point", "why_tests_cant": "All interleavings and failure points.", "anchors": ["source/utils/stream.c:stream_redirect", "source/utils/stream.c:stream_restore", "source/utils/stream.c:stream_cleanup_all"]}
{"id": "C48", "title": "Reading a redirected stream returns all bytes", "statement": "stream_read returns exactly the bytes written to the redirected stream since the last read, NUL-terminated, never writing outside its buffer, for every chunking of the pipe reads.", "quantifier": "for every byte sequence and every chunking", "why_tests_cant": "All chunkings and lengths across buffer growth.", "anchors": ["source/utils/stream.c:stream_read"]}
{"id": "C49", "title": "Bounded string helpers never overflow and never drop the terminator", "statement": "safe_strcpy, safe_strncpy, safe_strcat, safe_strncat and safe_strndup never write outside the destination and always leave it NUL-terminated; the copy is exact when the source fits and is rejected or truncated as documented otherwise.", "quantifier": "for every destination size, contents, source and count", "why_tests_cant": "All sizes and contents.", "anchors": ["includes/argus/internal/cross_platform.h:safe_strncpy", "includes/argus/internal/cross_platform.h:safe_strcat", "includes/argus/internal/cross_platform.h:safe_strndup"]}
{"id": "C50", "title": "Untouched options keep their default", "statement": "After a successful parse an option named neither on the command line nor by the environment still has exactly its declared default value (zero if none); argus_is_set is true for it only if the user set it.", "quantifier": "for every option table, argument list and environment not naming the option", "why_tests_cant": "All inputs that do not name the option.", "anchors": ["includes/argus/options.h:DEFAULT", "source/core/parsing/parse_args.c:parse_args", "source/api/argus_value_access.c:argus_is_set"]}
{"id": "C51", "title": "Independent options may be given in any order", "statement": "Exchanging two adjacent successful occurrences of two different options leaves every option's final value and set status unchanged.", "quantifier": "for every option table, pair of different options, values and surrounding arguments", "why_tests_cant": "All orders and surroundings (a two-run property).", "anchors": ["source/core/parsing/parse_args.c:parse_args", "source/core/parsing/execute_callbacks.c:execute_callbacks"]}
{"id": "C52", "title": "A context can be reused for another parse", "statement": "Calling argus_parse again on the same context, after success or after argus_free, is well defined and starts from the values left by the earlier calls.", "quantifier": "for every history of parse and free calls", "why_tests_cant": "All histories of calls.", "anchors": ["source/api/argus_parse.c:argus_parse", "source/api/argus_free.c:argus_free", "source/core/parsing/option_handle_subcommand.c:handle_subcommand"]}
{"id": "C53", "title": "Every reported error code has its own description", "statement": "argus_strerror returns a specific description for every code argus_parse can return, distinct for distinct codes.", "quantifier": "for every error code", "why_tests_cant": "Finite but must cover every code reachable from parsing, which is a statement about all parses.", "anchors": ["source/core/error.c:argus_strerror"]}
{"id": "C54", "title": "Queries do not disturb the parsed state", "statement": "Value getters and iterators change nothing but the error code, so their results do not depend on which queries were made before.", "quantifier": "for every state and every sequence of queries", "why_tests_cant": "All interleavings of queries.", "anchors": ["source/api/argus_value_access.c:argus_get", "source/api/argus_value_access.c:argus_is_set", "source/api/argus_value_access.c:argus_count"]}
{"id": "C55", "title": "The usage line names the way to the present command and its positionals", "statement": "The usage line consists of the program, the subcommands entered so far in order, [OPTIONS], every positional of the present level in declaration order (in angle brackets if required, else in square brackets, with dots if it takes several values) and COMMAND exactly when the level has subcommands.", "quantifier": "for every definition and every stack of entered subcommands", "why_tests_cant": "Any number of positionals and any depth of subcommands.", "anchors": ["source/display/usage_display.c:display_usage"]}
{"id": "C56", "title": "The overview lists every executable command once", "statement": "A program run without a command prints one line for each executable command of the program, at any depth, and for nothing else.", "quantifier": "for every tree of subcommands", "why_tests_cant": "All trees of commands, with and without actions.", "anchors": ["source/display/command_display.c:display_all_commands"]}
{"id": "C57", "title": "The list of subcommands of a command is complete", "statement": "A command that cannot be executed by itself is explained by one line for every subcommand below it at any depth, each followed by its own subcommands, in the order of declaration.", "quantifier": "for every tree of subcommands", "why_tests_cant": "All trees of commands.", "anchors": ["source/display/command_display.c:display_available_subcommands"]}
{"id": "C58", "title": "A command line has one reading, fixed by the declarations", "statement": "What a command line asks for (which texts go to which options, which subcommands are entered, where it is wrong) is determined by the declarations of the options alone, and parsing does exactly that, in order, up to the first failure; two command lines with the same reading give the same result.", "quantifier": "for every definition, command line and environment", "why_tests_cant": "All command lines, and all behaviours of handlers between two arguments.", "anchors": ["source/core/parsing/parse_args.c:parse_args", "source/core/parsing/option_handle_long.c:handle_long_option", "source/core/parsing/option_handle_short.c:handle_short_option", "source/core/parsing/option_handle_subcommand.c:handle_subcommand"]}
{"id": "C59", "title": "The patterns for numbers and versions accept numbers and versions", "statement": "V_REGEX with ARGUS_RE_POS_INT, ARGUS_RE_NEG_INT, ARGUS_RE_FLOAT, ARGUS_RE_HEX or ARGUS_RE_SEMVER accepts a text exactly if it is a numeral without leading zeros of a positive number, such a numeral after a minus sign, a decimal number, a hexadecimal number after 0x, or a semantic version; after a parse every text given to the option is one.", "quantifier": "for every text, program and command line", "why_tests_cant": "The accepted texts are infinitely many, and so are the refused ones.", "anchors": ["includes/argus/regex.h:ARGUS_RE_SEMVER", "includes/argus/regex.h:ARGUS_RE_FLOAT", "source/callbacks/validators/regex_validator.c:regex_validator"]}
{"id": "C60", "title": "The patterns for network addresses accept addresses", "statement": "V_REGEX with ARGUS_RE_IPV4, ARGUS_RE_IPV6, ARGUS_RE_DOMAIN, ARGUS_RE_URL, ARGUS_RE_HTTP or ARGUS_RE_PORT accepts a text exactly if it is a dotted quad, an IPv6 address, a domain name, a URL, an HTTP URL or a number from 1 to 65535.", "quantifier": "for every text, program and command line", "why_tests_cant": "The accepted texts are infinitely many, and so are the refused ones; the pattern for IPv6 has twelve alternatives.", "anchors": ["includes/argus/regex.h:ARGUS_RE_IPV4", "includes/argus/regex.h:ARGUS_RE_IPV6", "includes/argus/regex.h:ARGUS_RE_DOMAIN", "includes/argus/regex.h:ARGUS_RE_PORT"]}
{"id": "C61", "title": "The patterns for email accept email addresses", "statement": "V_REGEX with ARGUS_RE_EMAIL or ARGUS_RE_EMAIL_STRICT accepts a text exactly if it has a local part of the allowed characters, an at sign and a host name (whose labels, for the strict pattern, are well formed).", "quantifier": "for every text, program and command line", "why_tests_cant": "The accepted texts are infinitely many, and so are the refused ones.", "anchors": ["includes/argus/regex.h:ARGUS_RE_EMAIL", "includes/argus/regex.h:ARGUS_RE_EMAIL_STRICT"]}
{"id": "C62", "title": "The patterns for dates accept dates", "statement": "V_REGEX with ARGUS_RE_ISO_DATE or ARGUS_RE_ISOTIME accepts a text exactly if it is a date YYYY-MM-DD, or such a date and a time of day after the letter T.", "quantifier": "for every text, program and command line", "why_tests_cant": "All texts.", "anchors": ["includes/argus/regex.h:ARGUS_RE_ISO_DATE", "includes/argus/regex.h:ARGUS_RE_ISOTIME"]}
{"id": "C63", "title": "The patterns for identities accept user names, passwords and UUIDs", "statement": "V_REGEX with ARGUS_RE_USER, ARGUS_RE_PASSWD or ARGUS_RE_UUID accepts a text exactly if it has 3 to 20 letters, digits, underscores and hyphens, if it has at least 8 letters and digits with one of each, or if it is a UUID of version 4.", "quantifier": "for every text, program and command line", "why_tests_cant": "All texts; the pattern for passwords uses lookahead.", "anchors": ["includes/argus/regex.h:ARGUS_RE_USER", "includes/argus/regex.h:ARGUS_RE_PASSWD", "includes/argus/regex.h:ARGUS_RE_UUID"]}
{"id": "C64", "title": "The patterns for files accept paths and file names", "statement": "V_REGEX with ARGUS_RE_UNIX_PATH or ARGUS_RE_FILENAME accepts a text exactly if it is an absolute path, or a file name with an extension of up to five letters.", "quantifier": "for every text, program and command line", "why_tests_cant": "All texts.", "anchors": ["includes/argus/regex.h:ARGUS_RE_UNIX_PATH", "includes/argus/regex.h:ARGUS_RE_FILENAME"]}
{"id": "C65", "title": "Without PCRE2 no text passes V_REGEX", "statement": "In a build without PCRE2 V_REGEX refuses every text as an invalid value, so that no parse succeeds that gives a text to such an option.", "quantifier": "for every text, pattern, program and command line", "why_tests_cant": "All texts, patterns and command lines.", "anchors": ["source/callbacks/validators/regex_validator.c:regex_validator"]}
{"id": "C66", "title": "The help frees what it allocates and shows what it was given", "statement": "Whatever malloc does, organize_options builds lists of all visible entries, print_help_sections can walk them to their end, and free_help_data frees every node exactly once, so that memory is as before; display_help prints the text of the lists.", "quantifier": "for every table of options, memory state and allocator", "why_tests_cant": "Failures of the allocator at any point, tables of any size; a test sees neither a leak nor a use of a freed node by itself.", "anchors": ["source/display/help/help_organizer.c:organize_options", "source/display/help/help_organizer.c:add_option_to_list", "source/display/help/help_organizer.c:find_or_create_group", "source/display/help/help_organizer.c:free_help_data", "source/display/help_display.c:display_help"]}
{"id": "C67", "title": "The help says what was declared about an option", "statement": "The entry of an option in the help consists of its names and what stands for its value, its help text, every constraint on it, its default, the variable that is read, and the marks exit, required, deprecated and experimental, each exactly if it was declared.", "quantifier": "for every option, configuration and number format", "why_tests_cant": "Every combination of constraints, default, variable and marks; single cases fit the fixed buffers, others do not.", "anchors": ["source/display/help/help_formatter.c:build_option_description", "source/display/help/help_formatter.c:print_option_name", "source/display/help/help_formatter.c:append_flag_info", "source/display/help/help_renderer.c:print_positional"]}
{"id": "C68", "title": "What is displayed depends on the declarations and the selected command only", "statement": "Whatever was parsed before, usage, help, overview and version are the texts of the program as declared at the command selected; the version text is the name, the version and the description.", "quantifier": "for every program, command line, environment and moment at which help is asked for", "why_tests_cant": "All histories before the request for help.", "anchors": ["source/display/help_display.c:display_help", "source/display/usage_display.c:display_usage", "source/display/version_display.c:display_version", "source/api/argus_display.c:argus_print_help"]}
{"id": "C69", "title": "DEFAULT sets the default", "statement": "An option declared with DEFAULT(v) that is given neither on the command line nor by the environment has the value v after every successful parse.", "quantifier": "for every value, program, command line and environment", "why_tests_cant": "All values of all types; a test with an integer says nothing about floats.", "anchors": ["includes/argus/options.h:DEFAULT"]}
{"id": "C70", "title": "Values are compared and printed faithfully", "statement": "cmp_value returns a negative number, zero or a positive number as the first value is less than, equal to or greater than the second; print_value prints the value, print_value_array all of them in order; choices_to_value returns the choice at the index.", "quantifier": "for all values of all scalar types", "why_tests_cant": "The full range of 64-bit integers, NULL, NaN.", "anchors": ["source/utils/value_utils.c:cmp_value", "source/utils/value_utils.c:print_value", "source/utils/value_utils.c:print_value_array", "source/utils/value_utils.c:choices_to_value"]}
{"id": "C71", "title": "A failing parse prints one true message", "statement": "argus_parse prints nothing to the error stream if it succeeds or exits. If it fails it prints one line: the program name and one message whose code is the one returned, and everything the message says is so: the argument, variable, option, key, value, choice list or range it names is the one at fault. Printing it is defined.", "quantifier": "for every program with the handlers and validators of the library, every command line and environment", "why_tests_cant": "All combinations of declarations, arguments and variables; a test compares a few messages with a few texts.", "anchors": ["includes/argus/errors.h:argus_parsing_error", "source/api/argus_parse.c:argus_parse", "source/core/parsing/option_handle_long.c:handle_long_option", "source/core/parsing/post_parse_validation.c:validate_options_set", "source/core/parsing/parse_args.c:find_subcommand", "source/callbacks/handlers/map_int_handler.c:map_int_handler"]}
{"id": "C72", "title": "Everything on an accepted command line is used", "statement": "If argus_parse accepts a command line then every argument, to its last byte, names an option, gives a value, selects a subcommand or is the '--' that ends the options; nothing is dropped. The accepted lines are exactly those of the grammar of options, values, subcommands and positional arguments, and each has one reading.", "quantifier": "for every program, command line and environment", "why_tests_cant": "The set of command lines is infinite; that nothing is ever dropped is a statement about all of them.", "anchors": ["source/core/parsing/parse_args.c:parse_args", "source/core/parsing/option_handle_long.c:handle_long_option", "source/core/parsing/option_handle_short.c:handle_short_option", "source/core/parsing/option_handle_positional.c:handle_positional"]}
{"id": "C73", "title": "The help frees the texts it builds and survives lack of memory", "statement": "Whatever malloc returns while names and descriptions are built, display_help uses no NULL pointer, writes within its blocks, frees every hint and every description once and leaves memory as it was. What a description says is whole: a note, the default, the variable or the marks may be missing, but no part of one. If no call is refused, the text is the one declared.", "quantifier": "for every table of options, configuration, state of memory and sequence of refused calls", "why_tests_cant": "Every subset of the calls of malloc may be refused, and the contents of a new block are arbitrary.", "anchors": ["source/display/help/help_formatter.c:build_option_description", "source/display/help/help_formatter.c:append_to_description", "source/display/help/help_formatter.c:append_validator_info", "source/display/help/help_formatter.c:append_env_info", "source/display/help/help_formatter.c:get_smart_hint", "source/display/help/help_formatter.c:print_option_name", "source/display/help/help_formatter.c:print_option_description"]}
{"id": "C74", "title": "A refused definition is explained", "statement": "argus_init with validation prints exactly what is wrong with a definition: for each fault one paragraph that names the file, the line and the entry and says what the fault is, and nothing else. It refuses a definition if and only if it prints something. Printing is defined, and what it quotes about a default value is true of that value.", "quantifier": "for every set of option tables, nesting of subcommands, position in the source and default value", "why_tests_cant": "All tables: each message depends on the entries before and after the one it names.", "anchors": ["includes/argus/errors.h:argus_struct_error", "source/core/validation/validate_arguments.c:validate_dependencies", "source/core/validation/validate_arguments.c:validate_default_value", "source/core/validation/validate_structure.c:validate_type_format", "source/core/validation/validate_structure.c:validate_placement", "source/core/validation/validate_structure.c:validate_naming", "source/core/validation/validate_structure.c:lname_is_unique", "source/core/validation/validate_structure.c:validate_structure", "source/core/validation/validate_arguments.c:validate_default_value", "source/core/validation/validate_arguments.c:validate_dependencies", "source/core/validation/validate_arguments.c:validate_default_value", "source/core/validation/validate_structure.c:validate_type_format", "source/core/validation/validate_containers.c:validate_subcommand"]}
{"id": "C75", "title": "The outcome of a parse is determined option by option", "statement": "argus_parse succeeds if and only if everything on the line can be read, every text given to an option is one it takes, every variable that is consulted holds a text its option takes, the path of subcommands is at most eight deep, and the resulting options of every command on the path meet what is declared. Each option then holds what its own texts and its variable make of it, in their order, and nothing else is changed.", "quantifier": "for every program whose entries have names and whose help options exit, every command line and environment", "why_tests_cant": "An equivalence: that nothing else is refused and that nothing wrong is let through concerns all command lines at once.", "anchors": ["source/api/argus_parse.c:argus_parse", "source/core/parsing/parse_args.c:parse_args", "source/core/parsing/execute_callbacks.c:execute_callbacks", "source/core/parsing/load_env_vars.c:load_env_vars", "source/core/parsing/post_parse_validation.c:post_parse_validation"]}
{"id": "C76", "title": "The columns of the help line up", "statement": "Every entry of the help shows its name after option_indent spaces and its description after a dash in column description_column: on the line of the name if at least four spaces are left between them, else on the next line. The further lines of a description start below its first byte. No line is longer than max_line_width, except that of a name too long for its column.", "quantifier": "for every entry, configuration and text", "why_tests_cant": "The layout depends on the lengths of the names, hints and texts and on three widths; a test looks at a few.", "anchors": ["source/display/help/help_renderer.c:print_option", "source/display/help/help_renderer.c:print_positional", "source/display/help/help_renderer.c:print_subcommand", "source/display/help/help_formatter.c:print_option_name", "source/display/help/help_formatter.c:print_option_description", "source/display/help/help_formatter.c:print_wrapped_text"]}
{"id": "C77", "title": "Further options do no harm", "statement": "If options, groups or subcommands that have no default and that no old option requires are declared at the end of an array, then argus_parse does the same as before on every command line and in every environment that does not use them: same status, same messages, same subcommands, same value of every old option, same option under every path that does not end in a new name. The line may contain their names as values of other options.", "quantifier": "for every program, array, list of new entries, command line and environment", "why_tests_cant": "A statement about pairs of programs: the old and the new one have to agree on all command lines, and lookup by name, position and prefix all search the array that grew.", "anchors": ["source/api/argus_parse.c:argus_parse", "source/utils/option_lookup.c:find_option_by_lname", "source/utils/option_lookup.c:find_option_by_sname", "source/utils/option_lookup.c:find_positional", "source/utils/option_lookup.c:find_option_by_name", "source/core/parsing/parse_args.c:find_subcommand", "source/core/parsing/load_env_vars.c:load_env", "source/core/parsing/post_parse_validation.c:validate_options_set", "source/api/argus_free.c:free_options"]}
{"id": "C78", "title": "Commands that are not called do not matter", "statement": "What argus_parse does depends on the options of the program and of the subcommands selected on the line only. Two programs that agree on these, whatever else they declare, end with the same status, messages, error code and selected subcommands, and the options of the commands called hold the same in both.", "quantifier": "for every two programs, command line and environment", "why_tests_cant": "A statement about all pairs of programs that differ in places a run must never look at.", "anchors": ["source/api/argus_parse.c:argus_parse", "source/core/parsing/parse_args.c:parse_args", "source/core/parsing/option_handle_subcommand.c:handle_subcommand", "source/core/parsing/load_env_vars.c:load_env_vars", "source/core/parsing/post_parse_validation.c:post_parse_validation", "source/api/argus_free.c:argus_free"]}
{"id": "C79", "title": "Constraints only restrict", "statement": "Validators, REQUIRE and CONFLICT entries, required positionals and exclusive groups do nothing but refuse. A command line that a program accepts is also accepted after constraints have been left out, and the options and the selected subcommands are the same. Conversely, if everything declared holds of the values that the program with fewer constraints ends with, the full program accepts the line with the same values.", "quantifier": "for every two programs of which one has fewer constraints and whose own callbacks do not look at the constraints, every command line and environment", "why_tests_cant": "A statement about pairs of programs and all command lines: a test cannot see that a constraint never changes a value.", "anchors": ["source/api/argus_parse.c:argus_parse", "source/core/parsing/execute_callbacks.c:execute_callbacks", "source/core/parsing/post_parse_validation.c:validate_options_set", "source/core/parsing/post_parse_validation.c:post_parse_validation"]}
{"id": "C80", "title": "Texts for the help do not influence the parse", "statement": "Help texts, hints, the flags for hidden, advanced, deprecated and experimental options, the name, version and description of the program and the configuration of the help concern the display only. Two programs that differ in these do the same on every command line: same status, same messages word for word (but for the program name, and for the help texts of subcommands, which the message about an ambiguous abbreviation quotes), same subcommands, same values under every path, and undefined behaviour in the same cases.", "quantifier": "for every two programs that differ in what they show only and whose own callbacks do not look at it, every command line and environment", "why_tests_cant": "A statement about pairs of programs: the set of wordings and of command lines is infinite.", "anchors": ["source/api/argus_parse.c:argus_parse", "source/core/parsing/parse_args.c:parse_args", "source/core/parsing/execute_callbacks.c:execute_callbacks", "source/core/parsing/load_env_vars.c:load_env_vars", "source/core/parsing/post_parse_validation.c:post_parse_validation", "source/api/argus_value_access.c:argus_get"]}
{"id": "C81", "title": "Options may be declared in any order", "statement": "Two programs that declare the same entries in another order, keeping group headers in place and positionals and subcommands in their order among themselves, accept exactly the same command lines. On every accepted line the same commands are selected and every path leads to the same option with the same value.", "quantifier": "for every program and every reordering of its entries, every command line and environment", "why_tests_cant": "The number of orders grows with the factorial of the number of entries, and each has to be compared on all command lines.", "anchors": ["source/api/argus_parse.c:argus_parse", "source/utils/option_lookup.c:find_option_by_lname", "source/utils/option_lookup.c:find_option_by_sname", "source/utils/option_lookup.c:find_option_by_name", "source/core/parsing/load_env_vars.c:load_env", "source/core/parsing/post_parse_validation.c:validate_options_set"]}
{"id": "C82", "title": "Results do not depend on the C library's sort", "statement": "FLAG_SORTED, FLAG_SORTED_KEY and FLAG_SORTED_VALUE rely on the qsort of the platform, of which the C standard does not say how it arranges elements that compare equal. The same program run with the same command line and environment on two platforms that differ in their qsort only has the same outcome: same status, same messages, same values in the same order.", "quantifier": "for every two conforming implementations of qsort, every program, command line and environment", "why_tests_cant": "Tests run on one platform, whose qsort always answers the same way; the property is about all conforming implementations.", "anchors": ["source/utils/multi_values.c:apply_array_flags", "source/utils/multi_values.c:apply_map_flags", "source/utils/multi_values.c:compare_int_values", "source/utils/multi_values.c:compare_string_values", "source/utils/multi_values.c:compare_float_values", "source/utils/multi_values.c:compare_map_keys", "source/api/argus_parse.c:argus_parse"]}
{"id": "C83", "title": "The two names of an option are the same", "statement": "An option with a short and a long name may be called by either: -o and --output, followed by the same arguments, and -ovalue and --output=value lead to the same outcome altogether, be it success or failure, wherever on the line the option stands.", "quantifier": "for every program, option with both names, position on the line, value and environment", "why_tests_cant": "Two separate functions with separate lookups read the two forms; they have to agree for all tables, names, values and contexts.", "anchors": ["source/core/parsing/option_handle_long.c:handle_long_option", "source/core/parsing/option_handle_short.c:handle_short_option", "source/utils/option_lookup.c:find_option_by_lname", "source/utils/option_lookup.c:find_option_by_sname", "source/api/argus_parse.c:argus_parse"]}
{"id": "C84", "title": "A variable acts like the option it stands for", "statement": "Setting the environment variable of an option to a text and giving that text on the command line are the same: NAME=v prog sub rest and prog sub --name=v rest are accepted or refused together, with the same values of all options and the same selected commands, as long as rest does not give the option and no other option reads the variable. NAME=anything does for a flag what --name does.", "quantifier": "for every program, option, text, command line and environment", "why_tests_cant": "The variable is read at another time, by other code, after everything else on the line; that nothing in between makes a difference is a statement about all lines and programs.", "anchors": ["source/core/parsing/load_env_vars.c:load_env", "source/core/parsing/load_env_vars.c:load_env_vars", "source/core/parsing/execute_callbacks.c:execute_callbacks", "source/core/parsing/option_handle_long.c:handle_long_option", "source/api/argus_parse.c:argus_parse"]}
{"id": "C85", "title": "Truth values in the environment", "statement": "A bool or flag option read from its environment variable becomes true for true, yes, 1, on, y and false for false, no, 0, off, n in any letter case, as documented, and any other text is refused.", "quantifier": "for every program, bool or flag option, text of the variable and command line", "why_tests_cant": "The set of texts and programs is infinite; tests of the documented spellings would check options of one kind.", "anchors": ["source/core/parsing/load_env_vars.c:load_env", "source/callbacks/handlers/bool_handler.c:bool_handler", "source/callbacks/handlers/flag_handler.c:flag_handler"]}
{"id": "C86", "title": "argus_is_set tells what the user gave", "statement": "After a successful parse argus_is_set answers true for an option exactly if the user gave it, on the command line or by its environment variable, so that a user's value can be told from a default; and for a subcommand, under whatever path it is found, exactly if it was selected.", "quantifier": "for every program, path, command line and environment", "why_tests_cant": "The mark is written by four places (handlers called from the command line, handlers called from the environment, subcommand entry, the DEFAULT macro); the claim is about every combination of them over all lines.", "anchors": ["source/api/argus_value_access.c:argus_is_set", "source/core/parsing/execute_callbacks.c:execute_callbacks", "source/core/parsing/load_env_vars.c:load_env", "source/core/parsing/option_handle_subcommand.c:handle_subcommand", "includes/argus/options.h:DEFAULT"]}
{"id": "C87", "title": "Limits on the number of values hold for every collection", "statement": "After a successful parse every array, map or variadic positional of the selected commands with VALIDATOR(V_COUNT(min, max)) has between min and max values, whether or not the user gave it; as documented, an empty command line is refused by a program with an array limited to [1, 5].", "quantifier": "for every program, collection with limits, command line and environment", "why_tests_cant": "That an absent collection is refused (or not) in every program, whatever else is on the line, is a statement about all tables and lines.", "anchors": ["source/core/parsing/post_parse_validation.c:validate_options_set", "source/callbacks/validators/count_validator.c:count_validator", "source/api/argus_parse.c:argus_parse"]}
{"id": "C88", "title": "Validators that look at other options see the outcome", "statement": "A user validator called after parsing may read any option with argus_get, as documented for cross-validation. Every such validator, whenever it is called and whichever option it belongs to, sees the values the program will see after the parse: all of the command line and the environment, in whatever order they were given. A successful parse leaves every such validator of every set option on the selected path satisfied by the final values, and no validator is called if the command line or the environment is refused.", "quantifier": "for every user validator that may look at everything, program, command line and environment", "why_tests_cant": "The validators are arbitrary functions of the whole state, and the state grows while the line is read; that none of them ever sees a half-read line is a statement about all lines and all validators.", "anchors": ["source/core/parsing/post_parse_validation.c:call_validators", "source/core/parsing/post_parse_validation.c:validate_options_set", "source/core/parsing/post_parse_validation.c:post_parse_validation", "source/api/argus_parse.c:argus_parse", "source/api/argus_value_access.c:argus_get"]}
{"id": "C89", "title": "The advice to ask for help can be followed", "statement": "When argus_parse refuses a command line, what it prints to the error stream ends with Try 'prog command ... --help' for more information. The words in it, typed as they are printed, show the help of the very command in which the fault was found and end the program, also if the commands were abbreviated on the refused line.", "quantifier": "for every program whose tables have a help option, refused command line and environment", "why_tests_cant": "The advice is built from the subcommands entered before the fault and must again be understood by the parser; the lines, the tables and the abbreviations are unbounded, and tests look at the text of the advice only.", "anchors": ["source/api/argus_parse.c:argus_parse", "source/core/parsing/parse_args.c:parse_args", "source/core/parsing/parse_args.c:find_subcommand", "source/callbacks/handlers/help_handler.c:help_handler", "source/utils/option_lookup.c:get_active_options"]}
{"id": "C90", "title": "Every value given can be read under the name of its option", "statement": "After a successful parse of prog c1 ... cm --name=value, argus_get under the path c1. ... .cm.name yields exactly what the value means, and argus_is_set is true. More generally every option or positional that was handed a value, on the command line or by the environment, is found under its name preceded by the names of its subcommands, in every definition that is accepted in debug mode.", "quantifier": "for every definition, command path of any depth, option, value, command line and environment", "why_tests_cant": "Tables, paths and values are unbounded, and which of several entries a path finds depends on all names of all selected levels; tests read back a few options under hand-picked names.", "anchors": ["source/api/argus_value_access.c:argus_get", "source/api/argus_value_access.c:argus_array_get", "source/utils/option_lookup.c:find_option_by_name", "source/utils/option_lookup.c:find_option_by_active_path", "source/core/parsing/parse_args.c:parse_args", "source/core/validation/validate_structure.c:validate_structure"]}
{"id": "C91", "title": "Every command line can be spelled out", "statement": "Short options, clusters, separate values and shortened subcommands are conveniences only. If every option has a long name that can be typed, then for every command line that makes sense there is one that calls each option by its long name, attaches each value with `=`, gives subcommands their full names, has one argument per thing wanted apart from one `--`, and has exactly the same outcome. Up to the place of `--` there is only one such line.", "quantifier": "For all contexts whose options have callable long names and whose subcommands do not begin with a dash, all environments, all callbacks, and all command lines that the grammar of the parser derives (in particular all accepted ones).", "why_tests_cant": "Tests compare single spellings of single options; that every mixture of clusters, dropped arguments, levels and positionals has an equivalent plain line needs an induction over the grammar.", "anchors": ["source/core/parsing/option_handle_long.c:handle_long_option", "source/core/parsing/option_handle_short.c:handle_short_option", "source/core/parsing/parse_args.c:parse_args"]}
{"id": "C92", "title": "Standard output carries what was asked for", "statement": "The library prints to standard output only what the user asked for, so that the output of a program can be used by other programs. A parse that succeeds prints nothing. A parse that ends the program prints nothing to standard error, and to standard output exactly the usage line and help, or the version, that the option given calls for, for the command selected before it. A line that is refused is reported on standard error.", "quantifier": "for every definition whose help and version options end the program, every environment, every command line and every configuration of the help", "why_tests_cant": "The texts depend on all declarations and on the command selected; tests redirect one stream and look at one or two lines, and none looks at both streams after an error.", "anchors": ["source/api/argus_parse.c:argus_parse", "source/callbacks/handlers/help_handler.c:help_handler", "source/callbacks/handlers/version_handler.c:version_handler", "source/display/usage_display.c:display_usage", "source/core/parsing/execute_callbacks.c:execute_callbacks", "includes/argus/errors.h:argus_parsing_error"]}
{"id": "C93", "title": "Values can be written as a command line and read back", "statement": "A program that calls another one can hand over settings without fear of misreading. For any settings of the options of a command, written as --name=value, one argument for each value or element, the line is accepted if the definition demands nothing else, and reading every option under its path gives exactly the value that was meant: any text, any 64-bit integer, a float or truth value, lists of texts without commas, lists of ints below INT_MAX, maps whose keys have no comma or `=`. Any list of texts except `--` can be handed to a POSITIONAL_MANY after `--`. The limits are those of the library: no line or variable puts a comma into an element of an array or map, or INT_MAX into an int array.", "quantifier": "for every definition, command path, list of settings of any length and value, and every environment", "why_tests_cant": "Texts that look like options, are empty, or contain `=` and the ends of the integer ranges can meet in any combination and order; tests write a few harmless values by hand.", "anchors": ["source/core/parsing/option_handle_long.c:handle_long_option", "source/core/parsing/parse_args.c:parse_args", "source/callbacks/handlers/int_handler.c:int_handler", "source/callbacks/handlers/array_int_handler.c:array_int_handler", "source/callbacks/handlers/map_string_handler.c:map_string_handler", "source/api/argus_value_access.c:argus_get", "source/api/argus_value_access.c:argus_array_get", "source/api/argus_value_access.c:argus_map_get"]}
{"id": "C94", "title": "Saying it twice or leaving out what is optional changes nothing else", "statement": "An argument that says again what the argument before it said makes no difference for flags and simple options: the line is accepted exactly if it is accepted with one of the two, with the same values everywhere and the same command. The same holds for texts of a FLAG_UNIQUE list that are in it already, and for pairs of a map. An argument that is overridden later on the line can be left out. An argument that is the only one for its option can be left out if nothing that is set requires the option: the option is then as it was declared, and all other options and the command are as before.", "quantifier": "for every program, position on the line, option of the kinds named, text and environment", "why_tests_cant": "What comes before and after on the line, the conflicts, requirements, groups and validators of all other options can be anything; tests repeat one option on one line.", "anchors": ["source/core/parsing/parse_args.c:parse_args", "source/core/parsing/execute_callbacks.c:execute_callbacks", "source/core/parsing/post_parse_validation.c:post_parse_validation", "source/core/parsing/post_parse_validation.c:validate_options_set", "source/callbacks/handlers/flag_handler.c:flag_handler", "source/utils/multi_values.c:apply_array_flags", "source/callbacks/handlers/map_string_handler.c:map_string_handler"]}
{"id": "C95", "title": "Of several faults the first is reported", "statement": "If a command line, the environment or the declarations give several reasons to refuse, the status is that of the first in a fixed order: what cannot be read or is refused on the line, in the order of the line; then variables whose text is refused, in the order of the tables on the command path; then entries whose constraints do not hold, level by level and entry by entry, and for one entry a missing positional, a crowded exclusive group, validators, requirements, conflicts. Every status that argus_parse can return is explained by exactly one such fault, a line with no fault is accepted, and nothing that follows a fault on the line, nor the environment, changes what is reported. Only the line can end the program.", "quantifier": "for every definition, command line, environment and set of callbacks", "why_tests_cant": "The number of faults, where they are and which kinds meet is unlimited; tests have one fault for each line, so the order never shows.", "anchors": ["source/api/argus_parse.c:argus_parse", "source/core/parsing/parse_args.c:parse_args", "source/core/parsing/execute_callbacks.c:execute_callbacks", "source/core/parsing/load_env_vars.c:load_env_vars", "source/core/parsing/post_parse_validation.c:post_parse_validation", "source/core/parsing/post_parse_validation.c:validate_options_set", "source/core/parsing/post_parse_validation.c:call_validators"]}
{"id": "C96", "title": "Callbacks of the program are called for what was given, and for nothing else", "statement": "A parse depends on the program's own callbacks only through the handlers and validators of texts of options that are given a text, on the command line or by their variable, on exactly that text, and through the validators of values of entries that are set at the levels of the selected commands. Callbacks that do the same there make no difference to the parse, whatever they do otherwise. So the handler of an option that is neither on the line nor in the environment, and the validator of an option that is not set, are not called; after a fault on the line nothing more is called; actions are never called by a parse. Conversely, in a successful parse every text given on the line was shown to the handler and to the validators of texts of its option, and they took it.", "quantifier": "for every definition, command line, environment and set of callbacks", "why_tests_cant": "That a callback is not called can only be tested for one callback and one line at a time; here the callbacks are replaced by arbitrary others.", "anchors": ["source/core/parsing/execute_callbacks.c:execute_callbacks", "source/core/parsing/load_env_vars.c:load_env", "source/core/parsing/post_parse_validation.c:call_validators", "source/core/parsing/post_parse_validation.c:validate_options_set", "source/api/argus_parse.c:argus_parse"]}
{"id": "C97", "title": "A subcommand is a program of its own", "statement": "What stands behind the name of a subcommand means what it would mean to a program that has only this subcommand's options, whatever stands before the name. If the whole command line is accepted, that program accepts the rest by itself, with the same values in the tables of the subcommand and of those below it, and the command path is the way to the subcommand followed by the path of that program. Conversely, once one call of the subcommand is accepted, its arguments can be exchanged for any others that the subcommand by itself accepts, without effect on the options outside; and if the subcommand by itself refuses its arguments or leaves the program, the whole ends in the same way with the same status.", "quantifier": "for every definition in which no command contains itself, every command line, way to the subcommand, environment and set of callbacks, down to eight levels", "why_tests_cant": "Tests call a few subcommands with a few arguments; that a subcommand behaves alike under every program and every way to it is a statement about pairs of parses.", "anchors": ["source/core/parsing/parse_args.c:parse_args", "source/core/parsing/option_handle_subcommand.c:handle_subcommand", "source/core/parsing/load_env_vars.c:load_env_vars", "source/core/parsing/post_parse_validation.c:post_parse_validation", "source/api/argus_parse.c:argus_parse"]}
{"id": "C98", "title": "A whole program gives back its memory", "statement": "A parse with arrays, maps and variadic arguments in any number of options, at any level, uses memory without mistake: no block is read or written after its release, behind its end or through NULL, and none is released twice. It ends as the parse without memory does, and after success the values lie in memory as they are shown. argus_free then gives back every block that the parse took and leaves all others alone; a further argus_free does nothing. When argus_parse itself ends the program or reports an error, it has given back every block before. In the code this is true up to copies of keys, lost when a map is given a key again or a value that is none, and, after an error, up to the blocks of one option whose first text was refused.", "quantifier": "for every definition, command line and environment of C42, every state of the heap before, and wherever realloc moves its blocks", "why_tests_cant": "Blocks of all options share one heap and every growth may move one of them; a test sees one sequence of calls, and a lost block has no effect that it could observe.", "anchors": ["source/api/argus_parse.c:argus_parse", "source/api/argus_free.c:argus_free", "source/api/argus_free.c:free_options", "source/core/parsing/execute_callbacks.c:execute_callbacks", "source/core/parsing/load_env_vars.c:load_env", "source/callbacks/handlers/map_float_handler.c:set_kv_pair"]}
{"id": "C99", "title": "Names are only names", "statement": "If the options, groups, positionals and subcommands of a program get other names, long names, short names and environment variables, and the lists of required and conflicting options follow, then nothing changes but the names: a line that asks the renamed program for what an old line asked the old one has the same end, the same kinds of messages, the same command path and the same values at the same places, and the program reads them under the new names. Every line that is spelled out is translated word by word, and for every line the old program accepts there is one that the renamed program accepts with the same values.", "quantifier": "for every two definitions that differ in names and texts only, every injective change of names, every pair of lines that ask for the same, every pair of environments that say the same under the old and new variables, and all callbacks that do not look at names", "why_tests_cant": "A statement about pairs of programs. A test has one program with fixed names, so that code which treats some name in a special way, compares only a part of it or takes one kind of name for another goes unnoticed.", "anchors": ["source/api/argus_parse.c:argus_parse", "source/core/parsing/parse_args.c:parse_args", "source/core/parsing/load_env_vars.c:get_env_var_name", "source/core/parsing/post_parse_validation.c:validate_required", "source/core/parsing/post_parse_validation.c:validate_conflicts", "source/core/parsing/post_parse_validation.c:validate_options_set", "source/utils/option_lookup.c:find_option_by_name", "source/utils/option_lookup.c:find_option_by_active_path"]}
{"id": "C100", "title": "A program that runs out of memory", "statement": "Wherever malloc, strdup or realloc fail during a parse, argus_parse uses no NULL pointer, writes within its blocks, and either ends as it would have with memory or returns the error for lack of memory. After success the values are those of the parse with memory, and argus_free gives back every block; otherwise every block has been given back when argus_parse ends. The code does so for programs whose collections are string arrays and variadic arguments, as long as realloc does not fail, up to the blocks of one option whose first text met the lack of memory. With number arrays and maps, or when realloc fails, it crashes.", "quantifier": "for every definition, command line, environment and state of the heap before, and every choice of the calls that fail", "why_tests_cant": "Which of the calls fails is unlimited, and after each the blocks of all options have to be traced; the tests never let an allocation fail.", "anchors": ["source/api/argus_parse.c:argus_parse", "source/api/argus_free.c:argus_free", "source/utils/multi_values.c:adjust_array_size", "source/utils/strings.c:split", "source/callbacks/handlers/array_string_handler.c:array_string_handler", "source/core/parsing/execute_callbacks.c:execute_callbacks", "source/core/parsing/load_env_vars.c:load_env"]}
{"id": "C101", "title": "Texts are passed on unread", "statement": "What a user gives to a string option, to a list of string arguments or to a string array that keeps its order, without validators other than V_COUNT, influences nothing but the value of that option. Two lines, environments or sets of defaults that agree but for such texts have the same end, the same messages and the same command path; every other option is the same in all respects, and each such option holds the texts of its own side. In a line that is spelled out, any such text can be replaced by any other, and every reading function finds the same option set, with as many values.", "quantifier": "for every program, every two lines, environments and defaults that agree but for such texts, whatever the texts are, every relation between texts, and all callbacks and validators of the other options", "why_tests_cant": "A statement about pairs of parses over unlimited texts. Code that trims a text, treats the empty text or a dash in a special way, or lets one value decide about another option goes unnoticed unless a test happens to use that very text.", "anchors": ["source/api/argus_parse.c:argus_parse", "source/core/parsing/parse_args.c:parse_args", "source/core/parsing/execute_callbacks.c:execute_callbacks", "source/core/parsing/load_env_vars.c:load_env", "source/core/parsing/post_parse_validation.c:post_parse_validation", "source/callbacks/handlers/string_handler.c:string_handler", "source/callbacks/handlers/array_string_handler.c:array_string_handler", "source/callbacks/handlers/variadic_string_handler.c:variadic_string_handler", "source/api/argus_value_access.c:argus_get"]}
{"id": "C102", "title": "Only the value of a text matters", "statement": "How a value is written makes no difference. Numbers with blanks, a plus sign or zeros in front, the spellings of a truth value, texts that strtof or strtod reads as the same number, ranges and the lists they stand for, lists with empty fields, and map entries with values of this kind: two lines, or two environments, that differ in nothing else have the same outcome in every respect, from the end and the messages to every value. A line that is spelled out can be rewritten with any of these.", "quantifier": "for every program, every two lines and environments that ask for the same but for the writing of values given to options without a validator of the text, and all texts", "why_tests_cant": "The ways of writing one value are unlimited, and the claim is about pairs of parses. Code that reads a leading zero as octal, counts an empty field or keeps the sign as text shows only with a text that no test uses.", "anchors": ["source/callbacks/handlers/int_handler.c:int_handler", "source/callbacks/handlers/bool_handler.c:bool_handler", "source/callbacks/handlers/array_int_handler.c:parse_int_range", "source/callbacks/handlers/array_int_handler.c:array_int_handler", "source/callbacks/handlers/map_int_handler.c:set_kv_pair", "source/callbacks/handlers/variadic_int_handler.c:variadic_int_handler", "source/core/parsing/execute_callbacks.c:execute_callbacks", "source/core/parsing/load_env_vars.c:load_env", "source/api/argus_parse.c:argus_parse"]}
{"id": "C103", "title": "Static variables carry nothing over", "statement": "The library keeps a counter (the depth of nested subcommands during validation) and three character arrays (the names of environment variables, twice, and the hints of collections in help) in static variables. Calls made one after another in one process give what each of them gives by itself, whatever the arrays hold at the beginning: a call gives after any other calls what it gives as the first call. The counter has the same value after validation as before, at any depth, and never leaves the range of int; a name or hint is written within its array, ends there, and is read back before anything else is written.", "quantifier": "for every sequence of validations, parses, environment notes and option names, all programs, lines, environments and formats, and every content of the arrays", "why_tests_cant": "What went before in the process is unlimited. A counter that is not taken back when a table is bad, or a name that is not ended properly, shows only after a certain sequence of calls; the tests run each case in a process of its own.", "anchors": ["source/core/validation/validate_structure.c:validate_structure", "source/core/parsing/load_env_vars.c:get_env_var_name", "source/core/parsing/load_env_vars.c:load_env", "source/display/help/help_formatter.c:get_env_var_name_for_display", "source/display/help/help_formatter.c:format_collection_hint", "source/display/help/help_formatter.c:append_env_info", "source/display/help/help_formatter.c:print_option_name", "source/api/argus_parse.c:argus_parse"]}
{"id": "C104", "title": "Classification of bytes stays in its range", "statement": "isdigit, tolower and toupper are called only with values for which C defines them (those of unsigned char, and EOF), whatever bytes the program, the line and the environment contain. Where this holds the parse is the one of all other properties. (The code passes a plain char: with a signed char, as on x86, the bytes 128 to 254 are outside the range, and a first argument such as -\u00e9 makes every program undefined; with an unsigned char there is no exception.)", "quantifier": "for both kinds of char, every program, environment and line, all bytes, and all callbacks", "why_tests_cant": "The values are undefined by the standard only, and common libraries have tables that forgive them, so tests with texts beyond ASCII pass by luck of the platform; which calls see which bytes depends on all of the line.", "anchors": ["source/core/parsing/parse_args.c:parse_args", "source/callbacks/handlers/bool_handler.c:string_to_bool", "source/callbacks/handlers/map_bool_handler.c:string_to_bool", "source/callbacks/handlers/array_int_handler.c:search_range_separator", "source/core/parsing/load_env_vars.c:get_env_var_name"]}
{"id": "C105", "title": "What is kept is no larger than what was given", "statement": "After a successful parse, any options with handlers of the library together hold at most one entry more per byte of the command line and of the environment variables they read (counted with the byte that ends each argument), keep at most that many bytes more of text, and have room for at most two entries per byte besides the eight of a first allocation. (Int arrays break the first and the last: the text of a range stands for up to 2^31 entries whatever its length.)", "quantifier": "for every program with handlers of the library, every set of different options of it, every successful parse, all lines, environments and platforms", "why_tests_cant": "Lengths of lines and numbers of options are unlimited. Tests check what a few short lines leave, not that no line leaves more than it has, which is what protects a service from being made to allocate without end.", "anchors": ["source/callbacks/handlers/array_int_handler.c:add_range_values", "source/callbacks/handlers/array_string_handler.c:array_string_handler", "source/callbacks/handlers/map_string_handler.c:set_kv_pair", "source/utils/multi_values.c:adjust_array_size", "source/utils/multi_values.c:adjust_map_size", "source/core/parsing/execute_callbacks.c:execute_callbacks"]}
{"id": "C106", "title": "What the help shows can be typed", "statement": "The names which the help shows for an option or a subcommand are names under which the parser finds it: typed as they are shown, at the level whose help shows them, they reach this option, with the value given, or select this subcommand, and no other. (This holds exactly for the first option of a name, if a long name has at most 63 bytes and no =, a short name is no dash and is not read as a negative number; and for a subcommand whose name begins no name declared before it. Otherwise the option or subcommand stays as it was. Debug mode refuses equal names of options, but none of the other cases.)", "quantifier": "for every level of every program, all names and values, all callbacks, and all states before the parse", "why_tests_cant": "Help and parser are separate code with separate limits: one prints the declared text, the other reads a copy of 63 bytes up to the first = and stops at the first match. Tests use a few short names that are all different.", "anchors": ["source/display/help/help_formatter.c:print_option_name", "source/core/parsing/option_handle_long.c:handle_long_option", "source/core/parsing/option_handle_short.c:handle_short_option", "source/core/parsing/parse_args.c:find_subcommand", "source/core/parsing/parse_args.c:parse_args", "source/utils/option_lookup.c:find_option_by_lname", "source/utils/option_lookup.c:find_option_by_sname"]}
{"id": "C107", "title": "What the help shows as a value can be given", "statement": "Typed as the value of its option or positional argument, a choice which the help lists is taken and passes the validator, and so does every number between the limits it shows, and nothing else passes; and the default it shows, typed, gives the default. (Strings and truth values hold without exception. Numbers hold within 32 bits: choices and limits of 64 bits are accepted and shown, but compared with the lower half of the value, so 5000000000 is listed and refused. Of two floats with the same two decimals at least one is not what its own text gives.)", "quantifier": "for every option that takes a value and is found by its name and every positional argument, typed after -- and the words for the arguments before it, all choices, limits and defaults, all values typed, and all ways in which the C library reads and prints floats", "why_tests_cant": "The text of the help, the handler and the validator are three functions that read three members of the same union. Tests check each with a few small numbers.", "anchors": ["source/callbacks/validators/choices_validator.c:choices_int_validator", "source/callbacks/validators/choices_validator.c:choices_string_validator", "source/callbacks/validators/choices_validator.c:format_choices_validator", "source/callbacks/validators/range_validator.c:range_validator", "source/callbacks/validators/range_validator.c:format_range_validator", "source/display/help/help_formatter.c:append_default_info", "source/callbacks/handlers/int_handler.c:int_handler"]}
{"id": "C108", "title": "A command that is listed can be called as it is listed", "statement": "Every line of the overview of commands, and of the list printed after a command that cannot run by itself, shows words. Typed, these words are accepted, the commands selected have these names, the last is the one whose help the line shows, argus_exec calls its action if it has one, and the usage line repeats the words. (This needs names of commands without spaces that do not begin with a dash and do not begin the name of a command declared before; debug mode does not ask for this. Paths of 512 bytes and more are shown cut, and nothing may be nested deeper than eight levels.)", "quantifier": "for every program, all trees of commands, all names and help texts, and all callbacks", "why_tests_cant": "The lists walk down the tables and print every name, while the parser compares the beginning of names and stops where more than one matches. Whether each listed path works depends on all names of all levels, and tests call a few of them.", "anchors": ["source/display/command_display.c:display_all_commands", "source/display/command_display.c:display_available_subcommands", "source/display/command_display.c:print_subcommand_paths", "source/core/parsing/parse_args.c:find_subcommand", "source/core/parsing/parse_args.c:parse_args", "source/api/argus_exec.c:argus_exec", "source/display/usage_display.c:display_usage"]}
{"id": "C109", "title": "The parser stays within argv", "statement": "argus_parse reads argv[1] to argv[argc - 1] and nothing else: it takes at most one round for each argument, its indices and counts do not overflow, also where an option takes the next argument as its value and where a subcommand gets the rest of the array, and the result depends on these texts only, not on argv[0] and not on what follows. With an argc of 0 nothing is read. (The count must be true: a NULL before argv[argc] is compared with strcmp.)", "quantifier": "for all arrays of pointers, all counts that an int can hold, all programs with any tree of commands, all callbacks and all environments", "why_tests_cant": "The index is moved by the handlers of options as well as by the loop, and each level of commands gets a shifted array with a new count. A read one place too far finds the NULL at the end of argv or the environment behind it, which tests do not see unless the last argument is of the right kind at the right level.", "anchors": ["source/api/argus_parse.c:argus_parse", "source/core/parsing/parse_args.c:parse_args", "source/core/parsing/option_handle_long.c:handle_long_option", "source/core/parsing/option_handle_short.c:handle_short_option", "source/core/parsing/option_handle_subcommand.c:handle_subcommand"]}
{"id": "C110", "title": "Tables are read up to their end and no further", "statement": "Every loop over a table of options sees the entries before the end mark one after the other and nothing else. The lookups by long name, short name, name, position and name of a subcommand read no entry behind OPTION_END(), their index does not overflow, and they return the first entry of the table that fits, whatever follows the table in memory. The checks after the parse (required options, conflicts, exclusive groups, validators) read the table up to its end and the lists of names and validators up to their NULL. Loading the environment looks at each entry once although handlers change the entries meanwhile, and argus_free changes nothing behind the end. The checks of a definition (placement, naming, dependencies, defaults and the form of each entry) do the same, also where each long name is compared with all entries behind its own, and the array of used short names is never left. (A table or list without an end mark is read past its end by a loop that does not return before.)", "quantifier": "for all tables with up to INT_MAX entries, all contents of the memory behind them, all names and positions, and for the loop all bodies", "why_tests_cant": "What is behind an array is up to the linker, and is often zero, which is an end mark too. A loop that runs one entry too far, or returns an entry from behind the end, gives the right answers in tests until another table happens to follow.", "anchors": ["source/utils/option_lookup.c:find_option_by_lname", "source/utils/option_lookup.c:find_option_by_sname", "source/utils/option_lookup.c:find_positional", "source/utils/option_lookup.c:find_option_by_name", "source/core/parsing/parse_args.c:find_subcommand", "source/core/parsing/post_parse_validation.c:validate_options_set", "source/core/parsing/post_parse_validation.c:validate_required", "source/core/parsing/post_parse_validation.c:validate_conflicts", "source/core/parsing/post_parse_validation.c:call_validators", "source/core/parsing/load_env_vars.c:load_env", "source/api/argus_free.c:free_options", "source/core/validation/validate_arguments.c:validate_dependencies", "source/core/validation/validate_arguments.c:validate_default_value", "source/core/validation/validate_structure.c:validate_type_format", "source/core/validation/validate_structure.c:validate_placement", "source/core/validation/validate_structure.c:lname_is_unique", "source/core/validation/validate_structure.c:validate_naming", "includes/argus/options.h:OPTION_END"]}
