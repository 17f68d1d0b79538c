{
 "claims": [
  {
   "property": "C01",
   "status": "proved",
   "theorems": [
    "Argus.C01_long_attached_eq_separate"
   ],
   "note": "Proved by: the two command lines run through equal states (equation between runs, any prefix and rest)."
  },
  {
   "property": "C02",
   "status": "proved",
   "theorems": [
    "Argus.C02_short_attached_eq_separate"
   ],
   "note": "Proved by: equation between the two runs. Note: the case where `-o` itself reads as a negative number for a numeric positional is excluded by a hypothesis, as in the statement of the syntax."
  },
  {
   "property": "C03",
   "status": "proved",
   "theorems": [
    "Argus.C03_cluster_eq_separate"
   ],
   "note": "Proved by: equation between the two runs, by unfolding one letter of the cluster."
  },
  {
   "property": "C04",
   "status": "partial",
   "theorems": [
    "Argus.C04_unknown_long_rejected_partial",
    "Argus.C04_unknown_short_rejected",
    "Argus.C04_long_name_cut",
    "Argus.C04_first_63_bytes"
   ],
   "note": "Proved by: decision logic after any prefix. Missing: false for long names: exactly the first 63 bytes count (`C04_first_63_bytes`, `C04_long_name_cut`)."
  },
  {
   "property": "C05",
   "status": "partial",
   "theorems": [
    "Argus.C05_long_name_cut",
    "Argus.C05_missing_value_long_partial",
    "Argus.C05_missing_value_short"
   ],
   "note": "Proved by: decision logic after any prefix. Missing: false for declared names of 64 bytes and more (`C05_long_name_cut`); of a longer name given, the first 63 bytes decide."
  },
  {
   "property": "C06",
   "status": "proved",
   "theorems": [
    "Argus.C06_after_dashes_positional",
    "Argus.C06_after_dashes_nothing_else",
    "Argus.C06_after_dashes_text",
    "Argus.C06_dashes_as_value"
   ],
   "note": "Proved by: induction over the arguments after `--`, frame for everything else. Note: the case of `--` right after an option that needs a value is separate: there `--` is the value (`C06_dashes_as_value`, deviation 41)."
  },
  {
   "property": "C07",
   "status": "proved",
   "theorems": [
    "Argus.C07_positionals_in_order",
    "Argus.C07_positional_step",
    "Argus.C07_no_slot_rejected",
    "Argus.C07_slot_rule",
    "Argus.C07_string_slots",
    "Argus.C07_slot_count"
   ],
   "note": "Proved by: induction over arguments against the slot specification `slotAt` and the count `SlotCount`."
  },
  {
   "property": "C08",
   "status": "partial",
   "theorems": [
    "Argus.C08_negative_numbers_partial",
    "Argus.C08_variadic_rejects_negative",
    "Argus.C08_no_number",
    "Argus.C08_other_slots_refuse"
   ],
   "note": "Proved by: decision logic after any prefix. Missing: false for variadic numeric positionals (`C08_variadic_rejects_negative`; `C08_other_slots_refuse` for all of them)."
  },
  {
   "property": "C09",
   "status": "partial",
   "theorems": [
    "Argus.C09_unique_prefix_selects",
    "Argus.C09_abbreviation_is_name",
    "Argus.C09_full_name_selects_partial",
    "Argus.C09_full_name_can_be_ambiguous",
    "Argus.C09_ambiguous_rejected",
    "Argus.C09_no_match_no_subcommand"
   ],
   "note": "Proved by: induction over the table against the list of matching subcommands. Missing: false for a full name that begins an earlier name (`C09_full_name_can_be_ambiguous`); the theorems together decide every word."
  },
  {
   "property": "C10",
   "status": "proved",
   "theorems": [
    "Argus.C10_rest_irrelevant"
   ],
   "note": "Proved by: induction over the prefix."
  },
  {
   "property": "C11",
   "status": "proved",
   "theorems": [
    "Argus.C11_last_text",
    "Argus.C11_last_wins"
   ],
   "note": "Proved by: refinement of the parse to a list of requests, then induction over it."
  },
  {
   "property": "C12",
   "status": "proved",
   "theorems": [
    "Argus.C12_frame"
   ],
   "note": "Proved by: frame invariant by induction over arguments, tables and the command stack."
  },
  {
   "property": "C13",
   "status": "partial",
   "theorems": [
    "Argus.C13_strings_partial",
    "Argus.C13_floats_partial",
    "Argus.C13_accepted_partial",
    "Argus.C13_comma_is_repetition_partial",
    "Argus.C13_only_commas",
    "Argus.C13_line_partial"
   ],
   "note": "Proved by: refinement to list functions, induction over pieces and occurrences; on whole lines for all arrays and maps (`C13_line_partial`): storing is additive in the pieces and does not look at `is_set` and `is_allocated`, so both lines go through the same state. Missing: false for a first text of commas only (`C13_only_commas`); on whole lines without flags that sort or remove values."
  },
  {
   "property": "C14",
   "status": "proved",
   "theorems": [
    "Argus.C14_split",
    "Argus.C14_fields_unique"
   ],
   "note": "Proved by: refinement to `fields` by induction over the text."
  },
  {
   "property": "C15",
   "status": "partial",
   "theorems": [
    "Argus.C15_expand_partial",
    "Argus.C15_accepted_partial",
    "Argus.C15_ints_of_range",
    "Argus.C15_rejected_partial",
    "Argus.C15_garbage_accepted",
    "Argus.C15_truncated",
    "Argus.C15_int_max",
    "Argus.C15_meaning_unique",
    "Argus.C15_meaningless_iff",
    "Argus.C15_every_text",
    "Argus.C15_every_parse",
    "Argus.C15_one_text",
    "Argus.C15_interval",
    "Argus.C15_odd_texts"
   ],
   "note": "Proved by: induction over the range; decimal round trip; for every other text the exact meaning `RangeText` (`C15_every_text`, `C15_every_parse`, `C15_one_text`). Missing: false beyond `int`, at INT_MAX and for text around a separator (`C15_truncated`, `C15_int_max`, `C15_garbage_accepted`)."
  },
  {
   "property": "C16",
   "status": "partial",
   "theorems": [
    "Argus.C16_strings_partial",
    "Argus.C16_ints_partial",
    "Argus.C16_floats_partial",
    "Argus.C16_parse_partial",
    "Argus.C16_parse_ints_partial",
    "Argus.C16_int64_order",
    "Argus.C16_nan_order"
   ],
   "note": "Proved by: invariant over histories. Missing: false beyond `int` (`C16_int64_order`) and for doubles with a NaN among them (`C16_nan_order`); a first text of commas only excluded."
  },
  {
   "property": "C17",
   "status": "partial",
   "theorems": [
    "Argus.C17_strings_partial",
    "Argus.C17_ints_partial",
    "Argus.C17_floats_partial",
    "Argus.C17_parse_partial",
    "Argus.C17_parse_ints_partial",
    "Argus.C17_int64_lost",
    "Argus.C17_near_lost",
    "Argus.C17_infinity_twice",
    "Argus.C17_sorted_unique_lost"
   ],
   "note": "Proved by: invariant over histories. Missing: false beyond `int` and for doubles (`C17_int64_lost`, `C17_near_lost`, `C17_infinity_twice`, `C17_sorted_unique_lost`)."
  },
  {
   "property": "C18",
   "status": "partial",
   "theorems": [
    "Argus.C18_last_write_wins_partial",
    "Argus.C18_accepts_partial",
    "Argus.C18_rejects_missing_equals",
    "Argus.C18_bad_text_never_parses",
    "Argus.C18_only_commas"
   ],
   "note": "Proved by: refinement to a finite map, induction over pairs and occurrences. Missing: false for a first text of commas only (`C18_only_commas`)."
  },
  {
   "property": "C19",
   "status": "partial",
   "theorems": [
    "Argus.C19_flags_partial",
    "Argus.C19_final_partial",
    "Argus.C19_int64_values"
   ],
   "note": "Proved by: invariant over histories. Missing: false for ints beyond 32 bits (`C19_int64_values`)."
  },
  {
   "property": "C20",
   "status": "partial",
   "theorems": [
    "Argus.C20_exact_partial",
    "Argus.C20_saturates_partial",
    "Argus.C20_variadic",
    "Argus.C20_garbage_accepted",
    "Argus.C20_every_text"
   ],
   "note": "Proved by: decimal round trip by induction on digits; what any text stands for: `C20_every_text`. Missing: false: an int option accepts any text (`C20_garbage_accepted`)."
  },
  {
   "property": "C21",
   "status": "proved",
   "theorems": [
    "Argus.C21_bool_map",
    "Argus.C21_bool_option",
    "Argus.C21_parse"
   ],
   "note": "Proved by: decision logic against the list of spellings."
  },
  {
   "property": "C22",
   "status": "partial",
   "theorems": [
    "Argus.C22_range_partial",
    "Argus.C22_typed_partial",
    "Argus.C22_rejects",
    "Argus.C22_int64_escapes"
   ],
   "note": "Proved by: invariant of a successful parse. Missing: false for `as_int64` (`C22_int64_escapes`)."
  },
  {
   "property": "C23",
   "status": "partial",
   "theorems": [
    "Argus.C23_choice_partial",
    "Argus.C23_choice_decides",
    "Argus.C23_range_ignores_the_value",
    "Argus.C23_choice_misses"
   ],
   "note": "Proved by: invariant of a successful parse. Missing: false for V_RANGE and for choices that binary32 cannot hold (`C23_range_ignores_the_value`, `C23_choice_misses`)."
  },
  {
   "property": "C24",
   "status": "partial",
   "theorems": [
    "Argus.C24_string_choice",
    "Argus.C24_string_decides",
    "Argus.C24_int_choice_partial",
    "Argus.C24_int_decides_partial",
    "Argus.C24_int64_escapes"
   ],
   "note": "Proved by: invariant of a successful parse; decision logic. Missing: false for `as_int64` (`C24_int64_escapes`)."
  },
  {
   "property": "C25",
   "status": "proved",
   "theorems": [
    "Argus.C25_length",
    "Argus.C25_count",
    "Argus.C25_length_decides",
    "Argus.C25_count_decides",
    "Argus.C25_inverted"
   ],
   "note": "Proved by: invariant of a successful parse; decision logic."
  },
  {
   "property": "C26",
   "status": "proved",
   "theorems": [
    "Argus.C26_success_satisfies",
    "Argus.C26_texts",
    "Argus.C26_nothing_else_refused",
    "Argus.C26_refusal_has_reason"
   ],
   "note": "Proved by: equivalence with a declarative specification, by induction over tables and the command stack."
  },
  {
   "property": "C27",
   "status": "partial",
   "theorems": [
    "Argus.C27_positional_partial",
    "Argus.C27_required_option_ignored"
   ],
   "note": "Proved by: from C26 and the frame. Missing: false for options (`C27_required_option_ignored`)."
  },
  {
   "property": "C28",
   "status": "partial",
   "theorems": [
    "Argus.C28_command_line_over_environment",
    "Argus.C28_environment_over_default_partial",
    "Argus.C28_override",
    "Argus.C28_default",
    "Argus.C28_default_hides_environment",
    "Argus.C28_final_state",
    "Argus.C28_default_wins",
    "Argus.C28_override_adds"
   ],
   "note": "Proved by: induction over tables and the command stack; `C28_final_state` gives the state of every option after a successful parse from the texts of the command line and the environment. Missing: false for every option with a default (`C28_default_wins`, `C28_default_hides_environment`); for collections FLAG_ENV_OVERRIDE adds instead of replacing (`C28_override_adds`)."
  },
  {
   "property": "C29",
   "status": "partial",
   "theorems": [
    "Argus.C29_variable_name_partial",
    "Argus.C29_prefix_text_taken_for_prefix",
    "Argus.C29_prefix_upper_cased",
    "Argus.C29_long_name_truncated",
    "Argus.C29_exactly"
   ],
   "note": "Proved by: decision logic; `C29_exactly` is an equivalence that says in which cases the documented variable is read. Missing: false for names of 128 bytes and more, for prefixes that are not upper case and for names that merely begin with the prefix (three witnesses); `C29_exactly` has all such cases."
  },
  {
   "property": "C30",
   "status": "proved",
   "theorems": [
    "Argus.C30_only_consulted_variables"
   ],
   "note": "Proved by: two runs in lock step."
  },
  {
   "property": "C31",
   "status": "partial",
   "theorems": [
    "Argus.C31_applies_after_parse",
    "Argus.C31_bare",
    "Argus.C31_bare_unknown",
    "Argus.C31_root",
    "Argus.C31_path_partial",
    "Argus.C31_full_path",
    "Argus.C31_other_path",
    "Argus.C31_abbreviated_path"
   ],
   "note": "Proved by: induction over components and the command stack. Missing: false for abbreviated components (`C31_abbreviated_path`)."
  },
  {
   "property": "C32",
   "status": "partial",
   "theorems": [
    "Argus.C32_unknown_path",
    "Argus.C32_known_path",
    "Argus.C32_wrong_kind",
    "Argus.C32_array_get",
    "Argus.C32_map_get",
    "Argus.C32_defined_after_parse_partial",
    "Argus.C32_only_commas"
   ],
   "note": "Proved by: decision logic; safety from C42. Missing: false after a first text of commas only (`C32_only_commas`)."
  },
  {
   "property": "C33",
   "status": "proved",
   "theorems": [
    "Argus.C33_array_iterator",
    "Argus.C33_map_iterator",
    "Argus.C33_empty_iterator"
   ],
   "note": "Proved by: induction over sequences of steps and resets."
  },
  {
   "property": "C34",
   "status": "proved",
   "theorems": [
    "Argus.C34_stack_is_selected_path",
    "Argus.C34_exec_runs_innermost",
    "Argus.C34_exec_without_action",
    "Argus.C34_exec_without_command"
   ],
   "note": "Proved by: invariant of the command stack, decision logic."
  },
  {
   "property": "C35",
   "status": "proved",
   "theorems": [
    "Argus.C35_exit_ends_process",
    "Argus.C35_exit_long",
    "Argus.C35_exit_short"
   ],
   "note": "Proved by: decision logic after any prefix."
  },
  {
   "property": "C36",
   "status": "partial",
   "theorems": [
    "Argus.C36_free_releases",
    "Argus.C36_failed_parse_has_freed",
    "Argus.C36_nothing_left",
    "Argus.C36_free_defined_partial"
   ],
   "note": "Proved by: induction over tables. Missing: the release is undefined after a first text of commas only (`C42_only_commas`)."
  },
  {
   "property": "C37",
   "status": "partial",
   "theorems": [
    "Argus.C37_status_is_error_code_partial",
    "Argus.C37_exit_code",
    "Argus.C37_exit_from_environment"
   ],
   "note": "Proved by: induction over all stages. Missing: false for FLAG_EXIT options read from the environment (`C37_exit_from_environment`)."
  },
  {
   "property": "C38",
   "status": "partial",
   "theorems": [
    "Argus.C38_writes_inside",
    "Argus.C38_count_within_capacity_partial",
    "Argus.C38_maps_defined_partial",
    "Argus.C38_strings_defined_partial",
    "Argus.C38_only_commas"
   ],
   "note": "Proved by: invariant over histories. Missing: false after a first text of commas only (`C38_only_commas`)."
  },
  {
   "property": "C39",
   "status": "partial",
   "theorems": [
    "Argus.C39_same_values_partial",
    "Argus.C39_arrays_partial",
    "Argus.C39_maps_partial",
    "Argus.C39_maps_distinct_partial",
    "Argus.C39_out_of_memory_partial",
    "Argus.C39_first_accepted_partial",
    "Argus.C39_rejected_leaks",
    "Argus.C39_key_leaks",
    "Argus.C39_bad_value_leaks",
    "Argus.C39_int_array_null",
    "Argus.C39_float_array_null",
    "Argus.C39_map_null",
    "Argus.C39_key_null",
    "Argus.C39_realloc_fails",
    "Argus.C39_first_copy_leaks",
    "Argus.C39_claim_false",
    "Argus.C39_release_forgets"
   ],
   "note": "Proved by: simulation of the model without memory, counting of live blocks. Missing: false in general: ten witnesses for leaks and unchecked allocations; proved for the cases named in the theorems."
  },
  {
   "property": "C40",
   "status": "proved",
   "theorems": [
    "Argus.C40_accepts_exactly_well_formed",
    "Argus.C40_same_context",
    "Argus.C40_short_names",
    "Argus.C40_handlers",
    "Argus.C40_no_stack_overflow",
    "Argus.C40_cycle_never_ends",
    "Argus.C40_flags_not_checked",
    "Argus.C40_same_subcommand_twice",
    "Argus.C40_name_order",
    "Argus.C40_two_optional_many",
    "Argus.C40_sorted_many_rejected"
   ],
   "note": "Proved by: equivalence with a specification of well-formed definitions, by induction over tables and nesting."
  },
  {
   "property": "C41",
   "status": "proved",
   "theorems": [
    "Argus.C41_no_stack_overflow",
    "Argus.C41_deeper_overflows"
   ],
   "note": "Proved by: invariant of the depth; witness for nine levels."
  },
  {
   "property": "C42",
   "status": "partial",
   "theorems": [
    "Argus.C42_int_max_iff",
    "Argus.C42_defined_partial",
    "Argus.C42_only_overflow_partial",
    "Argus.C42_without_lists_partial",
    "Argus.C42_only_commas",
    "Argus.C42_only_commas_then_more",
    "Argus.C42_int_max",
    "Argus.C42_array_default",
    "Argus.C42_env_override",
    "Argus.C42_env_override_array",
    "Argus.C42_wrong_validator"
   ],
   "note": "Proved by: typing invariant of options, preserved by every step. Missing: false for a first text of commas only, for an int array that gets a range ending at INT_MAX (`C42_int_max_iff` is the exact condition), for arrays with a default, for a rejected override and for a validator of another type (seven witnesses); the texts of messages are in C71."
  },
  {
   "property": "C43",
   "status": "proved",
   "theorems": [
    "Argus.C43_once",
    "Argus.C43_sections",
    "Argus.C43_groups",
    "Argus.C43_text",
    "Argus.C43_entry"
   ],
   "note": "Proved by: invariant of the organising loop; equation for the text."
  },
  {
   "property": "C44",
   "status": "partial",
   "theorems": [
    "Argus.C44_wrap_partial",
    "Argus.C44_width_partial",
    "Argus.C44_endless",
    "Argus.C44_narrow",
    "Argus.C44_nothing_lost",
    "Argus.C44_ends_iff"
   ],
   "note": "Proved by: induction over the text. Missing: false for a width of at most the indentation plus 2 (`C44_endless`, `C44_narrow`); nothing is lost at any width but the endless one (`C44_nothing_lost`, `C44_ends_iff`)."
  },
  {
   "property": "C45",
   "status": "partial",
   "theorems": [
    "Argus.C45_same",
    "Argus.C45_shown_partial",
    "Argus.C45_shown_cut",
    "Argus.C45_none",
    "Argus.C45_cut"
   ],
   "note": "Proved by: equation between the two functions; `C45_shown_cut` says what is shown of names of any length. Missing: false for names above 247 bytes, of which 248 bytes are shown (`C45_cut`, `C45_shown_cut`)."
  },
  {
   "property": "C46",
   "status": "proved",
   "theorems": [
    "Argus.C46_strings",
    "Argus.C46_ints",
    "Argus.C46_floats"
   ],
   "note": "Proved by: induction over the choices in memory, with 64-bit sizes."
  },
  {
   "property": "C47",
   "status": "partial",
   "theorems": [
    "Argus.C47_restored_partial",
    "Argus.C47_all_restored_partial",
    "Argus.C47_redirect",
    "Argus.C47_dup2_ignored",
    "Argus.C47_cleanup_stderr_partial",
    "Argus.C47_cleanup_misses_stdout"
   ],
   "note": "Proved by: state machine invariant over arbitrary sequences of calls. Missing: false for a failing `dup2` and for cleanup of stdout (`C47_dup2_ignored`, `C47_cleanup_misses_stdout`)."
  },
  {
   "property": "C48",
   "status": "partial",
   "theorems": [
    "Argus.C48_read_partial",
    "Argus.C48_defined",
    "Argus.C48_earlier_text",
    "Argus.C48_full_pipe"
   ],
   "note": "Proved by: induction over chunks. Missing: false for text pending in stdio and for more text than the pipe holds (`C48_earlier_text`, `C48_full_pipe`)."
  },
  {
   "property": "C49",
   "status": "partial",
   "theorems": [
    "Argus.C49_strcpy",
    "Argus.C49_strncpy",
    "Argus.C49_strncpy_string",
    "Argus.C49_strcat",
    "Argus.C49_strncat_partial",
    "Argus.C49_strncat_beyond",
    "Argus.C49_strncat_full",
    "Argus.C49_null",
    "Argus.C49_strndup",
    "Argus.C49_option_name"
   ],
   "note": "Proved by: induction over the bytes. Missing: false for `safe_strncat` on a destination longer than its size (`C49_strncat_beyond`)."
  },
  {
   "property": "C50",
   "status": "partial",
   "theorems": [
    "Argus.C50_untouched_keeps_default_partial",
    "Argus.C50_default_counts_as_set"
   ],
   "note": "Proved by: frame and environment lemmas. Missing: false for the set mark of options with a default (`C50_default_counts_as_set`)."
  },
  {
   "property": "C51",
   "status": "proved",
   "theorems": [
    "Argus.C51_exchange",
    "Argus.C51_exchange_long"
   ],
   "note": "Proved by: commutation of two requests, refinement of the parse to requests."
  },
  {
   "property": "C52",
   "status": "partial",
   "theorems": [
    "Argus.C52_scalars_partial",
    "Argus.C52_scalars_without_subcommands_partial",
    "Argus.C52_again_after_success_partial",
    "Argus.C52_array_after_free",
    "Argus.C52_array_overflow_after_free",
    "Argus.C52_ninth_parse"
   ],
   "note": "Proved by: typing invariant over histories. Missing: false for options that collect values and for nine parses with a subcommand (three witnesses)."
  },
  {
   "property": "C53",
   "status": "partial",
   "theorems": [
    "Argus.C53_codes",
    "Argus.C53_distinct",
    "Argus.C53_described_partial",
    "Argus.C53_ambiguous_unknown",
    "Argus.C53_exec_described",
    "Argus.C53_access_undescribed"
   ],
   "note": "Proved by: case analysis of all stages, with a witness for each code. Missing: false for ARGUS_ERROR_AMBIGUOUS_SUBCOMMAND (`C53_ambiguous_unknown`)."
  },
  {
   "property": "C54",
   "status": "proved",
   "theorems": [
    "Argus.C54_only_error_code",
    "Argus.C54_answers_independent"
   ],
   "note": "Proved by: equation."
  },
  {
   "property": "C55",
   "status": "proved",
   "theorems": [
    "Argus.C55_usage"
   ],
   "note": "Proved by: equation."
  },
  {
   "property": "C56",
   "status": "partial",
   "theorems": [
    "Argus.C56_cut_partial",
    "Argus.C56_all_commands_partial",
    "Argus.C56_third_level"
   ],
   "note": "Proved by: induction over tables; `C56_cut_partial` for names of every length, cut as the buffers cut them. Missing: false from the third level on (`C56_third_level`); paths are cut to 511 bytes on the first level and 1023 on the second."
  },
  {
   "property": "C57",
   "status": "partial",
   "theorems": [
    "Argus.C57_cut_partial",
    "Argus.C57_available_partial",
    "Argus.C57_ends_iff",
    "Argus.C57_path_cut",
    "Argus.C57_endless"
   ],
   "note": "Proved by: induction over the depth; `C57_cut_partial` for names of every length, `C57_ends_iff` for exactly which tables the list ends. Missing: paths of 512 bytes and more are cut (`C57_path_cut`); a table that contains itself never ends (`C57_endless`)."
  },
  {
   "property": "C58",
   "status": "proved",
   "theorems": [
    "Argus.C58_parse_follows_reading",
    "Argus.C58_same_reading_same_result",
    "Argus.C58_reading_fixed_by_declarations"
   ],
   "note": "Proved by: refinement of the parsing loop to the abstract reading `meaning`, by induction over the arguments."
  },
  {
   "property": "C59",
   "status": "partial",
   "theorems": [
    "Argus.C59_numbers_partial",
    "Argus.C59_parsed_partial",
    "Argus.C59_newline_accepted"
   ],
   "note": "Proved by: the language of each pattern is computed from its text and shown equal to the specification, by induction over repetitions; refinement of the parse. Missing: a newline at the end of the text is accepted as well (`C59_newline_accepted`)."
  },
  {
   "property": "C60",
   "status": "partial",
   "theorems": [
    "Argus.C60_ipv6_wrongly_accepted",
    "Argus.C60_ipv6_wrongly_refused",
    "Argus.C60_ipv6_partial",
    "Argus.C60_network_partial",
    "Argus.C60_ipv4_partial",
    "Argus.C60_parsed_partial",
    "Argus.C60_ipv4_tail_accepted",
    "Argus.C60_zone_accepted"
   ],
   "note": "Proved by: as C59; the twelve alternatives for IPv6 one by one; Spec/Ipv6 has the forms of RFC 4291 and RFC 4007 and Props/Ipv6 the exact difference in both directions. Missing: a newline at the end; anything may follow an IPv4 address (`C60_ipv4_tail_accepted`), zoned texts need not be addresses (`C60_zone_accepted`; exactly which in `C60_ipv6_wrongly_accepted`), and some dotted or zoned addresses are refused (`C60_ipv6_wrongly_refused`)."
  },
  {
   "property": "C61",
   "status": "partial",
   "theorems": [
    "Argus.C61_mail_partial",
    "Argus.C61_parsed_partial",
    "Argus.C61_empty_label_accepted"
   ],
   "note": "Proved by: as C59. Missing: a newline at the end; empty labels in hosts (`C61_empty_label_accepted`)."
  },
  {
   "property": "C62",
   "status": "partial",
   "theorems": [
    "Argus.C62_dates_partial",
    "Argus.C62_parsed_partial",
    "Argus.C62_calendar_ignored"
   ],
   "note": "Proved by: as C59. Missing: a newline at the end; the lengths of months (`C62_calendar_ignored`)."
  },
  {
   "property": "C63",
   "status": "partial",
   "theorems": [
    "Argus.C63_identities_partial",
    "Argus.C63_parsed_partial",
    "Argus.C63_newline_accepted"
   ],
   "note": "Proved by: as C59, with lookahead as a condition on the rest. Missing: a newline at the end (`C63_newline_accepted`)."
  },
  {
   "property": "C64",
   "status": "partial",
   "theorems": [
    "Argus.C64_files_partial",
    "Argus.C64_parsed_partial",
    "Argus.C64_space_refused"
   ],
   "note": "Proved by: as C59. Missing: a newline at the end; paths with spaces are refused (`C64_space_refused`)."
  },
  {
   "property": "C65",
   "status": "proved",
   "theorems": [
    "Argus.C65_refused",
    "Argus.C65_no_parse"
   ],
   "note": "Proved by: decision logic, refinement of the parse."
  },
  {
   "property": "C66",
   "status": "partial",
   "theorems": [
    "Argus.C66_any_allocator_partial",
    "Argus.C66_enough_partial",
    "Argus.C66_no_groups_partial",
    "Argus.C66_display_partial",
    "Argus.C66_group_null",
    "Argus.C66_entry_dropped",
    "Argus.C66_claim_false"
   ],
   "note": "Proved by: refinement of the linked lists to the plain lists of C43, by induction over the table, with an owner for every node. Missing: false when `malloc` fails: a group that is refused is used as a NULL pointer (`C66_group_null`), an entry that is refused is not shown (`C66_entry_dropped`)."
  },
  {
   "property": "C67",
   "status": "partial",
   "theorems": [
    "Argus.C67_marks",
    "Argus.C67_mark_lost",
    "Argus.C67_words_partial",
    "Argus.C67_description_partial",
    "Argus.C67_name_partial",
    "Argus.C67_constraint_shown_partial",
    "Argus.C67_positional_hidden",
    "Argus.C67_positional_witness",
    "Argus.C67_default_truncated",
    "Argus.C67_default_empty",
    "Argus.C67_default_cut",
    "Argus.C67_note_exactly",
    "Argus.C67_default_int_exactly",
    "Argus.C67_default_string_exactly",
    "Argus.C67_default_float_exactly",
    "Argus.C67_name_exactly"
   ],
   "note": "Proved by: equation for the whole entry with an independent specification of the text; exact condition for lost marks. Missing: texts beyond the buffers (31, 63, 127 and 255 bytes), where `C67_note_exactly`, `C67_default_int_exactly`, `C67_default_string_exactly`, `C67_default_float_exactly` and `C67_name_exactly` say that the sizes are exact; false for positionals with one short constraint (`C67_positional_hidden`), for three marks (`C67_marks`, `C67_mark_lost`), and for some defaults (`C67_default_truncated`, `C67_default_empty`, `C67_default_cut`)."
  },
  {
   "property": "C68",
   "status": "proved",
   "theorems": [
    "Argus.C68_after_parse",
    "Argus.C68_at_exit",
    "Argus.C68_same_command",
    "Argus.C68_version"
   ],
   "note": "Proved by: every display function factors through the declarations; frame of the parse."
  },
  {
   "property": "C69",
   "status": "partial",
   "theorems": [
    "Argus.C69_default_partial",
    "Argus.C69_float_only_zero",
    "Argus.C69_documented",
    "Argus.C69_negative"
   ],
   "note": "Proved by: frame of the parse (C50); case analysis over the exponents of doubles. Missing: false for floats: only zero survives (`C69_float_only_zero`, `C69_documented`), and negative ones are undefined (`C69_negative`)."
  },
  {
   "property": "C70",
   "status": "partial",
   "theorems": [
    "Argus.C70_ints_partial",
    "Argus.C70_strings",
    "Argus.C70_floats_partial",
    "Argus.C70_bools",
    "Argus.C70_overflow",
    "Argus.C70_int64_equal",
    "Argus.C70_null_both_ways",
    "Argus.C70_nan_both_ways",
    "Argus.C70_choices",
    "Argus.C70_array_text",
    "Argus.C70_value_text_partial",
    "Argus.C70_print_fails"
   ],
   "note": "Proved by: decision logic, induction over the array. Missing: false for integers beyond 32 bits or far apart, NULL and NaN (`C70_overflow`, `C70_int64_equal`, `C70_null_both_ways`, `C70_nan_both_ways`, `C70_print_fails`)."
  },
  {
   "property": "C71",
   "status": "partial",
   "theorems": [
    "Argus.C71_codes",
    "Argus.C71_truthful",
    "Argus.C71_defined_partial",
    "Argus.C71_all_defined_partial",
    "Argus.C71_undefined",
    "Argus.C71_unnamed"
   ],
   "note": "Proved by: every stage prints exactly one message with its status, and the message satisfies an independent relation `Deserved`; induction over the command line, the tables and the stack. Missing: false for subcommands without a help text: an ambiguous prefix prints NULL (`C71_undefined`); messages about ranges, lengths, counts and choices do not name the option (`C71_unnamed`)."
  },
  {
   "property": "C72",
   "status": "partial",
   "theorems": [
    "Argus.C72_grammar",
    "Argus.C72_used_partial",
    "Argus.C72_dropped",
    "Argus.C72_value_dropped"
   ],
   "note": "Proved by: reading (C58) and writing are inverse to each other: induction over the derivation in one direction, over the length of the line in the other. Missing: false for a lone dash, a second `--`, a value attached to a flag and names of more than 63 bytes, which are ignored (`C72_dropped`, `C72_value_dropped`)."
  },
  {
   "property": "C73",
   "status": "partial",
   "theorems": [
    "Argus.C73_any_allocator_partial",
    "Argus.C73_enough_partial",
    "Argus.C73_description_partial",
    "Argus.C73_name_partial",
    "Argus.C73_bracket_lost",
    "Argus.C73_constraint_hidden",
    "Argus.C73_error_shown",
    "Argus.C73_claim_false"
   ],
   "note": "Proved by: invariant: one block per text in hand, everything else as before, for each function from malloc upwards; refinement of `Model/Display` when no call is refused; `Opt.Left` lists what may be missing. Missing: false where append_env_info has removed a parenthesis and gets no memory (`C73_bracket_lost`); a constraint may be shown nowhere (`C73_constraint_hidden`); a refused group is C66; texts on the stack are not in memory blocks; the two kinds of blocks have separate allocators."
  },
  {
   "property": "C74",
   "status": "partial",
   "theorems": [
    "Argus.C74_complaints_partial",
    "Argus.C74_printed_partial",
    "Argus.C74_refused_partial",
    "Argus.C74_silent_iff_well_formed_partial",
    "Argus.C74_defined_partial",
    "Argus.C74_library_partial",
    "Argus.C74_default_told",
    "Argus.C74_innocent",
    "Argus.C74_claim_false",
    "Argus.C74_order_matters",
    "Argus.C74_option_flags_unsaid"
   ],
   "note": "Proved by: induction over the tables and over the nesting of subcommands; one rule per message in `Spec/Complaints`, exact in both directions; refinement of the statuses, so that refusal means a message. Missing: false where a validator that accepts a default value follows one that refuses it: NULL is printed (`C74_claim_false`); `C74_defined_partial` says exactly when it is defined; some messages are repeated for entries that are not to blame (`C74_innocent`); the message about the flags of an option never appears (`C74_option_flags_unsaid`); how often and in which order messages appear is in the model but not in the theorem."
  },
  {
   "property": "C75",
   "status": "proved",
   "theorems": [
    "Argus.C75_success_iff",
    "Argus.C75_one_outcome",
    "Argus.C75_else_refused",
    "Argus.C75_mixture_irrelevant",
    "Argus.C75_scalar_takes",
    "Argus.C75_collection_takes",
    "Argus.C75_scalar_takes_all"
   ],
   "note": "Proved by: refinement in both directions: the three stages are sequences of changes at single entries, and such a sequence is the same as its restriction to each entry; `C75_scalar_takes_all` and `C75_collection_takes` (`Props/Takes`) say by the texts alone which of them a scalar, an array, a variadic or a map option takes."
  },
  {
   "property": "C76",
   "status": "partial",
   "theorems": [
    "Argus.C76_dash",
    "Argus.C76_lines_partial"
   ],
   "note": "Proved by: exact form of an entry, then of its lines, from C44 and C67. Missing: widths below the column plus 3, where wrapping does not keep to the width or does not end (`C44_endless`, `C44_narrow`); the place of the dash is proved at every width (`C76_dash`)."
  },
  {
   "property": "C77",
   "status": "proved",
   "theorems": [
    "Argus.C77_declare_unspelled",
    "Argus.C77_declare_understood",
    "Argus.C77_declare_observed",
    "Argus.C77_lookup_same",
    "Argus.C77_require_needed",
    "Argus.C77_call_needed",
    "Argus.C77_default_needed",
    "Argus.C77_name_hides"
   ],
   "note": "Proved by: refinement: reading the line, running it, the environment, validation and release each commute with adding the entries; the conditions are shown to be needed by `C77_require_needed`, `C77_default_needed` and `C77_call_needed`, and that a new name may hide an outer one by `C77_name_hides`."
  },
  {
   "property": "C78",
   "status": "proved",
   "theorems": [
    "Argus.C78_only_called",
    "Argus.C78_only_called_ub"
   ],
   "note": "Proved by: simulation: every step of the parse reads and writes only those arrays."
  },
  {
   "property": "C79",
   "status": "proved",
   "theorems": [
    "Argus.C79_fewer_constraints",
    "Argus.C79_nothing_else",
    "Argus.C79_unconstrained"
   ],
   "note": "Proved by: C75 in both directions: handlers commute with exchanging the declared constraints (`runHandler_wear`), and the reading of a line depends on types, names and arrays only (`meaning_keys`)."
  },
  {
   "property": "C80",
   "status": "proved",
   "theorems": [
    "Argus.C80_texts_do_not_matter",
    "Argus.C80_texts_do_not_matter_ub",
    "Argus.C80_same_answers",
    "Argus.C80_same_messages",
    "Argus.C80_same_stderr",
    "Argus.C80_command_texts_quoted"
   ],
   "note": "Proved by: simulation: every step of the parse keeps the relation `ShownOtherwise` and prints the same. Note: the case of an ambiguous abbreviation is seen by users: it quotes the help texts of subcommands (`C80_command_texts_quoted`)."
  },
  {
   "property": "C81",
   "status": "proved",
   "theorems": [
    "Argus.C81_any_order",
    "Argus.C81_same_lines",
    "Argus.C81_permuted",
    "Argus.C81_positionals_stay",
    "Argus.C81_subcommands_stay",
    "Argus.C81_first_fault"
   ],
   "note": "Proved by: exchange of two neighbours: reading the line, each entry's changes, constraints and groups, and lookup commute with it (by C75 the order of entries does not occur in the outcome), then induction over exchanges; that positionals and subcommands have to stay is shown by `C81_positionals_stay` and `C81_subcommands_stay`."
  },
  {
   "property": "C82",
   "status": "partial",
   "theorems": [
    "Argus.C82_same_everywhere_partial",
    "Argus.C82_equal_values",
    "Argus.C82_large_ints",
    "Argus.C82_nan"
   ],
   "note": "Proved by: invariant (what the cells of each kind of option hold, keys of maps are unique) under which the comparison has no ties, so that two sorted permutations are equal; then the two runs agree step by step. Missing: maps sorted by value with equal values (`C82_equal_values`), sorted variadic ints that agree in their low 32 bits (`C82_large_ints`), sorted doubles, where NaN is equal to everything (`C82_nan`)."
  },
  {
   "property": "C83",
   "status": "partial",
   "theorems": [
    "Argus.C83_either_name_partial",
    "Argus.C83_attached_partial",
    "Argus.C83_digit",
    "Argus.C83_equals_sign"
   ],
   "note": "Proved by: refinement: the two handlers reach the same entry and do the same with it. Missing: long names of more than 63 bytes, which are cut, or with `=` in them (`C83_equals_sign`); short names that are digits where a number is expected (`C83_digit`)."
  },
  {
   "property": "C84",
   "status": "partial",
   "theorems": [
    "Argus.C84_same_as_given_partial",
    "Argus.C84_long_partial",
    "Argus.C84_flag_partial",
    "Argus.C84_default_ignores_variable"
   ],
   "note": "Proved by: refinement through the exact characterisation of success (C75), by induction over what happens to each entry. Missing: options with a default, which ignore their variable (`C84_default_ignores_variable`); options with FLAG_ENV_OVERRIDE, which read it also when they are given; positionals are covered by the general theorem only; refused lines may be refused for another of several faults."
  },
  {
   "property": "C85",
   "status": "partial",
   "theorems": [
    "Argus.C85_bool_partial",
    "Argus.C85_flag_any_text"
   ],
   "note": "Proved by: decision logic after the history of the option (C28). Missing: flags: they become true whatever the text is, also for 0, false and off (`C85_flag_any_text`); options with a default, as in C84."
  },
  {
   "property": "C86",
   "status": "partial",
   "theorems": [
    "Argus.C86_option_partial",
    "Argus.C86_default_always_set",
    "Argus.C86_command",
    "Argus.C86_bare_name_is_innermost"
   ],
   "note": "Proved by: refinement: from everything an option is handed (C28), the exact characterisation of success (C75) and the lookup of paths (C31, C32). Missing: options with a default: they always count as set, whatever the user gave (`C86_default_always_set`). A bare name refers to the innermost entry of that name (`C86_bare_name_is_innermost`)."
  },
  {
   "property": "C87",
   "status": "partial",
   "theorems": [
    "Argus.C87_count_partial",
    "Argus.C87_absent_not_checked",
    "Argus.C87_documented_case"
   ],
   "note": "Proved by: invariant; the violation by refinement through the exact characterisation of success (C75): an accepted line that leaves an entry unset is accepted whatever validators, requirements and conflicts that entry has. Missing: collections that are not given: no limit is looked at (`C87_absent_not_checked`, `C87_documented_case`)."
  },
  {
   "property": "C88",
   "status": "proved",
   "theorems": [
    "Argus.C88_see_the_outcome",
    "Argus.C88_all_met",
    "Argus.C88_success_iff",
    "Argus.C88_mixture_irrelevant",
    "Argus.C88_reads_the_same",
    "Argus.C88_not_called_early",
    "Argus.C88_single_run",
    "Argus.C88_local",
    "Argus.C88_documented_case",
    "Argus.C88_documented_shadowed"
   ],
   "note": "Proved by: refinement: a run with such validators is a run with validators that are shown its outcome (`C88_see_the_outcome`, `C88_single_run`), so the exact characterisation of success (C75) and every other statement about single runs carry over. Note: the case of a bare name in a validator is worth knowing: it is looked up in the innermost command first (`C88_documented_shadowed`)."
  },
  {
   "property": "C89",
   "status": "partial",
   "theorems": [
    "Argus.C89_advice_partial",
    "Argus.C89_no_advice_later",
    "Argus.C89_silent_case"
   ],
   "note": "Proved by: induction over what the line asks for: a refused run has entered a prefix of the selected commands, whose full names select them again (`meaning_chain_named`); then the run of the advised line is computed. Missing: false for faults found after the line was read: no advice is printed for them (`C89_no_advice_later`, `C89_silent_case`)."
  },
  {
   "property": "C90",
   "status": "partial",
   "theorems": [
    "Argus.C90_has_path",
    "Argus.C90_scalar_partial",
    "Argus.C90_strings_partial",
    "Argus.C90_typed",
    "Argus.C90_accepted_names",
    "Argus.C90_hidden",
    "Argus.C90_hidden_case",
    "Argus.C90_dotted_case"
   ],
   "note": "Proved by: an exact characterisation of the entries that some path finds (`C90_has_path`), by taking every text apart as a path and by induction over the selected commands; what is given belongs to a selected table by induction over the line (`meaning_given_below`); the value by C11 and C13. Missing: false for an entry that stands after another of the same name in its table, which no path ever finds (`C90_hidden`); such a definition is accepted in debug mode (`C90_hidden_case`). The same for names with dots below the main program (`C90_dotted_case`)."
  },
  {
   "property": "C91",
   "status": "proved",
   "theorems": [
    "Argus.C91_spelled_out",
    "Argus.C91_accepted",
    "Argus.C91_unique"
   ],
   "note": "Proved by: by induction over the derivation of the line, giving the plain line for the same wishes; both read as the same wishes (C72), and lines that read alike have the same outcome (C58); uniqueness because the plain line without `--` is computed from the wishes."
  },
  {
   "property": "C92",
   "status": "partial",
   "theorems": [
    "Argus.C92_success",
    "Argus.C92_asked",
    "Argus.C92_refused_partial",
    "Argus.C92_usage_on_stdout"
   ],
   "note": "Proved by: the loop of the parser prints what carrying out the wishes prints (refinement, `loopStdout_run`), then induction over the wishes; the text belongs to the declarations and the selected command (C68); stderr by C71. Missing: false for a line that is refused: the usage line goes to standard output, the rest of the report to standard error (`C92_refused_partial` says exactly this, `C92_usage_on_stdout`). Left open: a variable that calls for help (C37), what user callbacks print, the order between the streams."
  },
  {
   "property": "C93",
   "status": "proved",
   "theorems": [
    "Argus.C93_read_back",
    "Argus.C93_accepted",
    "Argus.C93_many_read_back",
    "Argus.C93_no_comma_in_arrays",
    "Argus.C93_no_int_max_in_arrays",
    "Argus.C93_no_comma_in_maps"
   ],
   "note": "Proved by: induction over the settings on the refined reading of the line, the values by C08\u2013C19, the path by C90, acceptance by C75; the limits are invariants of what any texts leave in the option (C14, C15, C18). Note: the case of settings on several levels of commands at once is covered by C90 for each level."
  },
  {
   "property": "C94",
   "status": "proved",
   "theorems": [
    "Argus.C94_again",
    "Argus.C94_overridden",
    "Argus.C94_left_out",
    "Argus.C94_unique_again",
    "Argus.C94_map_again",
    "Argus.C94_array_remembers",
    "Argus.C94_required_stays"
   ],
   "note": "Proved by: the reading of a line splits at an argument (`meaning_append`, induction over the grammar), the two lines then have the same changes for every option but one (C75), for which the last text wins or the declaration stays; collections by C16 and C18. Note: the case of lists of numbers with FLAG_UNIQUE is that of C17, where infinity is kept twice."
  },
  {
   "property": "C95",
   "status": "proved",
   "theorems": [
    "Argus.C95_first_fault",
    "Argus.C95_one_fault",
    "Argus.C95_fault_or_accepted",
    "Argus.C95_line_first",
    "Argus.C95_exit"
   ],
   "note": "Proved by: each stage that does not succeed is cut at its first fault (induction over the acts of the line, the entries looked up and the entries validated, with the invariant `Passed` for exclusive groups), the specification is shown to have one first fault only and none if the line is accepted (C75); together this is an equivalence. Note: the case of parses that run into undefined behaviour is that of C42; help options are taken to end the program and all entries to be named, as the definition macros have it."
  },
  {
   "property": "C96",
   "status": "proved",
   "theorems": [
    "Argus.C96_calls",
    "Argus.C96_actions",
    "Argus.C96_handler_not_called",
    "Argus.C96_validator_not_called",
    "Argus.C96_after_fault",
    "Argus.C96_called"
   ],
   "note": "Proved by: two parses side by side: the states stay equal along the line, the environment and the validation, by induction over the acts, the entries and the levels, with an invariant that says which entries are set (`Along`); the line up to a fault is enough for the rest of the parse; in a successful run every text given went through `execCallbacks`. Note: the case of callbacks that keep state of their own or print is out of the model: a callback is a function of what it is shown."
  },
  {
   "property": "C97",
   "status": "proved",
   "theorems": [
    "Argus.C97_reading",
    "Argus.C97_inside",
    "Argus.C97_exchange",
    "Argus.C97_status"
   ],
   "note": "Proved by: the words behind the name are read by the same function from the table of the command (`meaning_append`, `meaning_call`); the specifications of accepted parses (C75) and of first faults (C95) split into a part of the tables outside and one of those inside, and are put together again (`pickTables`). Note: the case of a command that contains itself is excluded by `Apart`: it shares its table with the call around it, so its values are not its own; a call nested deeper than eight levels writes outside of the command stack (C41)."
  },
  {
   "property": "C98",
   "status": "partial",
   "theorems": [
    "Argus.C98_success_partial",
    "Argus.C98_success_all_partial",
    "Argus.C98_exit_partial",
    "Argus.C98_failure_partial",
    "Argus.C98_without_maps_partial",
    "Argus.C98_key_leaks",
    "Argus.C98_refused_leaks",
    "Argus.C98_claim_false"
   ],
   "note": "Proved by: refinement: each option owns its blocks (`Entry`, `Rep` of C39), the blocks of different options are disjoint (`Shares`), and each step of the parse keeps this relation to the parse without memory (`Held.exec`, `Held.run`, `Held.envVars`); the release visits the root table and those of the command stack, which are all where blocks can be (`pathTables`, `Held.free`); lost keys are tracked through all steps (`Tracks`). Missing: keys lost by maps (`C98_key_leaks`) and the blocks of an option whose first text is refused (`C98_refused_leaks`); `C98_claim_false` refutes the full claim `C98_claim`. `malloc` and `realloc` do not fail here (C39 has the case of failure for one option)."
  },
  {
   "property": "C99",
   "status": "proved",
   "theorems": [
    "Argus.C99_names_do_not_matter",
    "Argus.C99_names_do_not_matter_ub",
    "Argus.C99_translated",
    "Argus.C99_accepted",
    "Argus.C99_same_answers"
   ],
   "note": "Proved by: simulation: every step of the parse, reading of the environment, validation and release keep the relation `NamedOtherwise` (`named_argusParse`); a spelled-out line of the one program is turned into one of the other by induction over its derivation (`Explicit.rename`), and by C91 every accepted line can be spelled out. Note: the case of abbreviated subcommands is different: an abbreviation of the old name need not be one of the new name, so lines are translated with full names; words for positionals must not begin the new name of a subcommand (`FreeWords`); of paths with dots only the bare names are covered by `C99_same_answers`."
  },
  {
   "property": "C100",
   "status": "partial",
   "theorems": [
    "Argus.C100_lack_of_memory_partial",
    "Argus.C100_same_as_with_memory_partial",
    "Argus.C100_map_crashes",
    "Argus.C100_realloc_overruns",
    "Argus.C100_first_value_leaks",
    "Argus.C100_claim_false"
   ],
   "note": "Proved by: refinement: each handler under a failing allocator does what it does under one that never fails, or reports the lack of memory (`SameOr`, `runHandlerH_ample`); so each step of the parse keeps the relation of C98 or ends with the blocks of one option outside it (`Short`, `Held.execShort`, `Held.runShort`, `Held.envVarsShort`, `parse_short`). Missing: number arrays and maps (`C100_map_crashes`), a failing `realloc` (`C100_realloc_overruns`) and the blocks of one option (`C100_first_value_leaks`); `C100_claim_false` refutes the full claim `C100_claim`."
  },
  {
   "property": "C101",
   "status": "proved",
   "theorems": [
    "Argus.C101_texts_do_not_matter",
    "Argus.C101_texts_do_not_matter_ub",
    "Argus.C101_other_text",
    "Argus.C101_accepted",
    "Argus.C101_same_answers"
   ],
   "note": "Proved by: relational induction: the parses of two programs that differ in such texts go in step, through every handler, validator, environment variable and post-parse check (`told_argusParse`); lines are retold by induction on `Explicit` (`Explicit.retell`). Note: the case: a text for an array has to have a comma exactly if the other has one, for `array_string_handler` splits at commas; a new text for a positional has to be a word that the parser takes as one."
  },
  {
   "property": "C102",
   "status": "proved",
   "theorems": [
    "Argus.C102_value_decides",
    "Argus.C102_written_otherwise",
    "Argus.C102_numerals",
    "Argus.C102_ranges",
    "Argus.C102_lists"
   ],
   "note": "Proved by: equation between parses: every handler does the same with two texts for one value (`runHandler_same`), so every step of the line and every variable does (`run_same`, `loadEnvVars_same`). Note: the case: options with a validator of the text (V_REGEX, or a validator of the program called before the handler) are left out, for these may look at the writing."
  },
  {
   "property": "C103",
   "status": "proved",
   "theorems": [
    "Argus.C103_calls",
    "Argus.C103_as_if_first",
    "Argus.C103_counter",
    "Argus.C103_name",
    "Argus.C103_parse",
    "Argus.C103_overwritten",
    "Argus.C103_counter_matters"
   ],
   "note": "Proved by: refinement: each of these functions agrees with the one of the other models, which has no static variables (`validateStructureS_eq`, `argusParseS_eq`, `appendEnvS_eq`, `optionNameS_eq`), then induction on the sequence of calls. Note: the case: the fifth static variable, `streams`, is the subject of C47 and C48; calls of the library from within callbacks are left out."
  },
  {
   "property": "C104",
   "status": "partial",
   "theorems": [
    "Argus.C104_safe_partial",
    "Argus.C104_unsigned",
    "Argus.C104_or_undefined",
    "Argus.C104_ascii_partial",
    "Argus.C104_strings_partial",
    "Argus.C104_every_program",
    "Argus.C104_claim_false",
    "Argus.C104_bool",
    "Argus.C104_handlers"
   ],
   "note": "Proved by: simulation: the checked parse is the parse, or undefined where the condition fails (`argusParseC_near`), by induction over the line, the tables and the command stack. Missing: false with a signed `char`: every program on `-\u00e9` (`C104_every_program`), booleans, maps of booleans, integer arrays and AUTO_ENV names (`C104_bool`, `C104_handlers`); true with an unsigned one (`C104_unsigned`), for ASCII (`C104_ascii_partial`) and for texts that no one classifies (`C104_strings_partial`)."
  },
  {
   "property": "C105",
   "status": "partial",
   "theorems": [
    "Argus.C105_entries_partial",
    "Argus.C105_entries_ranges",
    "Argus.C105_texts",
    "Argus.C105_room_partial",
    "Argus.C105_one_option_partial",
    "Argus.C105_one_range",
    "Argus.C105_claim_false"
   ],
   "note": "Proved by: every handler adds no more than its text (case analysis, induction over the parts); the texts handed to different options are different parts of the line (induction over the line); the history of each option (C75). Missing: int arrays: `0:n` leaves n+1 entries for every n below INT_MAX (`C105_one_range`, `C105_claim_false`); for them the bound has the factor 2^32 (`C105_entries_ranges`). The bound for texts is complete (`C105_texts`)."
  },
  {
   "property": "C106",
   "status": "partial",
   "theorems": [
    "Argus.C106_long_flag",
    "Argus.C106_long_value",
    "Argus.C106_short_flag",
    "Argus.C106_short_value",
    "Argus.C106_separate",
    "Argus.C106_command",
    "Argus.C106_listed_partial",
    "Argus.C106_accepted",
    "Argus.C106_claim_false",
    "Argus.C106_number_case",
    "Argus.C106_prefix_case"
   ],
   "note": "Proved by: refinement of the parse by its reading (C58), position of the first match, frame of the handlers: in each direction, so that the conditions are exact (`C106_long_flag`, `C106_long_value`, `C106_short_flag`, `C106_short_value`, `C106_command`, `C106_accepted`). Missing: names with `=` or of more than 63 bytes, short names that are digits beside a numeric positional, and subcommand names that begin an earlier one are accepted and shown but do not reach the entry (`C106_claim_false`, `C106_number_case`, `C106_prefix_case`)."
  },
  {
   "property": "C107",
   "status": "partial",
   "theorems": [
    "Argus.C107_string_choice",
    "Argus.C107_int_choice_partial",
    "Argus.C107_range_partial",
    "Argus.C107_default_shown",
    "Argus.C107_default_partial",
    "Argus.C107_float_default",
    "Argus.C107_claim_false",
    "Argus.C107_range_case",
    "Argus.C107_positional_string",
    "Argus.C107_positional_int_partial",
    "Argus.C107_positional_range_partial",
    "Argus.C107_positional_default_partial"
   ],
   "note": "Proved by: composition of C106 with the text that is printed and the decisions of the validators (C22, C24); round trip of decimal numbers; for floats the argument that two values with one text cannot both be read back. Missing: numbers beyond 32 bits (`C107_claim_false`, `C107_range_case`); defaults that are floats, unless their two decimals read as the float (`C107_float_default`); for positional arguments, typed after `--` and the words before, a choice or default that is `--` itself, which is dropped (C72)."
  },
  {
   "property": "C108",
   "status": "partial",
   "theorems": [
    "Argus.C108_call",
    "Argus.C108_overview_partial",
    "Argus.C108_available_partial",
    "Argus.C108_claim_false",
    "Argus.C108_space_case"
   ],
   "note": "Proved by: induction over the tree of commands: what is listed is a chain of names (`below_chain`, `executables_chain`), and a chain of names is read as entering these commands (`meaning_names`, `run_enters`); composition with C56 and C57; `spaced_words`: the words are determined by the line. Missing: names that begin an earlier name or contain a space, which debug mode accepts (`C108_claim_false`, `C108_space_case`); paths of 512 bytes and more; lists that do not end (C57)."
  },
  {
   "property": "C109",
   "status": "proved",
   "theorems": [
    "Argus.C109_refines",
    "Argus.C109_parse",
    "Argus.C109_no_name",
    "Argus.C109_within",
    "Argus.C109_count_needed"
   ],
   "note": "Proved by: refinement: induction over the arguments with the invariant that the array from the index on holds them (`parseFrom_eq`), step by step equal to the model on lists (`parseStepAt_eq`); `C109_within` by comparing both arrays with the same list."
  },
  {
   "property": "C110",
   "status": "proved",
   "theorems": [
    "Argus.C110_loop",
    "Argus.C110_long_name",
    "Argus.C110_short_name",
    "Argus.C110_name",
    "Argus.C110_positional",
    "Argus.C110_subcommand",
    "Argus.C110_no_end",
    "Argus.C110_behind_end",
    "Argus.C110_case",
    "Argus.C110_required",
    "Argus.C110_conflicts",
    "Argus.C110_validators",
    "Argus.C110_checks",
    "Argus.C110_checks_case",
    "Argus.C110_placement",
    "Argus.C110_naming",
    "Argus.C110_define_case",
    "Argus.C110_dependencies",
    "Argus.C110_dependencies_case",
    "Argus.C110_default",
    "Argus.C110_entries",
    "Argus.C110_entries_case",
    "Argus.C110_free",
    "Argus.C110_environment",
    "Argus.C110_write_case"
   ],
   "note": "Proved by: refinement: induction over the entries for the loop with any body (`C110_loop`), then each lookup against the one on lists (`findLname`, `findSname`, `findName`, `findPositional`, `findSub`) that all other theorems are about, and the checks after the parse against `validateSet` (`C110_checks`), `free_options` against `freeOpts` and `load_env` against `loadEnvTable`, where a step keeps the length of the table (`C110_free`, `C110_environment`), `validate_placement` and `validate_naming` with its nested loop and its array of 256 flags (`C110_placement`, `C110_naming`), `validate_dependencies` with its lists of names (`C110_dependencies`), `validate_default_value` (`C110_default`) and `validate_type_format` (`C110_entries`); `C110_no_end` shows that the end mark is needed. Note: the case `C110_case` has an option behind the end that is not found, and is found when the end mark is left out. The loops of the display are covered by `C110_loop` with any body, they are not written out again on memory."
  }
 ]
}