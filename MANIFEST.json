{
 "claims": [
  {
   "property": "C01",
   "status": "proved",
   "theorems": [
    "Pieshell.C01_child_wiring"
   ],
   "note": "distinct open sources, descriptor numbers below the process limit"
  },
  {
   "property": "C02",
   "status": "proved",
   "theorems": [
    "Pieshell.C02_child_inherits_nothing_else"
   ],
   "note": ""
  },
  {
   "property": "C03",
   "status": "partial",
   "theorems": [
    "Pieshell.C03_exact",
    "Pieshell.C03_file_redirections_partial",
    "Pieshell.C03_closed_target_always_fails",
    "Pieshell.C03_refuted"
   ],
   "note": "False in general: the assertion fails (and is swallowed) when a file is opened for the descriptor that happens to be the lowest free one. C03_exact: holds if and only if there is no such clash."
  },
  {
   "property": "C04",
   "status": "partial",
   "theorems": [
    "Pieshell.C04_repeated_source_always_fails",
    "Pieshell.C04_refuted"
   ],
   "note": "the property is false: theorem shows every table with a repeated source descriptor fails"
  },
  {
   "property": "C05",
   "status": "partial",
   "theorems": [
    "Pieshell.C05_exec_regardless",
    "Pieshell.C05_refuted",
    "Pieshell.C05_other_failures_prevent_exec_partial"
   ],
   "note": "the property is false: exec follows a failed redirection"
  },
  {
   "property": "C06",
   "status": "proved",
   "theorems": [
    "Pieshell.C06_last_redirection_wins",
    "Pieshell.C06_register",
    "Pieshell.C06_construction_fails_iff",
    "Pieshell.C06_merge",
    "Pieshell.C06_copy_and_borrow",
    "Pieshell.C06_copies_are_independent"
   ],
   "note": ""
  },
  {
   "property": "C07",
   "status": "proved",
   "theorems": [
    "Pieshell.C07_free_descriptor"
   ],
   "note": ""
  },
  {
   "property": "C08",
   "status": "proved",
   "theorems": [
    "Pieshell.C08_make_pipes",
    "Pieshell.C08_tmp_for_reading_refused"
   ],
   "note": ""
  },
  {
   "property": "C09",
   "status": "proved",
   "theorems": [
    "Pieshell.C09_shell_closes_own_ends",
    "Pieshell.C09_never_closes_borrowed"
   ],
   "note": ""
  },
  {
   "property": "C10",
   "status": "partial",
   "theorems": [
    "Pieshell.C10_relative_redirection_partial",
    "Pieshell.C10_resolved_against_process_directory",
    "Pieshell.C10_refuted"
   ],
   "note": "false when the process's directory differs from the environment's"
  },
  {
   "property": "C11",
   "status": "partial",
   "theorems": [
    "Pieshell.C11_explicit_flags",
    "Pieshell.C11_output_file_content",
    "Pieshell.C11_output_replaces_content_partial",
    "Pieshell.C11_refuted"
   ],
   "note": "no O_TRUNC: exact content proved; property holds iff old content is not longer"
  },
  {
   "property": "C12",
   "status": "proved",
   "theorems": [
    "Pieshell.C12_wired_left_to_right"
   ],
   "note": "chains of commands (with pipelines as arguments), functions, iterators, with redirections (files, temporary files, pipes) around items, parts and the whole; excluded: piping out of an item whose output was redirected elsewhere (see C18)"
  },
  {
   "property": "C13",
   "status": "partial",
   "theorems": [
    "Pieshell.C13_exact",
    "Pieshell.C13_no_leak_partial",
    "Pieshell.C13_refuted",
    "Pieshell.C13_refuted_redirected_stdin"
   ],
   "note": "false in general: one leaked read end per a + b where the output of a is a pipe, and per a | b where the input of b is redirected (exact count proved for all trees with redirections); holds otherwise"
  },
  {
   "property": "C14",
   "status": "proved",
   "theorems": [
    "Pieshell.C14_end_of_file_propagates",
    "Pieshell.C14_exact",
    "Pieshell.C14_refuted_redirected_stdin"
   ],
   "note": "With redirections too, except a redirected stdin after |, for which it is false (proved for every such pipeline)."
  },
  {
   "property": "C15",
   "status": "partial",
   "theorems": [
    "Pieshell.C15_refuted",
    "Pieshell.C15_refuted_piped",
    "Pieshell.C15_both_write_to_the_same_object_partial"
   ],
   "note": "the property is false: refuted for every a, b (possibly redirected elsewhere than stdout) when the output is a pipe; holds when it is an open descriptor"
  },
  {
   "property": "C16",
   "status": "proved",
   "theorems": [
    "Pieshell.C16_items_are_the_leaves_in_order"
   ],
   "note": ""
  },
  {
   "property": "C17",
   "status": "proved",
   "theorems": [
    "Pieshell.C17_pipelines_as_arguments"
   ],
   "note": "including redirected pipelines among the arguments"
  },
  {
   "property": "C18",
   "status": "proved",
   "theorems": [
    "Pieshell.C18_innermost_redirection_wins",
    "Pieshell.C18_piped_after_redirection_closes_stdin"
   ],
   "note": ""
  },
  {
   "property": "C19",
   "status": "partial",
   "theorems": [
    "Pieshell.Copy.C19_copy_is_fresh_and_equal",
    "Pieshell.Copy.C19_copy_fails_iff",
    "Pieshell.Copy.C19_originals_unchanged_partial",
    "Pieshell.Copy.C19_any_sequence_of_runs_partial",
    "Pieshell.Copy.C19_run_again_partial",
    "Pieshell.Copy.C19_copy_not_started",
    "Pieshell.Copy.C19_refuted_iterator",
    "Pieshell.Copy.C19_running_is_started"
   ],
   "note": "one-shot iterators used as functions/arguments are shared with the copy and consumed (refuted); everything else proved for every object graph"
  },
  {
   "property": "C20",
   "status": "partial",
   "theorems": [
    "Pieshell.Coerce.C20_piped_into_partial",
    "Pieshell.Coerce.C20_piped_from_partial",
    "Pieshell.Coerce.C20_pipelines",
    "Pieshell.Coerce.C20_refuted_async",
    "Pieshell.Coerce.C20_refuted_closing"
   ],
   "note": "false for asynchronous iterators (ValueError) and for closing redirections (KeyError); proved for all other values"
  },
  {
   "property": "C21",
   "status": "proved",
   "theorems": [
    "Pieshell.Coerce.C21_operators",
    "Pieshell.Coerce.C21_explicit"
   ],
   "note": ""
  },
  {
   "property": "C22",
   "status": "partial",
   "theorems": [
    "Pieshell.Cmd.C22_construction_partial",
    "Pieshell.Cmd.C22_equivalent_partial",
    "Pieshell.Cmd.C22_environment_root",
    "Pieshell.Cmd.C22_refuted",
    "Pieshell.Cmd.C22_attribute",
    "Pieshell.Cmd.C22_dash",
    "Pieshell.Cmd.C22_env_names"
   ],
   "note": "false for attribute names that are python attributes of the object (docker.run); proved for all others"
  },
  {
   "property": "C23",
   "status": "proved",
   "theorems": [
    "Pieshell.Cmd.C23_positions",
    "Pieshell.Cmd.C23_options",
    "Pieshell.Cmd.C23_argument_list"
   ],
   "note": ""
  },
  {
   "property": "C24",
   "status": "proved",
   "theorems": [
    "Pieshell.Expand.C24_plain_string",
    "Pieshell.Expand.C24_arguments"
   ],
   "note": ""
  },
  {
   "property": "C25",
   "status": "proved",
   "theorems": [
    "Pieshell.Expand.C25_template",
    "Pieshell.Expand.C25_doubling",
    "Pieshell.Expand.C25_undefined",
    "Pieshell.Expand.C25_values_are_expanded_again"
   ],
   "note": "values of variables are subject to ~ and file name expansion again (exhibited); conversions other than %%, %s and %(name)s are outside the model"
  },
  {
   "property": "C26",
   "status": "proved",
   "theorems": [
    "Pieshell.Expand.C26_expansion",
    "Pieshell.Expand.C26_no_option_injection"
   ],
   "note": "fnmatch on one name is a parameter; the file system does not change during one expansion; ~unknown-user patterns are excluded from C26_expansion"
  },
  {
   "property": "C27",
   "status": "partial",
   "theorems": [
    "Pieshell.Expand.C27_dotdot_partial",
    "Pieshell.Expand.C27_upwards_partial",
    "Pieshell.Expand.C27_below_directory_partial",
    "Pieshell.Expand.C27_refuted"
   ],
   "note": "False in a directory whose name contains wild cards. Proved for all other directories and all relative patterns, with .. anywhere (only the directory the pattern leads to must be free of wild cards); a component followed by .. is removed together with it before matching, whether or not it matches anything."
  },
  {
   "property": "C28",
   "status": "partial",
   "theorems": [
    "Pieshell.Cmd.C28_representation_is_faithful",
    "Pieshell.Cmd.C28_injective",
    "Pieshell.Cmd.C28_command_shows_its_words_partial",
    "Pieshell.Cmd.C28_attributes_partial",
    "Pieshell.Cmd.C28_refuted",
    "Pieshell.Cmd.C28_attributes_conversely_partial"
   ],
   "note": "non-string arguments are shown as /dev/fd/X and the empty word as attribute (refuted); faithful for all lists of strings"
  },
  {
   "property": "C29",
   "status": "partial",
   "theorems": [
    "Pieshell.Envs.C29_absolute_normalised_partial",
    "Pieshell.Envs.C29_strictly_normalised_partial",
    "Pieshell.Envs.C29_refuted"
   ],
   "note": "The working directory of every environment stays absolute and normalised over every history, except that a path starting with exactly two slashes keeps both (refuted with \"//tmp\")."
  },
  {
   "property": "C30",
   "status": "partial",
   "theorems": [
    "Pieshell.Envs.C30_cd_partial",
    "Pieshell.Envs.C30_noninteractive",
    "Pieshell.Envs.C30_refuted",
    "Pieshell.Envs.C30_enters_anything"
   ],
   "note": "A failing cd to a missing path changes nothing; refuted for an interactive environment entering a regular file; a non-interactive one enters anything that exists."
  },
  {
   "property": "C31",
   "status": "partial",
   "theorems": [
    "Pieshell.Envs.C31_independent_partial",
    "Pieshell.Envs.C31_copy",
    "Pieshell.Envs.C31_refuted"
   ],
   "note": "Histories on one environment leave another alone, except for what copying an interactive environment does to the process directory."
  },
  {
   "property": "C32",
   "status": "partial",
   "theorems": [
    "Pieshell.Envs.C32_given_exports_partial",
    "Pieshell.Envs.C32_changes_partial",
    "Pieshell.Envs.C32_refuted"
   ],
   "note": "Programs see exactly the environment's exports, except that exports={} falls back to the process environment."
  },
  {
   "property": "C33",
   "status": "partial",
   "theorems": [
    "Pieshell.Shell.C33_read_after_assign_partial",
    "Pieshell.Shell.C33_assign_frame",
    "Pieshell.Shell.C33_history_partial",
    "Pieshell.Shell.C33_refuted",
    "Pieshell.Shell.C33_underscore"
   ],
   "note": "False once a local variable is exported (writes go to the export, reads see the stale local); proved for all other histories of assignments, deletions, exports and unexports."
  },
  {
   "property": "C34",
   "status": "partial",
   "theorems": [
    "Pieshell.Shell.C34_resolution_partial",
    "Pieshell.Shell.C34_refuted"
   ],
   "note": "Order proved; false for the names _ and exports and for attributes of the environment object."
  },
  {
   "property": "C35",
   "status": "partial",
   "theorems": [
    "Pieshell.Envs.C35_lists_the_path_partial",
    "Pieshell.Envs.C35_cached",
    "Pieshell.Envs.C35_cleared",
    "Pieshell.Envs.C35_refuted",
    "Pieshell.Envs.C35_builtin_builds_a_command",
    "Pieshell.Envs.C35_refuted_missing_directory"
   ],
   "note": "dir(env) lists PATH and builtins and is cached until cleared; the clear_dir_cache builtin clears nothing, and a missing PATH directory poisons the cache."
  },
  {
   "property": "C36",
   "status": "proved",
   "theorems": [
    "Pieshell.Io.C36_lines",
    "Pieshell.Io.C36_prefix",
    "Pieshell.Io.C36_chunking_irrelevant",
    "Pieshell.Io.C36_text",
    "Pieshell.Io.IsLines_unique"
   ],
   "note": "One consumer at a time."
  },
  {
   "property": "C37",
   "status": "proved",
   "theorems": [
    "Pieshell.Io.C37_bytes",
    "Pieshell.Io.C37_prefix",
    "Pieshell.Io.C37_empty_last"
   ],
   "note": "One consumer at a time; iterbytes yields one extra empty chunk at the end."
  },
  {
   "property": "C38",
   "status": "proved",
   "theorems": [
    "Pieshell.Io.C38_waiting",
    "Pieshell.Io.C38_woken",
    "Pieshell.Io.C38_finite",
    "Pieshell.Io.C38_progress",
    "Pieshell.Io.C38_chunk_waiting",
    "Pieshell.Io.C38_chunk_woken",
    "Pieshell.Io.C38_chunk_finite",
    "Pieshell.Io.C38_chunk_progress"
   ],
   "note": "Termination is stated as: finitely many effective steps, and one is possible until the iteration has ended."
  },
  {
   "property": "C39",
   "status": "proved",
   "theorems": [
    "Pieshell.Io.Writer.C39_one_request",
    "Pieshell.Io.Writer.C39_in_order",
    "Pieshell.Io.Writer.C39_written",
    "Pieshell.Io.Writer.C39_complete",
    "Pieshell.Io.Writer.C39_failed",
    "Pieshell.Io.Writer.C39_not_stuck"
   ],
   "note": ""
  },
  {
   "property": "C40",
   "status": "partial",
   "theorems": [
    "Pieshell.Io.Writer.C40_quiet_partial",
    "Pieshell.Io.Writer.C40_at_most_one_partial",
    "Pieshell.Io.Writer.C40_refuted"
   ],
   "note": "In all cases at most one item is written, and the iterator asked at most once, after the closing. False for a suspending iterator whose reader goes away while a task is queued: an item is written to the closed descriptor number."
  },
  {
   "property": "C41",
   "status": "proved",
   "theorems": [
    "Pieshell.Io.Wire.C41_lines",
    "Pieshell.Io.Wire.C41_items",
    "Pieshell.Io.Wire.C41_texts"
   ],
   "note": "Writer and reader on one pipe without other ends (C15)."
  },
  {
   "property": "C42",
   "status": "partial",
   "theorems": [
    "Pieshell.Io.Writer.C42_small_items_partial",
    "Pieshell.Io.Writer.C42_synchronous_partial",
    "Pieshell.Io.Writer.C42_refuted_big",
    "Pieshell.Io.Writer.C42_refuted_stale",
    "Pieshell.Io.Writer.C42_refuted_suspended"
   ],
   "note": "True for items of at most a third of PIPE_BUF (half of it, if the iterator never suspends); false for larger ones because readiness may be stale; both bounds are exact."
  },
  {
   "property": "C43",
   "status": "partial",
   "theorems": [
    "Pieshell.Func.C43_sent_partial",
    "Pieshell.Func.C43_regular_no_failure",
    "Pieshell.Func.C43_raises",
    "Pieshell.Func.C43_str_chars",
    "Pieshell.Func.C43_str_refuted",
    "Pieshell.Func.C43_bytes_refuted",
    "Pieshell.Func.C43_async_iterable_refuted"
   ],
   "note": "False for functions returning a string (one line per character), bytes (numbers) or an asynchronous iterable without __anext__ (AttributeError)."
  },
  {
   "property": "C44",
   "status": "partial",
   "theorems": [
    "Pieshell.Sig.C44_decode_partial",
    "Pieshell.Sig.C44_continued_refuted",
    "Pieshell.Sig.C44_injective"
   ],
   "note": "False for a continued child: reported as CLD_DUMPED with signal 127."
  },
  {
   "property": "C45",
   "status": "proved",
   "theorems": [
    "Pieshell.Sig.C45_order",
    "Pieshell.Sig.C45_latest",
    "Pieshell.Sig.C45_exit_once",
    "Pieshell.Sig.C45_not_others",
    "Pieshell.Sig.C45_dispatch",
    "Pieshell.Sig.C45_reaches_quiet"
   ],
   "note": "Both signal managers."
  },
  {
   "property": "C46",
   "status": "partial",
   "theorems": [
    "Pieshell.Sig.C46_exited_partial",
    "Pieshell.Sig.C46_sound",
    "Pieshell.Sig.C46_killed_refuted"
   ],
   "note": "False for children killed by a signal: is_running stays True for ever."
  },
  {
   "property": "C47",
   "status": "partial",
   "theorems": [
    "Pieshell.Job.C47_only_when_done",
    "Pieshell.Job.C47_loop_ends",
    "Pieshell.Job.C47_completes_partial",
    "Pieshell.Job.C47_sequential",
    "Pieshell.Job.C47_sequential_completes_partial",
    "Pieshell.Job.C47_function_refuted",
    "Pieshell.Job.C47_two_waits_refuted",
    "Pieshell.Job.C47_undecodable_refuted",
    "Pieshell.Job.C47_fg_refuted"
   ],
   "note": "\"Only if\" holds always. \"Does complete\" is false for a failing function that ends last, for the first of two concurrent waits, for undecodable STRING output and for fg of a failed job; proved otherwise (also for histories with cancelled calls, and for the call that overtook another)."
  },
  {
   "property": "C48",
   "status": "proved",
   "theorems": [
    "Pieshell.Job.C48_exact",
    "Pieshell.Job.C48_failed_processes"
   ],
   "note": ""
  },
  {
   "property": "C49",
   "status": "partial",
   "theorems": [
    "Pieshell.Job.C49_captured_partial",
    "Pieshell.Job.C49_not_before",
    "Pieshell.Job.C49_once",
    "Pieshell.Job.C49_tmp_kept",
    "Pieshell.Job.C49_undecodable_refuted",
    "Pieshell.Job.C49_newline_refuted",
    "Pieshell.Job.C49_wait_refuted"
   ],
   "note": "False for output that is not UTF-8 and (byte for byte) for carriage returns; wait() may return before the output is captured."
  },
  {
   "property": "C50",
   "status": "partial",
   "theorems": [
    "Pieshell.Job.C50_partial",
    "Pieshell.Job.C50_shared_refuted"
   ],
   "note": "False for shared TMP files."
  },
  {
   "property": "C51",
   "status": "partial",
   "theorems": [
    "Pieshell.Job.C51_suspend_partial",
    "Pieshell.Job.C51_resume",
    "Pieshell.Job.C51_other_wait_refuted",
    "Pieshell.Job.C51_fg_refuted"
   ],
   "note": "CTRL-Z is lost if another wait() ended meanwhile; fg hangs after CTRL-Z."
  },
  {
   "property": "C52",
   "status": "partial",
   "theorems": [
    "Pieshell.Job.C52_listed",
    "Pieshell.Job.C52_exact_partial",
    "Pieshell.Job.C52_builtin_refuted",
    "Pieshell.Job.C52_function_refuted"
   ],
   "note": "Builtins without processes (cd, bg) are listed for ever."
  },
  {
   "property": "C53",
   "status": "partial",
   "theorems": [
    "Pieshell.Job.C53_partial",
    "Pieshell.Job.C53_explicit",
    "Pieshell.Job.C53_bg_fg_refuted"
   ],
   "note": "After bg, fg refers to bg's own pipeline. With the job given as an argument, bg(job) and fg(job) are proved for every history."
  },
  {
   "property": "C54",
   "status": "partial",
   "theorems": [
    "Pieshell.Job.C54_partial",
    "Pieshell.Job.C54_refuted"
   ],
   "note": "False if an item other than the last fails, or the failing item is a function."
  },
  {
   "property": "C55",
   "status": "partial",
   "theorems": [
    "Pieshell.Tree.C55_paths",
    "Pieshell.Tree.C55_browse_partial",
    "Pieshell.Tree.C55_hidden_refuted",
    "Pieshell.Tree.C55_refuted",
    "Pieshell.Tree.C55_process_tree",
    "Pieshell.Tree.C55_logins",
    "Pieshell.Tree.C55_hidden_names_refuted"
   ],
   "note": "The tree itself is proved in full (slugify a parameter that keeps digits). From the pipeline object, names of its own members and `children` hide processes (proved)."
  },
  {
   "property": "C56",
   "status": "partial",
   "theorems": [
    "Pieshell.Bash.C56_import_partial",
    "Pieshell.Bash.C56_exact",
    "Pieshell.Bash.C56_dollar_refuted",
    "Pieshell.Bash.C56_last_lost_refuted",
    "Pieshell.Bash.C56_control_refuted",
    "Pieshell.Bash.C56_function_refuted",
    "Pieshell.Bash.C56_quote_refuted"
   ],
   "note": "False for values with $ or backquotes, for control characters, for the last variable if no function is printed, if a function contains declare, and if a function contains an unclosed quote (nothing is imported then, exactly then); proved otherwise, for functions with any text in which the quotes are closed."
  },
  {
   "property": "C57",
   "status": "proved",
   "theorems": [
    "Pieshell.Remote.C57_transport",
    "Pieshell.Remote.b64_roundtrip"
   ],
   "note": "pickle itself is not modelled; the remote shell is the small shell reader of Spec/Remote."
  },
  {
   "property": "C58",
   "status": "partial",
   "theorems": [
    "Pieshell.Remote.C58_sources_partial",
    "Pieshell.Remote.C58_quote_refuted",
    "Pieshell.Remote.C58_percent_refuted",
    "Pieshell.Remote.C58_pattern_refuted"
   ],
   "note": "False for names with quotes (the rest is run as commands) or percent signs (formatted twice), and if a file is matched by the whole script as a pattern; proved otherwise."
  },
  {
   "property": "C59",
   "status": "partial",
   "theorems": [
    "Pieshell.Shell.C59_parse",
    "Pieshell.Shell.C59_action_partial",
    "Pieshell.Shell.C59_log_refuted",
    "Pieshell.Shell.C59_flag_refuted",
    "Pieshell.Shell.C59_pflag_refuted"
   ],
   "note": "Parsing is proved in full. The choice of the action is proved for command lines without --log and without valueless --cmd/--pcmd; those crash (proved)."
  },
  {
   "property": "C60",
   "status": "partial",
   "theorems": [
    "Pieshell.Repr.C60_repr_partial",
    "Pieshell.Repr.C60_no_templates",
    "Pieshell.Repr.C60_no_commands",
    "Pieshell.Repr.C60_without_scope",
    "Pieshell.Repr.C60_display",
    "Pieshell.Repr.C60_prompt_runs",
    "Pieshell.Repr.C60_session",
    "Pieshell.Repr.C60_names_complete",
    "Pieshell.Repr.C60_refuted"
   ],
   "note": "False where an argument contains %(name)s and name is no variable: printing then runs the program of that name. No pipeline that is being printed is ever started by repr()."
  },
  {
   "property": "C61",
   "status": "partial",
   "theorems": [
    "Pieshell.Sig.C61_signalfd_partial",
    "Pieshell.Sig.C61_asyncio_refuted"
   ],
   "note": "True for the signalfd manager only; with the asyncio manager the stop handler is never called."
  },
  {
   "property": "C62",
   "status": "proved",
   "theorems": [
    "Pieshell.Shell.C62_first_directory",
    "Pieshell.Shell.C62_not_found"
   ],
   "note": ""
  },
  {
   "property": "C63",
   "status": "partial",
   "theorems": [
    "Pieshell.Ops.C63_expression_refuted",
    "Pieshell.Coerce.C63_refuted",
    "Pieshell.Coerce.C63_parenthesised_partial",
    "Pieshell.Coerce.C63_value"
   ],
   "note": "the property is false for every pipeline and file names"
  },
  {
   "property": "C64",
   "status": "partial",
   "theorems": [
    "Pieshell.Shell.C64_restored_partial",
    "Pieshell.Shell.C64_refuted"
   ],
   "note": "Proved for with env.temporary_env(...) and every block in a shell with one scope; false when the method is called on an environment other than the current one."
  },
  {
   "property": "C65",
   "status": "partial",
   "theorems": [
    "Pieshell.Shell.C65_same_meaning_partial",
    "Pieshell.Shell.C65_refuted"
   ],
   "note": "True for environments that have been assigned to env; false for derived ones such as env[\"dir\"]."
  },
  {
   "property": "C66",
   "status": "partial",
   "theorems": [
    "Pieshell.Shell.C66_globals_partial",
    "Pieshell.Shell.C66_refuted"
   ],
   "note": "False for globals named like an exported variable."
  },
  {
   "property": "C67",
   "status": "proved",
   "theorems": [
    "Pieshell.Expand.C67_home_directories"
   ],
   "note": ""
  },
  {
   "property": "C68",
   "status": "proved",
   "theorems": [
    "Pieshell.Envs.C68_cd_walks",
    "Pieshell.Envs.C68_cd_home"
   ],
   "note": "Words are single file names; the first does not start with ~."
  },
  {
   "property": "C69",
   "status": "proved",
   "theorems": [
    "Pieshell.Repr.C69_text",
    "Pieshell.Repr.C69_command",
    "Pieshell.Repr.C69_one_environment",
    "Pieshell.Repr.C69_stable"
   ],
   "note": ""
  },
  {
   "property": "C70",
   "status": "proved",
   "theorems": [
    "Pieshell.Exec.C70_first_in_path",
    "Pieshell.Exec.C70_status",
    "Pieshell.Exec.C70_unknown",
    "Pieshell.Exec.C70_path",
    "Pieshell.Exec.C70_directory"
   ],
   "note": ""
  },
  {
   "property": "C71",
   "status": "partial",
   "theorems": [
    "Pieshell.Exec.C71_text_partial",
    "Pieshell.Exec.C71_paths",
    "Pieshell.Exec.C71_refuted",
    "Pieshell.Exec.C71_exports_refuted"
   ],
   "note": "Refuted: numbers and booleans given as positional arguments, and exported variables that are not text, always end the command with status 255; proved for text."
  },
  {
   "property": "C72",
   "status": "partial",
   "theorems": [
    "Pieshell.Exec.C72_child_partial",
    "Pieshell.Exec.C72_program_partial",
    "Pieshell.Exec.C72_refuted"
   ],
   "note": "Refuted when the error message cannot be written or CTRL-C arrives before exec; proved otherwise."
  },
  {
   "property": "C73",
   "status": "partial",
   "theorems": [
    "Pieshell.Shell.C73_names_partial",
    "Pieshell.Shell.C73_refuted",
    "Pieshell.Shell.C73_no_startup_refuted"
   ],
   "note": "Refuted if one of the names is exported (TMP: every command then ends with 255), and with --no-startup; proved otherwise."
  },
  {
   "property": "C74",
   "status": "partial",
   "theorems": [
    "Pieshell.Startup.C74_kept_partial",
    "Pieshell.Startup.C74_executed_partial",
    "Pieshell.Startup.C74_first_partial",
    "Pieshell.Startup.C74_only_default_partial",
    "Pieshell.Startup.C74_refuted",
    "Pieshell.Startup.C74_permission_refuted"
   ],
   "note": "Refuted: an interrupted first start leaves an empty configuration for ever; without write permission the shell cannot start."
  },
  {
   "property": "C75",
   "status": "partial",
   "theorems": [
    "Pieshell.Startup.C75_prompt_partial",
    "Pieshell.Startup.C75_refuted",
    "Pieshell.Prompt.C75_expands_partial",
    "Pieshell.Prompt.C75_refuted_beside"
   ],
   "note": "Refuted for directories whose name merely begins with that of the home directory; proved otherwise."
  },
  {
   "property": "C76",
   "status": "partial",
   "theorems": [
    "Pieshell.Startup.C76_all_partial",
    "Pieshell.Startup.C76_stop_partial",
    "Pieshell.Startup.C76_refuted",
    "Pieshell.Startup.C76_message_partial"
   ],
   "note": "Refuted: failing scripts give status 0, incomplete ones are silently not executed."
  },
  {
   "property": "C77",
   "status": "partial",
   "theorems": [
    "Pieshell.C77_content",
    "Pieshell.C77_refuted",
    "Pieshell.C77_append_partial",
    "Pieshell.C77_each_opens_the_file"
   ],
   "note": "False: each item opens the file itself without O_APPEND, so the outputs overwrite each other under every schedule (exact content proved); holds with O_APPEND given explicitly."
  },
  {
   "property": "C78",
   "status": "proved",
   "theorems": [
    "Pieshell.Iterate.C78_lines",
    "Pieshell.Iterate.C78_bytes",
    "Pieshell.Iterate.C78_output",
    "Pieshell.Iterate.C78_waits"
   ],
   "note": "Product of the readers (C36, C37) and the jobs (C47, C48), for all interleavings."
  },
  {
   "property": "C79",
   "status": "partial",
   "theorems": [
    "Pieshell.Iterate.C79_lines_refuted",
    "Pieshell.Iterate.C79_never_closed_while_written",
    "Pieshell.Iterate.C79_end_closes_partial"
   ],
   "note": "False: a loop that is left early never closes the descriptor and reads nothing more; proved for iterations that are continued to the end."
  },
  {
   "property": "C80",
   "status": "partial",
   "theorems": [
    "Pieshell.Iterate.C80_refuted"
   ],
   "note": "False for every history: pieshell does nothing to a pipeline for which wait() was not called. After the end of the stream C51 applies."
  },
  {
   "property": "C81",
   "status": "partial",
   "theorems": [
    "Pieshell.Flow.C81_as_if_through_files",
    "Pieshell.Flow.C81_schedule_does_not_matter",
    "Pieshell.Flow.C81_result_is_reached",
    "Pieshell.Flow.C81_refuted_redirected_stdin"
   ],
   "note": "Proved for chains of programs in which only the first one's stdin is redirected; false when the stdin of a later one is (its predecessor blocks for ever). Chains with python functions: C82."
  },
  {
   "property": "C82",
   "status": "proved",
   "theorems": [
    "Pieshell.Flow.C82_as_if_through_files",
    "Pieshell.Flow.C82_all_end",
    "Pieshell.Flow.C82_schedule_does_not_matter"
   ],
   "note": "Functions are byte transducers with the handlers' read-ahead; see C84 for functions on lines. Excluded (as in C81): a redirected stdin of a later item."
  },
  {
   "property": "C83",
   "status": "partial",
   "theorems": [
    "Pieshell.Flow.C83_program_ended_partial",
    "Pieshell.Flow.C83_refuted_python_function",
    "Pieshell.Flow.C83_refuted_sigpipe_ignored"
   ],
   "note": "True if the item that has ended is a program: every further write of the one before fails. False if it is a python function: the handler closes its descriptor only at the end of file, so `yes | f` leaves yes behind for ever once f has returned. False for programs that take no notice of failing writes, as they are started with SIGPIPE ignored."
  },
  {
   "property": "C84",
   "status": "proved",
   "theorems": [
    "Pieshell.Flow.C84_function_on_lines",
    "Pieshell.Flow.C84_program_then_function",
    "Pieshell.Flow.mapLines_yields"
   ],
   "note": "For `prog | f`; longer chains by C82 and C84_function_on_lines."
  },
  {
   "property": "C85",
   "status": "partial",
   "theorems": [
    "Pieshell.Sig.C85_in_order",
    "Pieshell.Sig.C85_events",
    "Pieshell.Sig.C85_one_at_a_time",
    "Pieshell.Sig.C85_others_partial",
    "Pieshell.Sig.C85_none_partial",
    "Pieshell.Sig.C85_refuted_second_event",
    "Pieshell.Sig.C85_refuted_two_calls",
    "Pieshell.Sig.C85_refuted_dispatch",
    "Pieshell.Sig.C85_raises_iff"
   ],
   "note": "The iterator itself loses nothing. False in what concerns others: the second event after a wait makes handle_event raise InvalidStateError, and handlers registered later miss the event. Two calls at the same time: the first waits for ever."
  },
  {
   "property": "C86",
   "status": "partial",
   "theorems": [
    "Pieshell.Shell.C86_isolated",
    "Pieshell.Shell.C86_attributes",
    "Pieshell.Shell.C86_once",
    "Pieshell.Shell.C86_assign",
    "Pieshell.Shell.C86_reload",
    "Pieshell.Shell.C86_refuted_failing",
    "Pieshell.Shell.C86_refuted_second_import",
    "Pieshell.Shell.C86_refuted_arguments",
    "Pieshell.Shell.C86_refuted_unknown"
   ],
   "note": "Isolation, attributes and single execution hold. False: a module that raises an exception, or is not valid python, is imported without an error; one that cannot be read is imported at the second attempt; variables of the module are unknown in the arguments of its commands (KeyError); names that the module does not define are commands."
  },
  {
   "property": "C87",
   "status": "partial",
   "theorems": [
    "Pieshell.Pickle.C87_arrives",
    "Pieshell.Pickle.C87_sendable",
    "Pieshell.Pickle.C87_refuted_python",
    "Pieshell.Pickle.C87_refuted_running_job",
    "Pieshell.Pickle.C87_refuted_busy"
   ],
   "note": "What arrives is isomorphic to what was sent (all paths of attributes, classes, sharing), and exactly which pipelines can be sent. False: from python 3.11 on no pipeline can be sent (TypeError); while a job is running in the environment, no pipeline of that environment can."
  },
  {
   "property": "C88",
   "status": "partial",
   "theorems": [
    "Pieshell.Job.C88_cancel",
    "Pieshell.Job.C88_step",
    "Pieshell.Job.C88_ends",
    "Pieshell.Job.C88_only_if_cancelled",
    "Pieshell.Job.C88_later_wait_partial",
    "Pieshell.Job.C88_foreground_refuted"
   ],
   "note": "The job and all other calls go on, later waits get the result. False: the end of the cancelled call makes CTRL-Z forget the pipeline another call is waiting for."
  },
  {
   "property": "C89",
   "status": "partial",
   "theorems": [
    "Pieshell.Sgn.C89_options_partial",
    "Pieshell.Sgn.C89_flags",
    "Pieshell.Sgn.C89_values",
    "Pieshell.Sgn.C89_usable",
    "Pieshell.Sgn.C89_computed_iff",
    "Pieshell.Sgn.C89_refuted_digits",
    "Pieshell.Sgn.C89_refuted_keyword",
    "Pieshell.Sgn.C89_refuted_case"
   ],
   "note": "What is found in every text, defaults, types, and that the parameters are passed on as printed. False: options with digits or of one letter, values that differ in case only, options named like python keywords (no signature at all)."
  },
  {
   "property": "C90",
   "status": "partial",
   "theorems": [
    "Pieshell.Cmd.C90_shown_partial",
    "Pieshell.Cmd.C90_distinct_partial",
    "Pieshell.Cmd.C90_refuted_short",
    "Pieshell.Cmd.C90_refuted_values"
   ],
   "note": "Proved for command lines without short options and options with values behind the first word that is no name; false for those."
  },
  {
   "property": "C91",
   "status": "partial",
   "theorems": [
    "Pieshell.Itu.C91_map",
    "Pieshell.Itu.C91_sync_partial",
    "Pieshell.Itu.C91_over",
    "Pieshell.Itu.C91_refuted_running",
    "Pieshell.Itu.C91_refuted_pipeline",
    "Pieshell.Itu.C91_refuted_filter"
   ],
   "note": "map on iterators and synchronous iteration outside of the event loop proved for all iterators. False: map in a pipeline and for loops in coroutines always raise, filter cannot be used at all."
  },
  {
   "property": "C92",
   "status": "partial",
   "theorems": [
    "Pieshell.Shell.C92_same_partial",
    "Pieshell.Shell.C92_read",
    "Pieshell.Shell.C92_refuted_exported",
    "Pieshell.Shell.C92_refuted_env",
    "Pieshell.Shell.C92_refuted_pyshfunction"
   ],
   "note": "Proved for variables that are not exported; false for exported ones, for env, and for functions made with pyshfunction."
  },
  {
   "property": "C93",
   "status": "partial",
   "theorems": [
    "Pieshell.Pids.C93_own_partial",
    "Pieshell.Pids.C93_present",
    "Pieshell.Pids.C93_present_start",
    "Pieshell.Pids.C93_no_reuse_partial",
    "Pieshell.Pids.C93_refuted",
    "Pieshell.Pids.C93_refuted_history",
    "Pieshell.Pids.C93_refuted_permission"
   ],
   "note": "Proved while no process of the job has been waited for, and for all histories in which process numbers are not reused. False otherwise: strangers are stopped or continued, or PermissionError is raised."
  },
  {
   "property": "C94",
   "status": "partial",
   "theorems": [
    "Pieshell.Job.C94_can_be_shown",
    "Pieshell.Job.C94_message_partial",
    "Pieshell.Job.C94_contains_output_partial",
    "Pieshell.Job.C94_refuted_fg",
    "Pieshell.Job.C94_refuted_function",
    "Pieshell.Job.C94_refuted_early"
   ],
   "note": "Exact text proved once the loop is at rest, for pipelines without fg. False: fg of a failed pipeline (TypeError), captured output of functions, messages made as soon as wait() raises."
  },
  {
   "property": "C95",
   "status": "partial",
   "theorems": [
    "Pieshell.Whole.C95_result",
    "Pieshell.Whole.C95_result_greedy",
    "Pieshell.Whole.C95_returns_partial",
    "Pieshell.Whole.C95_refuted_killed"
   ],
   "note": "The meaning of the result is proved for all executions; that wait() ends is proved when programs whose writes fail give up, and functions and all that follow them read their input to the end. False for programs that reset SIGPIPE: when killed by it they are never seen to have ended, and wait() never returns."
  },
  {
   "property": "C96",
   "status": "partial",
   "theorems": [
    "Pieshell.Whole.C96_exact_partial",
    "Pieshell.Whole.C96_captured_partial",
    "Pieshell.Whole.C96_tmp"
   ],
   "note": "Captured is nothing or the whole text, at every moment, for text output; captured at rest under the same conditions as in C95_returns_partial. False otherwise: output that is not UTF-8 is not captured (C49_undecodable_refuted); a pipeline with a killed program never ends (C95_refuted_killed)."
  },
  {
   "property": "C97",
   "status": "partial",
   "theorems": [
    "Pieshell.C97_refuted",
    "Pieshell.C97_refuted_daemon",
    "Pieshell.C97_only_through_log_partial",
    "Pieshell.C97_log_descriptor",
    "Pieshell.C97_log_number"
   ],
   "note": "False for every program of every pipeline: it inherits the log descriptor, an inheritable duplicate of the shell's standard output. Proved: there is no other way."
  },
  {
   "property": "C98",
   "status": "partial",
   "theorems": [
    "Pieshell.Expand.C98_patterns_partial",
    "Pieshell.Expand.C98_directory_partial",
    "Pieshell.Expand.C98_quote",
    "Pieshell.Expand.C98_fnmatch_quote",
    "Pieshell.Expand.C98_quoted_file_partial",
    "Pieshell.Expand.C98_refuted_empty_range",
    "Pieshell.Expand.C27_refuted_fnmatch"
   ],
   "note": "For every pattern without empty ranges, in every directory whose path has no wild card; quoting works for every name. False for patterns like `[b-a!c]` (Python's fnmatch) and in directories whose name contains a wild card (C27)."
  },
  {
   "property": "C99",
   "status": "partial",
   "theorems": [
    "Pieshell.Job.C99_stops",
    "Pieshell.Job.C99_wait_partial",
    "Pieshell.Job.C99_refuted"
   ],
   "note": "Stopping and continuing hold for every history, and wait() never reports success or failure of a suspended pipeline. False: a call of wait() under way is not woken by suspend(); it goes on waiting until a process ends or somebody continues the pipeline."
  },
  {
   "property": "C100",
   "status": "partial",
   "theorems": [
    "Pieshell.Status.C100_told",
    "Pieshell.Status.C100_failed_processes",
    "Pieshell.Status.C100_exit_code",
    "Pieshell.Status.C100_ended_partial",
    "Pieshell.Status.C100_refuted_early",
    "Pieshell.Status.C100_refuted_signals",
    "Pieshell.Status.C100_refuted_zero"
   ],
   "note": "The lists, is_failed and is_running are proved in full. exit_code is exact only once the last program has ended: before its first event it raises TypeError, after a stop or a deadly signal it is the signal's number, and it is 0 for failed pipelines that end with a function or a program that succeeded."
  },
  {
   "property": "C101",
   "status": "partial",
   "theorems": [
    "Pieshell.Status.C101_shown_partial",
    "Pieshell.Status.C101_continued_refuted"
   ],
   "note": "Never raises; exact text once the signals are handled. False for a program that was stopped and continued: it is shown as dead with status=3, signal=127 while it runs."
  },
  {
   "property": "C102",
   "status": "partial",
   "theorems": [
    "Pieshell.Term.C102_environment",
    "Pieshell.Term.C102_others_partial",
    "Pieshell.Term.C102_refuted"
   ],
   "note": "The exact signal environment of every started program is proved; as usual for all signals but four. False for SIGPIPE and SIGXFSZ (ignored), and with signalfd for SIGCHLD and SIGTSTP (blocked)."
  },
  {
   "property": "C103",
   "status": "partial",
   "theorems": [
    "Pieshell.Term.C103_refuted_background",
    "Pieshell.Term.C103_refuted_quit"
   ],
   "note": "The foreground programs and the shell's program are interrupted (proved); false that background jobs go on: all programs share the shell's process group, so they are interrupted, too."
  },
  {
   "property": "C104",
   "status": "partial",
   "theorems": [
    "Pieshell.Term.C104_refuted_signalfd",
    "Pieshell.Term.C104_refuted_asyncio",
    "Pieshell.Term.C104_suspend_partial",
    "Pieshell.Term.C104_unblock_partial"
   ],
   "note": "With signalfd no program ever gets the signal, even if it handles it (and CTRL-Z itself stops none: background programs are not affected); without, background programs are stopped as well. What suspend() and restart() do to a process is proved."
  },
  {
   "property": "C105",
   "status": "partial",
   "theorems": [
    "Pieshell.C105_names",
    "Pieshell.C105_defaults",
    "Pieshell.C105_attributes",
    "Pieshell.C105_shown_partial",
    "Pieshell.C105_refuted",
    "Pieshell.C105_order",
    "Pieshell.C105_sorted",
    "Pieshell.C105_pipe_shown_partial"
   ],
   "note": "Names, defaults, attributes and the order of a table's text are proved in full. The text tells redirections from files (or from descriptors) with single-bit flags apart; false in general: descriptor 3 and a file named 3, DSYNC and SYNC are shown alike."
  },
  {
   "property": "C106",
   "status": "partial",
   "theorems": [
    "Pieshell.Expand.C106_order",
    "Pieshell.Expand.C106_refuted_sorted",
    "Pieshell.Expand.C106_refuted_slash",
    "Pieshell.Expand.C106_refuted_slash_example"
   ],
   "note": "The exact words in the exact order are proved for patterns without a slash: it is the order of os.listdir, so they are not sorted. A trailing slash has no effect (it is removed by abspath): files that are not directories are found, too."
  },
  {
   "property": "C107",
   "status": "partial",
   "theorems": [
    "Pieshell.Whole.C107_unnoticed",
    "Pieshell.Whole.C107_programs_partial",
    "Pieshell.Whole.C107_refuted",
    "Pieshell.Whole.C107_refuted_functions"
   ],
   "note": "Pipelines of programs only that the shell does not read from go on to the end while the event loop does not run. Refuted: nothing shows that they have ended (is_running, running_pipelines, exit_code, wait() change only in the loop), and functions, and what reads from them to the end, do not go on at all."
  },
  {
   "property": "C108",
   "status": "proved",
   "theorems": [
    "Pieshell.Prompt.C108_different",
    "Pieshell.Prompt.C108_prompts_different",
    "Pieshell.Prompt.C108_prompt"
   ],
   "note": ""
  },
  {
   "property": "C109",
   "status": "partial",
   "theorems": [
    "Pieshell.Prompt.C109_branch",
    "Pieshell.Prompt.C109_different",
    "Pieshell.Prompt.C109_nothing",
    "Pieshell.Prompt.C109_refuted_detached"
   ],
   "note": "Branch and number of changes are shown, distinctly; nothing outside of a repository. Refuted: with a detached HEAD nothing is shown (symbolic-ref fails, or the revision computed is not used)."
  },
  {
   "property": "C110",
   "status": "partial",
   "theorems": [
    "Pieshell.Prompt.C110_no_trace_partial",
    "Pieshell.Prompt.C110_prompt_partial",
    "Pieshell.Prompt.C110_depth",
    "Pieshell.Prompt.C110_refuted"
   ],
   "note": "One scope; nothing else named like the commands the prompt runs. Refuted for environments that do not belong to the shell: printing one makes it belong, which changes what %(name)s means in its commands."
  },
  {
   "property": "C111",
   "status": "partial",
   "theorems": [
    "Pieshell.BP.C111_chain_partial",
    "Pieshell.BP.C111_exact_error",
    "Pieshell.BP.C111_without_builtins",
    "Pieshell.BP.C111_refuted_right",
    "Pieshell.BP.C111_refuted_pipe_to",
    "Pieshell.BP.C111_refuted_pipe_from",
    "Pieshell.BP.C111_refuted_wrong_files",
    "Pieshell.BP.C111_refuted_iterate"
   ],
   "note": "Holds for groups that begin with a builtin. Everywhere else a builtin makes the pipeline raise an exception (exactly those places), after the other commands have been started; a program after `cd(...) |` gets the standard input of the shell and no standard output; iteration over a group that begins with a builtin always fails."
  },
  {
   "property": "C112",
   "status": "partial",
   "theorems": [
    "Pieshell.Envs.C112_offered",
    "Pieshell.Envs.C112_offered_first_partial",
    "Pieshell.Envs.C112_leads_partial",
    "Pieshell.Envs.C112_follow_partial",
    "Pieshell.Envs.C112_refuted_elsewhere",
    "Pieshell.Envs.C112_refuted_names"
   ],
   "note": "What is offered after at least one word is exact. After cd alone the directory of the process is listed, which is the wrong one in environments that are elsewhere; directories called PARENT or ROOT, and ones beginning with ~ as the first word, lead elsewhere."
  },
  {
   "property": "C113",
   "status": "proved",
   "theorems": [
    "Pieshell.Compl.C113_ends",
    "Pieshell.Compl.C113_offered",
    "Pieshell.Compl.C113_path",
    "Pieshell.Compl.C113_session",
    "Pieshell.Compl.C113_refuted_inserting"
   ],
   "note": "jedi and readline are parameters: any result, any failure, any sequence of requests. C113_path says exactly when the import path is restored; C113_refuted_inserting shows why the proviso is needed (a search that runs code inserting at the front of sys.path loses that entry, and the directory of the process stays)."
  },
  {
   "property": "C114",
   "status": "partial",
   "theorems": [
    "Pieshell.ArgC.C114_words_partial",
    "Pieshell.ArgC.C114_offered",
    "Pieshell.ArgC.C114_refuted_runs",
    "Pieshell.ArgC.C114_refuted_empty",
    "Pieshell.ArgC.C114_refuted_percent"
   ],
   "note": "Holds for words of ordinary characters and words with spaces that fit into one kind of quotes, without % * ? [. Words are quoted only if they contain a space: dir(env.ls(\";reboot\")) runs reboot; empty words are lost; a percent sign makes it fail. C114_offered is complete."
  },
  {
   "property": "C115",
   "status": "partial",
   "theorems": [
    "Pieshell.PyCall.C115_exact",
    "Pieshell.PyCall.C115_same_partial",
    "Pieshell.PyCall.C115_refuted"
   ],
   "note": "C115_exact says exactly which calls survive: those that give every keyword-only parameter. Default values of keyword-only parameters are lost (types.FunctionType takes only __defaults__), so def f(*, n=1) cannot be called as f() any more. The binding of arguments is CPython's, written down in the model."
  },
  {
   "property": "C116",
   "status": "partial",
   "theorems": [
    "Pieshell.Subst.C116_as_if_through_files",
    "Pieshell.Subst.C116_all_end",
    "Pieshell.Subst.C116_result_is_reached"
   ],
   "note": "Programs, iterators and python functions in chains and in pipelines among arguments. Missing: python functions given as arguments (the program then has several outputs), groups, stdin redirected in the middle of a chain. The first commands of pipelines among arguments share the command's stdin, as in bash: they must not read it (NoStdin), and such a pipeline must not begin with a function. A function that ends before it has read all of its input keeps the writer running for ever if that writes more than the pipe holds (C116_all_end: it does not happen if functions and what their output gets to read to the end). What programs compute is a parameter; termination needs programs to give up after a failed write."
  },
  {
   "property": "C117",
   "status": "proved",
   "theorems": [
    "Pieshell.Several.C117_own_environment",
    "Pieshell.Several.C117_program",
    "Pieshell.Several.C117_independent",
    "Pieshell.Several.C117_job_of_the_leftmost",
    "Pieshell.Several.C117_redirections_of_the_leftmost"
   ],
   "note": "For every started pipeline of any shape: what each command becomes depends on its own environment only (arguments, variables, PATH, directory); job and default redirections of the leftmost command's environment."
  },
  {
   "property": "C118",
   "status": "partial",
   "theorems": [
    "Pieshell.Several.C118_refuted",
    "Pieshell.Several.C118_exact_partial",
    "Pieshell.Several.C118_otherwise_partial"
   ],
   "note": "The statement is false: items before the argument that cannot be expanded have been started and run on, without a job, writing to a pipe whose read end the shell keeps (C118_refuted, for every a | b). Proved: exactly which items have been started, that the exception is raised, nothing that was open is closed, no job is listed, and that otherwise everything is started. Assumes `Startable` (enough descriptors, files can be opened)."
  },
  {
   "property": "C119",
   "status": "partial",
   "theorems": [
    "Pieshell.Poll.C119_output_refuted",
    "Pieshell.Poll.C119_input_refuted",
    "Pieshell.Poll.C119_exact_partial",
    "Pieshell.Poll.C119_iff_partial",
    "Pieshell.Poll.C119_programs_partial"
   ],
   "note": "The statement is false: epoll refuses regular files and /dev/null, so that starting such a pipeline raises PermissionError (both directions, every pipeline shape). Proved: it is started if and only if the event loop can wait for everything a function or iterator is connected to; otherwise exactly the items before the first such one have been started; pipelines of programs only are never concerned."
  },
  {
   "property": "C120",
   "status": "partial",
   "theorems": [
    "Pieshell.Ops.C120_append_refuted",
    "Pieshell.Ops.C120_append_file_refuted",
    "Pieshell.Ops.C120_prefix_refuted",
    "Pieshell.Ops.C120_prefix_plus_refuted",
    "Pieshell.Ops.C120_prefix_chain_refuted",
    "Pieshell.Ops.C120_redirected_refuted",
    "Pieshell.Ops.C120_append_partial",
    "Pieshell.Ops.C120_append_none_partial",
    "Pieshell.Ops.C120_prefix_compared_refuted",
    "Pieshell.Ops.C120_two_prefixes_refuted",
    "Pieshell.Ops.C120_parentheses_partial",
    "Pieshell.Ops.C120_redirections"
   ],
   "note": "The statement is false as the README words it: `a | b & True` starts b alone and raises ValueError; `\"f\" | b & True` starts b on the terminal and is None; `~a | b` starts a, `~a | b | c` is `None | c`. Proved, for expressions of any length: what these do, that expressions without | < > outside of parentheses, and all expressions in parentheses, are started as a whole. Numbers, `-` and classes with operators of their own are not modelled."
  },
  {
   "property": "C121",
   "status": "proved",
   "theorems": [
    "Pieshell.C11_output_file_content"
   ],
   "note": "The true part of C11, exactly."
  },
  {
   "property": "C122",
   "status": "proved",
   "theorems": [
    "Pieshell.Job.C47_only_when_done"
   ],
   "note": "The safety half of C47."
  },
  {
   "property": "C123",
   "status": "proved",
   "theorems": [
    "Pieshell.Tree.C55_paths",
    "Pieshell.Tree.C55_process_tree",
    "Pieshell.Tree.C55_logins"
   ],
   "note": "The tree itself (C55 asks for access from the pipeline object); slugify is a parameter that keeps digits."
  },
  {
   "property": "C124",
   "status": "proved",
   "theorems": [
    "Pieshell.Shell.C59_parse"
   ],
   "note": "The first half of C59."
  },
  {
   "property": "C125",
   "status": "proved",
   "theorems": [
    "Pieshell.Shell.C86_isolated",
    "Pieshell.Shell.C86_attributes",
    "Pieshell.Shell.C86_once",
    "Pieshell.Shell.C86_assign",
    "Pieshell.Shell.C86_reload"
   ],
   "note": "The true part of C86."
  },
  {
   "property": "C126",
   "status": "proved",
   "theorems": [
    "Pieshell.Job.C88_cancel",
    "Pieshell.Job.C88_step",
    "Pieshell.Job.C88_ends",
    "Pieshell.Job.C88_only_if_cancelled"
   ],
   "note": "The true part of C88: what may change is the pipeline CTRL-Z acts upon, which is not claimed here."
  },
  {
   "property": "C127",
   "status": "proved",
   "theorems": [
    "Pieshell.Status.C100_told",
    "Pieshell.Status.C100_failed_processes"
   ],
   "note": "The true part of C100 (exit_code is not claimed here)."
  },
  {
   "property": "C128",
   "status": "proved",
   "theorems": [
    "Pieshell.Term.C102_environment"
   ],
   "note": "The exact statement behind C102."
  },
  {
   "property": "C129",
   "status": "proved",
   "theorems": [
    "Pieshell.C105_names",
    "Pieshell.C105_defaults",
    "Pieshell.C105_attributes",
    "Pieshell.C105_order",
    "Pieshell.C105_sorted"
   ],
   "note": "The true part of C105 (telling redirections apart is not claimed here)."
  },
  {
   "property": "C130",
   "status": "proved",
   "theorems": [
    "Pieshell.Pickle.C87_arrives",
    "Pieshell.Pickle.C87_sendable"
   ],
   "note": "The true part of C87."
  },
  {
   "property": "C131",
   "status": "proved",
   "theorems": [
    "Pieshell.Job.C99_stops"
   ],
   "note": "The true part of C99."
  },
  {
   "property": "C132",
   "status": "proved",
   "theorems": [
    "Pieshell.Whole.C96_tmp"
   ],
   "note": "The part of C96 about TMP."
  },
  {
   "property": "C133",
   "status": "proved",
   "theorems": [
    "Pieshell.Job.C52_listed"
   ],
   "note": "The half of C52 that holds."
  },
  {
   "property": "C134",
   "status": "proved",
   "theorems": [
    "Pieshell.Cmd.C28_representation_is_faithful",
    "Pieshell.Cmd.C28_injective"
   ],
   "note": "The true part of C28."
  },
  {
   "property": "C135",
   "status": "proved",
   "theorems": [
    "Pieshell.C03_exact"
   ],
   "note": "The exact statement behind C03."
  },
  {
   "property": "C136",
   "status": "proved",
   "theorems": [
    "Pieshell.C13_exact"
   ],
   "note": "The exact statement behind C13."
  },
  {
   "property": "C137",
   "status": "proved",
   "theorems": [
    "Pieshell.PyCall.C115_exact"
   ],
   "note": "The exact statement behind C115."
  },
  {
   "property": "C138",
   "status": "proved",
   "theorems": [
    "Pieshell.Envs.C112_offered"
   ],
   "note": "The part of C112 after at least one word."
  },
  {
   "property": "C139",
   "status": "partial",
   "theorems": [
    "Pieshell.Interrupt.C139_refuted",
    "Pieshell.Interrupt.C139_told_partial",
    "Pieshell.Interrupt.C139_later_wait_partial",
    "Pieshell.Interrupt.C139_again_partial",
    "Pieshell.Interrupt.C139_returned_partial",
    "Pieshell.Interrupt.C139_other_refuted",
    "Pieshell.Interrupt.C139_ctrlz_refuted",
    "Pieshell.Interrupt.C139_listed_refuted"
   ],
   "note": "False of the code in the usual case: while the loop sleeps, CTRL-C ends the call with a plain KeyboardInterrupt and leaves the call of wait() pending (C139_refuted, for all histories); PipelineInterrupted exactly if the code of wait() itself is hit (C139_told_partial); it can be about another pipeline (C139_other_refuted); after CTRL-C the next job may not be suspendable (C139_ctrlz_refuted), an ended job may stay listed (C139_listed_refuted). Later calls of wait() report the end of a pipeline only when it has ended, and failure exactly if an item failed, unless an interruption hits the code that handles the end of an item (C139_later_wait_partial); a pipeline interrupted in the loop can be waited for again (C139_again_partial); a call that returns returns the result of its own pipeline (C139_returned_partial)."
  },
  {
   "property": "C140",
   "status": "partial",
   "theorems": [
    "Pieshell.Ps.C140_child_partial",
    "Pieshell.Ps.C140_down_partial",
    "Pieshell.Ps.C140_parent",
    "Pieshell.Ps.C140_up",
    "Pieshell.Ps.C140_anywhere_partial",
    "Pieshell.Ps.C140_leaders_partial",
    "Pieshell.Ps.C140_members_partial",
    "Pieshell.Ps.C140_names",
    "Pieshell.Ps.C140_item",
    "Pieshell.Ps.C140_item_details",
    "Pieshell.Ps.C140_users_partial",
    "Pieshell.Ps.C140_children_refuted",
    "Pieshell.Ps.C140_leader_gone_refuted",
    "Pieshell.Ps.C140_pid_refuted",
    "Pieshell.Ps.C140_top_refuted",
    "Pieshell.Ps.C140_stale_refuted",
    "Pieshell.Ps.C140_detail_refuted"
   ],
   "note": "Paths down, up and across, by induction over the tree of processes; exact conditions for GROUP, SESS and attributes. Refuted: programs called `children` or `pid`, leaders that have ended, the parent of init, logins whose process has gone, attributes of logins hidden by those of processes."
  },
  {
   "property": "C141",
   "status": "partial",
   "theorems": [
    "Pieshell.FuncArg.C141_functions_as_arguments",
    "Pieshell.FuncArg.C141_all_end",
    "Pieshell.FuncArg.C141_result_is_reached",
    "Pieshell.FuncArg.C141_early_function_blocks"
   ],
   "note": "For commands whose arguments are words and functions (no pipelines), by an invariant over all executions. That everything ends is proved if the functions read to the end, and refuted otherwise: for each capacity of the pipes there is a program that waits for ever for a function that has ended."
  },
  {
   "property": "C142",
   "status": "proved",
   "theorems": [
    "Pieshell.FuncArg.C142_own_descriptors"
   ],
   "note": "For all pipelines that can be started."
  },
  {
   "property": "C143",
   "status": "proved",
   "theorems": [
    "Pieshell.FuncArg.C143_explained",
    "Pieshell.FuncArg.C143_item_result",
    "Pieshell.FuncArg.C143_link",
    "Pieshell.FuncArg.C143_failed"
   ],
   "note": "For all pipelines that can be started, by an invariant over all executions: a record of what has been written to and read from each pipe, by whom."
  },
  {
   "property": "C144",
   "status": "proved",
   "theorems": [
    "Pieshell.FuncArg.C144_stuck"
   ],
   "note": "For all networks and states."
  },
  {
   "property": "C145",
   "status": "proved",
   "theorems": [
    "Pieshell.FuncArg.C145_no_deadlock",
    "Pieshell.FuncArg.C145_tidy",
    "Pieshell.FuncArg.C145_all_end",
    "Pieshell.FuncArg.C141_early_function_blocks"
   ],
   "note": "For all pipelines that can be started, by structural induction: items that wait for each other wait in the end for what is outside of the pipeline. Both exceptions do occur: C141_early_function_blocks, and see C14_refuted_redirected_stdin and C81 for what is left behind."
  },
  {
   "property": "C146",
   "status": "proved",
   "theorems": [
    "Pieshell.FuncArg.C146_bounded",
    "Pieshell.FuncArg.C146_ends"
   ],
   "note": "For all pipelines that can be started. The induction of C145 shows that no item reads, directly or indirectly, what it has written; so the work of each is limited by that of those before it."
  },
  {
   "property": "C147",
   "status": "proved",
   "theorems": [
    "Pieshell.FuncArg.C147_same_streams",
    "Pieshell.FuncArg.C147_same_result",
    "Pieshell.FuncArg.C147_one_result",
    "Pieshell.FuncArg.C147_files_one",
    "Pieshell.FuncArg.C147_no_failure"
   ],
   "note": "For all pipelines that can be started. Who really reads and writes is decided by the behaviour of the items (MayRead, MayWrite), not by the wiring: two commands may be connected to the same stdin if only one of them reads it. Extends C81, C82, C116 and C141 to all shapes."
  },
  {
   "property": "C148",
   "status": "partial",
   "theorems": [
    "Pieshell.Registry.C148_partial",
    "Pieshell.Registry.C148_no_exception",
    "Pieshell.Registry.C148_replaced",
    "Pieshell.Registry.C148_wrong_one",
    "Pieshell.Registry.C148_exception"
   ],
   "note": "Proved for histories in which no two live handlers ask for the same, fields exist, nothing raises (C148_partial, exact list of events). Refuted without that: C148_replaced, C148_wrong_one, C148_exception say what happens then, for all histories. Numbers of processes may be used again."
  },
  {
   "property": "C149",
   "status": "proved",
   "theorems": [
    "Pieshell.Registry.C149_nothing_else",
    "Pieshell.Registry.C149_last"
   ],
   "note": "The half of C148 that holds in every history."
  },
  {
   "property": "C150",
   "status": "partial",
   "theorems": [
    "Pieshell.History.C150_partial",
    "Pieshell.History.C150_exact",
    "Pieshell.History.C150_refuted",
    "Pieshell.History.C150_no_directory"
   ],
   "note": "True for shells that run one after the other. C150_exact: in every history the file is, when a shell ends, what it was when that shell was started, followed by what was typed in it; hence the refutation for shells that run at the same time."
  },
  {
   "property": "C151",
   "status": "proved",
   "theorems": [
    "Pieshell.Io.C151_str",
    "Pieshell.Io.C151_agree",
    "Pieshell.Io.decode_some",
    "Pieshell.Io.textLines_unique"
   ],
   "note": "For every schedule of writer, event loop and reader; str, bytes and list are compared for runs in which the pipeline writes the same."
  },
  {
   "property": "C152",
   "status": "partial",
   "theorems": [
    "Pieshell.WithScope.C152_partial",
    "Pieshell.WithScope.C152_block",
    "Pieshell.WithScope.C152_refuted_unset",
    "Pieshell.WithScope.C152_refuted_again",
    "Pieshell.WithScope.C152_refuted"
   ],
   "note": "Proved for every block if there was a prompt and the scope is not entered again inside; false otherwise, and what the prompt is then is proved. Overlapping blocks of generators and threads are not modelled."
  }
 ]
}