C01 | proved | C01_child_wiring | distinct open sources, descriptor numbers below the process limit
C02 | proved | C02_child_inherits_nothing_else | 
C03 | partial | C03_exact C03_file_redirections_partial C03_closed_target_always_fails C03_refuted | False in general: the assertion fails (and is swallowed) when a file is opened for the descriptor that happens to be the lowest free one. C03_exact: holds if and only if there is no such clash.
C04 | partial | C04_repeated_source_always_fails C04_refuted | the property is false: theorem shows every table with a repeated source descriptor fails
C05 | partial | C05_exec_regardless C05_refuted C05_other_failures_prevent_exec_partial | the property is false: exec follows a failed redirection
C06 | proved | C06_last_redirection_wins C06_register C06_construction_fails_iff C06_merge C06_copy_and_borrow C06_copies_are_independent | 
C07 | proved | C07_free_descriptor | 
C08 | proved | C08_make_pipes C08_tmp_for_reading_refused | 
C09 | proved | C09_shell_closes_own_ends C09_never_closes_borrowed | 
C10 | partial | C10_relative_redirection_partial C10_resolved_against_process_directory C10_refuted | false when the process's directory differs from the environment's
C11 | partial | C11_explicit_flags C11_output_file_content C11_output_replaces_content_partial C11_refuted | no O_TRUNC: exact content proved; property holds iff old content is not longer
C12 | proved | C12_wired_left_to_right | chains of commands (with pipelines as arguments), functions, iterators, with redirections (files, temporary files, pipes) around items, parts and the whole; excluded: piping out of an item whose output was redirected elsewhere (see C18)
C13 | partial | C13_exact C13_no_leak_partial C13_refuted C13_refuted_redirected_stdin | false in general: one leaked read end per a + b where the output of a is a pipe, and per a | b where the input of b is redirected (exact count proved for all trees with redirections); holds otherwise
C14 | proved | C14_end_of_file_propagates C14_exact C14_refuted_redirected_stdin | With redirections too, except a redirected stdin after |, for which it is false (proved for every such pipeline).
C15 | partial | C15_refuted C15_refuted_piped C15_both_write_to_the_same_object_partial | the property is false: refuted for every a, b (possibly redirected elsewhere than stdout) when the output is a pipe; holds when it is an open descriptor
C16 | proved | C16_items_are_the_leaves_in_order | 
C17 | proved | C17_pipelines_as_arguments | including redirected pipelines among the arguments
C18 | proved | C18_innermost_redirection_wins C18_piped_after_redirection_closes_stdin | 
C19 | partial | C19_copy_is_fresh_and_equal C19_copy_fails_iff C19_originals_unchanged_partial C19_any_sequence_of_runs_partial C19_run_again_partial C19_copy_not_started C19_refuted_iterator C19_running_is_started | one-shot iterators used as functions/arguments are shared with the copy and consumed (refuted); everything else proved for every object graph
C20 | partial | C20_piped_into_partial C20_piped_from_partial C20_pipelines C20_refuted_async C20_refuted_closing | false for asynchronous iterators (ValueError) and for closing redirections (KeyError); proved for all other values
C21 | proved | C21_operators C21_explicit | 
C22 | partial | Cmd.C22_construction_partial Cmd.C22_equivalent_partial Cmd.C22_environment_root Cmd.C22_refuted Cmd.C22_attribute Cmd.C22_dash Cmd.C22_env_names | false for attribute names that are python attributes of the object (docker.run); proved for all others
C23 | proved | C23_positions C23_options C23_argument_list | 
C24 | proved | C24_plain_string C24_arguments | 
C25 | proved | C25_template C25_doubling C25_undefined C25_values_are_expanded_again | values of variables are subject to ~ and file name expansion again (exhibited); conversions other than %%, %s and %(name)s are outside the model
C26 | proved | C26_expansion C26_no_option_injection | fnmatch on one name is a parameter; the file system does not change during one expansion; ~unknown-user patterns are excluded from C26_expansion
C27 | partial | C27_dotdot_partial C27_upwards_partial C27_below_directory_partial C27_refuted | False in a directory whose name contains wild cards. Proved for all other directories and all relative patterns, with .. anywhere (only the directory the pattern leads to must be free of wild cards); a component followed by .. is removed together with it before matching, whether or not it matches anything.
C28 | partial | C28_representation_is_faithful C28_injective C28_command_shows_its_words_partial C28_attributes_partial C28_refuted C28_attributes_conversely_partial | non-string arguments are shown as /dev/fd/X and the empty word as attribute (refuted); faithful for all lists of strings
C29 | partial | C29_absolute_normalised_partial C29_strictly_normalised_partial C29_refuted | The working directory of every environment stays absolute and normalised over every history, except that a path starting with exactly two slashes keeps both (refuted with "//tmp").
C30 | partial | C30_cd_partial C30_noninteractive C30_refuted C30_enters_anything | A failing cd to a missing path changes nothing; refuted for an interactive environment entering a regular file; a non-interactive one enters anything that exists.
C31 | partial | C31_independent_partial C31_copy C31_refuted | Histories on one environment leave another alone, except for what copying an interactive environment does to the process directory.
C32 | partial | C32_given_exports_partial C32_changes_partial C32_refuted | Programs see exactly the environment's exports, except that exports={} falls back to the process environment.
C33 | partial | C33_read_after_assign_partial C33_assign_frame C33_history_partial C33_refuted C33_underscore | False once a local variable is exported (writes go to the export, reads see the stale local); proved for all other histories of assignments, deletions, exports and unexports.
C34 | partial | C34_resolution_partial C34_refuted | Order proved; false for the names _ and exports and for attributes of the environment object.
C35 | partial | C35_lists_the_path_partial C35_cached C35_cleared C35_refuted C35_builtin_builds_a_command C35_refuted_missing_directory | dir(env) lists PATH and builtins and is cached until cleared; the clear_dir_cache builtin clears nothing, and a missing PATH directory poisons the cache.
C36 | proved | Io.C36_lines Io.C36_prefix Io.C36_chunking_irrelevant Io.C36_text Io.IsLines_unique | One consumer at a time.
C37 | proved | Io.C37_bytes Io.C37_prefix Io.C37_empty_last | One consumer at a time; iterbytes yields one extra empty chunk at the end.
C38 | proved | Io.C38_waiting Io.C38_woken Io.C38_finite Io.C38_progress Io.C38_chunk_waiting Io.C38_chunk_woken Io.C38_chunk_finite Io.C38_chunk_progress | Termination is stated as: finitely many effective steps, and one is possible until the iteration has ended.
C39 | proved | Io.Writer.C39_one_request Io.Writer.C39_in_order Io.Writer.C39_written Io.Writer.C39_complete Io.Writer.C39_failed Io.Writer.C39_not_stuck | 
C40 | partial | Io.Writer.C40_quiet_partial Io.Writer.C40_at_most_one_partial Io.Writer.C40_refuted | In all cases at most one item is written, and the iterator asked at most once, after the closing. False for a suspending iterator whose reader goes away while a task is queued: an item is written to the closed descriptor number.
C41 | proved | Io.Wire.C41_lines Io.Wire.C41_items Io.Wire.C41_texts | Writer and reader on one pipe without other ends (C15).
C42 | partial | Io.Writer.C42_small_items_partial Io.Writer.C42_synchronous_partial Io.Writer.C42_refuted_big Io.Writer.C42_refuted_stale Io.Writer.C42_refuted_suspended | True for items of at most a third of PIPE_BUF (half of it, if the iterator never suspends); false for larger ones because readiness may be stale; both bounds are exact.
C43 | partial | Func.C43_sent_partial Func.C43_regular_no_failure Func.C43_raises Func.C43_str_chars Func.C43_str_refuted Func.C43_bytes_refuted Func.C43_async_iterable_refuted | False for functions returning a string (one line per character), bytes (numbers) or an asynchronous iterable without __anext__ (AttributeError).
C44 | partial | Sig.C44_decode_partial Sig.C44_continued_refuted Sig.C44_injective | False for a continued child: reported as CLD_DUMPED with signal 127.
C45 | proved | Sig.C45_order Sig.C45_latest Sig.C45_exit_once Sig.C45_not_others Sig.C45_dispatch Sig.C45_reaches_quiet | Both signal managers.
C46 | partial | Sig.C46_exited_partial Sig.C46_sound Sig.C46_killed_refuted | False for children killed by a signal: is_running stays True for ever.
C47 | partial | Job.C47_only_when_done Job.C47_loop_ends Job.C47_completes_partial Job.C47_sequential Job.C47_sequential_completes_partial Job.C47_function_refuted Job.C47_two_waits_refuted Job.C47_undecodable_refuted Job.C47_fg_refuted | "Only if" holds always. "Does complete" is false for a failing function that ends last, for the first of two concurrent waits, for undecodable STRING output and for fg of a failed job; proved otherwise (also for histories with cancelled calls, and for the call that overtook another).
C48 | proved | Job.C48_exact Job.C48_failed_processes | 
C49 | partial | Job.C49_captured_partial Job.C49_not_before Job.C49_once Job.C49_tmp_kept Job.C49_undecodable_refuted Job.C49_newline_refuted Job.C49_wait_refuted | False for output that is not UTF-8 and (byte for byte) for carriage returns; wait() may return before the output is captured.
C50 | partial | Job.C50_partial Job.C50_shared_refuted | False for shared TMP files.
C51 | partial | Job.C51_suspend_partial Job.C51_resume Job.C51_other_wait_refuted Job.C51_fg_refuted | CTRL-Z is lost if another wait() ended meanwhile; fg hangs after CTRL-Z.
C52 | partial | Job.C52_listed Job.C52_exact_partial Job.C52_builtin_refuted Job.C52_function_refuted | Builtins without processes (cd, bg) are listed for ever.
C53 | partial | Job.C53_partial Job.C53_explicit Job.C53_bg_fg_refuted | After bg, fg refers to bg's own pipeline. With the job given as an argument, bg(job) and fg(job) are proved for every history.
C54 | partial | Job.C54_partial Job.C54_refuted | False if an item other than the last fails, or the failing item is a function.
C55 | partial | Tree.C55_paths Tree.C55_browse_partial Tree.C55_hidden_refuted Tree.C55_refuted Tree.C55_process_tree Tree.C55_logins Tree.C55_hidden_names_refuted | The tree itself is proved in full (slugify a parameter that keeps digits). From the pipeline object, names of its own members and `children` hide processes (proved).
C56 | partial | Bash.C56_import_partial Bash.C56_exact Bash.C56_dollar_refuted Bash.C56_last_lost_refuted Bash.C56_control_refuted Bash.C56_function_refuted Bash.C56_quote_refuted | False for values with $ or backquotes, for control characters, for the last variable if no function is printed, if a function contains declare, and if a function contains an unclosed quote (nothing is imported then, exactly then); proved otherwise, for functions with any text in which the quotes are closed.
C57 | proved | Remote.C57_transport Remote.b64_roundtrip | pickle itself is not modelled; the remote shell is the small shell reader of Spec/Remote.
C58 | partial | Remote.C58_sources_partial Remote.C58_quote_refuted Remote.C58_percent_refuted Remote.C58_pattern_refuted | False for names with quotes (the rest is run as commands) or percent signs (formatted twice), and if a file is matched by the whole script as a pattern; proved otherwise.
C59 | partial | Shell.C59_parse Shell.C59_action_partial Shell.C59_log_refuted Shell.C59_flag_refuted Shell.C59_pflag_refuted | Parsing is proved in full. The choice of the action is proved for command lines without --log and without valueless --cmd/--pcmd; those crash (proved).
C60 | partial | Repr.C60_repr_partial Repr.C60_no_templates Repr.C60_no_commands Repr.C60_without_scope Repr.C60_display Repr.C60_prompt_runs Repr.C60_session Repr.C60_names_complete Repr.C60_refuted | False where an argument contains %(name)s and name is no variable: printing then runs the program of that name. No pipeline that is being printed is ever started by repr().
C61 | partial | Sig.C61_signalfd_partial Sig.C61_asyncio_refuted | True for the signalfd manager only; with the asyncio manager the stop handler is never called.
C62 | proved | Shell.C62_first_directory Shell.C62_not_found | 
C63 | partial | Ops.C63_expression_refuted C63_refuted C63_parenthesised_partial Coerce.C63_value | the property is false for every pipeline and file names
C64 | partial | C64_restored_partial C64_refuted | Proved for with env.temporary_env(...) and every block in a shell with one scope; false when the method is called on an environment other than the current one.
C65 | partial | C65_same_meaning_partial C65_refuted | True for environments that have been assigned to env; false for derived ones such as env["dir"].
C66 | partial | C66_globals_partial C66_refuted | False for globals named like an exported variable.
C67 | proved | C67_home_directories | 
C68 | proved | C68_cd_walks C68_cd_home | Words are single file names; the first does not start with ~.
C69 | proved | Repr.C69_text Repr.C69_command Repr.C69_one_environment Repr.C69_stable | 
C70 | proved | Exec.C70_first_in_path Exec.C70_status Exec.C70_unknown Exec.C70_path Exec.C70_directory | 
C71 | partial | Exec.C71_text_partial Exec.C71_paths Exec.C71_refuted Exec.C71_exports_refuted | Refuted: numbers and booleans given as positional arguments, and exported variables that are not text, always end the command with status 255; proved for text.
C72 | partial | Exec.C72_child_partial Exec.C72_program_partial Exec.C72_refuted | Refuted when the error message cannot be written or CTRL-C arrives before exec; proved otherwise.
C73 | partial | Shell.C73_names_partial Shell.C73_refuted Shell.C73_no_startup_refuted | Refuted if one of the names is exported (TMP: every command then ends with 255), and with --no-startup; proved otherwise.
C74 | partial | Startup.C74_kept_partial Startup.C74_executed_partial Startup.C74_first_partial Startup.C74_only_default_partial Startup.C74_refuted Startup.C74_permission_refuted | Refuted: an interrupted first start leaves an empty configuration for ever; without write permission the shell cannot start.
C75 | partial | Startup.C75_prompt_partial Startup.C75_refuted Prompt.C75_expands_partial Prompt.C75_refuted_beside | Refuted for directories whose name merely begins with that of the home directory; proved otherwise.
C76 | partial | Startup.C76_all_partial Startup.C76_stop_partial Startup.C76_refuted Startup.C76_message_partial | Refuted: failing scripts give status 0, incomplete ones are silently not executed.
C77 | partial | C77_content C77_refuted C77_append_partial C77_each_opens_the_file | False: each item opens the file itself without O_APPEND, so the outputs overwrite each other under every schedule (exact content proved); holds with O_APPEND given explicitly.
C78 | proved | Iterate.C78_lines Iterate.C78_bytes Iterate.C78_output Iterate.C78_waits | Product of the readers (C36, C37) and the jobs (C47, C48), for all interleavings.
C79 | partial | Iterate.C79_lines_refuted Iterate.C79_never_closed_while_written Iterate.C79_end_closes_partial | False: a loop that is left early never closes the descriptor and reads nothing more; proved for iterations that are continued to the end.
C80 | partial | Iterate.C80_refuted | False for every history: pieshell does nothing to a pipeline for which wait() was not called. After the end of the stream C51 applies.
C81 | partial | Flow.C81_as_if_through_files Flow.C81_schedule_does_not_matter Flow.C81_result_is_reached Flow.C81_refuted_redirected_stdin | Proved for chains of programs in which only the first one's stdin is redirected; false when the stdin of a later one is (its predecessor blocks for ever). Chains with python functions: C82.
C82 | proved | Flow.C82_as_if_through_files Flow.C82_all_end Flow.C82_schedule_does_not_matter | Functions are byte transducers with the handlers' read-ahead; see C84 for functions on lines. Excluded (as in C81): a redirected stdin of a later item.
C83 | partial | Flow.C83_program_ended_partial Flow.C83_refuted_python_function Flow.C83_refuted_sigpipe_ignored | True if the item that has ended is a program: every further write of the one before fails. False if it is a python function: the handler closes its descriptor only at the end of file, so `yes | f` leaves yes behind for ever once f has returned. False for programs that take no notice of failing writes, as they are started with SIGPIPE ignored.
C84 | proved | Flow.C84_function_on_lines Flow.C84_program_then_function Flow.mapLines_yields | For `prog | f`; longer chains by C82 and C84_function_on_lines.
C85 | partial | Sig.C85_in_order Sig.C85_events Sig.C85_one_at_a_time Sig.C85_others_partial Sig.C85_none_partial Sig.C85_refuted_second_event Sig.C85_refuted_two_calls Sig.C85_refuted_dispatch Sig.C85_raises_iff | The iterator itself loses nothing. False in what concerns others: the second event after a wait makes handle_event raise InvalidStateError, and handlers registered later miss the event. Two calls at the same time: the first waits for ever.
C86 | partial | Shell.C86_isolated Shell.C86_attributes Shell.C86_once Shell.C86_assign Shell.C86_reload Shell.C86_refuted_failing Shell.C86_refuted_second_import Shell.C86_refuted_arguments Shell.C86_refuted_unknown | Isolation, attributes and single execution hold. False: a module that raises an exception, or is not valid python, is imported without an error; one that cannot be read is imported at the second attempt; variables of the module are unknown in the arguments of its commands (KeyError); names that the module does not define are commands.
C87 | partial | Pickle.C87_arrives Pickle.C87_sendable Pickle.C87_refuted_python Pickle.C87_refuted_running_job Pickle.C87_refuted_busy | What arrives is isomorphic to what was sent (all paths of attributes, classes, sharing), and exactly which pipelines can be sent. False: from python 3.11 on no pipeline can be sent (TypeError); while a job is running in the environment, no pipeline of that environment can.
C88 | partial | Job.C88_cancel Job.C88_step Job.C88_ends Job.C88_only_if_cancelled Job.C88_later_wait_partial Job.C88_foreground_refuted | The job and all other calls go on, later waits get the result. False: the end of the cancelled call makes CTRL-Z forget the pipeline another call is waiting for.
C89 | partial | Sgn.C89_options_partial Sgn.C89_flags Sgn.C89_values Sgn.C89_usable Sgn.C89_computed_iff Sgn.C89_refuted_digits Sgn.C89_refuted_keyword Sgn.C89_refuted_case | What is found in every text, defaults, types, and that the parameters are passed on as printed. False: options with digits or of one letter, values that differ in case only, options named like python keywords (no signature at all).
C90 | partial | Cmd.C90_shown_partial Cmd.C90_distinct_partial Cmd.C90_refuted_short Cmd.C90_refuted_values | Proved for command lines without short options and options with values behind the first word that is no name; false for those.
C91 | partial | Itu.C91_map Itu.C91_sync_partial Itu.C91_over Itu.C91_refuted_running Itu.C91_refuted_pipeline Itu.C91_refuted_filter | map on iterators and synchronous iteration outside of the event loop proved for all iterators. False: map in a pipeline and for loops in coroutines always raise, filter cannot be used at all.
C92 | partial | Shell.C92_same_partial Shell.C92_read Shell.C92_refuted_exported Shell.C92_refuted_env Shell.C92_refuted_pyshfunction | Proved for variables that are not exported; false for exported ones, for env, and for functions made with pyshfunction.
C93 | partial | Pids.C93_own_partial Pids.C93_present Pids.C93_present_start Pids.C93_no_reuse_partial Pids.C93_refuted Pids.C93_refuted_history Pids.C93_refuted_permission | Proved while no process of the job has been waited for, and for all histories in which process numbers are not reused. False otherwise: strangers are stopped or continued, or PermissionError is raised.
C94 | partial | Job.C94_can_be_shown Job.C94_message_partial Job.C94_contains_output_partial Job.C94_refuted_fg Job.C94_refuted_function Job.C94_refuted_early | Exact text proved once the loop is at rest, for pipelines without fg. False: fg of a failed pipeline (TypeError), captured output of functions, messages made as soon as wait() raises.
C95 | partial | Whole.C95_result Whole.C95_result_greedy Whole.C95_returns_partial Whole.C95_refuted_killed | The meaning of the result is proved for all executions; that wait() ends is proved when programs whose writes fail give up, and functions and all that follow them read their input to the end. False for programs that reset SIGPIPE: when killed by it they are never seen to have ended, and wait() never returns.
C96 | partial | Whole.C96_exact_partial Whole.C96_captured_partial Whole.C96_tmp | Captured is nothing or the whole text, at every moment, for text output; captured at rest under the same conditions as in C95_returns_partial. False otherwise: output that is not UTF-8 is not captured (C49_undecodable_refuted); a pipeline with a killed program never ends (C95_refuted_killed).
C97 | partial | C97_refuted C97_refuted_daemon C97_only_through_log_partial C97_log_descriptor C97_log_number | False for every program of every pipeline: it inherits the log descriptor, an inheritable duplicate of the shell's standard output. Proved: there is no other way.
C98 | partial | Expand.C98_patterns_partial Expand.C98_directory_partial Expand.C98_quote Expand.C98_fnmatch_quote Expand.C98_quoted_file_partial Expand.C98_refuted_empty_range Expand.C27_refuted_fnmatch | For every pattern without empty ranges, in every directory whose path has no wild card; quoting works for every name. False for patterns like `[b-a!c]` (Python's fnmatch) and in directories whose name contains a wild card (C27).
C99 | partial | Job.C99_stops Job.C99_wait_partial Job.C99_refuted | Stopping and continuing hold for every history, and wait() never reports success or failure of a suspended pipeline. False: a call of wait() under way is not woken by suspend(); it goes on waiting until a process ends or somebody continues the pipeline.
C100 | partial | Status.C100_told Status.C100_failed_processes Status.C100_exit_code Status.C100_ended_partial Status.C100_refuted_early Status.C100_refuted_signals Status.C100_refuted_zero | The lists, is_failed and is_running are proved in full. exit_code is exact only once the last program has ended: before its first event it raises TypeError, after a stop or a deadly signal it is the signal's number, and it is 0 for failed pipelines that end with a function or a program that succeeded.
C101 | partial | Status.C101_shown_partial Status.C101_continued_refuted | Never raises; exact text once the signals are handled. False for a program that was stopped and continued: it is shown as dead with status=3, signal=127 while it runs.
C102 | partial | Term.C102_environment Term.C102_others_partial Term.C102_refuted | The exact signal environment of every started program is proved; as usual for all signals but four. False for SIGPIPE and SIGXFSZ (ignored), and with signalfd for SIGCHLD and SIGTSTP (blocked).
C103 | partial | Term.C103_refuted_background Term.C103_refuted_quit | The foreground programs and the shell's program are interrupted (proved); false that background jobs go on: all programs share the shell's process group, so they are interrupted, too.
C104 | partial | Term.C104_refuted_signalfd Term.C104_refuted_asyncio Term.C104_suspend_partial Term.C104_unblock_partial | With signalfd no program ever gets the signal, even if it handles it (and CTRL-Z itself stops none: background programs are not affected); without, background programs are stopped as well. What suspend() and restart() do to a process is proved.
C105 | partial | C105_names C105_defaults C105_attributes C105_shown_partial C105_refuted C105_order C105_sorted C105_pipe_shown_partial | Names, defaults, attributes and the order of a table's text are proved in full. The text tells redirections from files (or from descriptors) with single-bit flags apart; false in general: descriptor 3 and a file named 3, DSYNC and SYNC are shown alike.
C106 | partial | Expand.C106_order Expand.C106_refuted_sorted Expand.C106_refuted_slash Expand.C106_refuted_slash_example | The exact words in the exact order are proved for patterns without a slash: it is the order of os.listdir, so they are not sorted. A trailing slash has no effect (it is removed by abspath): files that are not directories are found, too.
C107 | partial | Whole.C107_unnoticed Whole.C107_programs_partial Whole.C107_refuted Whole.C107_refuted_functions | Pipelines of programs only that the shell does not read from go on to the end while the event loop does not run. Refuted: nothing shows that they have ended (is_running, running_pipelines, exit_code, wait() change only in the loop), and functions, and what reads from them to the end, do not go on at all.
C108 | proved | Prompt.C108_different Prompt.C108_prompts_different Prompt.C108_prompt | 
C109 | partial | Prompt.C109_branch Prompt.C109_different Prompt.C109_nothing Prompt.C109_refuted_detached | Branch and number of changes are shown, distinctly; nothing outside of a repository. Refuted: with a detached HEAD nothing is shown (symbolic-ref fails, or the revision computed is not used).
C110 | partial | Prompt.C110_no_trace_partial Prompt.C110_prompt_partial Prompt.C110_depth Prompt.C110_refuted | One scope; nothing else named like the commands the prompt runs. Refuted for environments that do not belong to the shell: printing one makes it belong, which changes what %(name)s means in its commands.
C111 | partial | BP.C111_chain_partial BP.C111_exact_error BP.C111_without_builtins BP.C111_refuted_right BP.C111_refuted_pipe_to BP.C111_refuted_pipe_from BP.C111_refuted_wrong_files BP.C111_refuted_iterate | Holds for groups that begin with a builtin. Everywhere else a builtin makes the pipeline raise an exception (exactly those places), after the other commands have been started; a program after `cd(...) |` gets the standard input of the shell and no standard output; iteration over a group that begins with a builtin always fails.
C112 | partial | Envs.C112_offered Envs.C112_offered_first_partial Envs.C112_leads_partial Envs.C112_follow_partial Envs.C112_refuted_elsewhere Envs.C112_refuted_names | What is offered after at least one word is exact. After cd alone the directory of the process is listed, which is the wrong one in environments that are elsewhere; directories called PARENT or ROOT, and ones beginning with ~ as the first word, lead elsewhere.
C113 | proved | Compl.C113_ends Compl.C113_offered Compl.C113_path Compl.C113_session Compl.C113_refuted_inserting | jedi and readline are parameters: any result, any failure, any sequence of requests. C113_path says exactly when the import path is restored; C113_refuted_inserting shows why the proviso is needed (a search that runs code inserting at the front of sys.path loses that entry, and the directory of the process stays).
C114 | partial | ArgC.C114_words_partial ArgC.C114_offered ArgC.C114_refuted_runs ArgC.C114_refuted_empty ArgC.C114_refuted_percent | Holds for words of ordinary characters and words with spaces that fit into one kind of quotes, without % * ? [. Words are quoted only if they contain a space: dir(env.ls(";reboot")) runs reboot; empty words are lost; a percent sign makes it fail. C114_offered is complete.
C115 | partial | PyCall.C115_exact PyCall.C115_same_partial PyCall.C115_refuted | C115_exact says exactly which calls survive: those that give every keyword-only parameter. Default values of keyword-only parameters are lost (types.FunctionType takes only __defaults__), so def f(*, n=1) cannot be called as f() any more. The binding of arguments is CPython's, written down in the model.
C116 | partial | Subst.C116_as_if_through_files Subst.C116_all_end Subst.C116_result_is_reached | Programs, iterators and python functions in chains and in pipelines among arguments. Missing: python functions given as arguments (the program then has several outputs), groups, stdin redirected in the middle of a chain. The first commands of pipelines among arguments share the command's stdin, as in bash: they must not read it (NoStdin), and such a pipeline must not begin with a function. A function that ends before it has read all of its input keeps the writer running for ever if that writes more than the pipe holds (C116_all_end: it does not happen if functions and what their output gets to read to the end). What programs compute is a parameter; termination needs programs to give up after a failed write.
C117 | proved | Several.C117_own_environment Several.C117_program Several.C117_independent Several.C117_job_of_the_leftmost Several.C117_redirections_of_the_leftmost | For every started pipeline of any shape: what each command becomes depends on its own environment only (arguments, variables, PATH, directory); job and default redirections of the leftmost command's environment.
C118 | partial | Several.C118_refuted Several.C118_exact_partial Several.C118_otherwise_partial | The statement is false: items before the argument that cannot be expanded have been started and run on, without a job, writing to a pipe whose read end the shell keeps (C118_refuted, for every a | b). Proved: exactly which items have been started, that the exception is raised, nothing that was open is closed, no job is listed, and that otherwise everything is started. Assumes `Startable` (enough descriptors, files can be opened).
C119 | partial | Poll.C119_output_refuted Poll.C119_input_refuted Poll.C119_exact_partial Poll.C119_iff_partial Poll.C119_programs_partial | The statement is false: epoll refuses regular files and /dev/null, so that starting such a pipeline raises PermissionError (both directions, every pipeline shape). Proved: it is started if and only if the event loop can wait for everything a function or iterator is connected to; otherwise exactly the items before the first such one have been started; pipelines of programs only are never concerned.
C120 | partial | Ops.C120_append_refuted Ops.C120_append_file_refuted Ops.C120_prefix_refuted Ops.C120_prefix_plus_refuted Ops.C120_prefix_chain_refuted Ops.C120_redirected_refuted Ops.C120_append_partial Ops.C120_append_none_partial Ops.C120_prefix_compared_refuted Ops.C120_two_prefixes_refuted Ops.C120_parentheses_partial Ops.C120_redirections | The statement is false as the README words it: `a | b & True` starts b alone and raises ValueError; `"f" | b & True` starts b on the terminal and is None; `~a | b` starts a, `~a | b | c` is `None | c`. Proved, for expressions of any length: what these do, that expressions without | < > outside of parentheses, and all expressions in parentheses, are started as a whole. Numbers, `-` and classes with operators of their own are not modelled.
C121 | proved | C11_output_file_content | The true part of C11, exactly.
C122 | proved | Job.C47_only_when_done | The safety half of C47.
C123 | proved | Tree.C55_paths Tree.C55_process_tree Tree.C55_logins | The tree itself (C55 asks for access from the pipeline object); slugify is a parameter that keeps digits.
C124 | proved | Shell.C59_parse | The first half of C59.
C125 | proved | Shell.C86_isolated Shell.C86_attributes Shell.C86_once Shell.C86_assign Shell.C86_reload | The true part of C86.
C126 | proved | Job.C88_cancel Job.C88_step Job.C88_ends Job.C88_only_if_cancelled | The true part of C88: what may change is the pipeline CTRL-Z acts upon, which is not claimed here.
C127 | proved | Status.C100_told Status.C100_failed_processes | The true part of C100 (exit_code is not claimed here).
C128 | proved | Term.C102_environment | The exact statement behind C102.
C129 | proved | C105_names C105_defaults C105_attributes C105_order C105_sorted | The true part of C105 (telling redirections apart is not claimed here).
C130 | proved | Pickle.C87_arrives Pickle.C87_sendable | The true part of C87.
C131 | proved | Job.C99_stops | The true part of C99.
C132 | proved | Whole.C96_tmp | The part of C96 about TMP.
C133 | proved | Job.C52_listed | The half of C52 that holds.
C134 | proved | C28_representation_is_faithful C28_injective | The true part of C28.
C135 | proved | C03_exact | The exact statement behind C03.
C136 | proved | C13_exact | The exact statement behind C13.
C137 | proved | PyCall.C115_exact | The exact statement behind C115.
C138 | proved | Envs.C112_offered | The part of C112 after at least one word.
C139 | partial | Interrupt.C139_refuted Interrupt.C139_told_partial Interrupt.C139_later_wait_partial Interrupt.C139_again_partial Interrupt.C139_returned_partial Interrupt.C139_other_refuted Interrupt.C139_ctrlz_refuted Interrupt.C139_listed_refuted | False of the code in the usual case: while the loop sleeps, CTRL-C ends the call with a plain KeyboardInterrupt and leaves the call of wait() pending (C139_refuted, for all histories); PipelineInterrupted exactly if the code of wait() itself is hit (C139_told_partial); it can be about another pipeline (C139_other_refuted); after CTRL-C the next job may not be suspendable (C139_ctrlz_refuted), an ended job may stay listed (C139_listed_refuted). Later calls of wait() report the end of a pipeline only when it has ended, and failure exactly if an item failed, unless an interruption hits the code that handles the end of an item (C139_later_wait_partial); a pipeline interrupted in the loop can be waited for again (C139_again_partial); a call that returns returns the result of its own pipeline (C139_returned_partial).
C140 | partial | Ps.C140_child_partial Ps.C140_down_partial Ps.C140_parent Ps.C140_up Ps.C140_anywhere_partial Ps.C140_leaders_partial Ps.C140_members_partial Ps.C140_names Ps.C140_item Ps.C140_item_details Ps.C140_users_partial Ps.C140_children_refuted Ps.C140_leader_gone_refuted Ps.C140_pid_refuted Ps.C140_top_refuted Ps.C140_stale_refuted Ps.C140_detail_refuted | Paths down, up and across, by induction over the tree of processes; exact conditions for GROUP, SESS and attributes. Refuted: programs called `children` or `pid`, leaders that have ended, the parent of init, logins whose process has gone, attributes of logins hidden by those of processes.
C141 | partial | FuncArg.C141_functions_as_arguments FuncArg.C141_all_end FuncArg.C141_result_is_reached FuncArg.C141_early_function_blocks | For commands whose arguments are words and functions (no pipelines), by an invariant over all executions. That everything ends is proved if the functions read to the end, and refuted otherwise: for each capacity of the pipes there is a program that waits for ever for a function that has ended.
C142 | proved | FuncArg.C142_own_descriptors | For all pipelines that can be started.
C143 | proved | FuncArg.C143_explained FuncArg.C143_item_result FuncArg.C143_link FuncArg.C143_failed | For all pipelines that can be started, by an invariant over all executions: a record of what has been written to and read from each pipe, by whom.
C144 | proved | FuncArg.C144_stuck | For all networks and states.
C145 | proved | FuncArg.C145_no_deadlock FuncArg.C145_tidy FuncArg.C145_all_end FuncArg.C141_early_function_blocks | For all pipelines that can be started, by structural induction: items that wait for each other wait in the end for what is outside of the pipeline. Both exceptions do occur: C141_early_function_blocks, and see C14_refuted_redirected_stdin and C81 for what is left behind.
C146 | proved | FuncArg.C146_bounded FuncArg.C146_ends | For all pipelines that can be started. The induction of C145 shows that no item reads, directly or indirectly, what it has written; so the work of each is limited by that of those before it.
C147 | proved | FuncArg.C147_same_streams FuncArg.C147_same_result FuncArg.C147_one_result FuncArg.C147_files_one FuncArg.C147_no_failure | For all pipelines that can be started. Who really reads and writes is decided by the behaviour of the items (MayRead, MayWrite), not by the wiring: two commands may be connected to the same stdin if only one of them reads it. Extends C81, C82, C116 and C141 to all shapes.
C148 | partial | Registry.C148_partial Registry.C148_no_exception Registry.C148_replaced Registry.C148_wrong_one Registry.C148_exception | Proved for histories in which no two live handlers ask for the same, fields exist, nothing raises (C148_partial, exact list of events). Refuted without that: C148_replaced, C148_wrong_one, C148_exception say what happens then, for all histories. Numbers of processes may be used again.
C149 | proved | Registry.C149_nothing_else Registry.C149_last | The half of C148 that holds in every history.
C150 | partial | History.C150_partial History.C150_exact History.C150_refuted History.C150_no_directory | True for shells that run one after the other. C150_exact: in every history the file is, when a shell ends, what it was when that shell was started, followed by what was typed in it; hence the refutation for shells that run at the same time.
C151 | proved | Io.C151_str Io.C151_agree Io.decode_some Io.textLines_unique | For every schedule of writer, event loop and reader; str, bytes and list are compared for runs in which the pipeline writes the same.
C152 | partial | WithScope.C152_partial WithScope.C152_block WithScope.C152_refuted_unset WithScope.C152_refuted_again WithScope.C152_refuted | Proved for every block if there was a prompt and the scope is not entered again inside; false otherwise, and what the prompt is then is proved. Overlapping blocks of generators and threads are not modelled.
