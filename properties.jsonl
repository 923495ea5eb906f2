{"id": "C01", "title": "Descriptor redirections wire the child exactly", "statement": "When a command is started with descriptor-to-descriptor redirections, the program that is exec'ed sees, on every redirected descriptor, exactly the open file that the redirection's source descriptor named in the shell at the moment of the fork - including when redirections overlap, form swaps or cycles, or use arbitrary descriptor numbers - and these descriptors survive the exec.", "quantifier": "every redirection table whose sources are open, pairwise distinct descriptors; every shell descriptor table", "why_tests_cant": "The table may have any number of entries with any overlap between source and target numbers; a wrong move order only shows for particular permutations.", "anchors": ["pieshell/redir.py:Redirects.perform", "pieshell/redir.py:Redirects.move_existing_fds", "pieshell/redir.py:Redirect.move", "pieshell/redir.py:Redirect.perform", "pieshell/pipeline/command.py:Command._child"]}
{"id": "C02", "title": "The child inherits nothing but its redirections", "statement": "After its redirections have been applied, an exec'ed program has no open descriptor other than those in its redirection table and the shell's log descriptor; in particular it never inherits a stray pipe end.", "quantifier": "every redirection table as in C01 and every set of descriptors open in the shell below the descriptor limit", "why_tests_cant": "Depends on every possible content of the shell's descriptor table.", "anchors": ["pieshell/redir.py:Redirects.close_other_fds", "pieshell/redir.py:Redirects.perform"]}
{"id": "C03", "title": "File redirections open the named file on the requested descriptor", "statement": "If a command redirects some descriptors to files (and others to descriptors), and every file can be opened, the program sees each file, opened with the requested flags and mode, on the requested descriptor, and the other redirections as in C01.", "quantifier": "every redirection table mixing paths and descriptors, every shell descriptor table", "why_tests_cant": "The descriptor number chosen by open(2) depends on which descriptors are free at that moment, which depends on the order and overlap of all redirections.", "anchors": ["pieshell/redir.py:Redirect.open", "pieshell/redir.py:Redirect.perform", "pieshell/redir.py:Redirects.perform"]}
{"id": "C04", "title": "Two descriptors can be sent to the same place", "statement": "Redirecting two descriptors of a command to one and the same source descriptor (the shell idiom 2>&1) gives both descriptors that open file.", "quantifier": "every redirection table with a repeated source descriptor", "why_tests_cant": "Whether it can ever work is a claim about all tables and all orders.", "anchors": ["pieshell/redir.py:Redirect.move", "pieshell/redir.py:Redirects.move_existing_fds", "pieshell/redir.py:Redirects.perform"]}
{"id": "C05", "title": "A failed redirection prevents the command from running", "statement": "If a redirection of a command cannot be performed (for example, the input file does not exist) then the program is not executed.", "quantifier": "every redirection table and every way in which opening or duplicating can fail", "why_tests_cant": "Failures can occur at any position in the table and leave any prefix applied.", "anchors": ["pieshell/redir.py:Redirects.perform", "pieshell/pipeline/command.py:Command._child", "pieshell/pipeline/command.py:Command._run"]}
{"id": "C06", "title": "Redirection tables behave as maps from descriptor to redirection", "statement": "Building a table from redirections and tables lets the last redirection for a descriptor win, keeps all other descriptors, removes a descriptor when the source is None (and fails if there is nothing to remove); a table built from another one is an independent copy, so marking it borrowed never changes the original.", "quantifier": "every sequence of redirections and merged tables", "why_tests_cant": "Laws over arbitrary operation sequences.", "anchors": ["pieshell/redir.py:Redirects.__init__", "pieshell/redir.py:Redirects.register", "pieshell/redir.py:Redirects.merge", "pieshell/redir.py:Redirects.borrow", "pieshell/redir.py:Redirect.__init__"]}
{"id": "C07", "title": "Automatically chosen descriptors are free", "statement": "The descriptor number chosen for an extra pipe is above 2 and different from every target and every source descriptor of the table.", "quantifier": "every redirection table", "why_tests_cant": "Unbounded table sizes and numbers.", "anchors": ["pieshell/redir.py:Redirects.find_free_fd"]}
{"id": "C08", "title": "Pipe redirections have the right orientation", "statement": "Materialising a PIPE redirection gives the command the write end and the user the read end when the redirection is for writing, and the other way round otherwise; TMP/STRING redirections are only accepted for writing and yield a fresh temporary file whose path is reported; other redirections are unchanged.", "quantifier": "every redirection and descriptor table", "why_tests_cant": "All flags, descriptors and table states.", "anchors": ["pieshell/redir.py:Redirect.make_pipe", "pieshell/redir.py:Redirects.make_pipes"]}
{"id": "C09", "title": "The shell closes its copies of pipe ends and never a borrowed descriptor", "statement": "After starting an item the shell closes exactly those source descriptors in the item's table that are not marked borrowed; borrowed descriptors (such as the terminal's) stay open and refer to the same files.", "quantifier": "every redirection table with distinct sources and every shell descriptor table", "why_tests_cant": "All tables.", "anchors": ["pieshell/redir.py:Redirect.close_source_fd", "pieshell/redir.py:Redirects.close_source_fds"]}
{"id": "C10", "title": "Relative redirection paths are relative to the environment's directory", "statement": "A command run in an environment whose current directory is D, redirected to the relative path f, opens D/f.", "quantifier": "every environment, process working directory and relative path", "why_tests_cant": "Depends on the history of cd operations in all environments of the process.", "anchors": ["pieshell/pipeline/command.py:Command._child", "pieshell/redir.py:Redirect.open", "pieshell/environ.py:Environment._cd"]}
{"id": "C11", "title": "Redirecting output to a file replaces its content", "statement": "After cmd | 'file' has finished, 'file' contains exactly the output of cmd.", "quantifier": "every previous file content and every output", "why_tests_cant": "Holds or fails depending on the lengths of old content and output.", "anchors": ["pieshell/redir.py:Redirect.fd_flags", "pieshell/pipeline/base.py:Pipeline._coerce"]}
{"id": "C12", "title": "A pipeline is wired left to right whatever its grouping", "statement": "Running p1 | p2 | ... | pn, parenthesised in any way, connects the standard output of each item to the standard input of the next through its own pipe, the first item's stdin and the last item's stdout being those requested for the whole pipeline.", "quantifier": "every pipeline tree of commands, functions and iterators, every association of |, every shell descriptor table", "why_tests_cant": "Unbounded trees and associations.", "anchors": ["pieshell/pipeline/pipe.py:Pipe._run", "pieshell/pipeline/command.py:Command._run", "pieshell/pipeline/function.py:Function._run", "pieshell/pipeline/base.py:Pipeline.run"]}
{"id": "C13", "title": "Running a pipeline does not leak descriptors in the shell", "statement": "After run() returns, the shell's descriptor table is what it was before, plus only the descriptors held by python functions/iterators in the pipeline and the read end of the requested output pipe.", "quantifier": "every pipeline tree and shell descriptor table", "why_tests_cant": "A leak only shows for particular tree shapes and only after many runs.", "anchors": ["pieshell/pipeline/pipe.py:Pipe._run", "pieshell/pipeline/command.py:Command._run", "pieshell/pipeline/function.py:Function._run", "pieshell/redir.py:Redirects.close_source_fds"]}
{"id": "C14", "title": "End of file propagates", "statement": "After a pipeline has been started, the only holder of the write end of the pipe between two neighbouring items is the left item, so that the right item sees end of file as soon as the left item finishes, and the only holder of the read end is the right item.", "quantifier": "every pipeline tree of commands, functions and iterators", "why_tests_cant": "A stray inherited pipe end only hangs for particular trees and timings.", "anchors": ["pieshell/pipeline/pipe.py:Pipe._run", "pieshell/pipeline/command.py:Command._run", "pieshell/redir.py:Redirects.close_other_fds"]}
{"id": "C15", "title": "Everything a group writes goes through its output pipe", "statement": "In (a + b) | c, and when iterating over a + b, the output of both a and b is delivered.", "quantifier": "every pair of pipelines", "why_tests_cant": "Claim over all pipelines a and b.", "anchors": ["pieshell/pipeline/group.py:Group._run", "pieshell/redir.py:Redirects.merge"]}
{"id": "C16", "title": "RunningPipeline.processes lists every started item in left-to-right order", "statement": "run() returns a RunningPipeline whose processes are exactly the items started for the pipeline (commands and functions, including those started for pipelines given as arguments), in left-to-right order.", "quantifier": "every pipeline tree", "why_tests_cant": "Unbounded trees.", "anchors": ["pieshell/pipeline/pipe.py:Pipe._run", "pieshell/pipeline/group.py:Group._run", "pieshell/pipeline/command.py:Command._run", "pieshell/pipeline/command.py:Command._handle_arg_pipes", "pieshell/pipeline/running.py:RunningPipeline.__init__"]}
{"id": "C17", "title": "Pipelines as arguments", "statement": "A pipeline, iterator or function given as argument to a command appears in argv as /dev/fd/N such that descriptor N of the program is the read end of a pipe written by that pipeline (or the write end of a pipe read by that function), for any number of such arguments.", "quantifier": "every command with any number of pipeline arguments, any nesting", "why_tests_cant": "Numbering must not collide for any argument count or table.", "anchors": ["pieshell/pipeline/command.py:Command._handle_arg_pipes", "pieshell/pipeline/command.py:BaseCommand._arg_list", "pieshell/redir.py:Redirects.find_free_fd"]}
{"id": "C18", "title": "The redirection written closest to the command wins", "statement": "When a pipeline that already has a redirection for a descriptor is redirected again or piped, the inner redirection is the one in force, and descriptors without inner redirection use the outer one.", "quantifier": "every nesting of redirections", "why_tests_cant": "Arbitrary nestings.", "anchors": ["pieshell/pipeline/redirect.py:CmdRedirect._run", "pieshell/redir.py:Redirects.merge"]}
{"id": "C19", "title": "Running a pipeline never changes the pipeline object", "statement": "A pipeline object can be run any number of times: run() works on a fresh copy in which every occurrence of a sub-pipeline (even the same object used twice) is a distinct new object, and neither the original object nor any earlier copy is modified.", "quantifier": "every pipeline object graph including shared sub-objects, every sequence of runs", "why_tests_cant": "Sharing patterns are unbounded and an aliasing bug only shows for particular ones.", "anchors": ["pieshell/utils/copy.py:deepcopy", "pieshell/utils/copy.py:copy_session", "pieshell/pipeline/base.py:Pipeline.run", "pieshell/pipeline/pipe.py:Pipe.__deepcopy__", "pieshell/pipeline/command.py:BaseCommand.__deepcopy__", "pieshell/pipeline/redirect.py:CmdRedirect.__deepcopy__"]}
{"id": "C20", "title": "What can be piped", "statement": "Piping None means /dev/null; a string, bytes or path means that file; a Redirect or Redirects is applied; a pipeline is piped; a function, method, iterable or iterator - synchronous or asynchronous - becomes a pipeline item; anything else raises ValueError.", "quantifier": "every python value and both directions", "why_tests_cant": "Case analysis over all kinds of values.", "anchors": ["pieshell/pipeline/base.py:Pipeline._coerce", "pieshell/pipeline/base.py:Pipeline.__or__", "pieshell/pipeline/base.py:Pipeline.__ror__"]}
{"id": "C21", "title": "Operator short hands mean what they say", "statement": "p > f is p | f, p < f is f | p, p & x is running p | x, p & True runs p in the background unchanged, + and ~ run the pipeline.", "quantifier": "every pipeline and operand", "why_tests_cant": "All operands.", "anchors": ["pieshell/pipeline/base.py:Pipeline.__gt__", "pieshell/pipeline/base.py:Pipeline.__lt__", "pieshell/pipeline/base.py:Pipeline.__and__", "pieshell/pipeline/base.py:Pipeline.__or__"]}
{"id": "C22", "title": "Attribute, call and dash syntax are equivalent", "statement": "Any mix of attribute access, calls and -x suffixes that lists the same words in the same order yields a command with the same argument list and the same kind (builtin or external), decided by the first word only.", "quantifier": "every construction sequence", "why_tests_cant": "Unbounded mixes of syntaxes.", "anchors": ["pieshell/pipeline/command.py:BaseCommand.__call__", "pieshell/pipeline/command.py:BaseCommand.__getattr__", "pieshell/pipeline/command.py:BaseCommand.__sub__", "pieshell/pipeline/command.py:BaseCommand.__new__", "pieshell/environ.py:Environment.__getattr__"]}
{"id": "C23", "title": "Keyword arguments become options", "statement": "A keyword argument name=value is passed as exactly one --name=value word per expansion of value (underscores in the name turned into dashes), name=True as --name, and name=False not at all, at the position of the call, after its positional arguments.", "quantifier": "every argument list", "why_tests_cant": "All names, values and orders.", "anchors": ["pieshell/pipeline/command.py:BaseCommand._arg_list", "pieshell/pipeline/command.py:BaseCommand.__call__"]}
{"id": "C24", "title": "Plain strings and R() strings reach the program verbatim", "statement": "A string argument without %, without leading ~ and without *, ? and [ is passed to the program unchanged as one word, and R(s) is passed as the one word s for every s.", "quantifier": "every string, environment and file system", "why_tests_cant": "All strings.", "anchors": ["pieshell/environ.py:Environment._expand_argument", "pieshell/environ.py:R", "pieshell/pipeline/command.py:BaseCommand._arg_list"]}
{"id": "C25", "title": "Doubling % is a complete quoting for %", "statement": "For every string s without ~ at the start and glob characters, the argument obtained by doubling every % reaches the program as s, whatever variables are defined; %(name)s is replaced by the value of the variable.", "quantifier": "every string and scope", "why_tests_cant": "All strings.", "anchors": ["pieshell/environ.py:Environment._expand_argument"]}
{"id": "C26", "title": "File name expansion is faithful and cannot inject options", "statement": "Every word produced from a pattern that matches names exactly one matched file relative to the environment's directory, in glob order with nothing lost, and starts with '/' or './', so that a file name can never be taken for an option; a pattern that matches nothing is passed literally.", "quantifier": "every pattern, directory and file system", "why_tests_cant": "All file names, including hostile ones.", "anchors": ["pieshell/environ.py:Environment._expand_argument", "pieshell/environ.py:Environment._expand_path"]}
{"id": "C27", "title": "Patterns are matched in the current directory whatever its name", "statement": "A relative pattern only matches files below the environment's current directory.", "quantifier": "every current directory name", "why_tests_cant": "Directory names may contain pattern characters.", "anchors": ["pieshell/environ.py:Environment._expand_argument"]}
{"id": "C28", "title": "The representation of a command shows its exact argument list", "statement": "In repr() of a command, the dotted prefix and the parenthesised arguments together are the argument list: nothing is lost, duplicated or reordered, and only purely alphabetic words are shown as attributes.", "quantifier": "every argument list", "why_tests_cant": "All argument lists.", "anchors": ["pieshell/pipeline/command.py:BaseCommand._split_args", "pieshell/pipeline/command.py:BaseCommand._repr"]}
{"id": "C29", "title": "The current directory is always absolute and normalised", "statement": "After any sequence of successful directory changes, the environment's directory is an absolute path without '.', '..' or empty components.", "quantifier": "every sequence of cd operations with any argument", "why_tests_cant": "Unbounded histories.", "anchors": ["pieshell/environ.py:Environment._cd", "pieshell/environ.py:Environment._expand_path", "pieshell/pipeline/builtins.py:CdBuiltin._path"]}
{"id": "C30", "title": "A failed cd changes nothing", "statement": "If cd raises an error, the environment's directory and the process's directory are unchanged; if it succeeds in an interactive environment, both are the new directory; a non-interactive environment never changes the process's directory.", "quantifier": "every directory argument, file system and history of operations on any number of environments", "why_tests_cant": "Unbounded histories, all file system states.", "anchors": ["pieshell/environ.py:Environment._cd", "pieshell/environ.py:Environment.__init__", "pieshell/environ.py:Environment.__call__", "pieshell/pipeline/builtins.py:CdBuiltin._run"]}
{"id": "C31", "title": "Environments copied with env() are independent", "statement": "Changing the directory or exported variables of a copied environment never changes the original or any other environment and vice versa.", "quantifier": "every history of copies, cd and export operations", "why_tests_cant": "Unbounded histories and aliasing.", "anchors": ["pieshell/environ.py:Environment.__call__", "pieshell/environ.py:Environment.__init__", "pieshell/environ.py:Environment._exports"]}
{"id": "C32", "title": "A command sees exactly the exports of its environment", "statement": "The environment variables of a started program are exactly the environment's exports, in particular an environment created with exports={} runs programs with an empty environment.", "quantifier": "every exports dictionary", "why_tests_cant": "All dictionaries.", "anchors": ["pieshell/environ.py:Environment._exports", "pieshell/pipeline/command.py:Command._child"]}
{"id": "C33", "title": "Reading a shell variable returns what was last assigned", "statement": "After assigning v to a name in the shell, reading the name gives v, and assigning to one name does not change another; the name is exported if and only if it was an exported variable.", "quantifier": "every history of assignments to variables and exports", "why_tests_cant": "The failing histories involve interleavings of local and exported assignments.", "anchors": ["pieshell/environ.py:EnvScope.__setitem__", "pieshell/environ.py:EnvScope.__getitem__"]}
{"id": "C34", "title": "Name resolution order of the shell", "statement": "A name evaluates to the local variable if defined, else to the exported variable, else to the enclosing scope's variable, else to the python builtin, else to the command of that name.", "quantifier": "every scope content and name", "why_tests_cant": "All scope contents.", "anchors": ["pieshell/environ.py:EnvScope.__getitem__"]}
{"id": "C35", "title": "Completion lists follow clear_dir_cache", "statement": "dir(env) lists the content of PATH directories as of the last time the cache was cleared; running the clear_dir_cache builtin makes the next dir(env) reflect the current content.", "quantifier": "every history of file system changes, dir() calls and clear_dir_cache runs", "why_tests_cant": "Staleness depends on histories.", "anchors": ["pieshell/environ.py:Environment.__dir__", "pieshell/environ.py:Environment._clear_dir_cache", "pieshell/pipeline/builtins.py:ClearDirCacheBuiltin._run"]}
{"id": "C36", "title": "Line iteration is independent of how the output is chunked", "statement": "Iterating over a pipeline yields exactly the lines of the bytes it wrote (the last line with or without a final newline), whatever the sizes and timing of the reads.", "quantifier": "every byte stream, every chunking into reads, every interleaving of reads and iteration steps", "why_tests_cant": "Chunk boundaries and interleavings are unbounded.", "anchors": ["pieshell/iterio.py:LineInputHandler"]}
{"id": "C37", "title": "bytes(pipeline) is exactly the bytes written", "statement": "Joining the chunks of iterbytes() gives exactly the bytes written, whatever the chunking and timing.", "quantifier": "every byte stream, chunking and interleaving", "why_tests_cant": "Unbounded chunkings.", "anchors": ["pieshell/iterio.py:InputHandler", "pieshell/pipeline/base.py:Pipeline.__bytes__", "pieshell/pipeline/running.py:RunningPipeline.iterbytes"]}
{"id": "C38", "title": "An iterating reader is never left waiting", "statement": "Whenever a reader waits for the next line, the descriptor is still being watched and no complete line or end of file has already been received; hence it is woken by the next data or end of file; iteration over a finite stream terminates.", "quantifier": "every interleaving", "why_tests_cant": "Lost wake-ups only show for particular interleavings.", "anchors": ["pieshell/iterio.py:LineInputHandler.__anext__", "pieshell/iterio.py:LineInputHandler.handle_event"]}
{"id": "C39", "title": "Items are written in order, once each", "statement": "The bytes written by a function or iterator in a pipeline are exactly its items, in order, each followed by a newline, None items being skipped, for every interleaving of the event loop; the iterator is never asked for an item while a previous request is outstanding.", "quantifier": "every item sequence and every event loop schedule", "why_tests_cant": "Unbounded schedules.", "anchors": ["pieshell/iterio.py:LineOutputHandler.send_output", "pieshell/iterio.py:OutputHandler.send_output", "pieshell/iterio.py:OutputHandler.handle_event"]}
{"id": "C40", "title": "Nothing is written to a descriptor after it was closed", "statement": "Once a function's output descriptor has been closed, no further item is requested or written.", "quantifier": "every event loop schedule and every write failure", "why_tests_cant": "The offending schedule needs a suspended iterator, a broken pipe and an already queued task.", "anchors": ["pieshell/iterio.py:OutputHandler.send_output", "pieshell/iterio.py:OutputHandler.destroy"]}
{"id": "C41", "title": "Python items survive a trip through a pipe", "statement": "Items sent by an iterator through a pipe and read by a python function arrive unchanged, one by one, if they contain no newline; in general, the reader gets the lines of the concatenated items.", "quantifier": "every item sequence, every schedule of writer and reader", "why_tests_cant": "Unbounded schedules and data.", "anchors": ["pieshell/iterio.py:LineOutputHandler", "pieshell/iterio.py:LineInputHandler", "pieshell/pipeline/function.py:Function._run"]}
{"id": "C42", "title": "Writing an item never blocks the shell", "statement": "Handing an item to the next pipeline element never blocks the event loop.", "quantifier": "every item size and pipe state", "why_tests_cant": "Depends on item sizes and pipe fill levels.", "anchors": ["pieshell/iterio.py:LineOutputHandler.send_output"]}
{"id": "C43", "title": "What a python function sends", "statement": "A function's result is sent item by item if it is an iterable or asynchronous iterable, and as one item otherwise; bytes are sent as they are, other items as their text; a function that returns a single string sends one line.", "quantifier": "every result value", "why_tests_cant": "All result kinds.", "anchors": ["pieshell/pipeline/function.py:Function._run", "pieshell/utils/asyncutils.py:itertoasync", "pieshell/utils/asyncutils.py:asyncmap"]}
{"id": "C44", "title": "Child state changes are decoded correctly", "statement": "For every wait status the reported code and status are: exited with exit code, killed or dumped with signal number, stopped with signal number, continued.", "quantifier": "every 16 bit wait status", "why_tests_cant": "65536 encodings; classification order matters for a single one of them.", "anchors": ["pieshell/signalio/signalutils.py:get_sigchlds"]}
{"id": "C45", "title": "No child exit is missed when signals coalesce", "statement": "Whatever the number and timing of child state changes, and however many of them are merged into one SIGCHLD, once no signal is pending the latest state change of every child - in particular its termination - has been delivered to the handler registered for that child; no change is delivered twice, out of order, or to another handler (a change that the kernel replaced by a later one before it was asked for may be skipped).", "quantifier": "every sequence of child events, signal merges and loop iterations", "why_tests_cant": "Unbounded timings.", "anchors": ["pieshell/signalio/manager_signalfd.py:SignalManager.handle_event", "pieshell/signalio/signalutils.py:get_sigchlds", "pieshell/signalio/manager_signalfd.py:SignalManager.match_signal", "pieshell/signalio/manager_signalfd.py:SignalManager.register"]}
{"id": "C46", "title": "A terminated process is reported as terminated", "statement": "When a child process has terminated and its termination has been processed, is_running is False for it.", "quantifier": "every way of terminating and every schedule", "why_tests_cant": "Ways of dying by signal times schedules.", "anchors": ["pieshell/signalio/__init__.py:ProcessSignalHandler.handle_event", "pieshell/pipeline/running.py:RunningItem.is_running"]}
{"id": "C47", "title": "wait() returns when and only when every item has finished", "statement": "RunningPipeline.wait() completes normally or with PipelineFailed only if no item is running, and does complete once no item is running.", "quantifier": "every pipeline and every interleaving of terminations, failures and loop steps", "why_tests_cant": "Lost wake-ups only show for particular orders of completion.", "anchors": ["pieshell/pipeline/running.py:RunningPipeline.wait", "pieshell/pipeline/running.py:RunningPipeline.handle_finish", "pieshell/pipeline/running.py:RunningItem.await_finish"]}
{"id": "C48", "title": "wait() raises PipelineFailed exactly for failed pipelines", "statement": "When wait() completes, it raises PipelineFailed if and only if some process exited with non-zero status or some function raised, and failed_processes lists exactly those items, in order.", "quantifier": "every combination of exit codes and function outcomes", "why_tests_cant": "All combinations and sizes.", "anchors": ["pieshell/pipeline/running.py:RunningPipeline.wait", "pieshell/pipeline/running.py:RunningPipeline.failed_processes", "pieshell/pipeline/running.py:RunningProcess.is_failed", "pieshell/pipeline/running.py:RunningFunction.is_failed"]}
{"id": "C49", "title": "STRING output is captured completely, once, and its temporary files removed", "statement": "When a pipeline finishes, output_content of every item holds the full content of its STRING redirections - even if items share a file - and all STRING files are deleted; TMP files are kept; this happens exactly once and not before every item has finished.", "quantifier": "every pipeline, every sharing of files, every finishing order", "why_tests_cant": "Sharing and orders are unbounded.", "anchors": ["pieshell/pipeline/running.py:RunningPipeline.handle_finish", "pieshell/pipeline/running.py:RunningItem.handle_pipeline_finish", "pieshell/pipeline/running.py:RunningItem.handle_pipeline_finish_destructive"]}
{"id": "C50", "title": "remove_output_files removes all TMP files", "statement": "After a pipeline has finished, remove_output_files() deletes every TMP file of every item without error.", "quantifier": "every pipeline, including arguments sharing their command's redirections", "why_tests_cant": "Sharing patterns.", "anchors": ["pieshell/pipeline/running.py:RunningPipeline.remove_output_files", "pieshell/pipeline/running.py:BaseRunningItem.remove_output_files", "pieshell/pipeline/command.py:BaseCommand._arg_list"]}
{"id": "C51", "title": "Suspending and resuming", "statement": "On CTRL-Z the foreground pipeline's wait() stops every process and raises PipelineSuspended, without loss for any timing of the signal; restart() and wait() continue every process.", "quantifier": "every timing of the signal relative to loop steps", "why_tests_cant": "Timing.", "anchors": ["pieshell/pipeline/running.py:StopSignalHandler.handle_event", "pieshell/pipeline/running.py:RunningPipeline.wait", "pieshell/pipeline/running.py:RunningPipeline.suspend", "pieshell/pipeline/running.py:RunningPipeline.restart"]}
{"id": "C52", "title": "env.running_pipelines lists exactly the unfinished pipelines", "statement": "At any time env.running_pipelines contains a pipeline started in the environment if and only if it is still running.", "quantifier": "every history of runs (including builtins such as cd) and terminations", "why_tests_cant": "Histories.", "anchors": ["pieshell/pipeline/base.py:Pipeline.run", "pieshell/pipeline/running.py:RunningPipeline.handle_finish"]}
{"id": "C53", "title": "bg and fg act on the last job", "statement": "After a job has been suspended, bg resumes it, and a following fg waits for that job.", "quantifier": "every history of commands between suspension and fg", "why_tests_cant": "Histories.", "anchors": ["pieshell/pipeline/builtins.py:BgBuiltin._run", "pieshell/pipeline/builtins.py:FgBuiltin._run", "pieshell/pipeline/base.py:Pipeline.run"]}
{"id": "C54", "title": "A subshell reports failure of its pipeline", "statement": "subshell(p) exits with status zero if and only if p succeeded.", "quantifier": "every combination of outcomes of the items of p", "why_tests_cant": "All combinations.", "anchors": ["pieshell/pipeline/builtins.py:SubShell._child", "pieshell/pipeline/running.py:RunningPipeline.exit_code"]}
{"id": "C55", "title": "Process browsing reaches every process", "statement": "Every process of a pipeline can be reached by attribute names, each under exactly one path, and the path leads to that process only.", "quantifier": "every list of processes with any names", "why_tests_cant": "Collisions of names at several levels.", "anchors": ["pieshell/tree.py:TreeGroup", "pieshell/pipeline/running.py:RunningProcess._getkey", "pieshell/pipeline/running.py:RunningFunction._getkey"]}
{"id": "C56", "title": "bashsource imports exactly the exported variables", "statement": "For every set of exported variables as printed by bash's declare -x, bashsource sets exactly these variables to exactly their values.", "quantifier": "every set of names and values, including quotes, backslashes, blanks and newlines", "why_tests_cant": "All strings.", "anchors": ["pieshell/pipeline/builtins.py:parse_declares", "pieshell/pipeline/builtins.py:BashSource.parse_decls"]}
{"id": "C57", "title": "remote() transports the pipeline unchanged", "statement": "The byte string produced by pickling a pipeline arrives unchanged at the remote pieshell: it survives base64, shell quoting, argument expansion and option parsing.", "quantifier": "every byte string", "why_tests_cant": "All byte strings.", "anchors": ["pieshell/pipeline/builtins.py:Remote._run", "pieshell/shell.py:main", "pieshell/environ.py:Environment._expand_argument"]}
{"id": "C58", "title": "bashsource sources exactly the named files", "statement": "The bash program built by bashsource sources each expanded file name as a single word.", "quantifier": "every file name", "why_tests_cant": "File names with quotes.", "anchors": ["pieshell/pipeline/builtins.py:BashSource._run"]}
{"id": "C59", "title": "Command line of pieshell", "statement": "--name=value options (value may contain =), --flag options and file arguments are separated correctly, the last value of an option wins, and exactly one action is chosen: help, version, cmd, pcmd, files in order, or interactive.", "quantifier": "every argv", "why_tests_cant": "All argument vectors.", "anchors": ["pieshell/shell.py:main"]}
{"id": "C60", "title": "repr() never runs anything", "statement": "Calling repr() on a pipeline, or on any object containing pipelines, never starts it, however deeply nested and even if printing fails; only the interactive prompt's display of an unstarted pipeline in an interactive environment runs it.", "quantifier": "every nesting of repr calls, exceptions included", "why_tests_cant": "Nesting and exceptions.", "anchors": ["pieshell/pipeline/base.py:pipeline_repr", "pieshell/pipeline/base.py:Pipeline.__repr__"]}
{"id": "C61", "title": "CTRL-Z works without signalfd", "statement": "The stop signal is delivered to the registered stop handler also when the asyncio based signal manager is in use.", "quantifier": "every sequence of signals", "why_tests_cant": "All sequences.", "anchors": ["pieshell/signalio/manager_asyncio.py:SignalManager.__init__", "pieshell/signalio/manager_asyncio.py:SignalManager.handle_event"]}
{"id": "C62", "title": "pysh modules are found in path order", "statement": "Importing name finds name.pysh in the first directory of the search path that has it, and nothing if none has it.", "quantifier": "every search path and file system", "why_tests_cant": "All.", "anchors": ["pieshell/module.py:Finder.find_module"]}
{"id": "C63", "title": "Input and output redirection can be combined in one expression", "statement": "p < a > b is the pipeline p reading from file a and writing to file b.", "quantifier": "every pipeline and every two file names", "why_tests_cant": "Depends on python's comparison chaining for all operands.", "anchors": ["pieshell/pipeline/base.py:Pipeline.__lt__", "pieshell/pipeline/base.py:Pipeline.__gt__"]}
{"id": "C64", "title": "temporary_env restores the environment", "statement": "Inside with env.temporary_env(e) commands run in e; after the block - left normally or by an exception, whatever the block did - env is the environment it was before.", "quantifier": "every block, including nested with statements, assignments to env and exceptions", "why_tests_cant": "All blocks and nestings.", "anchors": ["pieshell/environ.py:Environment.temporary_env", "pieshell/environ.py:EnvScope.__setitem__"]}
{"id": "C65", "title": "Shell variables can be used in arguments", "statement": "%(name)s in an argument of a command typed at the prompt stands for what name means at the prompt, in whatever environment the command is run.", "quantifier": "every history of assignments, every environment and every name", "why_tests_cant": "Depends on how the environment was made and on the history.", "anchors": ["pieshell/environ.py:Environment._expand_argument", "pieshell/environ.py:EnvScope.__setitem__", "pieshell/environ.py:Environment.__call__"]}
{"id": "C66", "title": "pyshfunction does not change what a function's globals mean", "statement": "In a function wrapped with env.pyshfunction, the global names of its module keep their meaning, and only undefined names are looked up in the environment.", "quantifier": "every module content, environment and name", "why_tests_cant": "Collisions depend on the exported variables.", "anchors": ["pieshell/environ.py:Environment.pyshfunction", "pieshell/environ.py:EnvScope.__getitem__"]}
{"id": "C67", "title": "Home directories in arguments", "statement": "A leading ~ or ~user in an argument stands for the home directory of the user; with an unknown user the argument is passed unchanged.", "quantifier": "every user name and rest of the argument", "why_tests_cant": "All strings.", "anchors": ["pieshell/environ.py:Environment._expand_argument"]}
{"id": "C68", "title": "cd walks through its words", "statement": "cd(w1, w2, ...) changes to the directory reached from the current one through w1, w2, ... in turn, PARENT being the parent and ROOT the root directory; cd without words changes to the home directory.", "quantifier": "every current directory and sequence of words", "why_tests_cant": "All sequences.", "anchors": ["pieshell/pipeline/builtins.py:CdBuiltin._path", "pieshell/pipeline/builtins.py:CdBuiltin._run", "pieshell/environ.py:Environment._cd"]}
{"id": "C69", "title": "Printed pipelines name their environments", "statement": "The printed form of a pipeline consists of its parts in order and says in which environment it runs: each pipeline is followed by its environment, except parts that belong to the same environment as the pipeline around them. The text does not depend on what was printed, shown or run before, even if some of it failed.", "quantifier": "every nesting of pipelines, containers and environments, and every sequence of earlier prints and displays", "why_tests_cant": "Unbounded nesting, and thread-local state left behind by any earlier print.", "anchors": ["pieshell/pipeline/base.py:Pipeline.__repr__", "pieshell/pipeline/pipe.py:Pipe._repr", "pieshell/pipeline/function.py:Function._repr"]}
{"id": "C70", "title": "Which program a command runs", "statement": "A command whose name has no slash runs the first executable program of that name in the directories of its environment's PATH (/bin:/usr/bin without PATH), in its environment's directory and with its environment's exported variables; a name with a slash is a path from that directory. If there is none, the exit status is the error number: 2 if missing everywhere, otherwise that of the first place where it is there but cannot be executed. If the directory cannot be entered nothing is run.", "quantifier": "every command, PATH, directory, set of variables and file system", "why_tests_cant": "All search paths and all results of the kernel.", "anchors": ["pieshell/pipeline/command.py:Command._child", "pieshell/pipeline/command.py:Command._run"]}
{"id": "C71", "title": "Every argument reaches the program as text", "statement": "Each positional argument of a command, whatever its type, and each exported variable reaches the program as its text.", "quantifier": "every list of argument values and exported variables", "why_tests_cant": "All values of all types.", "anchors": ["pieshell/pipeline/command.py:Command._child", "pieshell/environ.py:Environment._expand_argument"]}
{"id": "C72", "title": "The forked child never goes on running the shell", "statement": "After the fork, the child becomes the program or ends with an exit status; it never continues with the code of the program that called pieshell, whatever fails and whenever CTRL-C is pressed.", "quantifier": "every command, every failure of a system call in the child, every moment of an interrupt", "why_tests_cant": "Failure points and signal moments.", "anchors": ["pieshell/pipeline/command.py:Command._child", "pieshell/pipeline/command.py:Command._run"]}
{"id": "C73", "title": "Starting the shell defines its names and nothing else", "statement": "Starting the shell defines its documented names (args, kws, INIT, CURRENT, USERS, PstreeProcess, R, Redirect, TMP, STRING, PIPE, PipelineError, PipelineInterrupted, PipelineSuspended, pieshell), changes no other name and no exported variable, and variables assigned at the prompt can be used in arguments as %(name)s.", "quantifier": "every inherited environment, with and without --no-startup", "why_tests_cant": "All environments.", "anchors": ["pieshell/shell.py:main", "pieshell/environ.py:EnvScope.execute_startup"]}
{"id": "C74", "title": "The configuration file", "statement": "An existing configuration is never changed by starting the shell and is what it executes; the first start creates it with the default text and executes that. An interrupted or failed start does not change what later starts execute, and without write permission the default configuration is executed.", "quantifier": "every history of starts, with errors of system calls and crashes at any point", "why_tests_cant": "Crash points and histories.", "anchors": ["pieshell/environ.py:EnvScope.execute_startup", "pieshell/environ.py:EnvScope._copy_resource", "pieshell/environ.py:EnvScope.execute_file"]}
{"id": "C75", "title": "The path in the prompt", "statement": "The directory shown in the prompt, expanded as the shell expands ~, is the working directory.", "quantifier": "every home directory and working directory", "why_tests_cant": "All paths.", "anchors": ["pieshell/resources/default_config.pysh:compress_user"]}
{"id": "C76", "title": "Script files", "statement": "The script files on the command line are executed in order until one calls sys.exit or cannot be read; each is executed or the reason is shown, and the exit status is non-zero if one failed.", "quantifier": "every list of files and their outcomes", "why_tests_cant": "All lists and outcomes.", "anchors": ["pieshell/shell.py:main", "pieshell/environ.py:EnvScope.execute_file"]}
{"id": "C77", "title": "Two items redirected to one file do not destroy each other's output", "statement": "When several items of a pipeline write to the same file, as in (a + b) > \"f\" or (a + b) | \"f\", the file afterwards contains everything that each of them wrote, in some interleaving.", "quantifier": "every pair of outputs, every division of them into writes, every order in which the operating system executes the writes of the concurrently running items, every previous content of the file", "why_tests_cant": "The outcome depends on the interleaving of two processes' writes; a test sees one schedule.", "anchors": ["pieshell/redir.py:Redirect.open", "pieshell/redir.py:Redirect.perform", "pieshell/pipeline/group.py:Group._run", "pieshell/pipeline/function.py:Function._run"]}
{"id": "C78", "title": "The end of an iteration tells that everything was received and nothing failed", "statement": "When a for loop over a pipeline, list(), bytes() or iterbytes() ends without an exception, all lines (bytes) that the pipeline has written have been received, no item is running any more and none has failed. When it ends with PipelineFailed, everything written has been received before, and the exception lists exactly the failed items.", "quantifier": "every output and its division into writes and reads, every order in which the items end, every interleaving of the steps of the reader, the event loop, the signal handlers and any other running pipelines", "why_tests_cant": "The end of the stream and the ends of the processes come in any order; a test sees one schedule.", "anchors": ["pieshell/pipeline/base.py:Pipeline.__aiter__", "pieshell/pipeline/running.py:RunningPipeline.__aiter__", "pieshell/pipeline/running.py:RunningPipeline.iterbytes", "pieshell/iterio.py:LineInputHandler.__anext__", "pieshell/iterio.py:InputHandler.__anext__"]}
{"id": "C79", "title": "Leaving a loop over a pipeline releases its output", "statement": "If a loop over a pipeline is left early (break, exception, cancellation), the read end of the pipe is closed, so that writes of the programs fail when they go on writing instead of blocking for ever.", "quantifier": "every output, every moment at which the loop is left, everything that happens afterwards", "why_tests_cant": "A leak that holds for ever cannot be observed in finite time, and the moment is arbitrary.", "anchors": ["pieshell/iterio.py:LineInputHandler", "pieshell/iterio.py:InputHandler", "pieshell/iterio.py:IOHandler.destroy"]}
{"id": "C80", "title": "CTRL-Z suspends a pipeline that is iterated over", "statement": "While a program iterates over the output of a pipeline, CTRL-Z suspends the pipeline and ends the iteration with PipelineSuspended, as it does for wait().", "quantifier": "every pipeline, every history of other pipelines and signals, every moment of the iteration", "why_tests_cant": "All moments and histories.", "anchors": ["pieshell/pipeline/running.py:StopSignalHandler", "pieshell/pipeline/running.py:RunningPipeline.wait", "pieshell/pipeline/running.py:RunningPipeline.__aiter__"]}
{"id": "C81", "title": "A pipeline computes what its programs compute one after the other", "statement": "Iterating over (or running) a pipeline `a | b | ... | z` of programs gives exactly the output and the status of z that one gets by running the programs one after the other through files, whatever the scheduling and however small the pipes are: it terminates if the programs do, never deadlocks, loses, duplicates and reorders nothing; a write of a program fails only when its reader has ended.", "quantifier": "every pipeline of programs, every behaviour of the programs, every input, every interleaving, every capacity of every pipe", "why_tests_cant": "The interleavings, programs, inputs and pipe sizes are unbounded; a deadlock or a lost end-of-file appears only for some of them.", "anchors": ["pieshell/pipeline/pipe.py:Pipe._run", "pieshell/pipeline/command.py:BaseCommand._run", "pieshell/pipeline/running.py:RunningPipeline.__aiter__", "pieshell/redir.py:Redirects.make_pipes", "pieshell/redir.py:Redirects.close_source_fds"]}
{"id": "C82", "title": "Chains of programs and python functions compute what sequential execution computes", "statement": "For a pipeline of external programs and python functions (the first item may also be an iterator), in which only the first item's stdin is redirected: whatever the scheduling, the pipe capacities and the order in which the shell reads, what the user receives is always a prefix of, and in the end exactly, what one gets by running the items one after the other through files; each item that ends by itself has written exactly that and has that status; the whole takes a bounded number of steps; and if all items from the first python function on read their input to the end, no item stays behind.", "quantifier": "all such pipelines, all (deterministic) programs and functions, all inputs, all pipe capacities, all schedules", "why_tests_cant": "deadlocks and lost data appear only for certain buffer sizes and interleavings of processes, the event loop and the reader", "anchors": ["pieshell/pipeline/pipe.py:Pipe._run", "pieshell/pipeline/command.py:BaseCommand._run", "pieshell/pipeline/function.py:Function._run", "pieshell/iterio.py:LineInputHandler", "pieshell/iterio.py:LineOutputHandler"]}
{"id": "C83", "title": "What writes into a pipe is stopped once the reader has ended", "statement": "When an item of a chain has ended, the item before it can write nothing more: its next write stops it, so that e.g. `yes | head -1`, or `while true; do echo y; done | head -1`, leaves nothing behind (the programs are started with the usual action of SIGPIPE).", "quantifier": "all chains of programs and python functions, all schedules and capacities, all moments after the end of the reading item", "why_tests_cant": "it requires that no process and no part of the shell holds the read end of any pipe of any pipeline, at any later moment", "anchors": ["pieshell/pipeline/pipe.py:Pipe._run", "pieshell/pipeline/function.py:Function._run", "pieshell/iterio.py:InputHandler", "pieshell/redir.py:Redirects.close_source_fds"]}
{"id": "C84", "title": "A python function in a pipeline maps lines to lines", "statement": "A python function in a pipeline is given the lines of its input (the last one also if no newline ends it), and the values it yields are written with a newline each: for `list(prog | f)` the shell receives, under every schedule and every pipe capacity, exactly the values that f yields for the lines of the output of prog, and if f reads all lines, prog has ended by itself.", "quantifier": "all functions (as deterministic line transducers), all outputs of the program, all schedules and capacities", "why_tests_cant": "the line splitting is done over arbitrary chunk boundaries and interleavings with the writer", "anchors": ["pieshell/iterio.py:LineInputHandler", "pieshell/iterio.py:LineOutputHandler", "pieshell/pipeline/function.py:Function._run", "pieshell/pipeline/running.py:RunningFunction"]}
{"id": "C85", "title": "Signals as an asynchronous iterator", "statement": "Awaiting the next event of a SignalIteratorHandler again and again returns every matching event exactly once, in the order of arrival, and a call that waits is woken up by the next event; and registering such a handler does not change which events other handlers (those of child processes) receive.", "quantifier": "all interleavings of events, calls, resumptions and cancellations; all other registered handlers and their order", "why_tests_cant": "the failure needs a second event between two awaits, at a moment chosen by the kernel's signal delivery", "anchors": ["pieshell/signalio/__init__.py:SignalIteratorHandler", "pieshell/signalio/manager_signalfd.py:SignalManager.handle_event", "pieshell/signalio/manager_asyncio.py:SignalManager.handle_event"]}
{"id": "C86", "title": "Importing .pysh modules", "statement": "Importing a .pysh module does not change variables or exported variables of the shell or of other modules; its attributes are the variables it assigned; it is executed once, however often it is imported; an import of a module that fails raises an exception; the variables of a module can be used in the arguments of its commands.", "quantifier": "all modules (lists of assignments, deletions, exports and failures), all shells and sets of loaded modules", "why_tests_cant": "it ranges over all module contents, all states of the shell before the import and all points where the module fails", "anchors": ["pieshell/module.py:Loader.load_module", "pieshell/module.py:Module", "pieshell/environ.py:EnvScope.execute_file", "pieshell/environ.py:EnvScope.__setitem__"]}
{"id": "C87", "title": "What remote sends is what arrives", "statement": "The pipeline that `remote` runs on the other machine is the pipeline that was given to it: the same classes, arguments, redirections and environment (directory, exports), with the same objects shared, without running processes; and every pipeline can be sent.", "quantifier": "all object graphs of a pipeline and its environment (shared and cyclic ones included), all paths of attributes followed from the pipeline", "why_tests_cant": "it ranges over all pipelines and everything reachable from their environment, including cycles and the jobs that happen to run when it is sent", "anchors": ["pieshell/pipeline/base.py:describable_object_reduce", "pieshell/pipeline/base.py:DescribableObject.__setstate__", "pieshell/environ.py:Environment.__getstate__", "pieshell/pipeline/builtins.py:Remote._run"]}
{"id": "C88", "title": "Giving up waiting only ends the call", "statement": "Cancelling a call of wait() (asyncio.wait_for, Task.cancel) ends that call with CancelledError, and only such a call; the job goes on as if nothing had happened: its processes, output, files, the list of running pipelines, other calls of wait() and what CTRL-Z acts upon are untouched, and a later wait() gets the job's result.", "quantifier": "all histories of an environment, all calls of wait(), all times of cancellation, all schedules of the event loop afterwards", "why_tests_cant": "cancellation can come at any point of any schedule, with any number of other calls under way", "anchors": ["pieshell/pipeline/running.py:RunningPipeline.wait", "pieshell/pipeline/running.py:RunningPipeline.handle_finish", "pieshell/pipeline/running.py:StopSignalHandler"]}
{"id": "C89", "title": "Signatures follow the help text", "statement": "The keyword parameters of a command (as shown by completion and inspect.signature) are exactly the long options the program prints for --help, each once, with dashes written as underscores; a parameter can be left out (False) if the option is printed without a value or with an optional one, accepts int for <number>, str for other <...>, and the printed words as values; giving a parameter passes exactly the printed option to the program.", "quantifier": "all texts printed for --help, all options and values in them", "why_tests_cant": "help texts are arbitrary: any number of options, repeated with different values, at any place", "anchors": ["pieshell/pipeline/command.py:Command.__signature__", "pieshell/pipeline/command.py:BaseCommand._arg_list"]}
{"id": "C90", "title": "What is shown for a process is its command line", "statement": "The text shown for a process when browsing processes is the command that, typed at the prompt, has exactly the words of the process's command line; different command lines are shown differently.", "quantifier": "all command lines of processes", "why_tests_cant": "words are arbitrary texts: quotes, commas, options in any order and number", "anchors": ["pieshell/ps.py:cmdline2pieshell", "pieshell/ps.py:PstreeProcess.__repr__"]}
{"id": "C91", "title": "Helpers for iterators", "statement": "map(f) (from_json, to_json) applies f to every item in order, one at a time, keeping None, also as an item of a pipeline; filter(f) keeps the items for which f is true; a for loop over a pipeline or another asynchronous iterator gets the same items, in the same order, and the same exception as an async for.", "quantifier": "all iterators (also infinite and failing ones), all functions, every number of items asked for", "why_tests_cant": "iterators are arbitrary and may be infinite or fail anywhere", "anchors": ["pieshell/utils/jsonutils.py:map", "pieshell/utils/jsonutils.py:filter", "pieshell/utils/asyncutils.py:asyncitertoiter"]}
{"id": "C92", "title": "Global variables assigned in functions", "statement": "Assigning a global variable in a function defined at the prompt has the effect of the same assignment at the prompt: it is read afterwards, exported variables reach programs, env changes the current environment; a function made with pyshfunction assigns its module's variable.", "quantifier": "all states of the shell, all names, all values", "why_tests_cant": "depends on which names are local, exported or defined in the module, in every state", "anchors": ["pieshell/environ.py:EnvScope.__setitem__", "pieshell/environ.py:Environment.pyshfunction"]}
{"id": "C93", "title": "Signals go to the job's own processes", "statement": "Suspending and resuming a pipeline (CTRL-Z, bg, fg, wait()) stops and continues exactly its own processes that have not ended, never a process of another program, and raises no exception.", "quantifier": "all histories of starting, ending and waiting for processes of the shell and of others, including reuse of process numbers by the kernel", "why_tests_cant": "process numbers are reused only after a wrap around, under a schedule no test controls", "anchors": ["pieshell/pipeline/running.py:RunningPipeline.restart", "pieshell/pipeline/running.py:RunningPipeline.suspend", "pieshell/pipeline/running.py:RunningProcess.restart", "pieshell/pipeline/running.py:RunningProcess.suspend"]}
{"id": "C94", "title": "The message of a failed pipeline shows what failed and what it printed", "statement": "The text of PipelineFailed names the pipeline and shows, for every item that failed and in the order of the pipeline, its command (or the function's traceback) followed by everything the item wrote to its STRING redirections, each under the name of the stream; making the text never raises an exception.", "quantifier": "all pipelines of processes, functions and fg items, all captured texts, all histories of writes, ends and event loop steps", "why_tests_cant": "whether the output has been read when the message is made depends on the order in which the event loop runs the tasks; the output is arbitrary", "anchors": ["pieshell/pipeline/running.py:PipelineError.__str__", "pieshell/pipeline/running.py:RunningProcess.__repr__", "pieshell/pipeline/running.py:RunningFunction.__repr__", "pieshell/pipeline/builtins.py:RunnningFg"]}
{"id": "C95", "title": "Waiting for a pipeline returns when its programs have ended, and tells how they ended", "statement": "`await pipeline.run().wait()` (or `await pipeline`) ends once every program and function of the pipeline has ended; it returns normally only if every item has ended and all programs ended with status 0; otherwise it raises PipelineFailed listing, in order, exactly the programs whose status is not 0 and the functions that raised an exception. Items of which no write failed because its reader had ended have then done all of their work, with the same output and status as if the items were run one after another through files.", "quantifier": "all chains of programs and python functions, all behaviours of the programs, all pipe capacities, all interleavings of the programs, the kernel's signals, the signal manager and the event loop, any number of other children, jobs and calls of wait()", "why_tests_cant": "the result depends on the interleaving of several processes, merged signals and event loop callbacks, and on arbitrary program behaviour", "anchors": ["pieshell/pipeline/running.py:RunningPipeline.wait", "pieshell/pipeline/running.py:RunningProcess.__init__", "pieshell/signalio/__init__.py:ProcessSignalHandler.handle_event", "pieshell/iterio.py:OutputHandler", "pieshell/pipeline/command.py:BaseCommand._run"]}
{"id": "C96", "title": "Output redirected to STRING is captured whole, exactly once, after the end", "statement": "For `(a | f | b) > STRING`, `output_content[1]` of the last item is empty until every item of the pipeline has ended, and then it is exactly the text of what the pipeline writes when its items are run one after another through files (decoded, with universal newlines); once everything is at rest it is there and the temporary file is gone. With TMP, the file holds at every moment exactly what the last item has written so far, and all of it in the end.", "quantifier": "all chains of programs and python functions with any redirections of the last item's stdout to STRING or TMP, all behaviours of the programs, all pipe capacities, all interleavings of programs, kernel, signal manager and event loop, any number of other jobs, waits and calls of remove_output_files()", "why_tests_cant": "a capture taken too early or lost writes appear only in some interleavings of the programs' ends, signals and event loop callbacks; the text depends on arbitrary program behaviour", "anchors": ["pieshell/pipeline/running.py:RunningItem.handle_pipeline_finish", "pieshell/pipeline/running.py:RunningPipeline.handle_finish", "pieshell/redir.py:Redirect.make_pipe", "pieshell/redir.py:STRING", "pieshell/pipeline/command.py:BaseCommand._run"]}
{"id": "C97", "title": "Redirected background programs let go of the shell's output", "statement": "A program whose standard input, output and error are all redirected elsewhere has the shell's own standard output open nowhere, so that whoever reads the output of pieshell (a pipe, ssh, command substitution) sees its end when pieshell ends, even if such a program goes on in the background.", "quantifier": "every pipeline, every redirection table, every state of the shell's descriptors, every program started", "why_tests_cant": "It is about all descriptors of all programs of all pipelines; a test sees the absence of a descriptor only for the tables it tries, and not that something else keeps the output open.", "anchors": ["pieshell/log.py:logfd", "pieshell/redir.py:Redirects.close_other_fds", "pieshell/pipeline/command.py:Command._run"]}
{"id": "C98", "title": "Wild cards stand for what the manual says", "statement": "In an argument, `*` stands for any text, `?` for any character, `[...]` for one of the characters and ranges listed, `[!...]` for one of the others; a `[` that is not closed and all other characters stand for themselves; hidden files are found only by patterns starting with a dot. A pattern without slash becomes `./name` for exactly the matching names of the environment's directory, each once, or stays as it is if there are none. Every file name can be quoted so that the argument names that file only.", "quantifier": "every pattern, every file name, every directory tree, every environment", "why_tests_cant": "There are infinitely many patterns and names; the translation to regular expressions has corner cases (ranges, closing brackets, exclamation marks, hyphens) that samples miss.", "anchors": ["pieshell/environ.py:Environment._expand_argument", "pieshell/environ.py:Environment._expand_path"]}
{"id": "C99", "title": "Suspending a pipeline from the program", "statement": "suspend() stops every process of the pipeline that still runs, whatever has happened before, and restart() continues all of them; a call of wait() under way when suspend() is called ends with PipelineSuspended, as it does on CTRL-Z, and never reports success or failure while the pipeline is suspended.", "quantifier": "every history of pipelines, waits, process ends, signals and loop steps before and after", "why_tests_cant": "It is about all interleavings of suspend() with waits, ends of processes and the loop.", "anchors": ["pieshell/pipeline/running.py:RunningPipeline.suspend", "pieshell/pipeline/running.py:RunningPipeline.restart", "pieshell/pipeline/running.py:RunningPipeline.wait"]}
{"id": "C100", "title": "Exit codes and failure of a pipeline can be asked for at any time", "statement": "failed_processes and running_processes of a running pipeline list exactly the items that have failed and that still run, in order, is_failed and is_running say whether there are any, and none of them ever raises; exit_code is the exit code of the last program, can be asked for at any time, and is not 0 exactly if the pipeline has failed.", "quantifier": "every history of state changes of the processes, signals and the signal manager (both managers), every list of items (programs, functions, fg)", "why_tests_cant": "It is about every moment between fork and the delivery of the last signal, with signals coalescing and arriving in any order.", "anchors": ["pieshell/pipeline/running.py:RunningPipeline.exit_code", "pieshell/pipeline/running.py:RunningPipeline.failed_processes", "pieshell/pipeline/running.py:RunningProcess.exit_code", "pieshell/signalio/__init__.py:ProcessSignalHandler"]}
{"id": "C101", "title": "A started program is shown with its number and state", "statement": "Printing a command that was started shows its process number and how it stands: nothing more while it runs, the signal if it was stopped or killed, the exit code and its temporary files once it has ended; printing never raises.", "quantifier": "every history of state changes and signals, every moment at which it is printed, every set of temporary files", "why_tests_cant": "What is shown depends on the last event received, over all orders in which state changes are merged and delivered.", "anchors": ["pieshell/pipeline/running.py:RunningProcess._repr", "pieshell/pipeline/command.py:BaseCommand._repr"]}
{"id": "C102", "title": "Programs are started with the usual signal handling", "statement": "A program started by pieshell handles signals as if it had been started by any other shell: signals ignored when the shell was started are ignored, all others have their default action, and only signals that were blocked when the shell was started are blocked.", "quantifier": "every signal, both signal managers, every environment in which the shell was started, everything that happened before the program was started and until the program itself changes its signals", "why_tests_cant": "all signals, histories and environments", "anchors": ["pieshell/pipeline/command.py:Command._child", "pieshell/pipeline/command.py:BaseCommand._run", "pieshell/signalio/manager_signalfd.py:SignalManager.__init__", "pieshell/signalio/manager_asyncio.py:SignalManager.__init__"]}
{"id": "C103", "title": "CTRL-C interrupts the foreground job and nothing else", "statement": "When CTRL-C is pressed, the running programs of the pipeline that the user waits for are interrupted, the shell gets control back with a KeyboardInterrupt, and jobs in the background go on.", "quantifier": "any number of jobs and programs, every history of starts, signals, suspensions and ends, every moment at which the key is pressed", "why_tests_cant": "all histories; no other process group may ever be left out or included by mistake", "anchors": ["pieshell/pipeline/command.py:BaseCommand._run", "pieshell/pipeline/command.py:Command._child", "pieshell/pipeline/running.py:RunningPipeline.wait"]}
{"id": "C104", "title": "CTRL-Z reaches the programs in the foreground, and no others", "statement": "When CTRL-Z is pressed, the programs of the foreground pipeline get the stop signal, so that they can react to it (restore the terminal) before they stop; programs in the background are not affected.", "quantifier": "both signal managers, any number of jobs and programs, every history", "why_tests_cant": "all histories of starts, handlers, suspensions and keys", "anchors": ["pieshell/signalio/manager_signalfd.py:SignalManager.__init__", "pieshell/signalio/manager_asyncio.py:SignalManager.__init__", "pieshell/pipeline/running.py:RunningProcess.suspend", "pieshell/pipeline/command.py:Command._child"]}
{"id": "C105", "title": "Making a redirection, and reading its text", "statement": "stdin, stdout and stderr name descriptors 0, 1 and 2; without flags descriptor 0 is read and descriptors 1 and 2 are written (created, not truncated), any other name, or any other number without flags, is an error. The text of a redirection tells descriptor, direction, source, flags and mode; the text of a table lists its entries by descriptor, whatever order they were given in.", "quantifier": "all names, descriptors, sources, flags and modes; all tables and all orders in which their redirections were registered", "why_tests_cant": "injectivity of a text over all values and independence of registration order are statements about all pairs", "anchors": ["pieshell/redir.py:Redirect.__init__", "pieshell/redir.py:Redirect.__repr__", "pieshell/redir.py:flags_to_string", "pieshell/redir.py:Redirects.__repr__", "pieshell/redir.py:Redirects.__getattr__"]}
{"id": "C106", "title": "Words of a pattern: order, and trailing slashes", "statement": "A pattern becomes the matching names in a fixed (sorted) order, as in other shells; a pattern that ends with a slash stands for directories only.", "quantifier": "all patterns, all directories and all orders in which the operating system lists them", "why_tests_cant": "quantifies over directory contents and listing orders, which tests do not control", "anchors": ["pieshell/environ.py:Environment._expand_argument", "pieshell/environ.py:Environment._expand_path"]}
{"id": "C107", "title": "Pipelines in the background go on at the prompt, and are seen to end", "statement": "A pipeline started in the background with run() goes on while the user is at the prompt (or other python code runs) as it does while something waits for it: its programs and functions finish their work, and when they have ended, is_running is false and the pipeline is no longer listed in env.running_pipelines.", "quantifier": "all pipelines of programs and functions, all programs, all interleavings of programs, kernel and python code while the event loop does not run", "why_tests_cant": "quantifies over all schedules during which the event loop does not run, and over what has happened before; a test sees one schedule", "anchors": ["pieshell/pipeline/base.py:Pipeline.run", "pieshell/pipeline/base.py:Pipeline.run_interactive", "pieshell/pipeline/running.py:RunningPipeline", "pieshell/shell.py:main", "pieshell/utils/asyncutils.py:asyncitertoiter"]}
{"id": "C108", "title": "Different directories look different in the prompt", "statement": "With the default configuration, two different working directories are never shown alike in the prompt: the directory part determines the working directory, and prompts that differ in the working directory only are different texts.", "quantifier": "all absolute working directories, all home directories and user databases", "why_tests_cant": "a test tries some directory below the home directory; the claim is about every pair of directory and home directory, including ones whose names are prefixes of each other", "anchors": ["pieshell/resources/default_config.pysh: compress_user, prompt"]}
{"id": "C109", "title": "The prompt shows the git branch and the number of changes", "statement": "With the default configuration, in a git repository the prompt shows the branch (or, without a branch, the revision) that is checked out and how many files have changed, distinctly for different branches and numbers; outside of a repository it shows neither.", "quantifier": "all answers of git, all branch names, all numbers of changes", "why_tests_cant": "answers of git range over all texts, failures and exceptions", "anchors": ["pieshell/resources/default_config.pysh: parse_git_branch, prompt"]}
{"id": "C110", "title": "Printing an environment or the prompt leaves no trace", "statement": "str(env), and so printing the prompt, changes nothing the user can see: variables, exported variables, the current environment, env.last_pipeline of every environment and what %(name)s means in the arguments of commands are the same afterwards, however the making of the text ended, and it always ends (the prompt is not made again while it is being made).", "quantifier": "all shells with one scope, all environments printed, all sequences of commands run and environments shown while the text is made, whether or not they raise", "why_tests_cant": "the commands the prompt runs, where they fail and what they show are arbitrary, and nested printing could recurse without end", "anchors": ["pieshell/resources/default_config.pysh: prompt", "pieshell/environ.py: Environment.temporary_env, Environment.__str__, EnvScope.__str__, EnvScope.__setitem__"]}
{"id": "C111", "title": "Builtins can be combined with other commands", "statement": "A builtin (cd, bg, clear_dir_cache or one written by the user) can be part of a pipeline like any other command: combined with others by `+` and `|`, the builtin does its work, in its turn, and the other commands are started as they would be without it; the result can be iterated over.", "quantifier": "all pipelines of commands, functions, builtins, groups, pipes and redirections, all redirection tables, all states of the descriptor table and the working directory, all effects of the builtins, including exceptions", "why_tests_cant": "pipelines nest without bound and the builtin can occur at any place in them", "anchors": ["pieshell/pipeline/builtin.py: Builtin", "pieshell/pipeline/builtins.py: CdBuiltin._run, BgBuiltin._run, ClearDirCacheBuiltin._run", "pieshell/pipeline/command.py: BaseCommand.__getattr__", "pieshell/pipeline/pipe.py: Pipe._run", "pieshell/pipeline/group.py: Group._run", "pieshell/redir.py: Redirect.__init__, Redirects.merge"]}
{"id": "C112", "title": "Completing cd", "statement": "The names offered by completion after cd, cd.a, cd.a.b and so on are exactly those of the directories in the directory that the words lead to (the current directory, when there are none yet), and PARENT and ROOT; a name that is offered leads, as the next word of cd, to the directory it was offered for.", "quantifier": "all file systems, all current directories of the environment and the process, all sequences of words, all names", "why_tests_cant": "the file system, the names in it and the number of words are arbitrary; a name could mean something else to cd than to the completion", "anchors": ["pieshell/pipeline/builtins.py: CdBuiltin.__dir__, CdBuiltin._path", "pieshell/environ.py: Environment._expand_path, Environment._cd"]}
{"id": "C113", "title": "Completion at the prompt", "statement": "Each press of the completion key gives readline exactly the completions that are found for the line, in their order and once each, each one being the line with the name being typed replaced by the name found; when the search fails nothing is offered. Earlier presses, successful or not, make no difference, and afterwards the import path (sys.path) is what it was, provided that the search itself leaves it alone.", "quantifier": "every line, every directory of the process (also a removed one), every result or failure of the search, every import path, every sequence of presses", "why_tests_cant": "The completer keeps state between the calls readline makes, and has to restore the import path after every failure; tests try a few lines without failures.", "anchors": ["pieshell/jedi_completion.py: setup_readline, JediRL.complete"]}
{"id": "C114", "title": "Completion of a command's arguments", "statement": "Completing the next argument of a command (dir(env.git.log), or TAB in the shell) asks bash's completion about exactly the words the command would be run with, followed by an empty word, and runs nothing else; what is offered are the lines that are answered, without the white space around them.", "quantifier": "all argument lists, all contents of the words, all file systems and variables, all answers", "why_tests_cant": "the words are arbitrary: each character has to survive python's quoting, a second expansion of arguments, and bash's reading of the line", "anchors": ["pieshell/pipeline/command.py: BaseCommand._arg_list_sh, Command._complete, Command.__dir__", "pieshell/environ.py: Environment._expand_argument", "pieshell/resources/get_completions"]}
{"id": "C115", "title": "pyshfunction keeps the calls of a function", "statement": "env.pyshfunction(f) can be called like f: a call accepted by f is accepted by it, and its body starts with the same values of all parameters; a call refused by f is refused.", "quantifier": "all signatures (positional, positional-only, *args, keyword-only, **kw, default values), all calls", "why_tests_cant": "signatures and calls are unbounded combinations of parameter kinds, defaults and arguments", "anchors": ["pieshell/environ.py: Environment.pyshfunction"]}
{"id": "C116", "title": "Pipelines as arguments are like files with their output", "statement": "list(env.paste(env.a | env.b, env.c)) yields what one gets by running the pipelines among the arguments first, and handing the command names of files with their outputs; likewise for chains of such commands and python functions and for arguments of arguments. Each program writes the same and ends with the same status, the execution never comes to a halt before all have ended (python functions and what reads their output reading to the end), and the shell receives the whole output, in whatever order the programs read their inputs.", "quantifier": "all nestings of commands, pipes, redirections, python functions and iterators, all programs, all orders of reading, all schedules, all capacities of the pipes, all states of the descriptor table in which the pipeline can be started", "why_tests_cant": "schedules, programs and nestings are unbounded; a descriptor leaked into one of the many processes makes an execution hang only under some of them", "anchors": ["pieshell/pipeline/command.py: Command._handle_arg_pipes, Command._run, Command._child", "pieshell/pipeline/base.py: Pipe._run", "pieshell/redir.py: Redirects.borrow, Redirects.close_source_fds, Redirects.perform, Redirects.find_free_fd"]}
{"id": "C117", "title": "Several environments in one pipeline", "statement": "Commands of different environments can be combined in one pipeline: whenever a pipeline has been started, each of its commands - also those in arguments of other commands - is executed with its arguments expanded with the names and the directory of its own environment, with exactly the exported variables of its own environment (whose PATH is searched) and in its directory, whatever the other environments of the pipeline are. The pipeline is a job of the environment of its leftmost command only, and has this environment's default redirections.", "quantifier": "all pipelines of any shape (pipes, groups, redirections, pipelines and functions among arguments), all assignments of environments to commands, all environments, all states of the shell", "why_tests_cant": "unboundedly many pipelines and environments; a test shows two environments in one shape", "anchors": ["README.md: 'create multiple environments and use them simultaneously, even within the same pipeline'", "pieshell/pipeline/base.py: Pipeline.__init__, __or__, __gt__, __add__, run", "pieshell/pipeline/command.py: _arg_list, _child"]}
{"id": "C118", "title": "A pipeline that cannot be started leaves nothing behind", "statement": "If an argument of some command of a pipeline cannot be expanded (an undefined name in %(name)s), running the pipeline raises the exception, and leaves no process of the pipeline running, no new descriptor open in the shell, and no job.", "quantifier": "all pipelines, all positions of the argument that cannot be expanded, all environments, all states of the shell", "why_tests_cant": "depends on the shape of the pipeline and on the position of the failing argument; leaked descriptors and processes are not visible in the result", "anchors": ["pieshell/pipeline/base.py: Pipeline.run", "pieshell/pipeline/command.py: _run, _arg_list", "pieshell/pipeline/pipe.py: _run", "pieshell/pipeline/group.py: _run", "pieshell/environ.py: _expand_argument"]}
{"id": "C119", "title": "Functions and iterators can be redirected from and to files", "statement": "A pipeline that begins with a python function, or ends in a function or an iterator, can be redirected from and to a file (`\"in\" | f`, `f > \"out\"`, `f > STRING`, `None | f`) just as one of programs can: it is started and its items are connected to the file.", "quantifier": "for all pipelines, redirections, files and shell states", "why_tests_cant": "Tests redirect a few pipelines to a few kinds of files; the claim ranges over every pipeline shape, redirection and object (terminal, pipe, regular file, device) an item may end up connected to.", "anchors": ["pieshell/pipeline/function.py: Function._run", "pieshell/iterio.py: IOHandler.__init__, IOHandler.enable", "pieshell/redir.py: Redirect.open"]}
{"id": "C120", "title": "`& True`, `~` and `+` apply to the whole pipeline", "statement": "Appending `& True` (or `& None`) to an expression for a pipeline, or putting `~` or `+` before it, starts the pipeline the expression stands for, as a whole, and nothing else.", "quantifier": "for all expressions built from pipelines, files, `+`, `&`, `|`, `<`, `>`, prefix operators and parentheses", "why_tests_cant": "Tests start a few pipelines; which part of an expression an operator applies to depends on python's precedences and on the classes of all operands, in expressions of any length and nesting.", "anchors": ["pieshell/pipeline/base.py: Pipeline.__and__, __or__, __ror__, __invert__, __pos__, __gt__, __lt__, __add__", "pieshell/pipeline/running.py: RunningPipeline.__or__, RunningPipeline.__ror__", "README.md: Job control"]}
{"id": "C121", "title": "What a file contains after output was redirected into it", "statement": "After cmd | 'file' (file name given, no flags), the file contains the bytes cmd wrote, in the order of its writes, followed by what the old content had beyond that length; nothing else in it changes.", "quantifier": "every old content, every output, every way of splitting the output into writes", "why_tests_cant": "All byte strings and all splittings into writes.", "anchors": ["pieshell/redir.py:Redirect", "pieshell/redir.py:Redirect.__init__", "pieshell/pipeline/base.py:__or__"]}
{"id": "C122", "title": "wait() never reports an end before everything has ended", "statement": "When wait() of a running pipeline returns, or raises PipelineFailed, no item of that pipeline is running any more; the only other ways it ends are PipelineSuspended and CancelledError.", "quantifier": "every pipeline, every history of starts, waits, cancellations, ends of processes and functions, CTRL-Z, bg, fg and loop steps, both signal managers", "why_tests_cant": "All interleavings of event loop and processes.", "anchors": ["pieshell/pipeline/running.py:RunningPipeline.wait"]}
{"id": "C123", "title": "The tree of processes leads to each process by exactly one path", "statement": "Whatever the processes of a list are called, the tree made of them can be built; it leads to each process by exactly one path of at most four names, made of the first names of the process, as many as are needed to tell it from the others, and it leads to nothing else. Likewise for the tree of all processes of the machine and that of logins (up to six names).", "quantifier": "every list of processes with any names, users, terminals and ids", "why_tests_cant": "All lists and all names.", "anchors": ["pieshell/tree.py:TreeGroup", "pieshell/ps.py", "pieshell/pipeline/running.py:RunningPipeline.processes"]}
{"id": "C124", "title": "Options and files of the command line are told apart", "statement": "The arguments that do not begin with -- are the file arguments, in order; every --name=value gives option name everything after the first =, every --name the value True, and the last occurrence of an option counts.", "quantifier": "every argv", "why_tests_cant": "All argument lists.", "anchors": ["pieshell/shell.py:main"]}
{"id": "C125", "title": "Importing a .pysh module is isolated and happens once", "statement": "Importing a module changes no variable of the shell or of another module and no exported variable of any other environment or of the process; the attributes of the module are the values last assigned in it; importing it again gives the same module and executes nothing.", "quantifier": "every module that leaves its own env alone, every shell, every set of loaded modules", "why_tests_cant": "All modules and all states of the interpreter.", "anchors": ["pieshell/module.py", "pieshell/environ.py:EnvScope"]}
{"id": "C126", "title": "Cancelling a call of wait() concerns that call only", "statement": "Cancelling a call of wait(), and the step in which the call notices it, change no job, file, list of running pipelines or other call; the call ends with CancelledError once the loop is at rest, whatever happens meanwhile, and no call that was not cancelled ends so.", "quantifier": "every history, every call under way, every moment, both signal managers", "why_tests_cant": "All interleavings.", "anchors": ["pieshell/pipeline/running.py:RunningPipeline.wait"]}
{"id": "C127", "title": "The lists of failed and running items are exact at any time", "statement": "At every moment failed_processes are exactly the items that are known to have ended badly and running_processes those not known to have ended, in the order of the pipeline, is_failed and is_running say whether there are any, and none of these raises; an exit is known only if it happened, and every exit is known once the signals have been handled.", "quantifier": "every history of state changes of processes, signals and the signal manager (both), every list of programs, functions and fg items", "why_tests_cant": "All histories of signals.", "anchors": ["pieshell/pipeline/running.py:RunningPipeline.failed_processes", "pieshell/pipeline/running.py:RunningPipeline.running_processes", "pieshell/signalio/__init__.py"]}
{"id": "C128", "title": "The signal environment of every program that is started", "statement": "A program started by pieshell finds: SIGPIPE and SIGXFSZ ignored; SIGCHLD and SIGTSTP blocked in addition with the signalfd manager, with their default action with the asyncio manager; every other signal ignored exactly if the shell found it ignored, otherwise with its default action; nothing else blocked than what the shell found blocked.", "quantifier": "every signal, both managers, every environment the shell was started in, every history of the shell and the program in which neither changes its signals itself", "why_tests_cant": "All signals and all histories.", "anchors": ["pieshell/signalio/manager_asyncio.py", "pieshell/signalio/manager_signalfd.py", "pieshell/pipeline/command.py:_run"]}
{"id": "C129", "title": "Names, defaults and order of redirections", "statement": "stdin, stdout and stderr name descriptors 0, 1 and 2 when a redirection is made and when a table is asked for one, any other name is an error; without flags descriptor 0 is opened for reading, 1 and 2 for writing and creating (no truncation, no appending), others are an error, flags given are kept; the text of a table lists its entries by increasing descriptor and depends on what the table holds only.", "quantifier": "all names, numbers, sources, flags, modes, tables and orders of registration", "why_tests_cant": "All tables.", "anchors": ["pieshell/redir.py:Redirect", "pieshell/redir.py:Redirects"]}
{"id": "C130", "title": "What is sent to a remote shell arrives as it was", "statement": "Before python 3.11: a pipeline can be sent exactly if no object is reached from it that cannot be pickled; what arrives has the same attributes along all paths, the same classes, and shares objects exactly where the original does.", "quantifier": "all object graphs, cyclic ones included", "why_tests_cant": "All object graphs.", "anchors": ["pieshell/pipeline/builtins.py:Remote", "pieshell/environ.py:Environment.__getstate__"]}
{"id": "C131", "title": "suspend() stops and restart() continues every process", "statement": "Right after suspend() every process of the pipeline that has not ended is stopped, whatever happened before; after a following restart() none is.", "quantifier": "every history", "why_tests_cant": "All histories.", "anchors": ["pieshell/pipeline/running.py:RunningPipeline.suspend", "pieshell/pipeline/running.py:RunningPipeline.restart"]}
{"id": "C132", "title": "TMP files hold what has been written so far", "statement": "For (a | f | b) > TMP, output_files[1] of the last item names a file that, as long as it is not removed, holds at every moment a beginning of the output the pipeline would have if its items were run one after another, and all of it once the last item has ended.", "quantifier": "all chains of programs and python functions, all behaviours of programs, pipe capacities and interleavings of programs, kernel, signal manager, event loop and other jobs", "why_tests_cant": "All executions.", "anchors": ["pieshell/redir.py:Redirect.open", "pieshell/pipeline/running.py:RunningItem.output_files"]}
{"id": "C133", "title": "Running pipelines are listed", "statement": "env.running_pipelines lists every pipeline that has an item still running, and none twice.", "quantifier": "every history", "why_tests_cant": "All histories.", "anchors": ["pieshell/environ.py:Environment.running_pipelines", "pieshell/pipeline/running.py:RunningPipeline"]}
{"id": "C134", "title": "Commands of text can be read back from their representation", "statement": "From repr() of a command whose arguments are text, reading dotted words and python string literals gives back exactly its list of words; commands with different words have different representations.", "quantifier": "all lists of strings, whatever characters count as printable", "why_tests_cant": "All lists of strings.", "anchors": ["pieshell/pipeline/command.py:BaseCommand._repr"]}
{"id": "C135", "title": "Exactly when redirections to files arrive", "statement": "Every redirected descriptor of a program is what its redirection says if and only if no file is opened for a descriptor that is the lowest free one of the shell's child at that moment.", "quantifier": "every table of redirections to files and (distinct) open descriptors, every descriptor table of the shell, all files openable", "why_tests_cant": "All tables.", "anchors": ["pieshell/redir.py:Redirects.perform", "pieshell/redir.py:Redirect.perform"]}
{"id": "C136", "title": "Exactly which descriptors the shell keeps", "statement": "After run() the shell has the descriptors it had, those of python functions and iterators of the pipeline, the read end of the requested output pipe, and exactly one read end of a pipe for every a + b whose first part writes to a pipe and for every a | b where b's input is redirected; the latter nobody can use.", "quantifier": "every pipeline tree that can be started and every descriptor table", "why_tests_cant": "All trees.", "anchors": ["pieshell/pipeline/pipe.py:Pipe._run", "pieshell/pipeline/group.py:Group._run", "pieshell/pipeline/function.py:Function._run"]}
{"id": "C137", "title": "Which calls a function in a .pysh file still takes", "statement": "A function defined with pyshfunction takes exactly the calls of the original that give every keyword-only parameter, and binds all parameters to the same values; it refuses every other call with TypeError.", "quantifier": "every signature and every call", "why_tests_cant": "All signatures and calls.", "anchors": ["pieshell/environ.py:pyshfunction"]}
{"id": "C138", "title": "Which directories cd offers to go on with", "statement": "After cd and at least one word (no ~ in front), the names offered are exactly the directories in the directory the words lead to, together with PARENT and ROOT (only these if it cannot be read).", "quantifier": "every directory tree, current directory and list of words", "why_tests_cant": "All trees.", "anchors": ["pieshell/pipeline/builtins.py:CdBuiltin.__dir__"]}
{"id": "C139", "title": "CTRL-C is reported as PipelineInterrupted", "statement": "If CTRL-C is pressed while the shell waits for a pipeline (run_interactive(), +pipeline, the event loop run for wait()), the call ends with PipelineInterrupted whose .pipeline is the pipeline that was waited for; the call of wait() has ended then, CTRL-Z acts upon no pipeline until the next one is waited for, and later jobs behave as without the interruption (README: 'If a pipeline is interrupted with CTRL-C, a PipelineInterrupted is raised').", "quantifier": "every history of jobs, every number of earlier interruptions, every place in python code at which KeyboardInterrupt is raised", "why_tests_cant": "KeyboardInterrupt is raised between two arbitrary bytecodes: which code it hits depends on the schedule, and its effect on later jobs needs all histories", "anchors": ["pieshell/pipeline/running.py:RunningPipeline.wait", "pieshell/pipeline/running.py:PipelineInterrupted", "pieshell/pipeline/running.py:StopSignalHandler", "pieshell/pipeline/base.py:Pipeline.run_interactive", "README.md"]}
{"id": "C140", "title": "Going from process to process by names", "statement": "From every process of the machine, PARENT, GROUP and SESS lead to its parent, the leader of its group and of its session; every child is reached by its name, so that from CURRENT, INIT or a started program every process with a common ancestor can be reached; every login is reached from USERS by its user's name, and from it the processes of that session; attributes of the process itself are available as well; completion lists the names of the children.", "quantifier": "every set of processes with any parents, groups, sessions, program names, command lines and logins, and every pair of processes", "why_tests_cant": "All process trees, names and depths.", "anchors": ["pieshell/ps.py:PstreeProcess", "pieshell/ps.py:PstreeLogin", "pieshell/ps.py:PstreeLogins", "pieshell/tree.py:TreeGroup", "pieshell/pipeline/running.py:RunningProcess.__getattr__"]}
{"id": "C141", "title": "Functions as arguments", "statement": "In list(env.cmd(words..., f, g)), each python function among the arguments gets exactly what the program writes to the file /dev/fd/N given in its place; the shell receives what the program writes to its stdout mixed with what the functions yield, each in its order and nothing lost; no write fails; it takes a bounded number of steps, and if the functions read to the end, everything ends, with the right statuses, and the shell finds the end of its input.", "quantifier": "every command with any number of words and functions, all programs and functions, all inputs, all schedules, all capacities of pipes", "why_tests_cant": "Whether the program, the functions and the shell can block each other depends on the schedule, on the amount of data and on the order in which the program writes to its files.", "anchors": ["pieshell/pipeline/command.py:Command._handle_arg_pipes", "pieshell/pipeline/function.py:Function._run", "pieshell/iterio.py:LineInputHandler", "pieshell/iterio.py:LineOutputHandler", "tests/argpipe_pipeline.pysh"]}
{"id": "C142", "title": "Functions have descriptors of their own", "statement": "Each python function in a started pipeline reads and writes through descriptors of the shell that nobody else uses: two functions never share one, a function's input is not its output, and the shell reads the output of the pipeline from none of them.", "quantifier": "every pipeline with functions, iterators, redirections and arguments, every state of the descriptor table", "why_tests_cant": "Descriptor numbers are reused; all shapes of pipelines and tables.", "anchors": ["pieshell/pipeline/function.py:Function._run", "pieshell/redir.py:Redirect.open", "pieshell/redir.py:Redirects.make_pipes", "pieshell/pipeline/command.py:Command._handle_arg_pipes"]}
{"id": "C143", "title": "Nothing is lost, duplicated or reordered on its way through a pipeline of any shape", "statement": "Whatever the shape of a pipeline (pipes, groups, redirections, functions and pipelines among the arguments of its commands, nested), at each moment of each execution what has been read from each of its pipes, followed by what is still in it, is what its writers have written to it, in order; only those connected to a pipe have written to it or read from it; an item is told of the end of an input only when nothing is left in the pipe and nobody can write to it any more; and each item does exactly what it would do alone with the bytes that it has got. If a pipe has one writer and one reader, the reader gets a beginning of what the writer has written, and all of it if it is told of the end.", "quantifier": "every pipeline that can be started, all behaviours of its commands and functions, all inputs, all capacities of the pipes, all schedules", "why_tests_cant": "All shapes, schedules and behaviours; tests run one schedule of a few shapes.", "anchors": ["pieshell/pipeline/pipe.py:Pipe._run", "pieshell/pipeline/command.py:Command._handle_arg_pipes", "pieshell/redir.py:Redirects.make_pipes", "pieshell/iterio.py:LineInputHandler", "pieshell/iterio.py:LineOutputHandler"]}
{"id": "C144", "title": "Only readers of empty pipes and writers to full pipes wait", "statement": "If nothing can happen any more in a pipeline of any shape, each of its items has ended, or wants to read from an empty pipe to which somebody could still write, or wants to write to a full pipe from which somebody could still read; and the shell has read everything from the pipe that it iterates over.", "quantifier": "every network of items and pipes, every state", "why_tests_cant": "All states, reachable by any schedule.", "anchors": ["pieshell/iterio.py:IOHandler", "pieshell/pipeline/base.py:Pipeline.__iter__", "pieshell/redir.py:Redirects.close_source_fds"]}
{"id": "C145", "title": "Pipelines do not deadlock", "statement": "A pipeline of any shape (pipes, groups, redirections, functions and pipelines among the arguments of its commands, nested) never comes to a standstill before all its items have ended and the shell has read everything, except in two cases: a python function has ended before it has found the end of its input, the read end of which the shell keeps open, and its pipe is full; or the shell has kept the read end of a pipe that nobody reads from, and the pipe is full. The latter does not happen in pipelines in which the input of what comes after a pipe is not redirected, and the output of the left side of a group is not a pipe.", "quantifier": "every pipeline that can be started, all behaviours of its commands and functions, all inputs, all capacities of the pipes, all schedules", "why_tests_cant": "Absence of deadlocks over all schedules and shapes.", "anchors": ["pieshell/pipeline/pipe.py:Pipe._run", "pieshell/pipeline/group.py:Group._run", "pieshell/pipeline/command.py:Command._handle_arg_pipes", "pieshell/pipeline/function.py:Function._run", "pieshell/redir.py:Redirects.close_source_fds"]}
{"id": "C146", "title": "Pipelines of commands that end, end", "statement": "If each command and function of a pipeline of any shape, on its own, does only a limited number of things when its inputs are limited, then there is a limit to the length of all executions of the pipeline, and each execution gets to the point where all items have ended (or one of the exceptions of C145 has occurred).", "quantifier": "every pipeline that can be started, all such behaviours of its commands and functions, all inputs, all capacities of the pipes, all schedules", "why_tests_cant": "Termination over all schedules and shapes.", "anchors": ["pieshell/pipeline/pipe.py:Pipe._run", "pieshell/pipeline/group.py:Group._run", "pieshell/pipeline/command.py:Command._handle_arg_pipes", "pieshell/iterio.py:IOHandler"]}
{"id": "C147", "title": "The result of a pipeline does not depend on the schedule", "statement": "Take a pipeline of any shape (pipes, groups, redirections, functions and pipelines among the arguments of its commands, nested) in which each pipe is really written to by one item at most, and really read by one item, or the shell, at most. In any two executions of it with the same input, as long as no write fails, what an item has written in one is a beginning of what it has written in the other, and so is what the shell has read; items that have ended in both have written the same and have the same exit status. If, moreover, each pipe is read to its end, no write fails; and if also the items end when their inputs do and no read end is left behind, then all executions end, with one and the same result, which is that of running the items one after the other with files in the place of the pipes.", "quantifier": "every pipeline that can be started, all behaviours of its commands and functions, all inputs, all capacities of the pipes, all pairs of schedules", "why_tests_cant": "Compares all pairs of executions under all schedules.", "anchors": ["pieshell/pipeline/pipe.py:Pipe._run", "pieshell/pipeline/group.py:Group._run", "pieshell/pipeline/command.py:Command._handle_arg_pipes", "pieshell/iterio.py:IOHandler", "pieshell/pipeline/base.py:Pipeline.__aiter__"]}
{"id": "C148", "title": "Signal handlers get the events that they ask for", "statement": "A SignalHandler(filter) gets, through handle_event, exactly the events whose fields have all the values in filter, once each and in their order, from when it is made until destroy() is called for it (by others or by itself while it handles an event), whatever other handlers exist. (In the code that holds only while no two handlers that have not been destroyed ask for the same values, all filters name existing fields, no handle_event raises and no handler is destroyed twice: otherwise a new handler silently replaces the one that asks for the same, also pieshell's own for a process or for CTRL-Z; destroying the replaced one removes the new one; and an exception for one handler takes the event and those after it from all handlers made later.)", "quantifier": "all histories of handlers made and destroyed and of batches of events, all filters, all reactions of the handlers", "why_tests_cant": "Ranges over all interleavings of registrations, destructions and events.", "anchors": ["pieshell/signalio/__init__.py:SignalHandler", "pieshell/signalio/__init__.py:ProcessSignalHandler", "pieshell/signalio/manager_signalfd.py:SignalManager", "pieshell/signalio/manager_asyncio.py:SignalManager", "pieshell/pipeline/running.py:StopSignalHandler"]}
{"id": "C149", "title": "A signal handler gets nothing that it has not asked for", "statement": "In every history, whatever handlers exist, even ones that replace each other, raise exceptions or are destroyed twice: what a SignalHandler(filter) gets are events whose fields have all the values in filter, each at most once and in their order, that arrive after it has been made and before destroy() is first called for it (even if that call raises); and if its own handle_event destroys it, that event is the last one it gets.", "quantifier": "all histories of handlers made and destroyed and of batches of events, all filters, all reactions of the handlers", "why_tests_cant": "Ranges over all interleavings of registrations, destructions, exceptions and events.", "anchors": ["pieshell/signalio/__init__.py:SignalHandler", "pieshell/signalio/manager_signalfd.py:SignalManager", "pieshell/signalio/manager_asyncio.py:SignalManager"]}
{"id": "C150", "title": "What is typed in a shell is kept in the history", "statement": "When an interactive shell ends, the history that the next one starts with is all that was in the history before, followed by the (non-empty) lines typed since, in any shell that has ended. (In the code that holds only if one shell runs at a time: each writes the whole file when it ends, so what other shells have written since it was started is lost; and nothing is kept as long as the directory ~/.config does not exist.)", "quantifier": "all histories of shells started, lines typed, shells ended or killed, in any interleaving; all contents of the file", "why_tests_cant": "Ranges over all interleavings of any number of shells.", "anchors": ["pieshell/shell.py:main"]}
{"id": "C151", "title": "str(), bytes() and iteration of a pipeline agree", "statement": "str(p) is the text whose UTF-8 encoding is what the pipeline p writes, and raises UnicodeDecodeError exactly if there is none; list(p) is the lines of that text, without their newlines, and raises exactly when str(p) does - however the output arrives in pieces, even if a character is split between two of them.", "quantifier": "all outputs, valid UTF-8 or not, all ways in which the output is written, buffered and read, and all schedules", "why_tests_cant": "Ranges over all byte strings and all ways to split them.", "anchors": ["pieshell/pipeline/base.py:Pipeline.__str__", "pieshell/pipeline/base.py:Pipeline.__bytes__", "pieshell/pipeline/base.py:Pipeline.__iter__", "pieshell/iterio.py:LineInputHandler.__anext__"]}
{"id": "C152", "title": "with scope: changes the prompt for the block only", "statement": "In a block `with scope:` the scope is the prompt of the interactive shell; after the block - left normally or by an exception, whatever the block did - the prompt is what it was before, and no exception is hidden. (In the code that holds only if there was a prompt before, and the same scope is not entered again in the block: without a prompt it is None afterwards, and a scope entered again in its own block stays the prompt.)", "quantifier": "all programs in the block (other scopes nested to any depth, changes of sys.ps1, exceptions, handlers), all prompts", "why_tests_cant": "Ranges over all programs in the block.", "anchors": ["pieshell/environ.py:EnvScope.__enter__", "pieshell/environ.py:EnvScope.__exit__", "pieshell/shell.py:main"]}
