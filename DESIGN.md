# Design: a Lean 4 model of redhog/pieshell

Layout (`/verif/lean/Verif`):

* `Model/*.lean`  - executable model, function by function, every definition cites `/repo` file and lines.
* `Spec/*.lean`   - small specifications written without the model's helpers.
* `Lemmas/*.lean` - helper lemmas.
* `Props/*.lean`  - the property theorems (names start with the property id, e.g. `C01_child_wiring`)
  and, beside each, an `example` showing that its hypotheses are met by a concrete non-trivial case.

Method: shallow embedding. Exceptions are values; a function that mutates is a function that returns the new
state (also when it raises: the partially mutated state is returned). Loops are structural recursions/folds.
Event-loop code is modelled as a transition system whose steps may be taken in any order the asyncio loop
allows (adversarial scheduler); theorems are inductions over arbitrary step lists.

## Plan per property

What is modelled, and how the property is proved. The exact theorem names are in `MANIFEST.json`; a property whose
English statement is false of the code has a `_refuted` theorem with a concrete witness (or a universal theorem that it
always fails) and a `_partial` theorem with the hypotheses under which it does hold.

| id | model | proof |
|----|-------|-------|
| C01-C03 | `Model/Redir`: descriptor table, dup2/close/open, `move_existing_fds`, `perform`, `close_other_fds` | loop invariants over the move loop and the perform loop |
| C04, C05 | same | refutation: universal theorem that repeated sources always fail; witness that exec follows a failed redirection; partial: what does hold |
| C06-C09 | same, `Model/RedirHeap` for sharing | map laws over assoc lists, induction over tables |
| C10, C11 | `Model/Child`: `_child` order perform/chdir/exec; file write at offset 0 with given flags | exact characterisation + refutation witness |
| C12-C18 | `Model/Run`: `_run` of Command/Function/Pipe/Group/CmdRedirect over a world with descriptor table, pipes, forked children | structural induction over the pipeline tree |
| C19 | `Model/Copy`: heap of objects, memo sessions | induction over copy fuel/tree; freshness |
| C20, C21, C63 | `Model/Coerce` | case analysis over value kinds |
| C22, C23, C28 | `Model/Args`, `Model/PyRepr` | induction over construction steps / argument lists |
| C24-C27, C67 | `Model/Expand` + `Model/Path` (percent formatting, expanduser, join, normpath; glob walk with `fnmatch` on one name as parameter) | induction over strings and over the directory walk |
| C29-C32, C35, C68 | `Model/Env` | invariants over histories of operations |
| C33, C34, C64-C66 | `Model/Scope` | exact read-after-write characterisation, histories, nested `with` programs |
| C36-C38 | `Model/Reader`, `Model/Text` transition systems | invariants over all schedules, a decreasing measure |
| C39, C40, C42 | `Model/Writer` | the same |
| C41 | `Model/Wire`: writer and reader on one pipe | simulation of both systems |
| C43 | `Model/Func` | case analysis + list induction |
| C44-C46, C61 | `Model/Signal` | arithmetic over all statuses; invariants over histories |
| C47-C54 | `Model/Job` | invariants over all schedules |
| C55 | `Model/Tree` | induction on remaining levels |
| C56 | `Model/Bash` (shlex) | induction over strings, an inverse of bash's quoting |
| C57, C58 | `Model/Remote` (base64, generated scripts), shell reader in `Spec/Remote` | round trip |
| C59, C62 | `Model/Shell` | induction over argv / path |
| C60, C69 | `Model/Repr` | mutual induction over the nesting of objects |
| C70-C72 | `Model/Exec` (os.execvpe) | induction over the search path |
| C77 | `Model/Files`: one regular file, several open file descriptions | invariant over all histories of opens and writes |
| C78-C80 | `Model/Iterate`: product of `Model/Reader` and `Model/Job` | the invariants of both, the waits that CTRL-Z depends on |
| C81 | `Model/Flow`: the programs after the start, on the descriptors that `Model/Run` computes; spec: one after the other (`Spec/Flow`) | traces of deterministic programs, an invariant over all schedules, deadlock freedom along the chain, a bound on the number of steps |
| C82, C83 | the same model, with python functions: their handlers read ahead and close descriptors of the shell (`St.ahead`, `heof`, `shut`) | the invariant extended by the read-ahead; who is stuck waits for a function that has ended |
| C84 | `LOp`, `LSt`, `lineNext`: functions over lines as byte transducers; spec `Yields`, `IsLines` | induction over the lines, then C82 |
| C85 | `Model/SigIter`: the handler, its calls and futures; the dispatch loop with a handler that raises | invariants over all histories; concrete histories for the failures |
| C86 | `Model/Module`: `load_module`, `execute_file`, `sys.modules`, attributes of modules, on top of `Model/Scope` | invariant: what was there is a prefix of what is there; C33 for the attributes |
| C87 | `Model/Pickle`: a heap of objects, `describable_object_reduce`, `Environment.__getstate__`, the memo of `pickle` as a graph traversal, `loads` | invariant of the traversal; the isomorphism is followed along paths of attributes |
| C88 | `Model/Job`: `Task.cancel` of a call of `wait()`, and the step in which `CancelledError` is raised in it | frame of both steps; which calls are cancelled is invariant under all other steps; results by C47, C48 |
| C89 | `Model/Signature`: the regular expression as a matcher, `re.findall`, the two loops; spec `Spec/Signature`: words, options | induction over the text: what is found are the words that print an option; invariants of the tables |
| C90 | `Model/ProcText`: `cmdline2pieshell`; the reader of C28 | the text splits into names and literals, each read back |
| C91 | `Model/IterUtils`: iterators as machines | induction over the number of items asked for |
| C92 | `Model/Scope`: `STORE_GLOBAL` | equality of states with the assignment at the prompt |
| C93 | `Model/Pids`: a kernel that reuses process numbers; `restart`, `suspend` | invariant over histories: numbers are free or the item's own |
| C94 | `Model/Message` on top of `Model/Job`: `PipelineError.__str__`, `__repr__` of items | from C48 and C49: at rest the text is the header and one block per failed item; witnesses for the false parts |
| C95 | `Model/Whole`: the product of `Model/Flow`, `Model/Signal` and `Model/Job`: ends of programs become kernel reports, delivered reports become finished items | invariant relating the state of each program, its reports and the job's item (`Lemmas/Whole`); results from C81-C83, C45/C46, C47/C48; a concrete whole execution and a killed program as examples |
| C96 | `Model/Capture`: `Model/Whole` with the temporary files: what an item writes goes to the file that is its stdout; the items of the job take their `STRING`/`TMP` files from the tables that `Model/Run` computed | the last item's stdout and its table entry name the same file (`Lemmas/Capture`, induction over the pipeline); invariant: the file holds what the item has written (`Lemmas/Job16`, `Lemmas/Capture2`); results from C49, C82, C95; a whole execution as example |
| C97 | `Model/Log`: importing `log` duplicates stdout to the highest descriptor; `Model/Run` | induction over pipelines (exact descriptor tables, `ItemOk`); false, refuted for all pipelines |
| C98 | `Model/Fnmatch`: `fnmatch.translate` (chunks, ranges, negation) and the match; `Model/Expand` with it | induction over the pattern, against the inductive specification `Wild`; composed with C26/C27's walk |
| C99 | `Model/Job` | invariant over histories (`Sus`); the refutation is for all histories at rest |
| C100, C101 | `Model/Status` on top of `Model/Signal`: attributes of items, `RunningProcess._repr` | invariant over histories (`Rec`: the last event is the last one told), with the invariants of C45/C46; induction over nested `fg` items |
| C102-C104 | `Model/Terminal`: signal dispositions, masks, process groups of shell and programs; the python interpreter's and the signal managers' start; fork and exec; keys | invariants of the shell's and the program's signals and group over all histories |
| C105 | `Model/RedirText`: `flags_to_string`, the texts of redirections and tables | splitting the text at its first space and at `m`; testBit; uniqueness of sorted lists |
| C106 | `Model/Expand`, `Model/Path` | trailing components of normpath; unfolding glob for one component |
| C107 | `Model/Idle`: the steps of the whole that need no event loop | those steps are steps of the whole; invariance of what is seen; boundedness as in C81 |
| C108-C109 | `Model/Prompt`: compress_user, parse_git_branch as functions of the answers of the system and git | case analysis; injectivity of decimal digits and of the brackets |
| C110 | `Model/Prompt` on top of the shell of C73-C80: `str(env)` as a recursive function with events (commands run, nested str, exceptions) | invariant `Near` preserved by rebinding `env`; nesting depth at most two by `in_prompt` |
| C111 | `Model/BuiltinPipe`: `_run` of pipelines some of whose leaves are builtins, whose attribute `_redirects` is a command (so that `Redirect(...)` of it raises KeyError) | monad over descriptors and directory; agrees with `Model/Run` on pipelines without builtins (induction); tables differing only in marks of pipes not made yet behave alike (induction); kind of table and places of builtins by inversion of successful runs |
| C112 | `Model/CdDir` on top of `Model/Env`; the operating system answers truthfully about a tree of files | membership in the filtered list; `cd_dest` of C68 (visiting words one after the other) |
| C113 | `Model/Complete`: the completer as a state machine (attribute `matches`, `sys.path`), readline's calls as a relation; `jedi` is any function that may fail and change `sys.path` | the result of the first call decides; induction over the calls and over the session |
| C114 | `Model/ArgComplete`: the line made by `_arg_list_sh`, its second expansion, and how `get_completions` reads it; spec `Spec/ShWords`: a shell's splitting of a line into words, which refuses everything that is more than words | induction over the characters of a word, over the words |
| C115 | `Model/PyCall`: CPython's binding of arguments to parameters (the loop over keywords, both kinds of default values), `pyshfunction` as the record it copies | induction over keyword arguments and over the parameters |
| C116 | `Model/Subst`: `Model/Flow` with programs that read from several descriptors (stdin and the `/dev/fd/N` arguments) and functions that read through their handlers, on the descriptor tables that `runP` computes | `Lemmas/Subst2`: the pipes of `refRun` form a tree, by induction over the pipeline; `Lemmas/Subst`: an invariant over all steps with what is still to come at each input; stuck states by induction from both ends |
| C117, C118 | `Model/Several`: `_run`, `_arg_list` and `Pipeline.run` with the environment of each pipeline object and arguments as written; what the child becomes by `Model/Exec` | C117 by induction over the pipeline, from the equation of a successful run; C118: simulation with `Model/Run` on the pipeline with expanded arguments up to the argument that fails, then `run_spec` for what precedes it |
| C119 | `Model/Run`: `runFunc` asks `epoll` for the descriptors of a function (`Sys.polls`, `RunM.poll`) | induction over the pipeline, as for C12, with the first item that cannot be waited for |
| C120 | `Model/Ops`: expressions as written, python's precedences, values including running pipelines, what has been run | induction over the operators of the expression (the rules of python's grammar are proved of the parser), then evaluation |
| C121-C138 | the models of C11, C47, C55, C59, C86, C88, C100, C102, C105, C87, C99, C96, C52, C28, C03, C13, C115, C112 | the parts of these properties that hold without exception, stated as properties of their own and proved in full; the exceptions are in the claims of the former |
| C139 | `Model/Interrupt`: the jobs of `Model/Job`, the loop run for one call of `wait()`, `KeyboardInterrupt` raised at any place of the loop or of a task's code | for all histories: by the place of the exception; jobs after interruptions by simulation in `Model/Job` |
| C140 | `Model/PsNav`: attribute access on `PstreeProcess`, `PstreeLogin`, `TreeGroup`, `RunningProcess` over one state of the machine | paths by induction over the ancestors, on top of C55's trees; exact conditions for `GROUP`, `SESS`, attributes; counterexamples for hidden names |
| C141, C142 | `Model/FuncArg`: `Model/Subst` with items that write to several descriptors (stdout and the `/dev/fd/N` arguments), several of them to the same pipe | `Lemmas/FuncArg`: an invariant over all steps (what is still to come for each function; what the shell has got is a merge of what has been written), stuck states; `Lemmas/FuncArg2`: the descriptor tables that `runP` computes have this shape; `C141_early_function_blocks` builds the blocked execution for each capacity; C142 from the distinctness of held descriptors in `Lemmas/Run` |
| C143, C144 | `Model/FuncArg` again, for pipelines of any shape that `runP` can start | `Spec/Traffic`: `Explained` (records of the traffic of each pipe, each item does what it does alone); `Lemmas/Traffic`: an invariant over all steps, from C142 (descriptors of functions are their own); C144 by cases over what an item wants |
| C145, C146 | the same; `Spec/Jam` (`Tidy`: no read end is left behind), `Spec/Ends` (`Terminates`) | `Lemmas/Jam`: by structural induction over the pipeline, against `refRun`: items that wait for each other, at empty or full pipes, wait in the end for what is outside of the pipeline; `Lemmas/Jam2`: what `runP` leaves behind is wired like that, and nothing else keeps pipes open; C146: the same with all pipes "empty" says that the relation "writes what it reads" is well-founded; `Lemmas/Ends`: an account of all steps |
| C147 | the same; `Spec/Same` (`OneEach`, `Drained`, `WithFiles`) | Determinism of the single item (`Conf.next`), then well-founded induction along "writes what it reads" (from `jam_run`) over the records of C143 of two executions |
| C148 | `Model/Registry` (keys from filters, register, deregister, the loops over events and handlers); `Spec/Registry` (`Fits`, `due`, `Good`) | Invariant: the registry is exactly the list of live handlers, in the order in which they were made; keys are equal iff the filters ask for the same (sorted lists) |
| C149 | the same; `asked` in `Spec/Registry` | Invariant of every history (keys belong to filters, hence each handler has at most one entry), what one event can do to one handler, then induction |
| C150 | `Model/History` (reading and writing of the history file by any number of shells); `Spec/History` (`Grown`, `OneByOne`) | Induction over histories |
| C151 | `Model/TextOut` on top of `Model/Io` and UTF-8 of Lean's core library (`str`, `bytes`, `list` of a pipeline); `Spec/TextOut` (`IsTextLines`) | C36/C37 for bytes, and: encoding commutes with splitting into lines |
| C152 | `Model/WithScope` (`EnvScope.__enter__`/`__exit__` in any nesting of blocks); `Spec/WithScope` (`Uses`) | Induction over the statements executed |
| C73-C76 | `Model/Startup` | induction over the names, histories of starts, lists of files |

No property of the list is outside what an executable model can express; those whose truth rests partly on the
runtime (kernel scheduling, glob, real pipes) are modelled up to the interfaces named below.

## Trusted base

* Lean 4.33.0's kernel. Every theorem depends on at most the axioms `propext`, `Classical.choice` and `Quot.sound`
  (vcheck replays all modules and lists the axioms); the project adds none, and uses no compiled evaluation
  (`decide +kernel` is evaluated by the kernel).
* The reading of the python source recorded in the comments of `Model/*`: that the definitions say what the code does is
  checked by eye only.
* The semantics of the python runtime, the standard library and POSIX, as written into the model: descriptor allocation
  (lowest free), dup2/close/open, fork copies the table, exec drops close-on-exec descriptors, pipes and EOF, wait
  statuses, `%` formatting, posixpath, glob's walk, shlex, asyncio's ready queue, C level `repr`.
* Parameters (universally quantified, no assumption unless stated in the theorem): `fnmatch` on one name (except in C98, where it is modelled),
  `slugify`, which characters are printable, home directories, the contents of the file system, which names are
  python builtins, exit statuses and their order, the outcomes of programs.

### Which parts of the code are modelled

| file | modelled | not modelled |
|------|----------|--------------|
| `redir.py` | everything | negative descriptors; `_coerce` (raises NameError: `unicode`) |
| `pipeline/base.py` | operators, coercion, `run`, `__repr__`, `pipeline_repr` | `to_dataframe`, `__dir__`, `__name__` |
| `pipeline/command.py` | all of `BaseCommand`, `_child`, `_handle_arg_pipes`, `_run`, `__signature__`, `_complete`, `__dir__` | `__doc__` |
| `pipeline/function.py`, `pipe.py`, `group.py`, `redirect.py` | `_run`, `_repr`, conversion of items | |
| `pipeline/running.py` | waiting, captured output, failed processes, exit codes, suspension, error texts, `_repr`, `_getkey` | a KeyboardInterrupt in the middle of `restart()`/`suspend()`/`handle_finish()` (elsewhere: `Model/Interrupt`), the traceback in error texts, `__dir__` |
| `pipeline/builtins.py` | `cd`, `bg`, `fg`, `bashsource`, `remote`, `clear_dir_cache`, the sub shell's exit code | `help` texts, the body of `self` |
| `pipeline/builtin.py` | registration by name | |
| `environ.py` | `Environment` (directories, exports, derivation, dir cache, expansion), `EnvScope` get/set, `temporary_env`, `pyshfunction`, `execute_startup`, `execute_file` | `__or__` (raises NameError), `execute_expr` |
| `iterio.py` | both readers, both writers | debugging output |
| `signalio/*` | both managers, decoding, handlers, `SignalIteratorHandler` | `async for` over a `SignalIteratorHandler` (`__aiter__` is a coroutine function: TypeError) |
| `tree.py`, `ps.py` | grouping, keys, attribute access, `repr`, `dir` | `psutil` itself, `len()`, iteration (`__iter__` takes a second argument: TypeError) |
| `utils/copy.py`, `utils/asyncutils.py` | deepcopy with sessions, `itertoasync`, `asyncmap`, `asyncitertoiter` | |
| `shell.py`, `module.py` | command line, choice of the action, module finder, loader, module attributes | running the prompt |
| `log.py` | the log descriptor | levels, formatting |
| `resources/default_config.pysh` | prompt, `compress_user`, `parse_git_branch` | what git prints |
| `jedi_completion.py` | the completer, with `jedi` and readline's protocol as parameters | key bindings, the fallback `rlcompleter` |
| `monkeypatches` | | not modelled |
| `utils/jsonutils.py` | `map`, `filter` | `json` itself |

Simplifications are listed in the header comment of each `Model/*` file.

## Disagreements between the properties and the code

Found while proving. `R`: proved as a refutation in the model (see `MANIFEST.json`); `N`: noted while reading, in a part
that is not modelled.

Redirections and starting pipelines
* R C03: a redirection to a file fails exactly when its target is the lowest free descriptor at that moment (e.g. closed stdin). R C04: a source used twice
  always fails. R C05: the program is executed although a redirection failed (assertion swallowed).
* R C10: relative file names are resolved against the process's directory, not the environment's. R C11: output files
  are not truncated. R C77: `(a + b) > "f"`: both open the file themselves, and their outputs overwrite each other.
* R C13: one read end of a pipe leaks per `+` whose output is piped, and for a redirected stdin after `|`. R C15: in
  `(a + b) | c` only one of both writes into the pipe.
* C14: "what was started for an item" includes the pipelines given as arguments. R: in `a | (b < "f")` the shell keeps
  the read end of the pipe `a` writes to, so the writes of `a` never fail and it blocks for ever once the pipe is full.
* R C83: when a python function has ended without reading all of its input, its handler keeps the read end of the pipe: the program
  before it is never stopped (`yes | f`). C82-C84 assume that a function's writes are retried until they succeed (C42) and that a
  function does not read from a regular file (epoll refuses those). N the event loop spins while a function has ended, or does
  not read, and there is a whole line in the buffer of its handler (the handler's callback does nothing and the pipe stays readable).
* R C81: the same case seen as data flow: `yes | (cat < "f")` leaves `yes` behind for ever. C81 is about programs; with C46 (killed children
  are not counted as ended) `yes | head` computes the right output but `wait()` does not return.
* C12-C17 cover redirections (`CmdRedirect`) to and from files, temporary files and pipes anywhere in the tree
  (`Pipeline.Redirectable`); excluded is only `a | b` where `a`'s output was redirected elsewhere, whose behaviour C18
  shows. If files are involved, the shell's own descriptors 0-2 must be open (C03 shows what happens otherwise).
  Failing `open`/`pipe` for lack of descriptors (EMFILE) in the shell is excluded by `Startable.room`.
* N `CmdRedirect._run` passes the indentation as session.

Objects and operators
* R C19: one-shot iterators are shared with the copy and consumed. N the memo of `copy_session` is never effective across
  objects; `Redirects` objects are shared.
* R C20: asynchronous iterators raise ValueError; `p | Redirect(fd, None)` raises KeyError; builtin functions (`len`)
  raise ValueError; `p | R("x")` becomes a function over characters.
* R C63: `p < a > b` is a comparison chain and yields a bool. R C22: `docker.run` calls the python method.
* R C28: non-string arguments are shown as `/dev/fd/X`; `""` and `"a\n"` are shown as attributes.

Expansion, environments and variables
* C25: values are expanded again; N conversions other than `%%`, `%s`, `%(name)s` are outside the model.
* R C27: wild cards in the name of the working directory are not escaped. N `~nouser*` is matched against the process's
  directory; `abspath` drops a final `/`.
* R C29: `//tmp` keeps both slashes. R C30: cd to a regular file in an interactive environment sets the directory and
  then raises. N `~` uses the process's HOME, not the environment's.
* R C31: copying an interactive environment changes the process's directory. R C32: `exports={}` means `os.environ`.
* R C35: an exception leaves an empty completion cache behind; the `clear_dir_cache` builtin clears nothing.
* R C33: a name both local and exported is written to the exports and read from the stale local; `_` is stored as
  `last_statement`. R C64: `temporary_env` restores `self`. R C65: derived environments have no scope. R C66: an exported
  variable hides a module global.
* N `env | x` always raises NameError; `_bashfunctions` and `_scope` are not copied; `env()` shares `_redirects`.

Input and output
* C37: iterating over bytes yields one extra `b""`. N cancelling a reader leads to InvalidStateError; a reader busy-loops
  while a complete line is unread.
* R C79: leaving a loop over a pipeline early leaves the descriptor open for ever. R C80: CTRL-Z during an iteration does
  nothing to the pipeline (the processes may be stopped by the terminal itself; the iteration then hangs).
* R C40: a suspended iterator whose reader goes away may write to a closed descriptor number. R C42: large items block
  the shell; readiness may be stale; N short writes are ignored.
* R C43: a function that returns `str` sends one line per character, `bytes` numbers; asynchronous iterables without
  `__anext__` raise; `None` is skipped.

Signals and jobs
* R C44: a continued child is reported as dumped with signal 127. R C46: killed children stay `is_running` for ever.
* R C85: the future of a signal iterator is not reset: after a wait, the second event raises InvalidStateError in the dispatch loop, so that
  handlers registered later (of child processes) never get it.
* R C86: `execute_file` shows exceptions and goes on, so importing a module that fails succeeds; a module whose file cannot be read stays in
  `sys.modules`, so the second import succeeds; the scope of a module is made by `EnvScope(env=env)`, which does not call `__setitem__`, so the
  environment does not know it and `%(name)s` in arguments is a KeyError; a name the module does not define is a command (also `__path__`, so
  every module looks like a package).
* R C61: with the asyncio manager SIGTSTP is never delivered. N `get_sigchlds` reaps children of others; handlers that
  were destroyed during a dispatch are still called.
* R C47: `wait()` hangs if a failing function ends last, with two concurrent waits, with undecodable STRING output, and
  for `fg` of a failed or suspended job. R C49: output that is not UTF-8 is lost, CRLF is translated, `wait()` may return
  before the output is captured. R C50: shared TMP files. R C51: CTRL-Z is lost after another wait ended. R C52: `cd` and
  `bg` stay listed. R C53: `fg` after `bg` refers to `bg`. R C54: a sub shell exits with 0 if an earlier item or a
  function failed.
* N pids of finished pipelines get SIGCONT/SIGSTOP; a cancelled wait leaves a cancelled future behind; the sub shell's
  `sys.exit` unwinds user code; PipelineSuspended in a sub shell leads to TypeError and exit status 255; the text of an
  error with a failed `fg` item raises TypeError.

Browsing, printing, bash, remote, command line
* R C55: processes named like a member of the running pipeline, or `children`, cannot be reached. N browsing expands the
  arguments again.
* R C56: values with `$` or a backquote keep backslashes, control characters are mangled, the last variable is lost if no
  function is printed, `declare` in functions; an unclosed quote in a function (an apostrophe in a here document) makes the
  whole import fail, exactly then. R C58: names with quotes inject commands; the text given to bash is
  also a pattern, replaced by the names of files that match it.
* R C87: from python 3.11 on `hasattr(type, "__getstate__")` holds and `remote` always raises TypeError; before, it fails while a job runs in the
  environment (futures cannot be pickled), and N also if something defined at the prompt is reached, e.g. from `last_pipeline`; N what is sent
  includes the local directory and exports.
* R C88: the `finally` of a cancelled `wait()` sets `current_pipeline` to None although another call's pipeline is in the foreground, so CTRL-Z is lost.
* R C89: `--ipv4` is offered as `ipv`, which would be passed as `--ipv`; options of one letter are not offered, and of two values that differ in
  case only, one is not; an option named like a python keyword (`--from`) makes the whole signature fail. N asking for the signature or the
  documentation (completion) runs the program with `--help`.
* R C90: the text shown for a process leaves short options and values unquoted (`rm(-f)`: typed at the prompt it runs `f`), shows only the last of
  several `--include=...`, and moves such options to the end. N first words such as `7z` or `import` are shown as names, which is no python.
* R C91: `from_json`, `to_json` and `map(f)` fail with TypeError in every pipeline, since a function's input has no `__iter__`; `filter` always
  raises NameError; `for` over a pipeline inside of a coroutine raises RuntimeError.
* R C92: `global PATH; PATH = ...` in a function bypasses `EnvScope.__setitem__`: programs do not see it, and later assignments at the prompt are not
  read any more; `global env` leaves the environment without scope; functions made with `pyshfunction` cannot assign their module's variables.
* R C93: `restart()` and `suspend()` send signals to the numbers of all items, also of those that have ended and been waited for: CTRL-Z can stop, and every
  `wait()` continue, a process of somebody else that has got the number; if it belongs to another user, `wait()` raises PermissionError.
* R C94: `str()` of the `PipelineFailed` raised by `fg` of a failed pipeline raises `TypeError` (`RunnningFg` has no `__repr__` with `display_output`); the captured output
  of a function that failed is not shown; a message made as soon as `wait()` raises may lack output that is read by a task that runs later.
* R C95: a program killed by a signal stays `is_running` (C46): if a program resets `SIGPIPE` and is killed by it, `await` of its pipeline never returns although all of its programs
  have ended. In `yes | head`, `yes` (which is started with `SIGPIPE` ignored, see C83) ends with status 1, so that `await` raises PipelineFailed, listing `yes`.
  `C95_returns_partial` says under which conditions `wait()` ends. `Model/Whole` assumes that no other signal ends a program of the
  pipeline and that programs begin to work when all have been started.
* R C83: python ignores `SIGPIPE`, and `Command._child` does not restore it before `exec`: programs are started with it ignored. A program that takes no notice of failing
  writes is there for ever: `env.bash("-c", "while true; do echo y; done") | env.head("-1")`. C81-C83, C95 and C96 model what a program does when a write fails (`Prog.epipe`).
* N C96: `Model/Capture` assumes that only the item itself writes to the file that is its stdout (programs use only stdin and stdout), and that bytes are in the file when written. `output_content` is not there when `wait()` returns (C49_wait_refuted) but when the loop is at rest.
* R C97: `os.dup2(outfd, logfd)` makes an inheritable duplicate of stdout that `close_other_fds` spares, so every program holds pieshell's stdout open, even if all of its standard
  descriptors are redirected: `x=$(pieshell --cmd='~(daemon ...)')` waits for the daemon. N with an unlimited number of descriptors `logfd` is -2 and the import fails.
* R C98: `fnmatch` removes empty ranges from brackets before it looks for `!`, so `[b-a!c]` finds all characters but `c`. (Python's, not pieshell's; the model agreed with CPython 3.11 on 20000 random patterns and names.)
* R C99: `suspend()` sets a flag that `wait()` looks at only when it is woken, and nothing wakes it: `wait()` hangs while all processes are stopped. (`handle_event` for CTRL-Z calls `handle_finish`, `suspend()` does not.)
* R C100: `RunningProcess.exit_code` is `last_event["ssi_status"]` whatever the event: `TypeError` before the first one, the number of the signal after a stop. `RunningPipeline.exit_code` looks at the last item only, and functions and `fg` always have exit code 0.
* R C101: a continued process is decoded as dumped (C44), so it is shown as dead while it runs. The names computed by `siginfo_to_names` are thrown away: numbers are shown. (`siginfo_to_names` also translates exit codes into signal names, since it compares the code after it has been replaced by its name; nobody uses this.)
* N `RunningPipeline.__or__` and `__ror__` (running.py:154-167) always return `None`: a running pipeline cannot be piped.
* R C103 (CTRL-\): it ends all programs and the shell itself, which neither handles nor ignores `SIGQUIT`
* R C102: nothing resets signals between fork and exec: programs start with `SIGPIPE` and `SIGXFSZ` ignored (python), and with `SIGCHLD` and `SIGTSTP` blocked (signalfd). R C103: nothing calls
  `setpgid`: CTRL-C kills background jobs, too (and killed processes are never seen to have ended, C46). R C104: with signalfd programs never get `SIGTSTP` (the shell sends
  `SIGSTOP` instead, which they cannot handle); without it CTRL-Z stops all jobs, and the shell is not told (C61).
* R C105: `Redirect(1, 3)` and `Redirect(1, "3")` have the same text, and so have O_DSYNC and O_SYNC; O_RDWR is shown with a reading arrow.
* R C106: the words of a pattern are in the order of `os.listdir`, not sorted; `*/` also matches files that are not directories (`_expand_path` normalises the slash away).
* R C107: the event loop runs only inside `run_until_complete` (base.py:162, utils/asyncutils.py:9): at the prompt a background pipeline that has ended is still `is_running` and listed, and python functions in background pipelines stand still, as does what reads from them.
* R C109: with a detached HEAD the prompt shows nothing: `git symbolic-ref HEAD` fails, and the revision (`rev`, default_config.pysh:17) is assigned to a name never used; its sed script also contains `"\1"` in a non-raw string, the character U+0001.
* R C110: `str(e)` of an environment not belonging to the shell (`e = env(exports=..)`) sets `e._scope` by way of `temporary_env` (environ.py:176-182, 270-271), after which `%(name)s` in its commands means what `name` means at the prompt.
* N C110: variables called `git`, `wc`, `sed` or `temporary_env` in the shell are used by the prompt instead of the commands and the method.
* R C111: builtins do not set `_redirects`, and `BaseCommand.__getattr__` (command.py:82-92) answers with a command. So `cd("x") | p`, `p | cd("x")`, `p + cd("x")` raise KeyError
  *after* everything has been started and the directory changed (the processes are left alone: nothing waits for them), and the program of `cd("x") | p` runs with the shell's standard input and
  a closed standard output, because the redirection with an object as source fails in the child and the exception is swallowed (redir.py:210-213). `list(cd("x") + p)` raises ValueError.
* N C111: the log message of such a pipeline contains `str()` of the command `cd("x")._redirects.stdout.pipe`, which *runs* the builtin once more, with the words `_redirects`, `stdout` and `pipe`
  (when a directory of this name exists it is entered).
* R C112: `dir(cd)` lists `.`, the directory of the process, also in environments that are not interactive and in another directory (builtins.py:37-38): it offers names that `cd.NAME` rejects.
  R C112: a directory called `PARENT` or `ROOT` cannot be entered by its offered name; `cd("~x")` is the home directory of user x, though offered for a directory `~x`.
* N C112: the completion of `clear_dir_cache` lists directories (a copy of that of `cd`, builtins.py:91-99, with `self.env` for `self._env`: with arguments it offers nothing).
* R C113: when code run by a search for completions inserts at the front of `sys.path`, the entry is lost and the process's directory stays in the import path. N: the directory searched is the process's, not the environment's after `cd`.
* R C114: completing the arguments of a command writes the words into a line of bash, quoting only words that contain a space: `dir(env.ls(";reboot"))` runs `reboot`. Empty words are lost; a `%` makes the completion fail (the line is expanded once more).
* R C115: `pyshfunction` loses the default values of keyword-only parameters.
* R C116: a python function in such a pipeline that ends before it has read all of its input is never cut off from its writer: the shell keeps its read end open, and the handler stops reading only at a line in its
  buffer, so that the writer may stay blocked for ever (`C116_as_if_through_files` says exactly when; `C116_all_end` when not).
* N C116: the commands that pipelines among arguments begin with share the stdin of the command (as in bash), so that they can take input away from it.
* R C118: `yes() | head("%(nope)s")` raises KeyError after `yes` has been started; it runs on, is not a job, and the shell keeps the read end of its pipe, so that it is never told that nobody reads. Even `cat("%(nope)s")` leaves the temporary file of its default stderr open.
* R C119: `f > "out"`, `"in" | f`, `None | f`, `f > STRING` raise PermissionError (epoll refuses regular files and /dev/null). C12-C18, C81, C82, C95, C96 and C116 therefore assume that functions and
  iterators are not connected to such files (`Startable.polls`).
* R C120: `a | b & True` is `a | (b & True)` and starts `b` alone; `"foo" | cat & True` starts `cat` on the terminal and silently is None (`RunningPipeline.__ror__` has no return); `~a | b | c`
  starts `a` and is `c` with its input from /dev/null.
* R C139: CTRL-C during `wait()` is a plain KeyboardInterrupt unless it hits the code of `wait()` itself: it leaves `run_until_complete`, and the task of `wait()` stays pending; when it ends later (while
  another pipeline is in the foreground) it clears `current_pipeline`, so that CTRL-Z does nothing. The README promises PipelineInterrupted.
* R C140: `p.children` is a dict whatever runs, and hides a program of that name; `GROUP` and `SESS` are errors while a child is a program
  called `pid` (`self.pid` is looked up among the children first) and when the leader has ended; `INIT.PARENT` is an object whose `repr` raises;
  one stale login makes `USERS` unusable; `USERS.ann.name` is the process's method, not the user's name. N README's `PstreeProcess.details` does not
  exist (it is `INFO`); pipelines and functions have no `PARENT`, `GROUP`, `SESS`; completion does not list them.
* R C141: a function among the arguments that ends before it has read everything is never cut off from the program: the shell keeps the read end open, and the program waits for ever
  (`C141_early_function_blocks`, for each capacity of the pipes).
* N C141: the output of the functions is mixed with the output of the program byte by byte here; the kernel keeps writes of up to PIPE_BUF bytes together, so that fewer mixtures occur.
  Pipelines and functions among the arguments of the same command are covered by C12-C18 (what they are connected to) and C142, but not by C116 or C141 (what comes out); C143-C146 cover
  them: what flows through each of their pipes, and that they come to an end.
* R C145: a function that has ended before it has found the end of its input keeps its writers waiting once its pipe is full (the shell does not close the read end until the handler has found
  the end, iterio.py:121-142): C141_early_function_blocks. The same holds for pipes whose read end has been left behind in the
  shell (C14, C15, C81).
* N C146: `Terminates` bounds what an item does by what it reads, also when it goes on to read after it has been told of the end; `yes | head` is not covered by it (see C81 for that).
* N C147: `MayRead`, `MayWrite` range over all inputs of an item, not only those that it can get in the pipeline; the handler of a function counts as a reader whether or not the function reads. Inputs from elsewhere (`src`) belong to one item
  each: two commands that share the terminal are outside of the statement.
* R C148: handlers are registered under their filter. A second handler with the same filter replaces the first one, which gets nothing any more (a user's `SignalHandler({"ssi_pid": pid})` makes the pipeline of that process wait forever;
  `{"ssi_signo": SIGTSTP}` turns CTRL-Z off); `destroy()` of the first one removes the second one, whose own `destroy()` then raises KeyError. A filter with a name that is no field raises KeyError in the manager for each event, for all handlers made after it
* N C148: what a `handle_event` can do to the manager is its own `destroy()`, an exception, or nothing; one that destroys or makes other handlers is not modelled
* R C150: each shell writes all of its history when it ends, so of two shells that run at the same time the one that ends last wins; with `--no-startup` and no `~/.config` the history is never written (FileNotFoundError at exit)
* N C150: readline itself (no limit on the length of the history, empty and repeated lines are not added) is as python's `readline` module does it
* R C152: without `sys.ps1` before, it is None after `with scope:`; a scope has one place for the prompt to restore, so entering it again in its own block loses the first one
* N CTRL-C during `wait()` never raises anything that tells the pipeline (C139).
* R C59: `--log` always raises AttributeError; `--help=` counts as off; `--cmd` without value crashes.
* R C60: printing a command whose argument contains `%(name)s`, where `name` is no variable, runs the program `name`
  (N also several times while the command itself is started, for log messages that are not shown).

Programs and starting the shell
* R C71: `sleep(5)` always ends with status 255, since numbers are given to `execve` as they are (`sleep(n=5)` works); so
  does every command once a variable that is not text is exported. N scripts without `#!` end with status 8 (ENOEXEC).
* R C72: if the message that a program cannot be executed cannot be written, the forked child goes on running the shell;
  so it does on CTRL-C before `exec`. N the message contains `repr(self)`, which may itself run commands (C60).
* R C73: an exported `TMP` (or `R`, ...) is replaced with an object by starting the shell, after which no command can be
  executed. With `--no-startup` variables cannot be used in arguments.
* R C74: an interrupted first start leaves an empty configuration for ever. The fall back for a read-only home passes bytes
  to `runsource` and raises TypeError: the shell cannot start.
* R C75: `/home/anna` is shown as `~a` to the user whose home is `/home/ann`. R C76: failing scripts end with status 0; a
  script whose last statement is incomplete does nothing, silently.
