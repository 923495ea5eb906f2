import Verif.Model.Base
/-!
# Model of `pieshell/redir.py` and of the descriptor system calls it uses

Simplifications:
* descriptors are natural numbers (negative descriptor arguments are not modelled);
* `source` ranges over the documented kinds (None, int, path, PIPE, TMP, STRING);
* logging calls (`log.log`) are dropped;
* an open file description is represented by what it refers to (`Obj`).
-/
namespace Pieshell

/-! ## Operating system: descriptor tables -/

/-- What an open descriptor refers to. [open(2), pipe(7); made at redir.py:93, 122, 131] -/
inductive Obj where
  /-- open when the shell started / opened by the user (terminal, user files, sockets, log, ...) -/
  | inherited (n : Nat)
  /-- read end of pipe number `p` -/
  | pipeR (p : Nat)
  /-- write end of pipe number `p` -/
  | pipeW (p : Nat)
  /-- result of `os.open(path, flag, mode)` made while the process's working directory was `cwd` -/
  | file (cwd path : Str) (flag mode : Nat)
  /-- temporary file number `n` made by `tempfile.mkstemp()` -/
  | tmp (n : Nat)
deriving DecidableEq, Repr

/-- A descriptor table entry. Python descriptors are close-on-exec ("non-inheritable") unless made by
`os.dup2` (PEP 446). [fcntl(2); python's `os.set_inheritable`, for redir.py:93, 108, 115] -/
structure Entry where
  obj : Obj
  cloexec : Bool
deriving DecidableEq, Repr

/-- A process's descriptor table: `get n` is the entry of descriptor `n`; nothing is open at or above
`bound` (see `FdTable.Bounded`). [The kernel's descriptor table, changed at redir.py:93-134, 214-224] -/
structure FdTable where
  get : Nat → Option Entry
  bound : Nat

namespace FdTable

/-- Well-formedness: nothing is open at or above `bound`. [Not in /repo: the kernel's table is finite] -/
def Bounded (t : FdTable) : Prop := ∀ n, t.bound ≤ n → t.get n = none

/-- Put entry `e` at descriptor `n`. [dup2(2), open(2), for redir.py:93, 108, 115] -/
def set (t : FdTable) (n : Nat) (e : Entry) : FdTable :=
  { get := fun m => if m = n then some e else t.get m, bound := max t.bound (n + 1) }

/-- Remove descriptor `n`. [close(2), for redir.py:103, 110, 117, 220] -/
def clear (t : FdTable) (n : Nat) : FdTable :=
  { t with get := fun m => if m = n then none else t.get m }

/-- POSIX: a new descriptor is the lowest-numbered one that is not open. -/
def lowestFree (t : FdTable) : Nat :=
  ((List.range t.bound).find? (fun i => (t.get i).isNone)).getD t.bound

/-- Table with exactly the listed entries. [Not in /repo: notation for examples] -/
def ofList (l : List (Nat × Entry)) : FdTable :=
  { get := Dict.get? l, bound := l.foldr (fun p b => max (p.1 + 1) b) 0 }

end FdTable

/-- Fixed parameters of the operating system and of the process. [redir.py:14-17, log.py:32] -/
structure Sys where
  /-- `MAXFD = os.sysconf("SC_OPEN_MAX")`, redir.py:14-17; also the limit enforced by dup2. -/
  maxfd : Nat
  /-- `log.logfd`, log.py:32 -/
  logfd : Nat
  /-- errno with which `os.open(path, flag, ...)` fails in working directory `cwd`, if it does -/
  openErr : (cwd path : Str) → (flag : Nat) → Option Nat
  /-- whether `epoll` can wait for what `inherited n` is (a terminal, pipe or socket; not a regular file or `/dev/null`) -/
  terminal : Nat → Bool := fun _ => true
  /-- whether `epoll` can wait for what opening `path` in `cwd` gives (a terminal or named pipe; not a regular file or `/dev/null`) -/
  special : (cwd path : Str) → Bool := fun _ _ => false

/-- Whether `epoll_ctl` accepts the object, so that asyncio's event loop can wait for it; it refuses regular files and `/dev/null` with EPERM. -/
def Sys.polls (sys : Sys) : Obj → Bool
  | .inherited n => sys.terminal n
  | .pipeR _ => true
  | .pipeW _ => true
  | .file cwd path _ _ => sys.special cwd path
  | .tmp _ => false

/-- `os.dup2(a, b)` (Python: `inheritable=True`, so `b` is not close-on-exec).
[dup2(2), called at redir.py:108, 115] -/
def osDup2 (sys : Sys) (a b : Nat) (t : FdTable) : Except Exn Unit × FdTable :=
  match t.get a with
  | none => (.error (.osError EBADF), t)
  | some e =>
    if sys.maxfd ≤ b then (.error (.osError EBADF), t)
    else if a = b then (.ok (), t)
    else (.ok (), t.set b { obj := e.obj, cloexec := false })

/-- `os.dup(a)`: lowest free descriptor, close-on-exec. [dup(2), called at redir.py:97] -/
def osDup (a : Nat) (t : FdTable) : Except Exn Nat × FdTable :=
  match t.get a with
  | none => (.error (.osError EBADF), t)
  | some e => (.ok t.lowestFree, t.set t.lowestFree { obj := e.obj, cloexec := true })

/-- `os.close(a)` [close(2), called at redir.py:103, 110, 117, 220] -/
def osClose (a : Nat) (t : FdTable) : Except Exn Unit × FdTable :=
  match t.get a with
  | none => (.error (.osError EBADF), t)
  | some _ => (.ok (), t.clear a)

/-- `os.open(path, flag, mode)`: lowest free descriptor, close-on-exec. [open(2), called at redir.py:93] -/
def osOpen (sys : Sys) (cwd path : Str) (flag mode : Nat) (t : FdTable) : Except Exn Nat × FdTable :=
  match sys.openErr cwd path flag with
  | some errno => (.error (.osError errno), t)
  | none => (.ok t.lowestFree, t.set t.lowestFree { obj := .file cwd path flag mode, cloexec := true })

/-- What survives `execve`: the descriptors that are not close-on-exec.
[execve(2), called at command.py:178] -/
def execTable (t : FdTable) (n : Nat) : Option Obj :=
  match t.get n with
  | some e => if e.cloexec then none else some e.obj
  | none => none

/-! ## `class Redirect` -/

/-- `Redirect.source`, redir.py:53-58. -/
inductive Source where
  | none | fd (n : Nat) | path (p : Str) | PIPE | TMP | STRING
  /-- an instance of TMP/STRING (the `pipe` attribute of another redirection used as a source, which can
  happen at pipe.py:45 and command.py:206); `os.open` rejects it -/
  | inst (n : Nat)
deriving DecidableEq, Repr

/-- `Redirect.pipe`, redir.py:61: the descriptor of the other end of a pipe, or the `TMP`/`STRING`
instance carrying the path of temporary file number `n` (redir.py:131-132). -/
inductive PipeEnd where
  | none | fd (n : Nat) | tmp (n : Nat) | string (n : Nat)
deriving DecidableEq, Repr

/-- `class Redirect`, redir.py:50-83 (attributes). -/
structure Redirect where
  fd : Nat
  source : Source
  flag : Nat
  mode : Nat
  pipe : PipeEnd
  borrowed : Bool
deriving DecidableEq, Repr

/-- `os.O_RDONLY`, `os.O_WRONLY`, `os.O_RDWR`, `os.O_CREAT`, `os.O_TRUNC`, `os.O_APPEND` (Linux values)
[Used at redir.py:67] -/
def O_RDONLY : Nat := 0
/-- open(2); used at redir.py:68-69, 123, 129, 146. -/
def O_WRONLY : Nat := 1
/-- open(2). -/
def O_RDWR : Nat := 2
/-- open(2); used at redir.py:68-69. -/
def O_CREAT : Nat := 64
/-- open(2). -/
def O_TRUNC : Nat := 512
/-- open(2). -/
def O_APPEND : Nat := 1024

/-- First argument of `Redirect(...)`: an int or a name. [redir.py:64, 74-75] -/
inductive FdSpec where
  | num (n : Nat) | name (s : Str)
deriving DecidableEq, Repr

/-- `Redirect.fd_names`, redir.py:64. -/
def fdNames : Dict Str Nat := [(c!"stdin", 0), (c!"stdout", 1), (c!"stderr", 2)]

/-- `Redirect.fd_flags`, redir.py:66-70. -/
def fdFlags : Dict Nat Nat := [(0, O_RDONLY), (1, O_WRONLY ||| O_CREAT), (2, O_WRONLY ||| O_CREAT)]

/-- `0o777`, the default mode (redir.py:71). -/
def defaultMode : Nat := 511

/-- `Redirect.__init__` for a first argument that is not itself a `Redirect`, redir.py:71-83.
(`Redirect(r)` for a Redirect `r` copies all attributes, redir.py:72-73; since model values are immutable
that copy is the identity.) -/
def mkRedirect (fd : FdSpec) (source : Source := .none) (flag : Option Nat := none)
    (mode : Nat := defaultMode) (pipe : PipeEnd := .none) (borrowed : Bool := false) :
    Except Exn Redirect :=
  match (match fd with | .num n => some n | .name s => fdNames.get? s) with
  | none => .error .keyError
  | some n =>
    match (match flag with | some f => some f | none => fdFlags.get? n) with
    | none => .error .keyError
    | some f => .ok { fd := n, source, flag := f, mode, pipe, borrowed }

/-- `Redirect.borrow`, redir.py:84-85. -/
def Redirect.borrow (r : Redirect) : Redirect := { r with borrowed := true }

/-- `Redirect.open`, redir.py:89-98. A source that is neither int nor path makes `os.open` raise TypeError. -/
def Redirect.open (sys : Sys) (cwd : Str) (r : Redirect) (borrow : Bool) (t : FdTable) :
    Except Exn Nat × FdTable :=
  match r.source with
  | .fd n => if borrow then (.ok n, t) else osDup n t
  | .path p => osOpen sys cwd p r.flag r.mode t
  | _ => (.error .typeError, t)

/-- `Redirect.close_source_fd`, redir.py:99-103. -/
def Redirect.closeSourceFd (r : Redirect) (t : FdTable) : Except Exn Unit × FdTable :=
  match r.source with
  | .fd n => if r.borrowed then (.ok (), t) else osClose n t
  | _ => (.ok (), t)

/-- `Redirect.perform`, redir.py:104-110. -/
def Redirect.perform (sys : Sys) (cwd : Str) (r : Redirect) (t : FdTable) : Except Exn Unit × FdTable :=
  match r.open sys cwd true t with
  | (.error e, t1) => (.error e, t1)
  | (.ok s, t1) =>
    if s = r.fd then (.error .assertion, t1)
    else match osDup2 sys s r.fd t1 with
      | (.error e, t2) => (.error e, t2)
      | (.ok _, t2) => osClose s t2

/-- `Redirect.move`, redir.py:111-119. -/
def Redirect.move (sys : Sys) (r : Redirect) (fd : Nat) (t : FdTable) : Except Exn Redirect × FdTable :=
  match r.source with
  | .fd n =>
    match osDup2 sys n fd t with
    | (.error e, t1) => (.error e, t1)
    | (.ok _, t1) =>
      match osClose n t1 with
      | (.error e, t2) => (.error e, t2)
      | (.ok _, t2) => (.ok { r with source := .fd fd }, t2)
  | _ => (.ok r, t)

/-! ## `class Redirects` -/

/-- `Redirects.redirects`, redir.py:160: a dict from descriptor to Redirect. -/
abbrev Redirects := Dict Nat Redirect

/-- `Redirects.register` for a single Redirect, redir.py:174-181. -/
def Redirects.register (rs : Redirects) (r : Redirect) : Except Exn Redirects :=
  match r.source with
  | .none => if Dict.mem rs r.fd then .ok (Dict.erase rs r.fd) else .error .keyError
  | _ => .ok (Dict.set rs r.fd r)

/-- `Redirects.register` for a list of Redirects in order (the loops redir.py:163-164, 172-173). -/
def Redirects.registerAll (rs : Redirects) : List Redirect → Except Exn Redirects
  | [] => .ok rs
  | r :: l => match Redirects.register rs r with
    | .error e => .error e
    | .ok rs' => Redirects.registerAll rs' l

/-- An argument of the `Redirects(...)` constructor. [redir.py:159-166] -/
inductive RArg where
  | table (rs : Redirects) | one (r : Redirect)

/-- The redirections an argument of `Redirects(...)` contributes, in order. [redir.py:161-166] -/
def RArg.list : RArg → List Redirect
  | .table rs => Dict.values rs
  | .one r => [r]

/-- `Redirects.__init__`, redir.py:159-166. -/
def Redirects.new (args : List RArg) : Except Exn Redirects :=
  Redirects.registerAll [] (args.flatMap RArg.list)

/-- `Redirects.borrow`, redir.py:167-169. -/
def Redirects.borrow (rs : Redirects) : Redirects := rs.map (fun p => (p.1, p.2.borrow))

/-- `Redirects.redirect(fd, source, flag, ...)`, redir.py:182-184. -/
def Redirects.redirect (rs : Redirects) (fd : FdSpec) (source : Source) (flag : Option Nat := none)
    (borrowed : Bool := false) : Except Exn Redirects :=
  match mkRedirect fd source flag (borrowed := borrowed) with
  | .error e => .error e
  | .ok r => Redirects.register rs r

/-- `Redirects.merge`, redir.py:185-186. -/
def Redirects.merge (a b : Redirects) : Except Exn Redirects := Redirects.new [.table a, .table b]

/-- The int sources of a table (the list comprehension redir.py:190-192). -/
def srcFds (l : List Redirect) : List Nat :=
  l.filterMap (fun r => match r.source with | .fd n => some n | _ => none)

/-- `Redirects.find_free_fd`, redir.py:187-193. -/
def Redirects.findFreeFd (rs : Redirects) : Nat :=
  ((Dict.values rs).map Redirect.fd ++ srcFds (Dict.values rs) ++ [2]).foldl max 0 + 1

/-- `Redirects.__getattr__` for "stdin"/"stdout"/"stderr", redir.py:228-234. -/
def Redirects.attr (rs : Redirects) (name : Str) : Except Exn Redirect :=
  match fdNames.get? name with
  | none => .error .attributeError
  | some n => match Dict.get? rs n with
    | none => .error .attributeError
    | some r => .ok r

/-- The loop of `Redirects.move_existing_fds`, redir.py:200-202. -/
def moveAll (sys : Sys) : List Redirect → Nat → FdTable → Except Exn (List Redirect) × FdTable
  | [], _, t => (.ok [], t)
  | r :: l, newFd, t =>
    match r.move sys newFd t with
    | (.error e, t1) => (.error e, t1)
    | (.ok r', t1) =>
      match moveAll sys l (newFd + 1) t1 with
      | (.error e, t2) => (.error e, t2)
      | (.ok l', t2) => (.ok (r' :: l'), t2)

/-- `Redirects.move_existing_fds`, redir.py:197-204. -/
def Redirects.moveExistingFds (sys : Sys) (rs : Redirects) (t : FdTable) :
    Except Exn (List Redirect) × FdTable :=
  moveAll sys (Dict.values rs) rs.findFreeFd t

/-- The loop of `Redirects.perform`, redir.py:207-208. -/
def performAll (sys : Sys) (cwd : Str) : List Redirect → FdTable → Except Exn Unit × FdTable
  | [], t => (.ok (), t)
  | r :: l, t =>
    match r.perform sys cwd t with
    | (.error e, t1) => (.error e, t1)
    | (.ok _, t1) => performAll sys cwd l t1

/-- `Redirects.close_other_fds`, redir.py:214-224, as a loop over `range(0, MAXFD)`; errors of `os.close`
are ignored (redir.py:221-222). -/
def closeOthers (keep : Nat → Bool) : List Nat → FdTable → FdTable
  | [], t => t
  | i :: l, t => closeOthers keep l (if keep i then t else (osClose i t).2)

/-- Which descriptors `close_other_fds` skips, redir.py:217-218. -/
def keepFd (sys : Sys) (rs : Redirects) (i : Nat) : Bool := Dict.mem rs i || i == sys.logfd

/-- The `try` block of `Redirects.perform`, redir.py:207-209: what it would raise, and the table it leaves. -/
def Redirects.performTry (sys : Sys) (cwd : Str) (rs : Redirects) (t : FdTable) :
    Except Exn Unit × FdTable :=
  match rs.moveExistingFds sys t with
  | (.error e, t1) => (.error e, t1)
  | (.ok l, t1) =>
    match performAll sys cwd l t1 with
    | (.error e, t2) => (.error e, t2)
    | (.ok _, t2) => (.ok (), closeOthers (keepFd sys rs) (List.range sys.maxfd) t2)

/-- `Redirects.perform`, redir.py:205-213: every Exception is logged and swallowed, so only the table
remains. -/
def Redirects.perform (sys : Sys) (cwd : Str) (rs : Redirects) (t : FdTable) : FdTable :=
  (rs.performTry sys cwd t).2

/-- `Redirects.close_source_fds`, redir.py:225-227. -/
def closeSources : List Redirect → FdTable → Except Exn Unit × FdTable
  | [], t => (.ok (), t)
  | r :: l, t =>
    match r.closeSourceFd t with
    | (.error e, t1) => (.error e, t1)
    | (.ok _, t1) => closeSources l t1

/-- `Redirects.close_source_fds`, redir.py:225-227. -/
def Redirects.closeSourceFds (rs : Redirects) (t : FdTable) : Except Exn Unit × FdTable :=
  closeSources (Dict.values rs) t

/-! ## Materialising pipes -/

/-- The part of the shell's state that redirections act on. [redir.py:89-134] -/
structure World where
  fds : FdTable
  /-- number of pipes made so far; the next pipe gets this number -/
  nextPipe : Nat
  /-- number of temporary files made so far -/
  nextTmp : Nat
  /-- items started so far (forked processes and python functions), in order -/
  started : List Nat := []

/-- `pipe.pipe_cloexec()`, utils/pipe.py:17-26: returns (read descriptor, write descriptor). -/
def pipeCloexec (w : World) : (Nat × Nat) × World :=
  let r := w.fds.lowestFree
  let t1 := w.fds.set r { obj := .pipeR w.nextPipe, cloexec := true }
  let wr := t1.lowestFree
  let t2 := t1.set wr { obj := .pipeW w.nextPipe, cloexec := true }
  ((r, wr), { w with fds := t2, nextPipe := w.nextPipe + 1 })

/-- `tempfile.mkstemp()` as used at redir.py:131: a new file, open read/write. -/
def mkstemp (w : World) : (Nat × Nat) × World :=
  let fd := w.fds.lowestFree
  ((fd, w.nextTmp),
   { w with fds := w.fds.set fd { obj := .tmp w.nextTmp, cloexec := true }, nextTmp := w.nextTmp + 1 })

/-- `self.flag & os.O_WRONLY` as a truth value. [redir.py:123, 129, 146] -/
def isWr (flag : Nat) : Bool := (flag &&& O_WRONLY) != 0

/-- `Redirect.make_pipe`, redir.py:120-134. (`borrowed` of a materialised redirection is the default, False.) -/
def Redirect.makePipe (r : Redirect) (w : World) : Except Exn Redirect × World :=
  match r.source with
  | .PIPE =>
    let ((rfd, wfd), w') := pipeCloexec w
    if isWr r.flag then
      (.ok { fd := r.fd, source := .fd wfd, flag := r.flag, mode := r.mode, pipe := .fd rfd, borrowed := false }, w')
    else
      (.ok { fd := r.fd, source := .fd rfd, flag := r.flag, mode := r.mode, pipe := .fd wfd, borrowed := false }, w')
  | .TMP =>
    if isWr r.flag then
      let ((fd, n), w') := mkstemp w
      (.ok { fd := r.fd, source := .fd fd, flag := r.flag, mode := r.mode, pipe := .tmp n, borrowed := false }, w')
    else (.error .other, w)
  | .STRING =>
    if isWr r.flag then
      let ((fd, n), w') := mkstemp w
      (.ok { fd := r.fd, source := .fd fd, flag := r.flag, mode := r.mode, pipe := .string n, borrowed := false }, w')
    else (.error .other, w)
  | _ => (.ok r, w)

/-- The list comprehension of `Redirects.make_pipes`, redir.py:195-196. -/
def makePipesList : List Redirect → World → Except Exn (List Redirect) × World
  | [], w => (.ok [], w)
  | r :: l, w =>
    match r.makePipe w with
    | (.error e, w1) => (.error e, w1)
    | (.ok r', w1) =>
      match makePipesList l w1 with
      | (.error e, w2) => (.error e, w2)
      | (.ok l', w2) => (.ok (r' :: l'), w2)

/-- `Redirects.make_pipes`, redir.py:194-196. -/
def Redirects.makePipes (rs : Redirects) (w : World) : Except Exn Redirects × World :=
  match makePipesList (Dict.values rs) w with
  | (.error e, w1) => (.error e, w1)
  | (.ok l, w1) => (Redirects.new (l.map RArg.one), w1)

end Pieshell
