import Verif.Model.Signal
/-!
# Signals of the shell, of the programs it starts, and of the terminal

Every process has a signal environment (what it does with each signal, which signals it blocks) and belongs to a process group; the terminal sends
the signals of CTRL-C and CTRL-Z to the processes of its foreground group (signal(7), credentials(7), termios(3)).

* the python interpreter ignores `SIGPIPE` and `SIGXFSZ` and handles `SIGINT` (`pylifecycle.c`, `signalmodule.c`);
* the signal manager blocks `SIGCHLD` and `SIGTSTP` (manager_signalfd.py:16-20) or handles them (manager_asyncio.py:10-15);
* `BaseCommand._run` forks (command.py:224) and the child calls `Command._child` (command.py:175-178): `redirects.perform()`, `chdir`, `execvpe`.  Nothing in
  pieshell calls `setpgid`, `tcsetpgrp`, `setsid`, `sigprocmask`, or resets a signal, in the child or for it;
* `suspend()` and `restart()` send `SIGSTOP` and `SIGCONT` to single processes (running.py:262-270).

Simplifications: real-time signals and the number of deliveries of a signal are left out; numbers of processes are not used again (see C93); the terminal stays the controlling
terminal of all processes; the default action of `SIGTSTP` stops the process also when its group is orphaned.
-/
namespace Pieshell.Term
open Pieshell.Sig (Mgr SIGCHLD SIGTSTP)

/-- Linux, signal(7); CTRL-C. -/
def SIGINT : Nat := 2
/-- Linux, signal(7). -/
def SIGQUIT : Nat := 3
/-- Linux, signal(7). -/
def SIGPIPE : Nat := 13
/-- Linux, signal(7); sent at running.py:265. -/
def SIGCONT : Nat := 18
/-- Linux, signal(7). -/
def SIGXFSZ : Nat := 25

/-- What a process does with a signal. [signal(7)] -/
inductive Disp where
  | default
  | ignored
  | caught
deriving DecidableEq, Repr

/-- The signal environment of a process. [signal(7), for the children made at command.py:224] -/
structure Env where
  disp : Nat → Disp
  blocked : Nat → Bool

/-- `execve`: signals that are handled get their default action, all else is kept (execve(2)). -/
def Disp.exec : Disp → Disp
  | .caught => .default
  | d => d

/-- execve(2) resets handled signals (signal(7)), for command.py:178. -/
def Env.exec (e : Env) : Env := { e with disp := fun n => (e.disp n).exec }

/-- The python interpreter starts: `signal(SIGPIPE, SIG_IGN)`, `signal(SIGXFSZ, SIG_IGN)`, and `signal(SIGINT, default_int_handler)` unless it is ignored.
[CPython Python/pylifecycle.c, Modules/signalmodule.c] -/
def Env.python (e : Env) : Env :=
  { e with disp := fun n =>
      if n = SIGPIPE ∨ n = SIGXFSZ then .ignored
      else if n = SIGINT ∧ e.disp n = .default then .caught
      else e.disp n }

/-- `SignalManager.__init__` (manager_signalfd.py:16-20: `sigprocmask(SIG_BLOCK, mask)`; manager_asyncio.py:10-15: `add_signal_handler`). -/
def Env.manager (m : Mgr) (e : Env) : Env :=
  match m with
  | .signalfd => { e with blocked := fun n => e.blocked n || Sig.mask.contains n }
  | .asyncio => { e with disp := fun n => if Sig.mask.contains n then .caught else e.disp n }

/-- signal(7). -/
inductive Life where
  | running
  | stopped
  /-- by a signal, or by itself -/
  | ended (sig : Option Nat)
deriving DecidableEq, Repr

/-- A process: its signal environment, process group, pending signals (signal(7)). -/
structure Proc where
  env : Env
  pgrp : Nat
  life : Life
  /-- signals that were sent but could not be delivered yet -/
  pending : List Nat
  /-- ghost: the signals that the process has handled -/
  handled : List Nat

/-- Signals whose default action is to stop the process: `SIGTSTP`, `SIGTTIN`, `SIGTTOU`. [signal(7)] -/
def stops (n : Nat) : Bool := n = SIGTSTP || n = 21 || n = 22
/-- Signals that are ignored by default: `SIGCHLD`, `SIGURG`, `SIGWINCH`; `SIGCONT`, as all it does is done when it is sent.
[signal(7)] -/
def harmless (n : Nat) : Bool := n = SIGCHLD || n = SIGCONT || n = 23 || n = 28

/-- Signal `n` is delivered (signal(7)). -/
def Proc.deliver (x : Proc) (n : Nat) : Proc :=
  match x.env.disp n with
  | .ignored => x
  | .caught => { x with handled := x.handled ++ [n] }
  | .default => if stops n then { x with life := .stopped } else if harmless n then x else { x with life := .ended (some n) }

/-- Signal `n` is sent: it waits while it is blocked or the process is stopped; a process that has ended gets no signals.
[signal(7)] -/
def Proc.send (x : Proc) (n : Nat) : Proc :=
  if x.life = .running ∧ x.env.blocked n = false then x.deliver n
  else match x.life with
    | .ended _ => x
    | _ => if n ∈ x.pending then x else { x with pending := x.pending ++ [n] }

/-- What waits is sent again, as the process has been continued or has changed its mask. [signal(7)] -/
def Proc.flush (x : Proc) : Proc := x.pending.foldl Proc.send { x with pending := [] }

/-- `SIGSTOP` (running.py:270): it can be neither handled nor blocked. -/
def Proc.stop (x : Proc) : Proc := if x.life = .running then { x with life := .stopped } else x

/-- `SIGCONT` (running.py:265): continues the process and discards stop signals that wait; then it is delivered, too. -/
def Proc.cont (x : Proc) : Proc :=
  match x.life with
  | .ended _ => x
  | _ => ({ x with life := .running, pending := x.pending.filter fun n => !stops n }.flush).send SIGCONT

/-- The processes of one terminal: the shell and what it started (command.py:224). -/
structure St where
  /-- the number of the shell -/
  sh : Nat
  procs : Nat → Option Proc
  /-- the terminal's foreground group -/
  fg : Nat

/-- The shell has been started in environment `e` (by another shell, as a group of its own in the foreground).
[init.py and manager_signalfd.py:13-20: the manager is made at start-up] -/
def boot (m : Mgr) (sh : Nat) (e : Env) : St :=
  { sh, fg := sh,
    procs := fun p => if p = sh then some ⟨(e.exec.python).manager m, sh, .running, [], []⟩ else none }

/-- `f` changed at `p`. [Not in /repo: vocabulary] -/
def upd (f : Nat → Option Proc) (p : Nat) (v : Option Proc) : Nat → Option Proc := fun q => if q = p then v else f q

/-- Keys of the terminal that send signals. [termios(3)] -/
inductive Key where
  | ctrlC
  | ctrlBackslash
  | ctrlZ
deriving DecidableEq, Repr

/-- The signal that a key sends (termios(3)). [For CTRL-Z: handled at running.py:29-39] -/
def Key.sig : Key → Nat
  | .ctrlC => SIGINT
  | .ctrlBackslash => SIGQUIT
  | .ctrlZ => SIGTSTP

/-- What happens. [command.py:224, running.py:263-272, termios(3), and what programs do] -/
inductive Act where
  /-- pieshell starts a program for some job: fork and exec -/
  | start (p : Nat) (job : Nat)
  /-- process `q` forks -/
  | fork (q p : Nat)
  | exec (p : Nat)
  | disp (p n : Nat) (d : Disp)
  | block (p n : Nat)
  | unblock (p n : Nat)
  | setpgid (p g : Nat)
  | tcsetpgrp (g : Nat)
  /-- a key is pressed -/
  | key (c : Key)
  /-- `os.kill(p, SIGSTOP)` by `suspend()`, `os.kill(p, SIGCONT)` by `restart()` -/
  | stop (p : Nat)
  | cont (p : Nat)
  | exit (p : Nat)
deriving DecidableEq, Repr

/-- Process `p` changes. [Not in /repo: vocabulary] -/
def St.change (s : St) (p : Nat) (f : Proc → Proc) : St := { s with procs := upd s.procs p ((s.procs p).map f) }

/-- A process of the same group with the same signal environment; no signals wait for it (fork(2)). -/
def Proc.child (x : Proc) : Proc := { x with pending := [], handled := [], life := .running }

/-- One step.  Processes that do not run do nothing.
[command.py:175-178, 224, running.py:263-272, signal(7)] -/
def step (s : St) : Act → St
  | .start p _ => match s.procs s.sh, s.procs p with
    -- command.py:224, `os.fork()`; command.py:175-178, `_child`
    | some x, none => if x.life = .running then { s with procs := upd s.procs p (some { x.child with env := x.env.exec }) } else s
    | _, _ => s
  | .fork q p => match s.procs q, s.procs p with
    | some x, none => if x.life = .running then { s with procs := upd s.procs p (some x.child) } else s
    | _, _ => s
  | .exec p => s.change p fun x => if x.life = .running then { x with env := x.env.exec } else x
  | .disp p n d => s.change p fun x => if x.life = .running then { x with env := { x.env with disp := fun k => if k = n then d else x.env.disp k } } else x
  | .block p n => s.change p fun x => if x.life = .running then { x with env := { x.env with blocked := fun k => k == n || x.env.blocked k } } else x
  | .unblock p n => s.change p fun x => if x.life = .running then { x with env := { x.env with blocked := fun k => k != n && x.env.blocked k } }.flush else x
  | .setpgid p g => s.change p fun x => { x with pgrp := g }
  | .tcsetpgrp g => { s with fg := g }
  | .key c => { s with procs := fun p => (s.procs p).map fun x => if x.pgrp = s.fg then x.send c.sig else x }
  | .stop p => s.change p Proc.stop
  | .cont p => s.change p Proc.cont
  | .exit p => s.change p fun x => if x.life = .running then { x with life := .ended none } else x

/-- A history of such steps. -/
def run (s : St) (as : List Act) : St := as.foldl step s

end Pieshell.Term
