import Verif.Model.Run
import Verif.Spec.Redir
/-!
# Reference semantics of starting a pipeline

What a user expects, in terms of open files only (no descriptor numbers, no closing, no borrowing): which
object each item gets as standard input, output and error, and which objects stand behind its `/dev/fd`
arguments. Pipes and temporary files are numbered in the order in which they are made.
-/
namespace Pieshell

/-- What should be connected to a standard descriptor: something that is already open, a new pipe (of which
the item gets the write end, or the read end), or a new temporary file. -/
inductive Want where
  | obj (o : Obj) | pipeOut | pipeIn | tmp
deriving DecidableEq, Repr

/-- Numbers of the next pipe and the next temporary file. -/
structure Ctr where
  p : Nat
  t : Nat
deriving DecidableEq, Repr

/-- The object an item gets. -/
def Want.pick : Want → Ctr → Obj × Ctr
  | .obj o, c => (o, c)
  | .pipeOut, c => (.pipeW c.p, { c with p := c.p + 1 })
  | .pipeIn, c => (.pipeR c.p, { c with p := c.p + 1 })
  | .tmp, c => (.tmp c.t, { c with t := c.t + 1 })

/-- A word of the argument vector: a literal, or `pre ++ "/dev/fd/N"` where `N` is open on the object. -/
inductive RWord where
  | lit (s : Str) | dev (pre : Str) (o : Obj)
deriving DecidableEq, Repr

/-- A started item: a process with its arguments, stdin, stdout, stderr; or a python function with its input
and output. -/
inductive RItem where
  | proc (id : Nat) (argv : List RWord) (i o e : Obj)
  | func (id : Nat) (i : Option Obj) (o : Obj)
deriving DecidableEq, Repr

/-- The event loop can wait for the input and the output of a python function. -/
def RItem.polls (sys : Sys) : RItem → Bool
  | .proc .. => true
  | .func _ i o => (match i with | some x => sys.polls x | none => true) && sys.polls o

/-- output of a reference item -/
def RItem.out : RItem → Obj
  | .proc _ _ _ o _ => o
  | .func _ _ o => o

/-- Result of starting: the items in order, the number of the pipe the pipeline's output goes to (if one was
asked for), the pipe ends that are left behind unused, and the counters. -/
structure RefOut where
  items : List RItem
  out : Nat
  leaks : List Obj
  ctr : Ctr

/-- Result of starting the pipelines in a command's arguments: the items, the program's arguments, the pipe
ends left behind unused, and the counters. -/
structure RefArgs where
  items : List RItem
  words : List RWord
  leaks : List Obj
  ctr : Ctr

/-- What redirection `r` of a redirected pipeline asks for: the named file, opened with the flags and mode of the
redirection; a new pipe; a new temporary file. -/
def Redirect.want (cwd : Str) (r : Redirect) : Want :=
  match r.source with
  | .path p => .obj (.file cwd p r.flag r.mode)
  | .PIPE => .pipeOut
  | _ => .tmp

/-- What a descriptor is connected to that may be redirected, if it would otherwise be connected as `x` says. -/
def orWant (cwd : Str) (r : Option Redirect) (x : Want) : Want :=
  match r with
  | some r => r.want cwd
  | none => x

/-- A standard input that may be redirected, if it would otherwise be `i`. -/
def orIn (cwd : Str) (r : Option Redirect) (i : Obj) : Obj :=
  match orWant cwd r (.obj i) with
  | .obj b => b
  | _ => i

/-- What descriptor `n` is connected to in a pipeline redirected by `crs`, if it would otherwise be connected as `x`
says. -/
def Redirects.over (cwd : Str) (crs : Redirects) (n : Nat) (x : Want) : Want := orWant cwd (Dict.get? crs n) x

/-- The standard input of a pipeline redirected by `crs`, if it would otherwise be `i`. -/
def Redirects.overIn (cwd : Str) (crs : Redirects) (i : Obj) : Obj := orIn cwd (Dict.get? crs 0) i

/-- Where the output of a pipeline goes that is started with output `o`, after its own redirections. -/
def Pipeline.outWant (cwd : Str) : Pipeline → Want → Want
  | .pipe _ b, o => b.outWant cwd o
  | .group _ b, o => b.outWant cwd o
  | .redirect p crs, o => p.outWant cwd (crs.over cwd 1 o)
  | .command _ _, o => o
  | .func _, o => o
  | .iter _, o => o

/-- The pipeline is redirected, as a whole, for descriptor `n`. -/
def Pipeline.takes : Pipeline → Nat → Bool
  | .redirect p crs, n => Dict.mem crs n || p.takes n
  | .pipe _ _, _ => false
  | .group _ _, _ => false
  | .command _ _, _ => false
  | .func _, _ => false
  | .iter _, _ => false

mutual
/-- Start a pipeline with stdin `i`, and stdout and stderr as wanted. `a | b`: a's output goes to a new pipe
whose read end is b's input (and is left behind if b's input is redirected). `a + b`: both get the same input and the
same kind of output. A redirected pipeline gets what its redirections say instead. -/
def refRun (cwd : Str) : Pipeline → Obj → Want → Want → Ctr → RefOut
  | .command id args, i, o, e, c =>
    let ob := o.pick c
    let eb := e.pick ob.2
    let r := refArgs cwd args i ob.1 eb.1 eb.2
    { items := r.items ++ [.proc id r.words i ob.1 eb.1], out := c.p, leaks := r.leaks, ctr := r.ctr }
  | .func id, i, o, e, c =>
    let ob := o.pick c
    { items := [.func id (some i) ob.1], out := c.p, leaks := [], ctr := (e.pick ob.2).2 }
  | .iter id, _, o, e, c =>
    let ob := o.pick c
    { items := [.func id none ob.1], out := c.p, leaks := [], ctr := (e.pick ob.2).2 }
  | .pipe a b, i, o, e, c =>
    let ra := refRun cwd a i .pipeOut e c
    let rb := refRun cwd b (.pipeR ra.out) o e ra.ctr
    { items := ra.items ++ rb.items, out := rb.out,
      leaks := ra.leaks ++ rb.leaks ++ (if b.takes 0 then [.pipeR ra.out] else []), ctr := rb.ctr }
  | .group a b, i, o, e, c =>
    let ra := refRun cwd a i o e c
    let rb := refRun cwd b i o e ra.ctr
    { items := ra.items ++ rb.items, out := rb.out,
      leaks := ra.leaks ++ rb.leaks ++ (if a.outWant cwd o = .pipeOut then [.pipeR ra.out] else []), ctr := rb.ctr }
  | .redirect p crs, i, o, e, c => refRun cwd p (crs.overIn cwd i) (crs.over cwd 1 o) (crs.over cwd 2 e) c
/-- Start the pipelines given as arguments: each pipeline writes to its own new pipe, whose read end the
program finds at `/dev/fd/N`; each function reads from its own new pipe. They share the command's stdin,
stdout (functions) and stderr. -/
def refArgs (cwd : Str) : Args → Obj → Obj → Obj → Ctr → RefArgs
  | .nil, _, _, _, c => { items := [], words := [], leaks := [], ctr := c }
  | .word ws rest, i, o, e, c =>
    let r := refArgs cwd rest i o e c
    { r with words := ws.map .lit ++ r.words }
  | .pipeArg pre p rest, i, o, e, c =>
    let a := refRun cwd p i .pipeOut (.obj e) c
    let r := refArgs cwd rest i o e a.ctr
    { items := a.items ++ r.items, words := .dev pre (.pipeR a.out) :: r.words, leaks := a.leaks ++ r.leaks,
      ctr := r.ctr }
  | .funcArg pre id rest, i, o, e, c =>
    let r := refArgs cwd rest i o e { c with p := c.p + 1 }
    { items := .func id (some (.pipeR c.p)) o :: r.items, words := .dev pre (.pipeW c.p) :: r.words,
      leaks := r.leaks, ctr := r.ctr }
end

mutual
/-- No `CmdRedirect` anywhere in the pipeline. -/
def Pipeline.Regular : Pipeline → Prop
  | .command _ args => args.Regular
  | .func _ => True
  | .iter _ => True
  | .pipe a b => a.Regular ∧ b.Regular
  | .group a b => a.Regular ∧ b.Regular
  | .redirect _ _ => False
/-- see `Pipeline.Regular` -/
def Args.Regular : Args → Prop
  | .nil => True
  | .word _ rest => rest.Regular
  | .pipeArg _ p rest => p.Regular ∧ rest.Regular
  | .funcArg _ _ rest => rest.Regular
end

/-- A redirection that a pipeline can be redirected with here: from or to a file that can be opened, or - for the
outputs - to a new temporary file, or - for stdout - to a new pipe. -/
def Redirect.Simple (sys : Sys) (cwd : Str) (r : Redirect) : Prop :=
  (∃ p, r.source = .path p ∧ sys.openErr cwd p r.flag = none ∧ r.fd < 3) ∨
  (r.source = .PIPE ∧ Writing r.flag ∧ r.fd = 1) ∨
  ((r.source = .STRING ∨ r.source = .TMP) ∧ Writing r.flag ∧ (r.fd = 1 ∨ r.fd = 2))

mutual
/-- All redirected pipelines in the pipeline are redirected by such redirections, and nothing is piped out of a
pipeline whose output was redirected elsewhere (see `C18_piped_after_redirection_closes_stdin` for that case). -/
def Pipeline.Redirectable (sys : Sys) (cwd : Str) : Pipeline → Prop
  | .command _ args => args.Redirectable sys cwd
  | .func _ => True
  | .iter _ => True
  | .pipe a b => a.Redirectable sys cwd ∧ b.Redirectable sys cwd ∧ a.outWant cwd .pipeOut = .pipeOut
  | .group a b => a.Redirectable sys cwd ∧ b.Redirectable sys cwd
  | .redirect p crs => p.Redirectable sys cwd ∧ crs.Built ∧ ∀ r ∈ Dict.values crs, r.Simple sys cwd
/-- see `Pipeline.Redirectable` -/
def Args.Redirectable (sys : Sys) (cwd : Str) : Args → Prop
  | .nil => True
  | .word _ rest => rest.Redirectable sys cwd
  | .pipeArg _ p rest => p.Redirectable sys cwd ∧ p.outWant cwd .pipeOut = .pipeOut ∧ rest.Redirectable sys cwd
  | .funcArg _ _ rest => rest.Redirectable sys cwd
end

mutual
/-- An upper bound for the number of descriptors needed to start a pipeline. -/
def Pipeline.cost : Pipeline → Nat
  | .command _ args => args.cost + 16
  | .func _ => 16
  | .iter _ => 16
  | .pipe a b => a.cost + b.cost
  | .group a b => a.cost + b.cost
  | .redirect p _ => p.cost
/-- see `Pipeline.cost` -/
def Args.cost : Args → Nat
  | .nil => 0
  | .word _ rest => rest.cost
  | .pipeArg _ p rest => p.cost + rest.cost + 2
  | .funcArg _ _ rest => rest.cost + 18
end

/-- Descriptors of the shell that python functions in the pipeline hold. -/
def heldFds : List Item → List Nat
  | [] => []
  | .proc .. :: l => heldFds l
  | .func _ inFd outFd _ :: l => inFd.toList ++ outFd :: heldFds l

/-- The descriptor numbers in the `/dev/fd/N` words of an argument vector. -/
def devFds : List Word → List Nat
  | [] => []
  | .lit _ :: l => devFds l
  | .devfd _ n :: l => n :: devFds l

/-- An argument word of a program with descriptors `fds` is as expected. -/
def WordOk (fds : Nat → Option Obj) : Word → RWord → Prop
  | .lit s, .lit s' => s = s'
  | .devfd pre n, .dev pre' o => pre = pre' ∧ 2 < n ∧ fds n = some o
  | _, _ => False

/-- A started item is as expected: identity, arguments, standard descriptors, and - for a process - no other
descriptor but the shell's log descriptor. `get` is the shell's descriptor table, `logObj` what the log
descriptor refers to. -/
def ItemOk (logfd : Nat) (logObj : Option Obj) (get : Nat → Option Entry) : Item → RItem → Prop
  | .proc id argv fds _, .proc id' rargv i o e =>
    id = id' ∧ fds 0 = some i ∧ fds 1 = some o ∧ fds 2 = some e ∧ Pointwise (WordOk fds) argv rargv ∧
    (devFds argv).Nodup ∧ logfd ∉ devFds argv ∧
    ∀ n, n ≠ 0 → n ≠ 1 → n ≠ 2 → n ∉ devFds argv → fds n = if n = logfd then logObj else none
  | .func id inFd outFd _, .func id' i o =>
    id = id' ∧ (inFd.bind get).map Entry.obj = i ∧ (inFd = none ↔ i = none) ∧
    (get outFd).map Entry.obj = some o
  | _, _ => False

/-! ## Situations in which a pipeline is started -/

/-- Nothing is open in `[H, L)`. -/
def Gap (t : FdTable) (H L : Nat) : Prop := ∀ n, H ≤ n → n < L → t.get n = none

/-- Redirection `r` asks for `x`. (`H` bounds the descriptor numbers in use.) -/
def Slot (sys : Sys) (cwd : Str) (t : FdTable) (H : Nat) (r : Redirect) : Want → Prop
  | .obj o => (∃ a e, r.source = .fd a ∧ t.get a = some e ∧ e.obj = o ∧ a < H) ∨
      (∃ p, r.source = .path p ∧ sys.openErr cwd p r.flag = none ∧ o = .file cwd p r.flag r.mode)
  | .pipeOut => r.source = .PIPE ∧ Writing r.flag
  | .pipeIn => r.source = .PIPE ∧ ¬ Writing r.flag
  | .tmp => (r.source = .STRING ∨ r.source = .TMP) ∧ Writing r.flag

/-- A table with exactly stdin, stdout and stderr, asking for `i`, `o`, `e`; its source descriptors are
distinct. -/
structure Std (sys : Sys) (cwd : Str) (rs : Redirects) (t : FdTable) (H : Nat) (i o e : Want) : Prop where
  shape : ∃ r0 r1 r2, rs = [(0, r0), (1, r1), (2, r2)] ∧ r0.fd = 0 ∧ r1.fd = 1 ∧ r2.fd = 2 ∧
    Slot sys cwd t H r0 i ∧ Slot sys cwd t H r1 o ∧ Slot sys cwd t H r2 e
  distinct : (srcFds (Dict.values rs)).Nodup

/-- What must hold of the shell's descriptors: room in `[H, L)`, the log descriptor above, nothing beyond the
limit. -/
structure Room (sys : Sys) (w : World) (H L : Nat) : Prop where
  bounded : w.fds.Bounded
  top : ∀ n, sys.maxfd ≤ n → w.fds.get n = none
  gap : Gap w.fds H L
  three : 3 ≤ H
  log : L ≤ sys.logfd
  lim : L ≤ sys.maxfd

/-- A want for stdout: not the read end of a pipe. -/
def Want.Out : Want → Prop
  | .pipeIn => False
  | _ => True

/-- A want for stderr: not a pipe. -/
def Want.Plain : Want → Prop
  | .obj _ => True
  | .tmp => True
  | _ => False

/-- The counters of a shell state. -/
def World.ctr (w : World) : Ctr := ⟨w.nextPipe, w.nextTmp⟩

/-- No redirection of the table is from or to a file. -/
def Redirects.NoFiles (rs : Redirects) : Prop := ∀ r ∈ Dict.values rs, ∀ p, r.source ≠ .path p

/-- The shell's own stdin, stdout and stderr are open, and are used in the table only for the same descriptor. -/
def Redirects.Low (rs : Redirects) (t : FdTable) : Prop :=
  (∀ n, n < 3 → t.get n ≠ none) ∧ ∀ r ∈ Dict.values rs, ∀ a, r.source = .fd a → a < 3 → a = r.fd

/-- The shell can start `p` with the redirection table `rs`, which has exactly stdin, stdout and stderr: stdin is
the file `i`, stdout and stderr are as wanted; there are enough free descriptors below the log descriptor. If there
are redirections from or to files, the shell's own standard descriptors must be open and straight (see C03 for what
happens otherwise). The python functions and iterators in it are not connected to regular files (see C119 for what happens otherwise). -/
structure Startable (sys : Sys) (cwd : Str) (w : World) (rs : Redirects) (p : Pipeline) (i : Obj) (o e : Want) : Prop where
  room : ∃ H L, Room sys w H L ∧ H + p.cost ≤ L ∧ Std sys cwd rs w.fds H (.obj i) o e
  out : o.Out
  err : e.Plain
  shape : p.Redirectable sys cwd
  low : (p.Regular ∧ rs.NoFiles) ∨ rs.Low w.fds
  polls : (refRun cwd p i o e w.ctr).items.all (RItem.polls sys) = true


/-! ## Vocabulary for chains -/

/-- What a started item reads from. -/
def Item.stdin (w : World) : Item → Option Obj
  | .proc _ _ fds _ => fds 0
  | .func _ inFd _ _ => (inFd.bind w.fds.get).map Entry.obj

/-- What a started item writes to. -/
def Item.stdout (w : World) : Item → Option Obj
  | .proc _ _ fds _ => fds 1
  | .func _ _ outFd _ => (w.fds.get outFd).map Entry.obj

/-- A started item has `ob` open: a process in its own descriptor table, a python function by a descriptor of
the shell. -/
def Item.Holds (w : World) : Item → Obj → Prop
  | .proc _ _ fds _, ob => ∃ n, fds n = some ob
  | .func _ inFd outFd _, ob => ∃ n, (inFd = some n ∨ outFd = n) ∧ (w.fds.get n).map Entry.obj = some ob

/-- The standard error of a started process. -/
def Item.stderr : Item → Option Obj
  | .proc _ _ fds _ => fds 2
  | .func .. => none

/-- An item of a chain, with the redirections that apply to it: its own ones, or else the closest of those of the
redirected pipelines it is the first (stdin), the last (stdout), or any (stderr) item of. -/
structure Link where
  leaf : Pipeline
  inp : Option Redirect
  out : Option Redirect
  err : Option Redirect

/-- Redirect stdin of a chain: of its first item. -/
def pushIn (r : Option Redirect) : List Link → List Link
  | [] => []
  | l :: ls => { l with inp := l.inp.or r } :: ls

/-- Redirect stdout of a chain: of its last item. -/
def pushOut (r : Option Redirect) : List Link → List Link
  | [] => []
  | [l] => [{ l with out := l.out.or r }]
  | l :: l' :: ls => l :: pushOut r (l' :: ls)

/-- Redirect stderr of a chain: of all its items. -/
def pushErr (r : Option Redirect) (ls : List Link) : List Link := ls.map fun l => { l with err := l.err.or r }

/-- The items of a pipeline, whatever the parenthesisation of `|`, with their redirections. -/
def Pipeline.links : Pipeline → List Link
  | .pipe a b => a.links ++ b.links
  | .redirect p crs => pushIn (Dict.get? crs 0) (pushOut (Dict.get? crs 1) (pushErr (Dict.get? crs 2) p.links))
  | .command id args => [⟨.command id args, none, none, none⟩]
  | .func id => [⟨.func id, none, none, none⟩]
  | .iter id => [⟨.iter id, none, none, none⟩]
  | .group a b => [⟨.group a b, none, none, none⟩]

/-- identity of a leaf -/
def Pipeline.leafId : Pipeline → Option Nat
  | .command id _ => some id
  | .func id => some id
  | .iter id => some id
  | _ => none

/-- A chain: commands, functions and iterators connected by `|` (commands may have pipelines as arguments), possibly
with redirections around the items, parts of the chain, or all of it. -/
def Pipeline.Chain (p : Pipeline) : Prop := ∀ l ∈ p.links, l.leaf.leafId ≠ none

/-- Iterators do not read. -/
def Pipeline.Reads : Pipeline → Prop
  | .iter _ => False
  | _ => True

/-- Pipes are numbered as they are made: no descriptor refers to a pipe that has not been made yet. -/
def World.PipesMade (w : World) : Prop :=
  ∀ n e q, w.fds.get n = some e → w.nextPipe ≤ q → e.obj ≠ .pipeR q ∧ e.obj ≠ .pipeW q

/-- The output of a pipeline that is started with a pipe as output, or not, is a pipe. -/
def Pipeline.outPiped : Pipeline → Bool → Bool
  | .pipe _ b, piped => b.outPiped piped
  | .group _ b, piped => b.outPiped piped
  | .redirect p crs, piped => p.outPiped (match Dict.get? crs 1 with | some r => r.source = .PIPE | none => piped)
  | .command _ _, piped => piped
  | .func _, piped => piped
  | .iter _, piped => piped

mutual
/-- Number of pipe ends that are left behind: one for each `a + b` where the output of `a` is a pipe, and one for each
`a | b` where the input of `b` is redirected (`piped`: the output of the whole pipeline is a pipe). -/
def Pipeline.lost : Pipeline → Bool → Nat
  | .command _ args, _ => args.lost
  | .func _, _ => 0
  | .iter _, _ => 0
  | .pipe a b, piped => a.lost true + b.lost piped + (if b.takes 0 then 1 else 0)
  | .group a b, piped => a.lost piped + b.lost piped + (if a.outPiped piped then 1 else 0)
  | .redirect p crs, piped => p.lost (match Dict.get? crs 1 with | some r => r.source = .PIPE | none => piped)
/-- see `Pipeline.lost` -/
def Args.lost : Args → Nat
  | .nil => 0
  | .word _ rest => rest.lost
  | .pipeArg _ p rest => p.lost true + rest.lost
  | .funcArg _ _ rest => rest.lost
end

mutual
/-- The leaves of a pipeline from left to right; pipelines in arguments come before their command. -/
def Pipeline.ids : Pipeline → List Nat
  | .command id args => args.ids ++ [id]
  | .func id => [id]
  | .iter id => [id]
  | .pipe a b => a.ids ++ b.ids
  | .group a b => a.ids ++ b.ids
  | .redirect p _ => p.ids
/-- see `Pipeline.ids` -/
def Args.ids : Args → List Nat
  | .nil => []
  | .word _ rest => rest.ids
  | .pipeArg _ p rest => p.ids ++ rest.ids
  | .funcArg _ id rest => id :: rest.ids
end

/-- `ob` is what was wanted: the given object; the write end of pipe `q`; a temporary file made since `w`. -/
def Want.Meets (w : World) (q : Nat) (ob : Obj) : Want → Prop
  | .obj b => ob = b
  | .pipeOut => ob = .pipeW q
  | .tmp => ∃ n, w.nextTmp ≤ n ∧ ob = .tmp n
  | .pipeIn => False

/-- The items of the chain `p` have been started as `segs` (one list per item of the chain: the item itself comes
last, after whatever was started for pipelines among its arguments) and they are connected through the pipes
`q 0`, `q 1`, ...: the first one reads from `i`, each writes to its own new pipe, from which the next one reads; the
last one writes to `o`, or to its own new pipe if that was wanted; stderr of all is `e`. Where an item's stdin or
stderr, or the last item's stdout, is redirected, it is connected to what the redirection says instead. -/
structure Wired (cwd : Str) (w w' : World) (p : Pipeline) (i : Obj) (o e : Want) (segs : List (List Item)) (q : Nat → Nat) : Prop where
  /-- one segment per item -/
  length : segs.length = p.links.length
  /-- all pipes are new and different -/
  new : ∀ k, k < p.links.length → w.nextPipe ≤ q k
  different : ∀ j k, j < k → k < p.links.length → q j < q k
  /-- what each item is connected to -/
  wired : ∀ (k : Nat) (l : Link), p.links[k]? = some l → ∃ s m, segs[k]? = some s ∧ s.map Item.id = l.leaf.ids ∧
    s.getLast? = some m ∧ l.leaf.leafId = some m.id ∧
    (l.leaf.Reads → m.stdin w' = some (orIn cwd l.inp (if k = 0 then i else .pipeR (q (k - 1))))) ∧
    (∃ ob, m.stdout w' = some ob ∧ (if k + 1 = p.links.length then orWant cwd l.out o else .pipeOut).Meets w (q k) ob) ∧
    (∀ id args, l.leaf = .command id args → ∃ ob, m.stderr = some ob ∧ (orWant cwd l.err e).Meets w (q k) ob)
  /-- functions and iterators run in the shell -/
  inShell : ∀ (k : Nat) (l : Link) (s : List Item), p.links[k]? = some l → segs[k]? = some s →
    (∀ id, l.leaf = .func id → ∃ inFd outFd rs, s = [.func id (some inFd) outFd rs]) ∧
    (∀ id, l.leaf = .iter id → ∃ outFd rs, s = [.func id none outFd rs])

/-- What the program sees of pipelines in its arguments: `args` of the command, `items` started for them, `argv`
the resulting argument vector, `fds` the program's descriptors; the pipes have numbers from `q0`, increasing. -/
def ArgsWired (w' : World) (fds : Nat → Option Obj) : Args → Nat → List Item → List Word → Prop
  | .nil, _, items, argv => items = [] ∧ argv = []
  | .word ws rest, q0, items, argv => ∃ argv', argv = ws.map .lit ++ argv' ∧ ArgsWired w' fds rest q0 items argv'
  | .pipeArg pre p rest, q0, items, argv => ∃ xs items' n argv' q m, items = xs ++ items' ∧
      argv = .devfd pre n :: argv' ∧ 2 < n ∧ q0 ≤ q ∧ fds n = some (.pipeR q) ∧ xs.map Item.id = p.ids ∧
      xs.getLast? = some m ∧ m.stdout w' = some (.pipeW q) ∧ ArgsWired w' fds rest (q + 1) items' argv'
  | .funcArg pre id rest, q0, items, argv => ∃ x items' n argv' q, items = x :: items' ∧
      argv = .devfd pre n :: argv' ∧ 2 < n ∧ q0 ≤ q ∧ fds n = some (.pipeW q) ∧ x.id = id ∧
      x.stdin w' = some (.pipeR q) ∧ ArgsWired w' fds rest (q + 1) items' argv'

/-- Nested redirections `((p redirected by rs1) redirected by rs2) ...`, innermost first. -/
def Pipeline.redirectAll (p : Pipeline) : List Redirects → Pipeline
  | [] => p
  | rs :: l => (Pipeline.redirect p rs).redirectAll l

/-- The redirection for `n` in the first table that has one. -/
def firstFor (n : Nat) : List Redirects → Option Redirect
  | [] => none
  | rs :: l => match Dict.get? rs n with
    | some r => some r
    | none => firstFor n l

/-- The table's user handed over descriptor `n`, to be closed in the shell once used, and `p` uses it: `p` is not
redirected as a whole for the same descriptor. -/
def Redirects.GivenTo (rs : Redirects) (p : Pipeline) (n : Nat) : Prop :=
  ∃ r ∈ Dict.values rs, r.source = .fd n ∧ r.borrowed = false ∧ p.takes r.fd = false

/-- How the shell's descriptors change when the pipeline `p` has been started as `items` with table `rs`:
descriptors handed over in `rs` are closed (except one that the pipeline's own redirections replace), other open ones
are unchanged, and the new ones are exactly those that python functions in the pipeline hold, those in `out`, and
those in `leaked`. -/
structure ShellFds (w w' : World) (rs : Redirects) (p : Pipeline) (items : List Item) (out leaked : List Nat) : Prop where
  given : ∀ n, rs.GivenTo p n → w'.fds.get n = none
  same : ∀ n, w.fds.get n ≠ none → ¬ rs.GivenTo p n → w'.fds.get n = w.fds.get n
  new : ∀ n, w.fds.get n = none → (w'.fds.get n ≠ none ↔ n ∈ heldFds items ∨ n ∈ out ∨ n ∈ leaked)

/-- `out` is the user's end of the pipe at the pipeline's output if one was wanted (it is what `pipe` of the
table's stdout names), and nothing otherwise. -/
def UserOut (w' : World) (o : Want) (rs' : Redirects) (out : List Nat) : Prop :=
  if o = .pipeOut then ∃ r u q, out = [u] ∧ Dict.get? rs' 1 = some r ∧ r.pipe = .fd u ∧
    w'.fds.get u = some { obj := .pipeR q, cloexec := true }
  else out = []

end Pieshell
