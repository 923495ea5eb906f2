import Verif.Model.Tree
import Verif.Model.ProcText
/-!
# Browsing the processes of the machine (`pieshell/ps.py`, and the part of `pieshell/pipeline/running.py` that leads there)

`CURRENT.PARENT.bash.GROUP`: attribute access on `PstreeProcess`, `PstreeLogin`, `PstreeLogins`, `TreeGroup` and
`RunningProcess` objects, over one state of the machine.

Parameters: `slug`, `slugify.slugify(·, separator="_")`; `ps`, which names `psutil.Process` objects have; `det`, which names the
entries of `psutil.users()` have.
Simplifications: the machine does not change while an expression is evaluated; `psutil` is installed; names that begin with
an underscore are not asked for; `psutil`'s check of creation times is left out.
-/
namespace Pieshell.Ps
open Tree

/-- What the kernel and `psutil` know of one process. [ps.py:36-45, 70-83] -/
structure Rec where
  proc : Proc
  ppid : Nat
  pgid : Nat
  sid : Nat
deriving DecidableEq, Repr

/-- The number of a process. [ps.py:101] -/
def Rec.pid (r : Rec) : Nat := r.proc.pid

/-- An entry of `psutil.users()`. [ps.py:103-106, 130] -/
structure User where
  name : Str
  host : Str
  pid : Nat
deriving DecidableEq, Repr

/-- The state of the machine. [Not in /repo: what `psutil` and `os` report, used at ps.py:43, 72, 77, 80, 83, 130] -/
structure Machine where
  procs : List Rec
  users : List User

/-- `psutil.Process(pid)`; `none` is `psutil.NoSuchProcess` (ps.py:43). -/
def Machine.find (M : Machine) (pid : Nat) : Option Rec := M.procs.find? (fun r => r.pid = pid)

/-- `self.INFO.children()` (ps.py:72) -/
def Machine.childrenOf (M : Machine) (r : Rec) : List Rec := M.procs.filter (fun c => c.ppid = r.pid)

/-- `PstreeProcess._getkey` (ps.py:46-68) -/
def Rec.key (r : Rec) (level : Nat) : Option Str := r.proc.key level

/-- `PstreeProcess._getkey(None)` (ps.py:47-48) -/
def Rec.ident (r : Rec) : Str := r.proc.ident

/-- What an expression can denote. [ps.py:33-140, tree.py:4-25] -/
inductive Obj where
  /-- a `PstreeProcess`; `none`: its `INFO` is `None` -/
  | proc (info : Option Rec)
  /-- a `PstreeLogin` -/
  | login (u : User) (r : Rec)
  /-- a `TreeGroup` of processes, of logins -/
  | group (children : List (Str × Tree Rec))
  | logins (children : List (Str × Tree (User × Rec)))
  | number (n : Nat)
  /-- an attribute of the `psutil.Process` of this process -/
  | member (pid : Nat) (name : Str)
  /-- an attribute of the entry of `psutil.users()` -/
  | detail (u : User) (name : Str)
  /-- `TreeGroup.children` -/
  | dict
  /-- `INFO` and attributes of `RunningProcess` objects -/
  | own (name : Str)

/-- `PstreeProcess._children` (ps.py:70-74); the recursion limit is far above the depth of these trees. -/
def tree (M : Machine) (slug : Str → Str) (r : Rec) : Option (Tree Rec) :=
  build slug Rec.key Rec.ident 1000 0 (M.childrenOf r)

/-- An item of a tree of processes as a value. [tree.py:17-19] -/
def ofTree : Tree Rec → Obj
  | .leaf r => .proc (some r)
  | .group ch => .group ch

/-- `getattr` on a `TreeGroup` of processes (tree.py:14, 22-25) -/
def groupAttr (ch : List (Str × Tree Rec)) (k : Str) : Except Exn Obj :=
  if k = c!"children" then .ok .dict
  else match Dict.get? ch k with
    | some t => .ok (ofTree t)
    | none => .error .attributeError

/-- `getattr(self.INFO, key)` (ps.py:91) -/
def infoAttr (ps : Str → Bool) (r : Rec) (k : Str) : Except Exn Obj :=
  if k = c!"pid" then .ok (.number r.pid) else if ps k then .ok (.member r.pid k) else .error .attributeError

/-- `PstreeProcess.__getattr__` (ps.py:86-91), with the bare `except`. -/
def fallback (M : Machine) (slug : Str → Str) (ps : Str → Bool) (r : Rec) (k : Str) : Except Exn Obj :=
  match tree M slug r with
  | some (.group ch) => match groupAttr ch k with
    | .ok o => .ok o
    | .error _ => infoAttr ps r k
  | _ => infoAttr ps r k

/-- `PstreeProcess(os.getpgid(self.pid))` and the same for sessions (ps.py:78-83).  `self.pid` goes through `__getattr__`;
`TypeError` if that is no number; `other` is `psutil.NoSuchProcess`. -/
def leader (M : Machine) (slug : Str → Str) (ps : Str → Bool) (which : Rec → Nat) (r : Rec) : Except Exn Obj :=
  match fallback M slug ps r c!"pid" with
  | .error e => .error e
  | .ok (.number n) => match M.find n with
    | none => .error (.osError 3)
    | some q => match M.find (which q) with
      | some g => .ok (.proc (some g))
      | none => .error .other
  | .ok _ => .error .typeError

/-- `getattr` on a `PstreeProcess` (ps.py:33-91).  If `INFO` is `None` everything ends in an `AttributeError`. -/
def procAttr (M : Machine) (slug : Str → Str) (ps : Str → Bool) : Option Rec → Str → Except Exn Obj
  | none, k => if k = c!"INFO" then .ok (.own k) else .error .attributeError
  | some r, k =>
    if k = c!"INFO" then .ok (.own k)
    else if k = c!"PARENT" then .ok (.proc (M.find r.ppid))
    else if k = c!"GROUP" then leader M slug ps Rec.pgid r
    else if k = c!"SESS" then leader M slug ps Rec.sid r
    else fallback M slug ps r k

/-- `getattr` on a `PstreeLogin` (ps.py:103-115): the process is asked first, then the entry, whatever went wrong. -/
def loginAttr (M : Machine) (slug : Str → Str) (ps det : Str → Bool) (u : User) (r : Rec) (k : Str) : Except Exn Obj :=
  if k = c!"details" then .ok (.detail u [])
  else if k = c!"process" then .ok (.proc (some r))
  else match procAttr M slug ps (some r) k with
    | .ok o => .ok o
    | .error _ => if det k then .ok (.detail u k) else .error .attributeError

/-- `PstreeLogin._getkey` (ps.py:117-122) -/
def loginKey (x : User × Rec) (level : Nat) : Option Str := (Login.mk x.1.name x.1.host x.2.proc).key level

/-- `PstreeLogin._getkey(None)` (ps.py:122) -/
def loginIdent (x : User × Rec) : Str := x.2.ident

/-- `PstreeLogin(login)` for each login (ps.py:103-106, 130); `none` is `psutil.NoSuchProcess`. -/
def Machine.sessions (M : Machine) : Option (List (User × Rec)) := M.users.mapM (fun u => (M.find u.pid).map (fun r => (u, r)))

/-- `USERS`: `PstreeLogins._children` (ps.py:127-130) -/
def usersTree (M : Machine) (slug : Str → Str) : Except Exn (List (Str × Tree (User × Rec))) :=
  match M.sessions with
  | none => .error .other
  | some l => match build slug loginKey loginIdent 1000 0 l with
    | some (.group ch) => .ok ch
    | _ => .error .indexError

/-- `getattr` on a `TreeGroup` of logins (tree.py:14, 22-25) -/
def loginsAttr (ch : List (Str × Tree (User × Rec))) (k : Str) : Except Exn Obj :=
  if k = c!"children" then .ok .dict
  else match Dict.get? ch k with
    | some (.leaf x) => .ok (.login x.1 x.2)
    | some (.group ch) => .ok (.logins ch)
    | none => .error .attributeError

/-- `getattr(o, k)` for everything met on the way. [ps.py:86-91, 111-115, 133-135, tree.py:22-25] -/
def attr (M : Machine) (slug : Str → Str) (ps det : Str → Bool) (o : Obj) (k : Str) : Except Exn Obj :=
  match o with
  | .proc i => procAttr M slug ps i k
  | .login u r => loginAttr M slug ps det u r k
  | .group ch => groupAttr ch k
  | .logins ch => loginsAttr ch k
  | _ => .error .other

/-- `o.k₁.k₂...` [Not in /repo: python's attribute access] -/
def path (M : Machine) (slug : Str → Str) (ps det : Str → Bool) : Obj → List Str → Except Exn Obj
  | o, [] => .ok o
  | o, k :: p => match attr M slug ps det o k with
    | .ok o' => path M slug ps det o' p
    | .error e => .error e

/-- `USERS.k₁.k₂...` (ps.py:133-135, 137) -/
def usersPath (M : Machine) (slug : Str → Str) (ps det : Str → Bool) (p : List Str) : Except Exn Obj :=
  match usersTree M slug with
  | .error e => .error e
  | .ok ch => path M slug ps det (.logins ch) p

/-- `repr(p)` for a `PstreeProcess` (ps.py:98-101); the command line must be readable (`none`: `psutil.AccessDenied`). -/
def shown (slug : Str → Str) (printable : Char → Bool) : Option Rec → Except Exn Str
  | none => .error .attributeError
  | some r => match r.proc.cmdline with
    | none => .error .other
    | some l => .ok (Cmd.cmdline2pieshell slug printable l ++ c!" as " ++ Nat.toDigits 10 r.pid)

/-- `dir(p)` (ps.py:84-85, tree.py:20-21); `none` if the tree cannot be made. -/
def names (M : Machine) (slug : Str → Str) (r : Rec) : Option (List Str) :=
  match tree M slug r with
  | some (.group ch) => some (ch.map Prod.fst)
  | _ => none

/-- The members of a `RunningProcess` whose names do not begin with an underscore (running.py:169-188, 190-226, 255-281). -/
def itemMembers : List Str :=
  [c!"cmd", c!"iohandler", c!"output_content", c!"details", c!"await_finish", c!"is_running", c!"output_files", c!"handle_pipeline_finish",
   c!"handle_pipeline_finish_destructive", c!"restart", c!"suspend", c!"pid", c!"is_failed", c!"exit_code", c!"remove_output_files",
   c!"running_pipeline"]

/-- `getattr` on a `RunningProcess` (running.py:255-261, 317-320); `details`, its `PstreeProcess`, is `none` if there was none
when the program had been started. -/
def itemAttr (M : Machine) (slug : Str → Str) (ps : Str → Bool) (details : Option Rec) (k : Str) : Except Exn Obj :=
  if k ∈ itemMembers then (if k = c!"details" then match details with
      | some r => .ok (.proc (some r))
      | none => .ok (.own k) else .ok (.own k))
  else match details with
    | none => .error .attributeError
    | some r => procAttr M slug ps (some r) k

end Pieshell.Ps
