import Verif.Model.PyRepr
/-!
# Model of process browsing (`pieshell/tree.py`, `_getkey` in `pieshell/pipeline/running.py` and `pieshell/ps.py`)

`slugify.slugify(·, separator="_")` is a parameter.  An exception inside `_getkey` is `none`.
-/
namespace Pieshell.Tree

/-- A `TreeGroup` or an item. [tree.py:4-19] -/
inductive Tree (α : Type) where
  | leaf (a : α)
  | group (children : List (Str × Tree α))

/-- `re.match(r"^[0-9]", key)` (tree.py:10) -/
def startsWithDigit : Str → Bool
  | c :: _ => c.isDigit
  | [] => false

/-- The key under which a child is filed (tree.py:8-11). -/
def finalKey (slug : Str → Str) (key : Str) : Str :=
  let key := slug key
  if startsWithDigit key then 'n' :: key else key

variable {α : Type}

/-- `if key not in procs: procs[key] = {}` and `procs[key][child._getkey(None)] = child` (tree.py:12-13) -/
def file (procs : Dict Str (Dict Str α)) (key ident : Str) (child : α) : Dict Str (Dict Str α) :=
  procs.set key (((procs.get? key).getD []).set ident child)

/-- The loop over the children (tree.py:6-13). -/
def collect (slug : Str → Str) (key : α → Nat → Option Str) (ident : α → Str) (level : Nat) :
    List α → Dict Str (Dict Str α) → Option (Dict Str (Dict Str α))
  | [], procs => some procs
  | a :: l, procs => match key a level with
    | none => none
    | some k => collect slug key ident level l (file procs (finalKey slug k) (ident a) a)

/-- `TreeGroup(children, level)` (tree.py:5-19).  The first argument bounds the depth of the recursion (Python's recursion
limit); `none` is an exception. -/
def build (slug : Str → Str) (key : α → Nat → Option Str) (ident : α → Str) : Nat → Nat → List α → Option (Tree α)
  | 0, _, _ => none
  | n + 1, level, items =>
    match collect slug key ident level items [] with
    | none => none
    | some procs =>
      (procs.mapM (fun kv : Str × Dict Str α => match kv.2 with
        | [(_, child)] => some (kv.1, Tree.leaf child)
        | value => (build slug key ident n (level + 1) value.values).map (fun t => (kv.1, t)))).map Tree.group

/-- `getattr(getattr(t, p₀), p₁)...`, with `TreeGroup.__getattr__` (tree.py:22-25) asked for names that are not members of
the class; `reserved` are these members. -/
def walk (reserved : Str → Bool) : Tree α → List Str → Option (Tree α)
  | t, [] => some t
  | .leaf _, _ :: _ => none
  | .group ch, k :: p => if reserved k then none else match Dict.get? ch k with
    | none => none
    | some t => walk reserved t p

/-- The only member of a `TreeGroup` whose name does not start with an underscore (tree.py:14). -/
def groupReserved (k : Str) : Bool := k = c!"children"

/-- Members of `RunningPipeline` whose names do not start with an underscore (running.py:63-149): they are found before
`__getattr__` (running.py:150-152) is asked. -/
def pipelineMembers : List Str :=
  [c!"finish_future", c!"processes", c!"pipeline", c!"pipeline_suspended", c!"finished", c!"iterbytes", c!"restart",
   c!"suspend", c!"wait", c!"handle_finish", c!"remove_output_files", c!"failed_processes", c!"running_processes",
   c!"is_running", c!"is_failed", c!"exit_code"]

/-- Attribute access from a running pipeline (running.py:145-152): `p.a.b.c`.  A member of the pipeline hides the child. -/
def browse (t : Tree α) : List Str → Option (Tree α)
  | [] => none
  | k :: p => if k ∈ pipelineMembers then none else walk groupReserved t (k :: p)

/-- An item of `RunningPipeline.processes`. [running.py:169-336] -/
inductive Item where
  /-- `RunningProcess`: `id`, argument list as shown (`cmd._arg_list()`), `repr(cmd)` -/
  | proc (id : Nat) (args : List Str) (shown : Str)
  /-- `RunningFunction`: `id`, `cmd._function_name()`, `repr(cmd)` -/
  | func (id : Nat) (name : Str) (shown : Str)
  /-- other items (`RunnningFg`) -/
  | base (id : Nat)
deriving DecidableEq, Repr

/-- `str(id(self))`: `_getkey(None)` of all items. [running.py:188, 226, 253, 324, 336] -/
def Item.ident : Item → Str
  | .proc id _ _ => Nat.toDigits 10 id
  | .func id _ _ => Nat.toDigits 10 id
  | .base id => Nat.toDigits 10 id

/-- `name.split(".")[-1]` [running.py:248] -/
def afterDot : Str → Str
  | [] => []
  | c :: s => if c = '.' then afterDot s else if '.' ∈ s then afterDot s else c :: s

/-- `_getkey(level)` (running.py:187-188, 245-253, 322-336) -/
def Item.key : Item → Nat → Option Str
  | .proc id args shown, level =>
    let pre := args.take (Cmd.splitIdx args)
    let level := if pre.length = 1 ∧ level ≥ 1 then level + 1 else if pre.length = 0 then level + 2 else level
    match level with
    | 0 => pre.head?
    | 1 => some (Cmd.joinWith c!"." pre)
    | 2 => some shown
    | _ => some (Nat.toDigits 10 id)
  | .func id name shown, level => match level with
    | 0 => some (afterDot name)
    | 1 => some name
    | 2 => some shown
    | _ => some (Nat.toDigits 10 id)
  | .base id, _ => some (Nat.toDigits 10 id)

/-- `RunningPipeline._children` (running.py:145-147); `limit` is the recursion limit. -/
def children (slug : Str → Str) (limit : Nat) (items : List Item) : Option (Tree Item) :=
  build slug Item.key Item.ident limit 0 items

/-! ### The process tree (`ps.py:36-68`) -/

/-- What `psutil` says about a process; `none` is `psutil.AccessDenied`. [ps.py:33-68] -/
structure Proc where
  pid : Nat
  exe : Option Str
  cmdline : Option (List Str)
deriving DecidableEq, Repr

/-- `"pid_" + str(pid)`: `_getkey(None)` (ps.py:47-48, 64-65) -/
def Proc.ident (p : Proc) : Str := c!"pid_" ++ Nat.toDigits 10 p.pid

/-- `name.split("/")[-1]` [ps.py:63] -/
def afterSlash : Str → Str
  | [] => []
  | c :: s => if c = '/' then afterSlash s else if '/' ∈ s then afterSlash s else c :: s

/-- `PstreeProcess._getkey(level)` (ps.py:46-68); `none` is the `IndexError` of `_keys[level]`. -/
def Proc.key (p : Proc) : Nat → Option Str
  | 0 => match p.exe with
    | some e => some (afterSlash e)
    | none => match p.cmdline with
      | some l => some (Cmd.joinWith c!" " l)
      | none => some p.ident
  | 1 => match p.exe with
    | some e => some e
    | none => match p.cmdline with
      | some l => some (Cmd.joinWith c!" " l)
      | none => some p.ident
  | 2 => match p.cmdline with
    | some l => some (Cmd.joinWith c!" " l)
    | none => some p.ident
  | 3 => some p.ident
  | _ => none

/-- `PstreeLogin` (ps.py:103-125): a login, its host and its process. -/
structure Login where
  name : Str
  host : Str
  process : Proc
deriving DecidableEq, Repr

/-- `PstreeLogin._getkey(None)` (ps.py:122). -/
def Login.ident (l : Login) : Str := l.process.ident

/-- `PstreeLogin._getkey(level)` (ps.py:117-122). -/
def Login.key (l : Login) : Nat → Option Str
  | 0 => some l.name
  | 1 => some l.host
  | n + 2 => l.process.key n

end Pieshell.Tree
