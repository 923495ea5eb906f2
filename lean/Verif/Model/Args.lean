import Verif.Model.Base
/-!
# Model of command construction and argument lists (`pipeline/command.py:28-153`)

Simplifications:
* python values used as arguments are: strings, `R(...)`, booleans, objects that become a named pipe (pipelines,
  functions, iterables, bytes), and other objects, of which only `str()` is used;
* `Environment` is left out (`self._env` is handed on unchanged); `_expand_argument` on strings is a parameter
  (modelled in `Model/Expand`);
* starting the pipeline for an argument is a parameter (modelled in `Model/Run`): a function that yields the word and
  the new state;
* keyword arguments of one call have distinct names (python guarantees it); a dict passed positionally may also be used.
-/
namespace Pieshell.Cmd

/-- A python value used as an argument. [command.py:139-151 (values of `arg` and of dict entries)] -/
inductive Val where
  | str (s : Str)
  /-- `environ.R(s)`, environ.py:18-27 -/
  | raw (s : Str)
  | bool (b : Bool)
  /-- pipeline, function, iterable, iterator or bytes; `hashable` is false e.g. for a list -/
  | piped (id : Nat) (hashable : Bool)
  /-- any other object; `text` is `str()` of it -/
  | obj (text : Str)
deriving DecidableEq, Repr

/-- An element of `BaseCommand._arg`. [command.py:54-56] -/
inductive Elem where
  | val (v : Val) | dict (kvs : List (Str × Val))
deriving DecidableEq, Repr

/-- The class of a command object: `BaseCommand` itself, `Command`, or the builtin registered under a name
(builtin.py:3-14, pieshell/__init__.py:28-29). -/
inductive Kind where
  | base | external | builtin (name : Str)
deriving DecidableEq, Repr

/-- A command object: its class and `_arg`. [command.py:43-57] -/
structure Command where
  kind : Kind
  args : List Elem
deriving DecidableEq, Repr

/-- `BaseCommand.__new__` and `__init__`, command.py:43-57, called on class `cls`; `registered` is membership in
`BuiltinRegistry.builtins`. Looking up an unhashable first argument raises TypeError. -/
def newCommand (registered : Str → Bool) (cls : Kind) (args : List Elem) : Except Exn Command :=
  match cls, args with
  | .base, .val (.str s) :: rest =>
    .ok { kind := if registered s then .builtin s else .external, args := .val (.str s) :: rest }
  | .base, .val (.piped id h) :: rest =>
    if h then .ok { kind := .external, args := .val (.piped id h) :: rest } else .error .typeError
  | .base, .dict _ :: _ => .error .typeError
  | .base, .val v :: rest => .ok { kind := .external, args := .val v :: rest }
  | .base, [] => .ok { kind := .base, args := [] }
  | cls, args => .ok { kind := cls, args := args }

/-- `BaseCommand.__call__`, command.py:69-81. -/
def call (registered : Str → Bool) (c : Command) (pos : List Elem) (kw : List (Str × Val)) : Except Exn Command :=
  newCommand registered c.kind (c.args ++ (pos ++ (if kw = [] then [] else [.dict kw])))

/-- The names found as python attributes of a command object, for which `__getattr__` is therefore not called: the
public methods of `Pipeline` (base.py:143-189) and of `type` (`mro`), `name` of builtins (builtins.py), and
`parse_decls` of bashsource (builtins.py:166), and the underscored names in base.py, command.py and builtins.py.
Simplified: names starting with two underscores are all counted as attributes, and so are the underscored names that
only some kinds of command have, or only once they have been run. -/
def isMember (k : Kind) (name : Str) : Bool :=
  name.take 2 == c!"__" ||
  [c!"_env", c!"_started", c!"_print_state", c!"_coerce", c!"_run", c!"_repr", c!"_arg", c!"_running_process",
   c!"_split_args", c!"_arg_list", c!"_arg_list_sh", c!"_handle_arg_pipes_wrapper", c!"_handle_arg_pipes", c!"_child",
   c!"_complete", c!"_running_processes", c!"_pid", c!"_redirects", c!"_cmd", c!"_path", c!"_replacements"].contains name ||
  [c!"run", c!"run_interactive", c!"async_run_interactive", c!"to_dataframe", c!"mro"].contains name ||
  (match k with
   | .builtin b => name == c!"name" || (b == c!"bashsource" && name == c!"parse_decls")
   | _ => false)

/-- What evaluating `c.name` gives: a new command (command.py:83-92), or an existing python attribute. -/
inductive Attr where
  | command (c : Command) | member

/-- `c.name` [command.py:83-92] -/
def getAttr (registered : Str → Bool) (c : Command) (name : Str) : Except Exn Attr :=
  if isMember c.kind name then .ok .member
  else match newCommand registered c.kind (c.args ++ [.val (.str name)]) with
    | .ok c' => .ok (.command c')
    | .error e => .error e

/-- `-c`, command.py:65-67. -/
def neg (c : Command) : Except Exn Str :=
  match c.args with
  | [.val (.str s)] => .ok ('-' :: s)
  | [_] => .error .typeError
  | _ => .error .assertion

/-- `c - d`, command.py:62-63. -/
def sub (registered : Str → Bool) (c d : Command) : Except Exn Command :=
  match neg d with
  | .error e => .error e
  | .ok w => call registered c [.val (.str w)] []

/-- Names that are attributes of `Environment` objects (environ.py:29-197): `env.name` is not a command. -/
def isEnvMember (name : Str) : Bool :=
  (name.head? == some '_' && name != c!"_") ||
  [c!"running_pipelines", c!"temporary_env", c!"pyshfunction", c!"last_pipeline"].contains name

/-- `env.name`, environ.py:130-138 (for a name that is not an attribute). -/
def envAttr (registered : Str → Bool) (name : Str) : Except Exn Command :=
  if name = c!"_" then newCommand registered .base [] else newCommand registered .base [.val (.str name)]

/-! ## Argument lists -/

/-- `str(v)` as used by `%s` [command.py:149, environ.py:81-82] -/
def Val.text : Val → Str
  | .str s => s
  | .raw s => s
  | .bool true => c!"True"
  | .bool false => c!"False"
  | .piped _ _ => []
  | .obj t => t

section
variable {σ : Type} (expand : Str → Except Exn (List Str)) (pipe : Nat → σ → Str × σ)

/-- `_handle_arg_pipes_wrapper` with redirects, command.py:125-131 and 180-193: a value that becomes a named pipe is
replaced by the path of that pipe. -/
def handlePipes (v : Val) (s : σ) : Val × σ :=
  match v with
  | .piped id _ => (.str (pipe id s).1, (pipe id s).2)
  | v => (v, s)

/-- `Environment._expand_argument`, environ.py:81-82: `R` gives its string, other non-strings themselves. -/
def expandVal : Val → Except Exn (List Val)
  | .raw s => .ok [.str s]
  | .str s => match expand s with
    | .error e => .error e
    | .ok l => .ok (l.map .str)
  | v => .ok [v]

/-- `name.replace("_", "-")` [command.py:146, 149] -/
def dashes (name : Str) : Str := name.map (fun c => if c = '_' then '-' else c)

/-- the loop over one dict, command.py:142-149 -/
def argDict : List (Str × Val) → σ → Except Exn (List Val × σ)
  | [], s => .ok ([], s)
  | (name, v) :: rest, s =>
    match v with
    | .bool false => argDict rest s
    | .bool true =>
      match argDict rest s with
      | .error e => .error e
      | .ok (ws, s') => .ok (.str (c!"--" ++ dashes name) :: ws, s')
    | v =>
      let h := handlePipes pipe v s
      match expandVal expand h.1 with
      | .error e => .error e
      | .ok ms =>
        match argDict rest h.2 with
        | .error e => .error e
        | .ok (ws, s') => .ok (ms.map (fun m => .str (c!"--" ++ dashes name ++ c!"=" ++ m.text)) ++ ws, s')

/-- `_arg_list`, command.py:133-153. -/
def argList : List Elem → σ → Except Exn (List Val × σ)
  | [], s => .ok ([], s)
  | .dict kvs :: rest, s =>
    match argDict expand pipe kvs s with
    | .error e => .error e
    | .ok (ws, s1) =>
      match argList rest s1 with
      | .error e => .error e
      | .ok (ws', s2) => .ok (ws ++ ws', s2)
  | .val v :: rest, s =>
    let h := handlePipes pipe v s
    match expandVal expand h.1 with
    | .error e => .error e
    | .ok ms =>
      match argList rest h.2 with
      | .error e => .error e
      | .ok (ws, s') => .ok (ms ++ ws, s')
end

/-- `_handle_arg_pipes_wrapper` without redirects (as used by `_repr`), command.py:125-131: everything that is neither
`str` nor `R` is shown as `/dev/fd/X`. -/
def hidePipes : Val → Val
  | .str s => .str s
  | .raw s => .raw s
  | _ => .str c!"/dev/fd/X"

/-- The elements as `_arg_list()` sees them without redirects. Booleans that are values of a dict are tested before
the wrapper is called (command.py:143-147). -/
def hideElem : Elem → Elem
  | .val v => .val (hidePipes v)
  | .dict kvs => .dict (kvs.map (fun p => (p.1, match p.2 with | .bool b => .bool b | v => hidePipes v)))

/-- `_arg_list()` without redirects. [command.py:133-153 with `redirects = None`] -/
def argListShown (expand : Str → Except Exn (List Str)) (args : List Elem) : Except Exn (List Val) :=
  match argList (σ := Unit) expand (fun _ _ => ([], ())) (args.map hideElem) () with
  | .error e => .error e
  | .ok (ws, _) => .ok ws

end Pieshell.Cmd
