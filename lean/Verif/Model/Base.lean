/-!
# Common vocabulary of the model

Python exceptions, strings, and insertion-ordered dictionaries.
-/
namespace Pieshell

/-- Python `str`, as a list of code points. [Not in /repo: python's `str`] -/
abbrev Str := List Char

open Lean in
/-- `c!"abc"` is the character list `['a','b','c']` (a literal that the kernel can compute with). -/
macro:max "c!" s:str : term => do
  let cs : Array (TSyntax `term) :=
    (s.getString.toList.map (fun c => (Syntax.mkCharLit c : TSyntax `term))).toArray
  `(([$cs,*] : List Char))

/-- The Python exceptions that the modelled code can raise (class only; `osError` carries `errno`).
[The classes raised at environ.py:98, 133-134, redir.py:75, 130, base.py:103, command.py:66 and by python itself] -/
inductive Exn where
  | keyError | osError (errno : Nat) | assertion | typeError | valueError | nameError
  | attributeError | indexError | fileNotFound | invalidState | other
deriving DecidableEq, Repr

/-- `errno.EPERM` [Not in /repo: errno(3)] -/
def EPERM : Nat := 1
/-- `errno.EBADF` [Not in /repo: errno(3)] -/
def EBADF : Nat := 9
/-- `errno.ENOENT` [Not in /repo: errno(3)] -/
def ENOENT : Nat := 2

/-- Two lists of the same length, related position by position.
[Not in /repo: vocabulary of the specification] -/
inductive Pointwise {α β : Type} (R : α → β → Prop) : List α → List β → Prop
  | nil : Pointwise R [] []
  | cons {a b l l'} : R a b → Pointwise R l l' → Pointwise R (a :: l) (b :: l')

/-- A Python `dict`: key/value pairs in insertion order.
[Not in /repo: python's `dict`, as used e.g. at redir.py:160, environ.py:118] -/
abbrev Dict (κ : Type) (α : Type) := List (κ × α)

namespace Dict
variable {κ α : Type} [DecidableEq κ]

/-- `d.get(k)` [Not in /repo: python's `dict`, used at redir.py:232] -/
def get? : Dict κ α → κ → Option α
  | [], _ => none
  | (k', v) :: d, k => if k' = k then some v else get? d k

/-- `d[k] = v`: replaces the value in place, or appends a new pair.
[Not in /repo: python's `dict`, used at redir.py:180] -/
def set : Dict κ α → κ → α → Dict κ α
  | [], k, v => [(k, v)]
  | (k', v') :: d, k, v => if k' = k then (k, v) :: d else (k', v') :: set d k v

/-- `del d[k]` for a key that is present. [Not in /repo: python's `dict`, used at redir.py:178] -/
def erase : Dict κ α → κ → Dict κ α
  | [], _ => []
  | (k', v') :: d, k => if k' = k then d else (k', v') :: erase d k

/-- `k in d` [Not in /repo: python's `dict`, used at redir.py:217] -/
def mem (d : Dict κ α) (k : κ) : Bool := (get? d k).isSome

/-- `d.keys()` [Not in /repo: python's `dict`, used at environ.py:237] -/
def keys (d : Dict κ α) : List κ := d.map Prod.fst
/-- `d.values()` [Not in /repo: python's `dict`, used at redir.py:163, 172] -/
def values (d : Dict κ α) : List α := d.map Prod.snd

/-- No key occurs twice: holds of every Python dict. [Not in /repo: a property of python's `dict`] -/
def Uniq (d : Dict κ α) : Prop := (keys d).Nodup

/-- `d.update(e)` [Not in /repo: python's `dict`, used at builtins.py:173-174] -/
def update (d e : Dict κ α) : Dict κ α := e.foldl (fun d kv => set d kv.1 kv.2) d

end Dict
end Pieshell
