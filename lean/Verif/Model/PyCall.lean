import Verif.Model.Base
/-!
# Model of calling python functions, and of `pyshfunction` (pieshell/environ.py:184-189)

How python binds the arguments of a call to the parameters of a function (CPython, `initialize_locals`).  All failures are `TypeError`s, so that the
order of the checks does not show.  `α` are python values.
-/
namespace Pieshell.PyCall

/-- A function as far as calls are concerned: the parameters are part of the code, the default values are not.
`pos`: positional parameters, of which the first `posonly` cannot be given by name; `star`: there is an `*args`; `kwonly`: parameters that can only be given by
name; `kw`: there is a `**kw`; `defaults`: `__defaults__`, of the last positional parameters; `kwdefaults`: `__kwdefaults__`.
[Python's function objects, as used at environ.py:185-189] -/
structure Func (α : Type) where
  pos : List Str
  posonly : Nat
  star : Bool
  kwonly : List Str
  kw : Bool
  defaults : List α
  kwdefaults : Dict Str α

/-- The arguments of a call, e.g. function.py:88-90. -/
structure Call (α : Type) where
  args : List α
  kws : Dict Str α

/-- What the body of the function starts with: parameters, `*args`, `**kw`.
[Not in /repo: the Python language reference, 6.3.4] -/
structure Locals (α : Type) where
  vars : Dict Str α
  rest : List α
  extra : Dict Str α
deriving DecidableEq

variable {α : Type}

/-- the loop over the keyword arguments [Not in /repo: the Python language reference, 6.3.4] -/
def addKws (f : Func α) : Dict Str α → Dict Str α → Dict Str α → Except Exn (Dict Str α × Dict Str α)
  | [], vars, extra => .ok (vars, extra)
  | (k, v) :: kws, vars, extra =>
    if k ∈ f.pos.drop f.posonly ∨ k ∈ f.kwonly then
      if vars.mem k then .error .typeError else addKws f kws (vars.set k v) extra
    else if f.kw then addKws f kws vars (extra.set k v)
    else .error .typeError

/-- default values of positional parameters, from parameter `i` on; `n` is the number of all positional parameters
[Not in /repo: the Python language reference, 6.3.4] -/
def fillPos (f : Func α) (n : Nat) : Nat → List Str → Dict Str α → Except Exn (Dict Str α)
  | _, [], vars => .ok vars
  | i, p :: ps, vars =>
    if vars.mem p then fillPos f n (i + 1) ps vars
    else if i + f.defaults.length < n then .error .typeError
    else match f.defaults[i + f.defaults.length - n]? with
      | some v => fillPos f n (i + 1) ps (vars.set p v)
      | none => .error .typeError

/-- default values of parameters that can only be given by name
[Not in /repo: the Python language reference, 6.3.4] -/
def fillKw (f : Func α) : List Str → Dict Str α → Except Exn (Dict Str α)
  | [], vars => .ok vars
  | p :: ps, vars =>
    if vars.mem p then fillKw f ps vars
    else match f.kwdefaults.get? p with
      | some v => fillKw f ps (vars.set p v)
      | none => .error .typeError

/-- `f(*args, **kws)`, up to the beginning of the body
[Not in /repo: the Python language reference, 6.3.4; calls e.g. at function.py:88-90] -/
def bind (f : Func α) (c : Call α) : Except Exn (Locals α) :=
  match addKws f c.kws (f.pos.zip c.args) [] with
  | .error e => .error e
  | .ok (vars, extra) =>
    if f.pos.length < c.args.length && !f.star then .error .typeError
    else match fillPos f f.pos.length 0 f.pos vars with
      | .error e => .error e
      | .ok vars => match fillKw f f.kwonly vars with
        | .error e => .error e
        | .ok vars => .ok ⟨vars, c.args.drop f.pos.length, extra⟩

/-- `Environment.pyshfunction`, environ.py:184-189: a new function with the same code, default values of positional parameters and closure; `types.FunctionType` does not
take `__kwdefaults__`. -/
def pyshfunction (f : Func α) : Func α := { f with kwdefaults := [] }

end Pieshell.PyCall
