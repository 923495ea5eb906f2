import Verif.Model.Run
/-!
# Model of the operators of pipelines (`pipeline/base.py:90-191`)

Simplifications:
* file names given as `bytes` or `PurePath` are represented by the text of the path;
* identity of python objects is a number (`id`); a `Function` made for object `id` is the leaf `id`;
* the `Environment` of the new objects is `self._env` and is left out;
* `float`s, modules, classes ... are `obj`s with the special methods they have.
-/
namespace Pieshell.Coerce

/-- The special methods an object has, as far as the code looks at them. [base.py:94-102] -/
structure Features where
  /-- `hasattr(x, "__iter__")` -/
  iter : Bool
  /-- `hasattr(x, "__next__")` -/
  next : Bool
  /-- `hasattr(x, "__aiter__")` -/
  aiter : Bool
deriving DecidableEq, Repr

/-- A python value. [base.py:90-104] -/
inductive PyVal where
  | none
  | bool (b : Bool)
  | str (s : Str) | bytes (s : Str) | path (s : Str)
  | redirect (r : Redirect) | redirects (rs : Redirects)
  | pipeline (p : Pipeline)
  /-- instance of `types.FunctionType` -/
  | function (id : Nat)
  /-- instance of `types.MethodType` -/
  | method (id : Nat)
  /-- anything else -/
  | obj (id : Nat) (f : Features)

/-- The result of `_coerce`: a pipeline or a `Redirects`. [base.py:90-104] -/
inductive Thing where
  | pipeline (p : Pipeline) | redirects (rs : Redirects)

/-- base.py:92-93 -/
def step1 : PyVal → PyVal
  | .none => .str c!"/dev/null"
  | v => v

/-- base.py:94-95 -/
def step2 (direction : Str) : PyVal → Except Exn PyVal
  | .str s | .bytes s | .path s =>
    match mkRedirect (.name direction) (.path s) with
    | .error e => .error e
    | .ok r => .ok (.redirect r)
  | v => .ok v

/-- base.py:96-97 (`defaults=False` is ignored by `Redirects.__init__`) -/
def step3 : PyVal → Except Exn PyVal
  | .redirect r =>
    match Redirects.new [.one r] with
    | .error e => .error e
    | .ok rs => .ok (.redirects rs)
  | v => .ok v

/-- base.py:98-101. (`Redirects` has neither `__iter__` nor `__next__`, redir.py:228-234.) -/
def step4 : PyVal → PyVal
  | .function id => .pipeline (.func id)
  | .method id => .pipeline (.func id)
  | .obj id f => if f.iter || f.next then .pipeline (.iter id) else .obj id f
  | v => v

/-- base.py:102-104 -/
def step5 : PyVal → Except Exn Thing
  | .pipeline p => .ok (.pipeline p)
  | .redirects rs => .ok (.redirects rs)
  | _ => .error .valueError

/-- `Pipeline._coerce`, base.py:90-104. A string already turned into a Redirect is not iterable, so the order of the
tests matters only as written here. -/
def coerce (thing : PyVal) (direction : Str) : Except Exn Thing :=
  match step2 direction (step1 thing) with
  | .error e => .error e
  | .ok v => match step3 v with
    | .error e => .error e
    | .ok v => step5 (step4 v)

/-- `Pipeline.__or__`, base.py:115-126. -/
def opOr (self : Pipeline) (other : PyVal) : Except Exn Pipeline :=
  match other with
  | .bool true => .ok self
  | _ => match coerce other c!"stdout" with
    | .error e => .error e
    | .ok (.redirects rs) => .ok (.redirect self rs)
    | .ok (.pipeline p) => .ok (.pipe self p)

/-- `Pipeline.__ror__`, base.py:105-114. -/
def opRor (self : Pipeline) (other : PyVal) : Except Exn Pipeline :=
  match coerce other c!"stdin" with
  | .error e => .error e
  | .ok (.redirects rs) => .ok (.redirect self rs)
  | .ok (.pipeline p) => .ok (.pipe p self)

/-- The python expression `x | y` when one side is a pipeline: the left operand's `__or__` if it is a pipeline, else
(no other modelled class accepts a pipeline) the right operand's `__ror__`.
[Python's data model; the methods are base.py:105-126] -/
def pyOr (x y : PyVal) : Except Exn Pipeline :=
  match x, y with
  | .pipeline p, y => opOr p y
  | x, .pipeline p => opRor p x
  | _, _ => .error .typeError

/-- What evaluating an operator expression does. [base.py:127-138, 164-191] -/
inductive Effect where
  /-- nothing is run; the value is this pipeline -/
  | value (p : Pipeline)
  /-- the pipeline is started in the background (`run()`, base.py:143-154) -/
  | started (p : Pipeline)
  /-- the pipeline is started and waited for (`run_interactive()`, base.py:156-162) -/
  | waited (p : Pipeline)

/-- an operator that only builds [base.py:130-138] -/
def building : Except Exn Pipeline → Except Exn Effect
  | .ok p => .ok (.value p)
  | .error e => .error e

/-- `p > f`, base.py:130-132. -/
def opGt (self : Pipeline) (file : PyVal) : Except Exn Effect := building (pyOr (.pipeline self) file)
/-- `p < f`, base.py:133-135. -/
def opLt (self : Pipeline) (file : PyVal) : Except Exn Effect := building (pyOr file (.pipeline self))
/-- `p & x`, base.py:127-129. -/
def opAnd (self : Pipeline) (other : PyVal) : Except Exn Effect :=
  match pyOr (.pipeline self) other with
  | .error e => .error e
  | .ok p => .ok (.started p)
/-- `p + q`, base.py:136-138. -/
def opAdd (self other : Pipeline) : Effect := .value (.group self other)
/-- `+p`, base.py:164-165. -/
def opPos (self : Pipeline) : Effect := .waited self
/-- `~p`, base.py:189-191. -/
def opInvert (self : Pipeline) : Effect := .started self
/-- `await p`, base.py:167-168. -/
def opAwait (self : Pipeline) : Effect := .waited self

/-- lexicographic order of `str`
[Not in /repo: python's `str.__lt__`, for operands that base.py:130-135 does not get] -/
def strLt : Str → Str → Bool
  | _, [] => false
  | [], _ :: _ => true
  | a :: l, b :: m => if a.toNat < b.toNat then true else if b.toNat < a.toNat then false else strLt l m

/-- The python comparison chain `p < a > b` for strings: it means `(p < a) and (a > b)`; a pipeline object is true (it
is a class object without `__bool__`/`__len__`, base.py:70-74), so the value is that of the string comparison
`a > b`, and the pipeline `p < a` is dropped without being run. -/
def chainLtGt (p : Pipeline) (a b : Str) : Except Exn (Effect ⊕ Bool) :=
  match opLt p (.str a) with
  | .error e => .error e
  | .ok _ => .ok (.inr (strLt b a))

end Pieshell.Coerce
