import Verif.Model.Writer
import Verif.Model.Text

/-!
What a python function in a pipeline sends: `Function._run` (pieshell/pipeline/function.py:69-116), `itertoasync`
and `asyncmap` (pieshell/utils/asyncutils.py:14-39), `OutputHandler.get_iter` (iterio.py:99-104).
-/
namespace Pieshell.Func
open Pieshell.Io

/-- Python values as far as `convert` distinguishes them: `None`, `bytes`, `str`, a coroutine object (which returns a
value when awaited), and others, with the result of `str(x)` (`none` if that raises). [function.py:76-84] -/
inductive Val where
  | none
  | bytes (b : Bytes)
  | str (s : Str)
  | coro (result : Val)
  | other (text : Option Str)

/-- What calling the function (or the object in the pipeline) gives, as far as `_run` distinguishes it.
[function.py:87-103] -/
inductive Result where
  /-- neither `__iter__` nor `__aiter__`: numbers, `None`, most objects -/
  | scalar (v : Val)
  /-- a `str`: has `__iter__`, over its characters -/
  | str (s : Str)
  /-- a `bytes`: has `__iter__`, over its bytes as numbers -/
  | bytes (b : Bytes)
  /-- a coroutine: called function was `async def` -/
  | coroutine (v : Val)
  /-- any other object with `__iter__`: lists, generators, ...: items, and whether it raises at the end -/
  | iterable (items : List Val) (raises : Bool)
  /-- an object with `__anext__` (asynchronous generator, `LineInputHandler`) -/
  | asyncIterator (items : List Val) (raises : Bool)
  /-- an object with `__aiter__` but without `__anext__` -/
  | asyncIterable (items : List Val)

/-- `str` of a byte value taken from a `bytes` object: decimal digits. [function.py:84] -/
def byteText (b : Byte) : Str := (toString b.toNat).toList

/-- `str` of a coroutine object: `<coroutine object f at 0x...>` (name and address not modelled).
[function.py:84] -/
def coroText : Str := c!"<coroutine object>"

/-- `convert` (function.py:76-84). -/
def convert : Val → Writer.Prod
  | .none => .skip
  | .bytes b => .item b
  | .str s => .item (encode s)
  | .coro _ => .item (encode coroText)
  | .other (some t) => .item (encode t)
  | .other Option.none => .fail

/-- `itertoasync.__anext__` (asyncutils.py:20-27): a coroutine is awaited (once). -/
def awaitItem : Val → Val
  | .coro v => v
  | v => v

/-- An iterator's exception ends it. [iterio.py:115-118, 138-142] -/
def ending (raises : Bool) : List Writer.Prod := if raises then [.fail] else []

/-- The sequence of answers that `LineOutputHandler` gets from the iterator made by `_run`
(function.py:87-103, asyncutils.py:29-39).  `asyncmap` has `__anext__`, so `get_iter` (iterio.py:99-104) never calls its
`__aiter__`, and an object with `__aiter__` only raises `AttributeError` when asked. -/
def produced : Result → List Writer.Prod
  | .scalar v => [convert (awaitItem v)]
  | .str s => s.map (fun c => convert (.str [c]))
  | .bytes b => b.map (fun x => convert (.other (some (byteText x))))
  | .coroutine v => [convert v]
  | .iterable items raises => items.map (fun v => convert (awaitItem v)) ++ ending raises
  | .asyncIterator items raises => items.map convert ++ ending raises
  | .asyncIterable _ => [.fail]

end Pieshell.Func
