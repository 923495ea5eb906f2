import Verif.Model.Func

/-! Specification: the lines a user expects a function's result to be sent as. -/
namespace Pieshell.Func
open Pieshell.Io

/-- A value as it is sent: nothing for `None`, bytes as they are, anything else as its text.  (A coroutine among the
items of a sequence stands for its result.) -/
def sentAs : Val → Option Bytes
  | .none => Option.none
  | .bytes b => some b
  | .str s => some (encode s)
  | .coro v => sentAs v
  | .other t => t.map encode

/-- The items a user expects: a sequence item by item, anything else, in particular a string, as one item. -/
def expected : Result → List Val
  | .scalar v => [v]
  | .str s => [.str s]
  | .bytes b => [.bytes b]
  | .coroutine v => [v]
  | .iterable items _ => items
  | .asyncIterator items _ => items
  | .asyncIterable items => items

/-- The bytes expected on the pipe. -/
def expectedOutput (r : Result) : Bytes := ((expected r).filterMap sentAs).flatMap (· ++ [NL])

/-- Values that have a text. -/
def Val.plain : Val → Bool
  | .other Option.none => false
  | .coro _ => false
  | _ => true

/-- A plain value, or a coroutine giving a plain value. -/
def Val.plainItem : Val → Bool
  | .coro v => v.plain
  | v => v.plain

/-- Results to which the property applies in the code: no strings, no bytes, no asynchronous iterables that are not
iterators, nothing that raises; coroutines only as items of synchronous iterables. -/
def Result.regular : Result → Bool
  | .scalar v => v.plainItem
  | .str _ => false
  | .bytes _ => false
  | .coroutine v => v.plain
  | .iterable items raises => !raises && items.all Val.plainItem
  | .asyncIterator items raises => !raises && items.all Val.plain
  | .asyncIterable _ => false

end Pieshell.Func
