import Verif.Model.Redir
/-!
# Object-level model of `Redirect`/`Redirects` construction and borrowing

`Redirect` objects are mutable (only `borrowed` is ever assigned after construction, redir.py:85) and can be
shared. This model keeps them on a heap so that aliasing can be talked about; `Model/Redir` works with
values, which `Props/RedirTable` justifies.
-/
namespace Pieshell

/-- The `Redirect` objects in memory: those with address below `next` exist. [redir.py:71-83] -/
structure RHeap where
  objs : Nat → Redirect
  next : Nat

/-- The dict `Redirects.redirects` of one `Redirects` object: descriptor to object address. [redir.py:160] -/
abbrev RTable := Dict Nat Nat

namespace RHeap

/-- `Redirect(r)`, redir.py:71-83: a new object with the given attributes. -/
def alloc (h : RHeap) (r : Redirect) : Nat × RHeap :=
  (h.next, { objs := fun a => if a = h.next then r else h.objs a, next := h.next + 1 })

/-- `Redirect.borrow`, redir.py:84-85: mutates the object. -/
def borrowObj (h : RHeap) (a : Nat) : RHeap :=
  { h with objs := fun b => if b = a then (h.objs a).borrow else h.objs b }

/-- The value of a table: the attributes of its objects now. [redir.py:78-83] -/
def view (h : RHeap) (t : RTable) : Redirects := t.map (fun p => (p.1, h.objs p.2))

/-- `Redirects.register(redirect)` for a `Redirect` object, redir.py:174-181: stores the object itself. -/
def register (h : RHeap) (t : RTable) (a : Nat) : Except Exn RTable :=
  match (h.objs a).source with
  | .none => if Dict.mem t (h.objs a).fd then .ok (Dict.erase t (h.objs a).fd) else .error .keyError
  | _ => .ok (Dict.set t (h.objs a).fd a)

/-- The loop bodies `self.register(Redirect(item))`, redir.py:163-166: copy, then register. -/
def registerCopies (h : RHeap) (t : RTable) : List Nat → Except Exn RTable × RHeap
  | [] => (.ok t, h)
  | a :: l =>
    let (b, h1) := h.alloc (h.objs a)
    match h1.register t b with
    | .error e => (.error e, h1)
    | .ok t1 => registerCopies h1 t1 l

/-- `Redirects.__init__` with tables and single objects as arguments, redir.py:159-166. -/
def new (h : RHeap) (args : List (RTable ⊕ Nat)) : Except Exn RTable × RHeap :=
  h.registerCopies [] (args.flatMap (fun a => match a with | .inl t => Dict.values t | .inr a => [a]))

/-- `Redirects.borrow`, redir.py:167-169. -/
def borrow (h : RHeap) (t : RTable) : RHeap := (Dict.values t).foldl borrowObj h

end RHeap
end Pieshell
