import Verif.Model.Copy
/-! # Vocabulary for C19 -/
namespace Pieshell.Copy

/-- Nothing at or above `next`, and objects only refer to existing objects. -/
structure Heap.WF (h : Heap) : Prop where
  bound : ∀ a, h.next ≤ a → h.get a = none
  closed : ∀ a n, h.get a = some n → ∀ c ∈ n.children, c < h.next
  fns : ∀ a n f s, h.get a = some n → n.kind = .func f s → f < h.next

/-- An object with everything it contains, as a tree. Shared objects are leaves with their identity. -/
inductive Tree where
  | leaf (a : Nat)
  | node (k : Kind) (cs : List Tree)

/-- all results, or none -/
def allSome {α β : Type} (f : α → Option β) : List α → Option (List β)
  | [] => some []
  | a :: l => match f a with
    | none => none
    | some b => match allSome f l with
      | none => none
      | some bs => some (b :: bs)

/-- What a copy may share with the original: values that cannot change, and (see `C19_refuted_iterator`) iterators.  Commands, pipelines, groups, redirections, lists and
dictionaries may not be shared. -/
def Kind.leaf : Kind → Bool
  | .atom _ => true
  | .iter _ => true
  | .list => false
  | .dict => false
  | .command _ => false
  | .func _ _ => false
  | .pipe _ => false
  | .group _ => false
  | .redirect _ => false

/-- The same kind of object, not started: all that the kind says is kept, but for `_started`. -/
def Kind.unstarted : Kind → Kind
  | .atom v => .atom v
  | .iter r => .iter r
  | .list => .list
  | .dict => .dict
  | .command _ => .command false
  | .func f _ => .func f false
  | .pipe _ => .pipe false
  | .group _ => .group false
  | .redirect _ => .redirect false

/-- The tree of an object, forgetting which pipelines have been started. -/
def unfold (h : Heap) : Nat → Nat → Option Tree
  | 0, _ => none
  | f + 1, a =>
    match h.get a with
    | none => none
    | some n =>
      if n.kind.leaf then some (.leaf a)
      else match allSome (unfold h f) n.children with
        | none => none
        | some ts => some (.node n.kind.unstarted ts)

/-- The addresses of all objects in an object that are not shared leaves, with repetitions. -/
def cells (h : Heap) : Nat → Nat → Option (List Nat)
  | 0, _ => none
  | f + 1, a =>
    match h.get a with
    | none => none
    | some n =>
      if n.kind.leaf then some []
      else match allSome (cells h f) n.children with
        | none => none
        | some ls => some (a :: ls.flatten)

/-- the object has been started (`_started`) -/
def Kind.Started : Kind → Prop
  | .command s => s = true
  | .func _ s => s = true
  | .pipe s => s = true
  | .group s => s = true
  | .redirect s => s = true
  | _ => False

end Pieshell.Copy
