import Verif.Model.IterUtils
/-! C91: helpers for iterators. -/
namespace Pieshell.Itu

/-- What `[None if x is None else f(x) for x in items]`, evaluated item by item, yields: the results before the first exception, and how it ends
(`none`: more could be asked for). -/
def mapped {α β : Type} (f : α → Except Exn (Option β)) : List (Option α) → Option (Option Exn) → List (Option β) × Option (Option Exn)
  | [], e => ([], e)
  | none :: l, e => (none :: (mapped f l e).1, (mapped f l e).2)
  | some a :: l, e => match f a with
    | .ok b => (b :: (mapped f l e).1, (mapped f l e).2)
    | .error x => ([], some (some x))

/-- **C91** (map): the first `n` items of `map(f)(it)` are those of `f` on the first `n` items of `it`: nothing is lost, reordered or asked
for in advance, `None` stays `None`, and exceptions of `f` and of `it` get through at their place. -/
theorem C91_map {σ α β : Type} (f : α → Except Exn (Option β)) (next : σ → Res σ (Option α)) (n : Nat) (s : σ) :
    take (mapNext f next) n (.at s) = mapped f (take next n s).1 (take next n s).2 := by
  induction n generalizing s with
  | zero => rfl
  | succ n ih =>
    simp only [take, mapNext]
    cases next s with
    | stop => rfl
    | raises e => rfl
    | item a s' =>
      cases a with
      | none => simp only [mapped, ih]
      | some a =>
        simp only [mapped]
        cases f a with
        | ok b => simp only [ih]
        | error x => rfl

/-- **C91** (synchronous iteration): outside of a running event loop, a `for` over an asynchronous iterator yields the same items, in the same
order, with the same end as `async for`. -/
theorem C91_sync_partial {σ α : Type} (anext : σ → Res σ α) (n : Nat) (s : σ) : take (syncNext false anext) n (.at s) = take anext n s := by
  induction n generalizing s with
  | zero => rfl
  | succ n ih =>
    simp only [take, syncNext, Bool.false_eq_true, if_false]
    cases anext s <;> simp [ih]

/-- After its end a generator yields nothing more. -/
theorem C91_over {σ α β : Type} (f : α → Except Exn (Option β)) (next : σ → Res σ (Option α)) (running : Bool) (anext : σ → Res σ α) (n : Nat) :
    take (mapNext f next) (n + 1) .over = ([], some none) ∧ take (syncNext running anext) (n + 1) .over = ([], some none) := ⟨rfl, rfl⟩

/-- C91 is false inside of a coroutine: the loop raises an exception at once. -/
theorem C91_refuted_running {σ α : Type} (anext : σ → Res σ α) (n : Nat) (s : σ) : take (syncNext true anext) (n + 1) (.at s) = ([], some (some .other)) := rfl

/-- C91 is false in a pipeline (`cat(f) | from_json`): for every input, nothing is sent and TypeError is raised. -/
theorem C91_refuted_pipeline {β : Type} (n : Nat) : take (mapNextOfHandler (β := β)) (n + 1) (.at ()) = ([], some (some .typeError)) := rfl

/-- C91 is false for `filter`: it cannot be used at all. -/
theorem C91_refuted_filter {σ α : Type} (f : α → Except Exn Bool) (next : σ → Res σ (Option α)) : ∃ e, mkFilter f next = .error e := ⟨_, rfl⟩

/-- The iterator of a list. -/
def listNext {α : Type} : List α → Res (List α) α
  | [] => .stop
  | a :: l => .item a l

example : take (mapNext (fun x : Nat => if x = 7 then .error .valueError else .ok (some (x + 1))) listNext) 5 (.at [some 1, none, some 2, some 7, some 3])
    = ([some 2, none, some 3], some (some .valueError)) := rfl
example : take (syncNext false (listNext (α := Nat))) 5 (.at [1, 2]) = ([1, 2], some none) := rfl

end Pieshell.Itu
