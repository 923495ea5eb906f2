import Verif.Model.Reader

/-! Specification of line and chunk streams, independent of the readers. -/
namespace Pieshell.Io

/-- The lines `ls`, each followed by a newline. -/
def joined (ls : List Bytes) : Bytes := ls.flatMap (· ++ [NL])

/-- `ls` are the lines of `b`: newline-free strings which, each followed by a newline, give `b`, or give `b` with
a newline added if `b` is not empty and lacks the final newline. -/
def IsLines (b : Bytes) (ls : List Bytes) : Prop :=
  (∀ l ∈ ls, NL ∉ l) ∧
  (joined ls = b ∨ (joined ls = b ++ [NL] ∧ b ≠ [] ∧ b.getLast? ≠ some NL))

/-- The number of steps of a schedule that change the state. -/
def effective {S A : Type} [DecidableEq S] (step : S → A → S) : S → List A → Nat
  | _, [] => 0
  | s, a :: as => (if step s a = s then 0 else 1) + effective step (step s a) as

/-- Actions of the event loop and of a consumer that just iterates. -/
def RAct.iterating : RAct → Bool
  | .event _ => true
  | .next => true
  | .resume => true
  | _ => false

end Pieshell.Io
