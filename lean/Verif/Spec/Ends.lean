import Verif.Model.FuncArg
/-!
# Programs that end if their inputs do
-/
namespace Pieshell.FuncArg
open Flow (upd)

/-- An item that begins in state `s` can get to state `st` on its own with `n` operations, in which it gets `cnt j` bytes from its input `j`, for each `j`. -/
inductive Works {σ : Type} (prog : Prog σ) (s : σ) : (n : Nat) → (cnt : Nat → Nat) → σ → Prop
  | start : Works prog s 0 (fun _ => 0) s
  | byte {n : Nat} {cnt : Nat → Nat} {st : σ} {j : Nat} {f : Option UInt8 → σ} (b : UInt8) : Works prog s n cnt st → prog.next st = .read j f →
      Works prog s (n + 1) (upd cnt j (cnt j + 1)) (f (some b))
  | eof {n : Nat} {cnt : Nat → Nat} {st : σ} {j : Nat} {f : Option UInt8 → σ} : Works prog s n cnt st → prog.next st = .read j f → Works prog s (n + 1) cnt (f none)
  | write {n : Nat} {cnt : Nat → Nat} {st st' : σ} {j : Nat} {b : UInt8} : Works prog s n cnt st → prog.next st = .write j b st' → Works prog s (n + 1) cnt st'
  | fail {n : Nat} {cnt : Nat → Nat} {st st' st'' : σ} {j : Nat} {b : UInt8} : Works prog s n cnt st → prog.next st = .write j b st' → prog.epipe st = some st'' →
      Works prog s (n + 1) cnt st''

/-- However much it gets from its inputs, if it does not get more than that, then there is a limit to what it does. -/
def Terminates {σ : Type} (prog : Prog σ) (s : σ) : Prop := ∀ lim : Nat → Nat, ∃ N, ∀ n cnt st, Works prog s n cnt st → (∀ j, cnt j ≤ lim j) → n ≤ N

end Pieshell.FuncArg
