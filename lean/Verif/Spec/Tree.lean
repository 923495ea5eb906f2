import Verif.Model.Tree
/-! # Specification of process browsing -/
namespace Pieshell.Tree
variable {α : Type}

/-- The names of `a` at the levels `level`, `level + 1`, ..., `level + n - 1`. -/
def names (name : α → Nat → Str) (a : α) (level : Nat) : Nat → List Str
  | 0 => []
  | n + 1 => name a level :: names name a (level + 1) n

/-- `p` consists of the first names of `a`, as few as are needed (but at least one) to tell `a` from all other items. -/
def ShortestPath (name : α → Nat → Str) (level : Nat) (items : List α) (a : α) (p : List Str) : Prop :=
  ∃ m, p = names name a level (m + 1) ∧
    (∀ b ∈ items, names name b level (m + 1) = p → b = a) ∧
    ∀ j < m, ∃ b ∈ items, b ≠ a ∧ names name b level (j + 1) = names name a level (j + 1)

/-- Names never hidden by members. -/
def nothing : Str → Bool := fun _ => false

/-- The contract of `slugify` used: digits are left alone. -/
def KeepsDigits (slug : Str → Str) : Prop := ∀ n, slug (Nat.toDigits 10 n) = Nat.toDigits 10 n

/-- The contract of `slugify` used for process trees: `pid_123` is left alone. -/
def KeepsPids (slug : Str → Str) : Prop := ∀ n, slug (c!"pid_" ++ Nat.toDigits 10 n) = c!"pid_" ++ Nat.toDigits 10 n

end Pieshell.Tree
