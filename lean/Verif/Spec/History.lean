import Verif.Model.History
/-!
# What should be in the history
-/
namespace Pieshell.History

/-- The lines typed in shell `k`. -/
def typed (k : Nat) : List Act → List Str
  | [] => []
  | .line j l :: as => if j = k then l :: typed k as else typed k as
  | _ :: as => typed k as

/-- An action that starts or ends shell `k`. -/
def Act.about (k : Nat) : Act → Prop
  | .start j => j = k
  | .exit j => j = k
  | .kill j => j = k
  | _ => False

/-- `b` is `a` followed by some of the lines `ls`, in their order: all that are not empty, each of them once for each time it has been typed in a row. -/
inductive Grown : List Str → List Str → List Str → Prop
  | nil {a} : Grown a [] a
  | empty {a ls b} : Grown a ls b → Grown a ([] :: ls) b
  | again {a l ls b} : Grown (a ++ [l]) ls b → Grown (a ++ [l]) (l :: ls) b
  | new {a l ls b} : l ≠ [] → a.getLast? ≠ some l → Grown (a ++ [l]) ls b → Grown a (l :: ls) b

/-- One shell after the other: each is started when none runs. -/
def OneByOne : Option Nat → List Act → Prop
  | _, [] => True
  | none, .start k :: as => OneByOne (some k) as
  | some _, .start _ :: _ => False
  | r, .line k _ :: as => r = some k ∧ OneByOne r as
  | r, .exit k :: as => r = some k ∧ OneByOne none as
  | _, .kill _ :: _ => False
  | r, .mkdir :: as => OneByOne r as

/-- All lines that are typed, in their order. -/
def allTyped : List Act → List Str
  | [] => []
  | .line _ l :: as => l :: allTyped as
  | _ :: as => allTyped as

end Pieshell.History
