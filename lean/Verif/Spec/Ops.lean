import Verif.Model.Ops
/-!
# Expressions as they are written: vocabulary for C120
-/
namespace Pieshell.Ops
open Coerce

/-- binary operators that bind stronger than `|`: `+` and `&` -/
def Op.tight : Op → Bool
  | .plus => true
  | .amp => true
  | _ => false

/-- comparisons -/
def Op.compares : Op → Bool
  | .lt => true
  | .gt => true
  | _ => false

/-- the binary operators of an expression that are not in parentheses -/
def Rest.ops : Rest → List Op
  | .nil => []
  | .cons o _ _ rest => o :: rest.ops

/-- the binary operators of an expression that are not in parentheses -/
def Src.ops : Src → List Op
  | .mk _ _ rest => rest.ops

/-- write `rest`, then `o`, then the expression `s` -/
def Rest.then (rest : Rest) (o : Op) (s : Src) : Rest :=
  match rest with
  | .nil => match s with | .mk pre x r => .cons o pre x r
  | .cons o' pre x r => .cons o' pre x (r.then o s)

/-- write `a`, then `o`, then `b`, without parentheses -/
def Src.then (a : Src) (o : Op) (b : Src) : Src :=
  match a with | .mk pre x rest => .mk pre x (rest.then o b)

/-- a single value -/
def Src.one (v : PyVal) : Src := .mk [] (.val (.py v)) .nil

/-- write a prefix operator and then `a`, without parentheses -/
def Src.after (o : Prefix) (a : Src) : Src :=
  match a with | .mk pre x rest => .mk (o :: pre) x rest

/-- write `a` in parentheses -/
def Src.inParens (a : Src) : Src := .mk [] (.paren a) .nil

end Pieshell.Ops
