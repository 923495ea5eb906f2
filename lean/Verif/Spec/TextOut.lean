import Verif.Model.TextOut
/-!
# Lines of a text
-/
namespace Pieshell.Io

/-- `ls` are the lines of the text `t`: texts without newlines which, each followed by a newline, give `t`, or give `t` with a newline added if `t` is not empty and lacks the final one. -/
def IsTextLines (t : Str) (ls : List Str) : Prop :=
  (∀ l ∈ ls, '\n' ∉ l) ∧
  (ls.flatMap (· ++ ['\n']) = t ∨ (ls.flatMap (· ++ ['\n']) = t ++ ['\n'] ∧ t ≠ [] ∧ t.getLast? ≠ some '\n'))

end Pieshell.Io
