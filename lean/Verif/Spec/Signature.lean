import Verif.Model.Base
/-! Vocabulary for C89. -/
namespace Pieshell.Sgn

/-- `w` is a word of the text, with white space before it. -/
def WordIn (ws : Char → Bool) (s w : Str) : Prop := ∃ a c r, s = a ++ c :: (w ++ r) ∧ ws c = true ∧ w ≠ [] ∧ (∀ x ∈ w, ws x = false) ∧
  (r = [] ∨ ∃ x r', r = x :: r' ∧ ws x = true)

/-- Letters of the ASCII alphabet. -/
def Letter (c : Char) : Prop := ('a' ≤ c ∧ c ≤ 'z') ∨ ('A' ≤ c ∧ c ≤ 'Z')

/-- A letter, followed by at least one letter or dash. -/
def OptionName (n : Str) : Prop := ∃ c d t, n = c :: d :: t ∧ Letter c ∧ ∀ x ∈ d :: t, x = '-' ∨ Letter x

/-- The word begins with the option `--n`, and the name does not go on with a letter or dash; `rest` is what follows. -/
def Prints (w n rest : Str) : Prop := w = c!"--" ++ n ++ rest ∧ OptionName n ∧ ∀ x, rest.head? = some x → x ≠ '-' ∧ ¬ Letter x

/-- The part of `rest` that describes a value: `=...` or `[=...`. -/
def ValueText (rest v : Str) : Prop :=
  ((rest.head? = some '=' ∨ rest.take 2 = c!"[=") ∧ v = rest) ∨ (rest.head? ≠ some '=' ∧ rest.take 2 ≠ c!"[=" ∧ v = [])

end Pieshell.Sgn
