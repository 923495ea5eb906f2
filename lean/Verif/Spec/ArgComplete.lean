import Verif.Model.ArgComplete
/-! Vocabulary for C114. -/
namespace Pieshell.ArgC

/-- `repr` shows the character as it is (inside quotes of the other kind) -/
def AsIs (printable : Char → Bool) (c : Char) : Prop := 32 ≤ c.toNat ∧ c.toNat ≠ 127 ∧ (c.toNat < 127 ∨ printable c = true) ∧ c ≠ '\\'

/-- Words that the completion gets right: words of ordinary characters; and words with spaces, if they can be written in one kind of quotes. -/
inductive Passes (printable : Char → Bool) (w : Str) : Prop
  | simple : w ≠ [] → (∀ c ∈ w, Sh.ordinary c = true) → Passes printable w
  | single : ' ' ∈ w → (∀ c ∈ w, AsIs printable c) → '\'' ∉ w → Passes printable w
  | double : ' ' ∈ w → (∀ c ∈ w, AsIs printable c) → (∀ c ∈ w, c ≠ '"' ∧ c ≠ '$' ∧ c ≠ '`') → Passes printable w

/-- `r` is `l` without the white space around it. -/
def Stripped (l r : Str) : Prop :=
  ∃ a b, l = a ++ r ++ b ∧ (∀ c ∈ a ++ b, Prompt.isSpace c = true) ∧ (∀ c, r.head? = some c ∨ r.getLast? = some c → Prompt.isSpace c = false)

end Pieshell.ArgC
