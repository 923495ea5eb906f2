import Verif.Model.WithScope
/-! # Vocabulary for C152 -/
namespace Pieshell.WithScope

/-- `with scope:` is executed somewhere in the statement, for scope `k`. -/
inductive Uses (k : Nat) : Stmt → Prop
  | here (a : Stmt) : Uses k (.within k a)
  | within {j : Nat} {a : Stmt} : Uses k a → Uses k (.within j a)
  | seqL {a b : Stmt} : Uses k a → Uses k (.seq a b)
  | seqR {a b : Stmt} : Uses k b → Uses k (.seq a b)
  | attempt {a : Stmt} : Uses k a → Uses k (.attempt a)

end Pieshell.WithScope
