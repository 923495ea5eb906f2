import Verif.Model.Message
import Verif.Spec.Job
/-! What the message of a failed pipeline should show. -/
namespace Pieshell.Job

/-- Descriptors have names: 0, 1 and 2 those of the standard streams, others their number. -/
inductive FdName : Nat → Str → Prop
  | stdin : FdName 0 "stdin".toList
  | stdout : FdName 1 "stdout".toList
  | stderr : FdName 2 "stderr".toList
  | other {n : Nat} : 2 < n → FdName n (Nat.repr n).toList

/-- The text written to a file, as a program that opens it in text mode reads it. -/
def textWritten (s : St) (path : Path) : Str := newlines ((Io.decode (bytesOf s path)).getD [])

/-- One captured stream: its name, and all that was written to its file. -/
def Section (s : St) (kv : Nat × Path) (x : Str) : Prop :=
  ∃ name, FdName kv.1 name ∧ x = name ++ " content:\n".toList ++ textWritten s kv.2 ++ ['\n']

/-- A process: its command, and one section for each captured stream; a function: its name and traceback. -/
def Block (T : Texts) (s : St) (p i : Nat) (b : Str) : Prop :=
  ∃ it, itemAt s p i = some it ∧
    ((it.kind = .proc ∧ ∃ xs : List Str, Pointwise (Section s) it.strings xs ∧ b = T.item p i ++ ['\n'] ++ xs.flatten) ∨
     (it.kind = .func ∧ b = T.item p i))

/-- The items of a pipeline that failed, in the order of the pipeline. -/
def FailedList (s : St) (p : Nat) (l : List Nat) : Prop :=
  l.Pairwise (· < ·) ∧ ∀ i, i ∈ l ↔ ∃ it, itemAt s p i = some it ∧ ¬ ItemAlive s.pipes it ∧ ItemBroken s.pipes it

/-- None of the items is an `fg`. -/
def NoFg (s : St) (p : Nat) : Prop := ∀ it ∈ itemsOf s.pipes p, it.kind = .proc ∨ it.kind = .func

end Pieshell.Job
