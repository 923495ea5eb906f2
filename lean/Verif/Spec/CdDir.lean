import Verif.Model.CdDir
import Verif.Spec.Path
/-! Vocabulary for C112. -/
namespace Pieshell.Envs
open Pieshell.Path

/-- The answers about directories agree with a tree of files, in a process whose working directory is `proc`; `readable` tells which directories can be listed. -/
structure Truthful (fs : Folders) (t : Tree) (readable : List Str → Bool) (proc : List Str) : Prop where
  /-- a directory that can be listed is listed completely -/
  list : ∀ cs, (∀ c ∈ cs, Normal c) → readable cs = true → ∃ l, fs.listdir (pathOf 1 cs) = some l ∧ ∀ n, n ∈ l ↔ Normal n ∧ t.exists (cs ++ [n]) = true
  /-- others raise an exception -/
  refuse : ∀ cs, (∀ c ∈ cs, Normal c) → readable cs = false → fs.listdir (pathOf 1 cs) = none
  isdir : ∀ cs, (∀ c ∈ cs, Normal c) → fs.isdir (pathOf 1 cs) = (t.exists cs && t.isDir cs)
  /-- `.` is the working directory of the process -/
  dotList : fs.listdir c!"." = fs.listdir (pathOf 1 proc)
  dotIsdir : ∀ n, Normal n → fs.isdir (c!"./" ++ n) = fs.isdir (pathOf 1 (proc ++ [n]))
  proc : ∀ c ∈ proc, Normal c

/-- what a user expects to be offered in directory `here` -/
def Offered (t : Tree) (readable : List Str → Bool) (here : List Str) (n : Str) : Prop :=
  n = c!"PARENT" ∨ n = c!"ROOT" ∨ (readable here = true ∧ Normal n ∧ t.exists (here ++ [n]) = true ∧ t.isDir (here ++ [n]) = true)

end Pieshell.Envs
