import Verif.Model.Path
/-! # Vocabulary for paths and patterns -/
namespace Pieshell.Path

/-- a component of a path: not empty, no slash -/
def Comp (c : Str) : Prop := c ≠ [] ∧ '/' ∉ c

/-- a component other than `.` and `..` -/
def Normal (c : Str) : Prop := Comp c ∧ c ≠ c!"." ∧ c ≠ c!".."

/-- the path with `k` slashes in front and the given components -/
def pathOf (k : Nat) (cs : List Str) : Str := List.replicate k '/' ++ joinSlash cs

/-- An absolute path without empty, `.` or `..` components, except that there may be two slashes in front
(which POSIX allows to mean something else). -/
def NormalPath (p : Str) : Prop := ∃ k cs, (k = 1 ∨ k = 2) ∧ (∀ c ∈ cs, Normal c) ∧ p = pathOf k cs

/-- Absolute, without empty, `.` or `..` components. -/
def StrictPath (p : Str) : Prop := ∃ cs, (∀ c ∈ cs, Normal c) ∧ p = pathOf 1 cs

/-- A file system as users see it: which sequences of names exist, and which of them are directories. -/
structure Tree where
  «exists» : List Str → Bool
  isDir : List Str → Bool

/-- The operating system's answers about absolute paths without `.` and `..` agree with the tree. -/
structure Agrees (fs : Fs) (t : Tree) : Prop where
  list : ∀ k cs n d, (k = 1 ∨ k = 2) → (∀ c ∈ cs, Normal c) →
    ((n, d) ∈ fs.listdir (pathOf k cs) ↔ Normal n ∧ t.exists (cs ++ [n]) = true ∧ d = t.isDir (cs ++ [n]))
  lex : ∀ k cs, (k = 1 ∨ k = 2) → (∀ c ∈ cs, Normal c) → fs.lexists (pathOf k cs) = t.exists cs
  /-- the root directory exists -/
  root : t.exists [] = true ∧ ∀ k, (k = 1 ∨ k = 2) → fs.isdir (pathOf k []) = true
  /-- something inside `cs` exists only if `cs` exists and is a directory -/
  up : ∀ cs n, t.exists (cs ++ [n]) = true → t.exists cs = true ∧ t.isDir cs = true

/-- The pattern component has wild cards: `*`, `?` or `[`. -/
def wild (c : Str) : Bool := c.any (fun x => x = '*' || x = '?' || x = '[')

/-- name `r` matches pattern component `c`: equal if `c` has no wild cards; otherwise `fnmatch`, and a hidden file only
if the pattern starts with a dot -/
def CompMatch (fnm : Str → Str → Bool) (c r : Str) : Prop :=
  if wild c then fnm r c = true ∧ (r.head? = some '.' → c.head? = some '.') else r = c

end Pieshell.Path
