import Verif.Model.Exec
/-!
# Specification for C70-C72: which program a command runs
-/
namespace Pieshell.Exec.Spec
open Pieshell.Exec

/-- `dirs` are the parts of `path` between colons. -/
def Parts (path : Str) (dirs : List Str) : Prop :=
  dirs ≠ [] ∧ List.intercalate [':'] dirs = path ∧ ∀ d ∈ dirs, ':' ∉ d

/-- The program `file` in directory `dir` of the search path; an empty part is the working directory. -/
def entry (dir file : Str) : Str :=
  if dir = [] then file else if dir.getLast? = some '/' then dir ++ file else dir ++ c!"/" ++ file

/-- The program is not there. -/
def Missing (errno : Nat) : Prop := errno = 2 ∨ errno = 20

/-- `d` is the first directory of the list where the program can be executed. -/
def First (execve : Str → Option Nat) (file : Str) (dirs : List Str) (d : Str) : Prop :=
  ∃ before after, dirs = before ++ d :: after ∧ execve (entry d file) = none ∧ ∀ b ∈ before, execve (entry b file) ≠ none

/-- It cannot be executed anywhere; the reason: the first that is not just that it is missing, or else the last. -/
def Nowhere (execve : Str → Option Nat) (file : Str) (dirs : List Str) (errno : Nat) : Prop :=
  (∃ before d after, dirs = before ++ d :: after ∧ execve (entry d file) = some errno ∧ ¬ Missing errno ∧
    (∀ b ∈ before, ∃ e, execve (entry b file) = some e ∧ Missing e) ∧ ∀ b ∈ after, execve (entry b file) ≠ none) ∨
  (∃ before d, dirs = before ++ [d] ∧ execve (entry d file) = some errno ∧ Missing errno ∧
    ∀ b ∈ before, ∃ e, execve (entry b file) = some e ∧ Missing e)

end Pieshell.Exec.Spec
