import Verif.Model.Redir
/-!
# Vocabulary of the redirection properties C01-C09

Nothing here refers to how the code moves descriptors around.
-/
namespace Pieshell

/-- The redirection tables a program can build with the public operations of `redir.Redirects`:
the constructor (from Redirects and Redirect arguments, also used by `merge`), `register`/`redirect`,
`borrow` and `make_pipes`. -/
inductive Redirects.Built : Redirects → Prop
  | new {args : List RArg} {rs : Redirects} : Redirects.new args = .ok rs → Built rs
  | register {rs rs' : Redirects} {r : Redirect} : Built rs → rs.register r = .ok rs' → Built rs'
  | borrow {rs : Redirects} : Built rs → Built rs.borrow
  | makePipes {rs rs' : Redirects} {w : World} : Built rs → (rs.makePipes w).1 = .ok rs' → Built rs'

/-- All descriptor numbers of the table leave enough room below the process's descriptor limit. -/
def FitsLimit (sys : Sys) (rs : Redirects) : Prop :=
  2 + rs.length < sys.maxfd ∧
  ∀ n r, Dict.get? rs n = some r → n + rs.length < sys.maxfd ∧
    ∀ s, r.source = .fd s → s + rs.length < sys.maxfd

/-- No two redirections of the table use the same source descriptor. -/
def DistinctSources (rs : Redirects) : Prop :=
  ∀ n m r q s, Dict.get? rs n = some r → Dict.get? rs m = some q →
    r.source = .fd s → q.source = .fd s → n = m

/-- Every source descriptor of the table is open in `t`. -/
def OpenSources (rs : Redirects) (t : FdTable) : Prop :=
  ∀ n r s, Dict.get? rs n = some r → r.source = .fd s → ∃ e, t.get s = some e

/-- The table says where each of its descriptors goes: to a descriptor or to a file (this is so after
`make_pipes`). -/
def Materialised (rs : Redirects) : Prop :=
  ∀ n r, Dict.get? rs n = some r → (∃ s, r.source = .fd s) ∨ (∃ p, r.source = .path p)

/-- What the user expects descriptor `n` of the program to be: the open file that the source descriptor
names in the shell (table `t`), or the named file opened with the requested flags and mode. -/
def expected (cwd : Str) (t : FdTable) (r : Redirect) : Option Obj :=
  match r.source with
  | .fd s => (t.get s).map Entry.obj
  | .path p => some (.file cwd p r.flag r.mode)
  | _ => none

/-- Descriptor `n` is free when, of the table `rs`, the redirections `before` have been performed: it was closed in the shell, or it is the source of one
of the redirections (these are moved away first), and none of `before` is for `n`. -/
def FreeAfter (rs : Redirects) (t : FdTable) (before : List Redirect) (n : Nat) : Prop :=
  (t.get n = none ∨ ∃ m q, Dict.get? rs m = some q ∧ q.source = .fd n) ∧ ∀ q ∈ before, q.fd ≠ n

/-- Some file is opened for a descriptor that happens to be the lowest free one. -/
def Clash (rs : Redirects) (t : FdTable) : Prop :=
  ∃ before r after p, Dict.values rs = before ++ r :: after ∧ r.source = .path p ∧
    FreeAfter rs t before r.fd ∧ ∀ m, m < r.fd → ¬ FreeAfter rs t before m

/-- The last redirection in `l` that is about descriptor `n`. -/
def lastFor (n : Nat) (l : List Redirect) : Option Redirect := l.reverse.find? (fun r => r.fd == n)

/-- What a map from descriptors to redirections should be after applying the redirections `l` in order to
the map `m`: the last one wins, a `None` source removes. -/
def afterAll (m : Nat → Option Redirect) (l : List Redirect) (n : Nat) : Option Redirect :=
  match lastFor n l with
  | none => m n
  | some r => if r.source = .none then none else some r

end Pieshell

namespace Pieshell

/-- "for writing": the `O_WRONLY` bit (value 1) is set. -/
def Writing (flag : Nat) : Prop := flag % 2 = 1

instance (flag : Nat) : Decidable (Writing flag) := inferInstanceAs (Decidable (_ = _))

/-- `r'` is the materialised form of `r` when the shell's state goes from `w` to `w'`: a PIPE becomes a new
pipe whose write end is given to the command and whose read end to the user when the redirection is for
writing (the other way round otherwise); TMP and STRING become a new temporary file; anything else stays. -/
def Materialises (w w' : World) (r r' : Redirect) : Prop :=
  match r.source with
  | .PIPE => ∃ cmdEnd userEnd p, r' = { r with source := .fd cmdEnd, pipe := .fd userEnd, borrowed := false } ∧
      w.nextPipe ≤ p ∧ p < w'.nextPipe ∧
      w.fds.get cmdEnd = none ∧ w.fds.get userEnd = none ∧
      (Writing r.flag → w'.fds.get cmdEnd = some { obj := .pipeW p, cloexec := true } ∧
        w'.fds.get userEnd = some { obj := .pipeR p, cloexec := true }) ∧
      (¬ Writing r.flag → w'.fds.get cmdEnd = some { obj := .pipeR p, cloexec := true } ∧
        w'.fds.get userEnd = some { obj := .pipeW p, cloexec := true })
  | .TMP => Writing r.flag ∧ ∃ f n, r' = { r with source := .fd f, pipe := .tmp n, borrowed := false } ∧
      w.nextTmp ≤ n ∧ n < w'.nextTmp ∧ w.fds.get f = none ∧
      w'.fds.get f = some { obj := .tmp n, cloexec := true }
  | .STRING => Writing r.flag ∧ ∃ f n, r' = { r with source := .fd f, pipe := .string n, borrowed := false } ∧
      w.nextTmp ≤ n ∧ n < w'.nextTmp ∧ w.fds.get f = none ∧
      w'.fds.get f = some { obj := .tmp n, cloexec := true }
  | _ => r' = r

end Pieshell
