import Verif.Model.Flow
import Verif.Spec.Io
/-!
# Running programs one after the other
-/
namespace Pieshell.Flow

/-- A program (or a python function), run alone in state `s` with the whole of its input `inp` available, writes `out` and ends with status `code`. -/
inductive Runs {σ : Type} (next : Prog σ) : σ → Bytes → Bytes → Nat → Prop
  | exit {s : σ} {inp : Bytes} {c : Nat} : next s = .exit c → Runs next s inp [] c
  | write {s s' : σ} {inp out : Bytes} {b : UInt8} {c : Nat} :
      next s = .write b s' → Runs next s' inp out c → Runs next s inp (b :: out) c
  | read {s : σ} {f : Option UInt8 → σ} {inp out : Bytes} {b : UInt8} {c : Nat} :
      next s = .read f → Runs next (f (some b)) inp out c → Runs next s (b :: inp) out c
  | eof {s : σ} {f : Option UInt8 → σ} {out : Bytes} {c : Nat} :
      next s = .read f → Runs next (f none) [] out c → Runs next s [] out c

/-- `N` programs run one after the other, through files: program 0 reads `inp`, each other one what the one before has written;
program `k` writes `out k` and ends with status `code k`. -/
def Sequentially {σ : Type} (next : Prog σ) (init : Nat → σ) (N : Nat) (inp : Bytes) (out : Nat → Bytes) (code : Nat → Nat) : Prop :=
  ∀ k, k < N → Runs next (init k) (if k = 0 then inp else out (k - 1)) (out k) (code k)

/-- Arguments without pipelines among them. -/
def Words : Args → Prop
  | .nil => True
  | .word _ rest => Words rest
  | .pipeArg _ _ _ => False
  | .funcArg _ _ _ => False

/-- A chain of programs: every item is a command without pipelines among its arguments, and only the first one's stdin is
redirected. -/
def Programs (p : Pipeline) : Prop :=
  (∀ l ∈ p.links, ∃ id args, l.leaf = .command id args ∧ Words args) ∧
  ∀ (k : Nat) (l : Link), p.links[k + 1]? = some l → l.inp = none

/-- A chain of programs and python functions: every item is a command without pipelines among its arguments, or a function; the
first may be an iterator; and only the first one's stdin is redirected. -/
def Mixed (p : Pipeline) : Prop :=
  (∀ l ∈ p.links, (∃ id args, l.leaf = .command id args ∧ Words args) ∨ (∃ id, l.leaf = .func id) ∨ ∃ id, l.leaf = .iter id) ∧
  ∀ (k : Nat) (l : Link), p.links[k + 1]? = some l → l.inp = none ∧ l.leaf.Reads

/-- The `k`th item is a python function. -/
def IsFunc (p : Pipeline) (k : Nat) : Prop := ∃ l id, p.links[k]? = some l ∧ l.leaf = .func id

/-- The `k`th item is a program. -/
def IsProgram (p : Pipeline) (k : Nat) : Prop := ∃ l id args, p.links[k]? = some l ∧ l.leaf = .command id args

/-- Item `k` has ended with status `c`, and none of its writes has failed. -/
def Done {σ : Type} (s : St σ) (k c : Nat) : Prop := s.proc k = .exited c ∧ s.cut k = false

/-- What becomes of item `k` of `p`, in state `st`, when its write fails: a function ends, with an exception; a program that has reset `SIGPIPE` is killed by it,
any other goes on. -/
inductive Fails {σ : Type} (next : Prog σ) (p : Pipeline) (k : Nat) (st : σ) : Proc σ → Prop
  | func : ¬ IsProgram p k → Fails next p k st .killed
  | sigpipe : IsProgram p k → next.epipe st = none → Fails next p k st .killed
  | epipe {st' : σ} : IsProgram p k → next.epipe st = some st' → Fails next p k st (.running st')

/-- An item that ends only after it has seen the end of its input (`P`: states in which it has not seen it). -/
def Greedy {σ : Type} (next : Prog σ) (s : σ) : Prop :=
  ∃ P : σ → Prop, P s ∧ ∀ st, P st → (∀ c, next st ≠ .exit c) ∧ (∀ b st', next st = .write b st' → P st') ∧
    ∀ f b, next st = .read f → P (f (some b))

/-- A program that writes for ever, such as `yes`. -/
def Endless {σ : Type} (next : Prog σ) (s : σ) : Prop :=
  ∃ P : σ → Prop, P s ∧ ∀ st, P st → ∃ b st', next st = .write b st' ∧ P st'

/-- An item in state `s`, all of whose writes fail, ends after at most `n` more operations, whatever it reads. -/
def StopsIn {σ : Type} (next : Prog σ) : Nat → σ → Prop
  | 0, s => ∃ c, next s = .exit c
  | n + 1, s => (∃ c, next s = .exit c) ∨ (∃ f, next s = .read f ∧ ∀ x, StopsIn next n (f x)) ∨
      ∃ b s', next s = .write b s' ∧ ∀ s'', next.epipe s = some s'' → StopsIn next n s''

/-- Programs whose write has failed end after at most `n` more operations.  (Most programs print an error message and end.) -/
def GivesUp {σ : Type} (next : Prog σ) (n : Nat) : Prop :=
  ∀ s b s' s'', next s = .write b s' → next.epipe s = some s'' → StopsIn next n s''

/-- A program that never resets `SIGPIPE` (`P`: the states that it can be in). -/
def KeepsSigpipe {σ : Type} (next : Prog σ) (s : σ) : Prop :=
  ∃ P : σ → Prop, P s ∧ ∀ st, P st → (∀ f x, next st = .read f → P (f x)) ∧
    ∀ b st', next st = .write b st' → P st' ∧ ∃ st'', next.epipe st = some st'' ∧ P st''

/-- A program that writes for ever, and takes no notice of errors, such as `while true; do echo y; done` of a shell. -/
def Stubborn {σ : Type} (next : Prog σ) (s : σ) : Prop :=
  ∃ P : σ → Prop, P s ∧ ∀ st, P st → ∃ b st' st'', next st = .write b st' ∧ next.epipe st = some st'' ∧ P st' ∧ P st''

/-- A program that has reset `SIGPIPE` and writes for ever. -/
def EndlessDefault {σ : Type} (next : Prog σ) (s : σ) : Prop :=
  ∃ P : σ → Prop, P s ∧ ∀ st, P st → ∃ b st', next st = .write b st' ∧ next.epipe st = none ∧ P st'

/-- A python function in state `t`, iterating over the lines `ls`, yields `vs` and returns. -/
inductive Yields {τ : Type} (lnext : τ → LOp τ) : τ → List Bytes → List Bytes → Prop
  | ret {t : τ} {ls : List Bytes} : lnext t = .ret → Yields lnext t ls []
  | yield {t t' : τ} {v : Bytes} {ls vs : List Bytes} : lnext t = .yield v t' → Yields lnext t' ls vs → Yields lnext t ls (v :: vs)
  | line {t : τ} {k : Option Bytes → τ} {l : Bytes} {ls vs : List Bytes} :
      lnext t = .next k → Yields lnext (k (some l)) ls vs → Yields lnext t (l :: ls) vs
  | stop {t : τ} {k : Option Bytes → τ} {vs : List Bytes} : lnext t = .next k → Yields lnext (k none) [] vs → Yields lnext t [] vs

/-- `async for line in inp: yield g(line)`: waiting for a line, or about to yield. -/
inductive MapSt where
  | loop
  | out (v : Bytes)
  | fin

/-- see `MapSt` -/
def mapLines (g : Bytes → Bytes) : MapSt → LOp MapSt
  | .loop => .next fun x => match x with | some l => .out (g l) | none => .fin
  | .out v => .yield v .loop
  | .fin => .ret

end Pieshell.Flow
