import Verif.Model.FuncArg
/-!
# What flows through the pipes of a pipeline

Whatever its shape, an execution of a pipeline should be explained by a record of what has been written to each pipe, by whom, and of what has been read from
it, by whom: nothing gets lost, duplicated, or out of order on its way, and each item does what it would do alone with the input that it has got.
-/
namespace Pieshell.FuncArg
open Flow (Bytes Net Proc upd)

/-- An item that begins in state `s` gets to state `st` on its own by reading `reads j` from its input `j`, for each `j`, and writing `outs j` to its output `j`; `ends j`: it has been told of the end
of input `j` (after that, there are no more bytes); `failed`: a write has failed. -/
inductive Alone {σ : Type} (prog : Prog σ) (s : σ) : (failed : Bool) → (reads : Nat → Bytes) → (ends : Nat → Bool) → (outs : Nat → Bytes) → σ → Prop
  | start : Alone prog s false (fun _ => []) (fun _ => false) (fun _ => []) s
  | read {x : Bool} {r : Nat → Bytes} {e : Nat → Bool} {o : Nat → Bytes} {st : σ} {j : Nat} {f : Option UInt8 → σ} (b : UInt8) :
      Alone prog s x r e o st → prog.next st = .read j f → e j = false → Alone prog s x (upd r j (r j ++ [b])) e o (f (some b))
  | eof {x : Bool} {r : Nat → Bytes} {e : Nat → Bool} {o : Nat → Bytes} {st : σ} {j : Nat} {f : Option UInt8 → σ} :
      Alone prog s x r e o st → prog.next st = .read j f → Alone prog s x r (upd e j true) o (f none)
  | write {x : Bool} {r : Nat → Bytes} {e : Nat → Bool} {o : Nat → Bytes} {st st' : σ} {j : Nat} {b : UInt8} :
      Alone prog s x r e o st → prog.next st = .write j b st' → Alone prog s x r e (upd o j (o j ++ [b])) st'
  | fail {x : Bool} {r : Nat → Bytes} {e : Nat → Bool} {o : Nat → Bytes} {st st' st'' : σ} {j : Nat} {b : UInt8} :
      Alone prog s x r e o st → prog.next st = .write j b st' → prog.epipe st = some st'' → Alone prog s true r e o st''

/-- ... and is then running in this state; has ended with the status that it wanted to end with there; has been killed, or given up, at a write. -/
def Told {σ : Type} (prog : Prog σ) (s : σ) (failed : Bool) (reads : Nat → Bytes) (ends : Nat → Bool) (outs : Nat → Bytes) : Proc σ → Prop
  | .running st => Alone prog s failed reads ends outs st
  | .exited c => ∃ st, Alone prog s failed reads ends outs st ∧ prog.next st = .exit c
  | .killed => failed = true ∧ ∃ y st j b st', Alone prog s y reads ends outs st ∧ prog.next st = .write j b st'

/-- An item and one of its inputs or outputs; `none`: the shell. -/
abbrev Tag := Option (Nat × Nat)

/-- The bytes of a record. -/
def bytesOf (l : List (Tag × UInt8)) : Bytes := l.map Prod.snd

/-- Those that belong to `t`. -/
def part (t : Tag) (l : List (Tag × UInt8)) : Bytes := bytesOf (l.filter fun x => x.1 == t)

/-- What the handler of a function has read for input `j` and not yet handed out. -/
def inHand (net : Net) {σ : Type} (s : St σ) (k j : Nat) : Bytes := if (Subst.handler net k j).isSome then s.ahead k else []

/-- `wr q` and `rd q` are records of what has been written to, and read from, each pipe `q`; `reads k j` is what item `k` has got from its input `j`, `ends k j` says that it has been told of its end. -/
structure Explained {σ : Type} (prog : Prog σ) (net : Net) (init : Nat → σ) (src : Nat → Nat → Bytes) (s : St σ) (wr rd : Nat → List (Tag × UInt8))
    (reads : Nat → Nat → Bytes) (ends : Nat → Nat → Bool) : Prop where
  /-- What has been read from a pipe, and what is in it, is what has been written to it. -/
  flow : ∀ q, bytesOf (rd q) ++ s.buf q = bytesOf (wr q)
  /-- Each item's part in what has been written to a pipe is what it has written to the output connected to it. -/
  wrote : ∀ q k j, outSlot net k j = some q → part (some (k, j)) (wr q) = s.out k j
  /-- Nobody else has written. -/
  writers : ∀ q x, x ∈ wr q → ∃ k j, x.1 = some (k, j) ∧ outSlot net k j = some q
  /-- Each item's part in what has been read from a pipe is what it has got from the input connected to it, apart from what is in the hands of its handler. -/
  got : ∀ q k j, Subst.slot net k j = some q → part (some (k, j)) (rd q) = reads k j ++ inHand net s k j
  /-- The shell has got its part. -/
  shell : ∀ q, net.user = some q → part none (rd q) = s.got
  /-- Nobody else has read. -/
  readers : ∀ q x, x ∈ rd q → (∃ k j, x.1 = some (k, j) ∧ Subst.slot net k j = some q) ∨ (x.1 = none ∧ net.user = some q)
  /-- What an item gets from elsewhere. -/
  elsewhere : ∀ k j, Subst.slot net k j = none → reads k j ++ inHand net s k j ++ s.src k j = src k j
  /-- The end has been told only where there is one. -/
  ended : ∀ k j, ends k j = true → inHand net s k j = [] ∧ (∀ q, Subst.slot net k j = some q → s.buf q = [] ∧ ¬ Open net s (.pipeW q)) ∧
    (Subst.slot net k j = none → s.src k j = [])
  /-- Each item does what it does alone with what it has got. -/
  alone : ∀ k, Told prog (init k) (s.cut k) (reads k) (ends k) (s.out k) (s.proc k)

end Pieshell.FuncArg
