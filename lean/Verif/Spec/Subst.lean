import Verif.Model.Subst
import Verif.Spec.Flow
/-!
# Running programs one after the other, arguments first

The items of a pipeline have positions 0, 1, ... in the order of `Pipeline.ids`: the pipelines among the arguments of a command come before
the command.
-/
namespace Pieshell.Subst
open Flow (Bytes Net Proc upd)

/-- A program, run alone in state `s` with the whole of its inputs available (`inp j` is input `j`), writes `out` and ends with status `code`. -/
inductive Runs {σ : Type} (prog : Prog σ) : σ → (Nat → Bytes) → Bytes → Nat → Prop
  | exit {s : σ} {inp : Nat → Bytes} {c : Nat} : prog.next s = .exit c → Runs prog s inp [] c
  | write {s s' : σ} {inp : Nat → Bytes} {out : Bytes} {b : UInt8} {c : Nat} :
      prog.next s = .write b s' → Runs prog s' inp out c → Runs prog s inp (b :: out) c
  | read {s : σ} {j : Nat} {f : Option UInt8 → σ} {inp : Nat → Bytes} {rest out : Bytes} {b : UInt8} {c : Nat} :
      prog.next s = .read j f → inp j = b :: rest → Runs prog (f (some b)) (upd inp j rest) out c → Runs prog s inp out c
  | eof {s : σ} {j : Nat} {f : Option UInt8 → σ} {inp : Nat → Bytes} {out : Bytes} {c : Nat} :
      prog.next s = .read j f → inp j = [] → Runs prog (f none) inp out c → Runs prog s inp out c

/-- Number of items. -/
def _root_.Pieshell.Pipeline.size (p : Pipeline) : Nat := p.ids.length

/-- see `Pipeline.size` -/
def _root_.Pieshell.Args.size (a : Args) : Nat := a.ids.length

/-- The positions of the last items of the pipelines among the arguments, if these start at position `n`. -/
def lasts : Args → Nat → List Nat
  | .nil, _ => []
  | .word _ rest, n => lasts rest n
  | .pipeArg _ p rest, n => (n + p.size - 1) :: lasts rest (n + p.size)
  | .funcArg _ _ rest, n => lasts rest (n + 1)

mutual
/-- The item whose output item `m` finds at its input `j`, if any; `n` is the position of the first item of the pipeline, `f` the item (if any) whose
output is the stdin of the pipeline. A command gets the stdin of the pipeline that it is the first of, and the outputs of the pipelines among its
arguments; a function gets the stdin of the pipeline that it is the first of; `b` of `a | b` gets the output of `a`; where stdin is redirected, it does not come from an item. -/
def feed : Pipeline → Nat → Option Nat → Nat → Nat → Option Nat
  | .command _ args, n, f, m, j => if m = n + args.size then (if j = 0 then f else (lasts args n)[j - 1]?) else feedArgs args n m j
  | .pipe a b, n, f, m, j => if m < n + a.size then feed a n f m j else feed b (n + a.size) (some (n + a.size - 1)) m j
  | .redirect p crs, n, f, m, j => feed p n (if Dict.mem crs 0 then none else f) m j
  | .iter _, _, _, _, _ => none
  | .func _, n, f, m, j => if m = n ∧ j = 0 then f else none
  | .group _ _, _, _, _, _ => none
/-- ... for the items of the pipelines among the arguments -/
def feedArgs : Args → Nat → Nat → Nat → Option Nat
  | .nil, _, _, _ => none
  | .word _ rest, n, m, j => feedArgs rest n m j
  | .pipeArg _ p rest, n, m, j => if m < n + p.size then feed p n none m j else feedArgs rest (n + p.size) m j
  | .funcArg _ _ _, _, _, _ => none
end

/-- The inputs of item `k`, when item `x` has written `out x`, and `src` is what comes from elsewhere. -/
def inputs (p : Pipeline) (src : Nat → Nat → Bytes) (out : Nat → Bytes) (k j : Nat) : Bytes :=
  match feed p 0 none k j with
  | some x => out x
  | none => src k j

/-- The items of `p` run one after the other, through files: each finds at its inputs files with the outputs of the items that feed it, or what `src`
says; item `k` writes `out k` and ends with status `code k`. -/
def ThroughFiles {σ : Type} (prog : Prog σ) (p : Pipeline) (init : Nat → σ) (src : Nat → Nat → Bytes) (out : Nat → Bytes) (code : Nat → Nat) : Prop :=
  ∀ k, k < p.size → Runs prog (init k) (inputs p src out k) (out k) (code k)

mutual
/-- Commands, with pipelines, functions and iterators among their arguments, and chains of them and of functions; a chain may begin with an iterator; stdin is
redirected only at the beginning of a chain. `sh`: the pipeline shares its stdin with others; then it must not begin with a function, which always reads
all that it can get. -/
def Nested : Pipeline → Bool → Prop
  | .command _ args, _ => NestedArgs args
  | .pipe a b, sh => Nested a sh ∧ Nested b false ∧ Fed b
  | .redirect p crs, sh => Nested p (sh && !Dict.mem crs 0)
  | .iter _, _ => True
  | .func _, sh => sh = false
  | .group _ _, _ => False
/-- see `Nested` -/
def NestedArgs : Args → Prop
  | .nil => True
  | .word _ rest => NestedArgs rest
  | .pipeArg _ p rest => Nested p true ∧ NestedArgs rest
  | .funcArg _ _ _ => False
/-- The pipeline begins with a command or function whose stdin is not redirected. -/
def Fed : Pipeline → Prop
  | .command _ _ => True
  | .pipe a _ => Fed a
  | .redirect p crs => Dict.mem crs 0 = false ∧ Fed p
  | .iter _ => False
  | .func _ => True
  | .group _ _ => False
end

mutual
/-- Which items are python functions (with an input). -/
def funcs : Pipeline → List Bool
  | .command _ args => funcsArgs args ++ [false]
  | .pipe a b => funcs a ++ funcs b
  | .redirect p _ => funcs p
  | .iter _ => [false]
  | .func _ => [true]
  | .group a b => funcs a ++ funcs b
/-- see `funcs` -/
def funcsArgs : Args → List Bool
  | .nil => []
  | .word _ rest => funcsArgs rest
  | .pipeArg _ p rest => funcs p ++ funcsArgs rest
  | .funcArg _ _ rest => true :: funcsArgs rest
end

/-- Item `m` is a python function. -/
def IsFunc (p : Pipeline) (m : Nat) : Prop := (funcs p)[m]? = some true

mutual
/-- The commands that share the stdin of another one: those that pipelines among arguments begin with, unless it is redirected.  `n` is the
position of the first item, `sh`: the pipeline itself shares its stdin. -/
def sharers : Pipeline → Nat → Bool → List Nat
  | .command _ args, n, sh => sharersArgs args n ++ (if sh then [n + args.size] else [])
  | .pipe a b, n, sh => sharers a n sh ++ sharers b (n + a.size) false
  | .redirect p crs, n, sh => sharers p n (sh && !Dict.mem crs 0)
  | .iter _, _, _ => []
  | .func _, _, _ => []
  | .group _ _, _, _ => []
/-- see `sharers` -/
def sharersArgs : Args → Nat → List Nat
  | .nil, _ => []
  | .word _ rest, n => sharersArgs rest n
  | .pipeArg _ p rest, n => sharers p n true ++ sharersArgs rest (n + p.size)
  | .funcArg _ _ rest, n => sharersArgs rest (n + 1)
end

/-- Inputs that come from functions: the inputs of the functions themselves, and those that the output of a function gets to, directly or through other
items. -/
inductive FromFunc (p : Pipeline) : Nat → Nat → Prop
  | func {m j x : Nat} : IsFunc p m → feed p 0 none m j = some x → FromFunc p m j
  | step {m j x i : Nat} : FromFunc p x i → feed p 0 none m j = some x → FromFunc p m j

/-- A program that reads its input `j` to the end: it does not end before it has got the end of file from there (`P`: the states that it can be in
before that). -/
def Greedy {σ : Type} (prog : Prog σ) (j : Nat) (s : σ) : Prop :=
  ∃ P : σ → Prop, P s ∧ ∀ st, P st → (∀ c, prog.next st ≠ .exit c) ∧ (∀ b st', prog.next st = .write b st' → P st') ∧
    ∀ j' f, prog.next st = .read j' f → (∀ b, P (f (some b))) ∧ (j' ≠ j → P (f none))

/-- A program that never reads its stdin (`P`: the states that it can be in). -/
def NoStdin {σ : Type} (prog : Prog σ) (s : σ) : Prop :=
  ∃ P : σ → Prop, P s ∧ ∀ st, P st → (∀ j f, prog.next st = .read j f → j ≠ 0 ∧ ∀ x, P (f x)) ∧
    ∀ b st', prog.next st = .write b st' → P st' ∧ ∀ st'', prog.epipe st = some st'' → P st''

/-- Item `k` has ended with status `c`, and none of its writes has failed. -/
def Done {σ : Type} (s : St σ) (k c : Nat) : Prop := s.proc k = .exited c ∧ s.cut k = false

/-- A program in state `s`, all of whose writes fail, ends after at most `n` more operations, whatever it reads. -/
def StopsIn {σ : Type} (prog : Prog σ) : Nat → σ → Prop
  | 0, s => ∃ c, prog.next s = .exit c
  | n + 1, s => (∃ c, prog.next s = .exit c) ∨ (∃ j f, prog.next s = .read j f ∧ ∀ x, StopsIn prog n (f x)) ∨
      ∃ b s', prog.next s = .write b s' ∧ ∀ s'', prog.epipe s = some s'' → StopsIn prog n s''

/-- Programs whose write has failed end after at most `n` more operations. -/
def GivesUp {σ : Type} (prog : Prog σ) (n : Nat) : Prop :=
  ∀ s b s' s'', prog.next s = .write b s' → prog.epipe s = some s'' → StopsIn prog n s''

end Pieshell.Subst
