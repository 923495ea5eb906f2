import Verif.Model.FuncArg
import Verif.Spec.Flow
/-!
# What a program with functions among its arguments should do

The functions have positions 0, 1, ..., `n - 1`, in the order of the arguments; the program has position `n`. Function `k` should get what the program writes
to the file named by its `k`th such argument, that is, to its output `k + 1`.
-/
namespace Pieshell.FuncArg
open Flow (Bytes Net Proc upd)

/-- An item, run alone in state `s` with the whole of its inputs available (`inp j` is input `j`), writes `outs j` to its output `j`, for each `j`, and ends with
status `code`. -/
inductive Runs {σ : Type} (prog : Prog σ) : σ → (Nat → Bytes) → (Nat → Bytes) → Nat → Prop
  | exit {s : σ} {inp : Nat → Bytes} {c : Nat} : prog.next s = .exit c → Runs prog s inp (fun _ => []) c
  | write {s s' : σ} {inp outs : Nat → Bytes} {j : Nat} {b : UInt8} {c : Nat} :
      prog.next s = .write j b s' → Runs prog s' inp outs c → Runs prog s inp (upd outs j (b :: outs j)) c
  | read {s : σ} {j : Nat} {f : Option UInt8 → σ} {inp outs : Nat → Bytes} {rest : Bytes} {b : UInt8} {c : Nat} :
      prog.next s = .read j f → inp j = b :: rest → Runs prog (f (some b)) (upd inp j rest) outs c → Runs prog s inp outs c
  | eof {s : σ} {j : Nat} {f : Option UInt8 → σ} {inp outs : Nat → Bytes} {c : Nat} :
      prog.next s = .read j f → inp j = [] → Runs prog (f none) inp outs c → Runs prog s inp outs c

/-- The arguments are words and functions. -/
def FuncArgs : Args → Prop
  | .nil => True
  | .word _ rest => FuncArgs rest
  | .pipeArg _ _ _ => False
  | .funcArg _ _ rest => FuncArgs rest

/-- The number of functions among them. -/
def arity (args : Args) : Nat := args.ids.length

/-- What item `k` can read: a function finds at its input what the program writes for it; everything else comes from `src`. -/
def inputs (n : Nat) (src : Nat → Nat → Bytes) (outs : Nat → Nat → Bytes) (k j : Nat) : Bytes :=
  if k < n ∧ j = 0 then outs n (k + 1) else src k j

/-- The program runs alone, then each function on what the program has written for it: item `k` writes `outs k j` to its output `j`. -/
def ThroughFiles {σ : Type} (prog : Prog σ) (n : Nat) (init : Nat → σ) (src : Nat → Nat → Bytes) (outs : Nat → Nat → Bytes) (code : Nat → Nat) : Prop :=
  ∀ k, k ≤ n → Runs prog (init k) (inputs n src outs k) (outs k) (code k)

/-- `l` consists of the bytes of `f 0`, ..., `f n`, each in their order, but mixed. (`t`: `l`, with the number of the item that each byte comes from.) -/
def Merged (n : Nat) (f : Nat → Bytes) (l : Bytes) : Prop :=
  ∃ t : List (Nat × UInt8), t.map Prod.snd = l ∧ (∀ x ∈ t, x.1 ≤ n) ∧ ∀ k, k ≤ n → (t.filter (fun x => x.1 == k)).map Prod.snd = f k

/-- A function that reads its input to the end: it does not end before it has got the end of file from there (`P`: the states that it can be in before
that). -/
def Greedy {σ : Type} (prog : Prog σ) (s : σ) : Prop :=
  ∃ P : σ → Prop, P s ∧ ∀ st, P st → (∀ c, prog.next st ≠ .exit c) ∧ (∀ j b st', prog.next st = .write j b st' → P st') ∧
    ∀ j f, prog.next st = .read j f → (∀ b, P (f (some b))) ∧ (j ≠ 0 → P (f none))

end Pieshell.FuncArg
