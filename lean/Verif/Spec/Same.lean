import Verif.Spec.Traffic
import Verif.Spec.FuncArg
/-!
# Pipelines whose result should not depend on the schedule

If two items read from the same pipe, it depends on the schedule which of them gets what; if two of them write to it, it depends on the schedule how that is mixed. So the outcome of a pipeline
can be expected not to depend on the schedule only if at most one item really writes to each pipe, and at most one really reads from it.
-/
namespace Pieshell.FuncArg
open Flow (Bytes Net)

/-- There are inputs with which an item that begins in state `s` comes to read from its input `j`. -/
def MayRead {σ : Type} (prog : Prog σ) (s : σ) (j : Nat) : Prop := ∃ x r e o st f, Alone prog s x r e o st ∧ prog.next st = .read j f

/-- ... to write to its output `j`. -/
def MayWrite {σ : Type} (prog : Prog σ) (s : σ) (j : Nat) : Prop := ∃ x r e o st b st', Alone prog s x r e o st ∧ prog.next st = .write j b st'

/-- Item `k` takes bytes from its input `j`: it may read from it; the handlers of functions do so in any case. -/
def Takes {σ : Type} (prog : Prog σ) (net : Net) (init : Nat → σ) (k j : Nat) : Prop := MayRead prog (init k) j ∨ (Subst.handler net k j).isSome = true

/-- Each pipe has one item that writes to it and one reader (an item, or the shell) at most. -/
structure OneEach {σ : Type} (prog : Prog σ) (net : Net) (init : Nat → σ) : Prop where
  writer : ∀ q k j k' j', outSlot net k j = some q → MayWrite prog (init k) j → outSlot net k' j' = some q → MayWrite prog (init k') j' → k = k' ∧ j = j'
  reader : ∀ q k j k' j', Subst.slot net k j = some q → Takes prog net init k j → Subst.slot net k' j' = some q → Takes prog net init k' j' → k = k' ∧ j = j'
  shell : ∀ q k j, net.user = some q → Subst.slot net k j = some q → ¬ Takes prog net init k j

/-- An item that begins in state `s` does not end before it has been told of the end of its input `j`. -/
def Drains {σ : Type} (prog : Prog σ) (s : σ) (j : Nat) : Prop := ∀ r e o st c, Alone prog s false r e o st → prog.next st = .exit c → e j = true

/-- Each pipe to which an item may write is read by an item that does not end before it has found the end of it, or by a function (whose handler goes on if it ends), or by the shell. -/
def Drained {σ : Type} (prog : Prog σ) (net : Net) (init : Nat → σ) : Prop :=
  ∀ q k j, outSlot net k j = some q → MayWrite prog (init k) j → net.user = some q ∨ ∃ k' j', Subst.slot net k' j' = some q ∧ (Drains prog (init k') j' ∨ (Subst.handler net k' j').isSome = true)

/-- `X` is what item `k` finds at its input `j`, if the items are run one after the other, with files in the place of pipes: the file that another item has written, an empty one if nobody writes to it,
or what comes from elsewhere. -/
def FileInput {σ : Type} (prog : Prog σ) (net : Net) (init : Nat → σ) (src outs : Nat → Nat → Bytes) (k j : Nat) (X : Bytes) : Prop :=
  (Subst.slot net k j = none → X = src k j) ∧
  ∀ q, Subst.slot net k j = some q →
    (∀ k' j', outSlot net k' j' = some q → MayWrite prog (init k') j' → X = outs k' j') ∧
    ((∀ k' j', outSlot net k' j' = some q → ¬ MayWrite prog (init k') j') → X = [])

/-- The items, run one after the other with files in the place of pipes, write `outs k j` to output `j` of item `k` and end with status `code k`. -/
def WithFiles {σ : Type} (prog : Prog σ) (net : Net) (init : Nat → σ) (src outs : Nat → Nat → Bytes) (code : Nat → Nat) : Prop :=
  ∀ k, k < net.items.length → ∃ inp, Runs prog (init k) inp (outs k) (code k) ∧ ∀ j, MayRead prog (init k) j → FileInput prog net init src outs k j (inp j)

/-- What the shell finds in its file. -/
def ShellFile {σ : Type} (prog : Prog σ) (net : Net) (init : Nat → σ) (outs : Nat → Nat → Bytes) (X : Bytes) : Prop :=
  (net.user = none → X = []) ∧
  ∀ q, net.user = some q →
    (∀ k' j', outSlot net k' j' = some q → MayWrite prog (init k') j' → X = outs k' j') ∧
    ((∀ k' j', outSlot net k' j' = some q → ¬ MayWrite prog (init k') j') → X = [])

end Pieshell.FuncArg
