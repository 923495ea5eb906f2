import Verif.Model.Files
/-!
# Vocabulary for several writers of one file
-/
namespace Pieshell

/-- What writer `i` wrote, in order. -/
def output (i : Nat) : List FileEv → List UInt8
  | [] => []
  | .writes j data :: evs => if j = i then data ++ output i evs else output i evs
  | .opens _ _ :: evs => output i evs

/-- What all writers wrote, in the order in which they wrote it. -/
def allOutput : List FileEv → List UInt8
  | [] => []
  | .writes _ data :: evs => data ++ allOutput evs
  | .opens _ _ :: evs => allOutput evs

/-- A history in which everybody opens the file with these flags, once, before writing to it. `op`: who has it open at the
beginning. -/
def Orderly (flag : Nat) (op : Nat → Bool) : List FileEv → Prop
  | [] => True
  | .opens i f :: evs => f = flag ∧ op i = false ∧ Orderly flag (fun j => j = i || op j) evs
  | .writes i _ :: evs => op i = true ∧ Orderly flag op evs

/-- `c` consists of exactly the bytes of `a` and those of `b`, each in their order. -/
inductive Interleaving : List UInt8 → List UInt8 → List UInt8 → Prop
  | nil : Interleaving [] [] []
  | left {a b c : List UInt8} (x : UInt8) : Interleaving a b c → Interleaving (x :: a) b (x :: c)
  | right {a b c : List UInt8} (x : UInt8) : Interleaving a b c → Interleaving a (x :: b) (x :: c)

end Pieshell
