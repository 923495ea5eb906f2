import Verif.Model.Pickle
/-! # Vocabulary for C87 -/
namespace Pieshell.Pickle

/-- No value refers to an object that does not exist. -/
def Closed (h : Heap) : Prop := ∀ (n : Nat) (o : Obj), h[n]? = some o → ∀ a m, (a, Ref.obj m) ∈ o.attrs → m < h.length

/-- What attribute `a` of object `n` should be at the other end, in terms of the objects here: the same as here, but pipelines do not have attributes
beginning with `__` nor running processes, environments have no scope, and the last pipeline of an environment is the pipeline instead of the
job that was made of it. -/
def sent (h : Heap) (n : Nat) (a : Str) : Option Ref :=
  match h[n]? with
  | none => none
  | some o => match o.kind with
    | .pipeline _ => if c!"__" <+: a ∨ a = c!"_running_process" ∨ a = c!"_running_processes" then none else o.attrs.get? a
    | .env => match o.attrs.get? a with
      | none => none
      | some v =>
        if a = c!"_scope" then some none_
        else if a = c!"last_pipeline" then (match v with
          | .obj j => (h[j]?).bind fun job => job.attrs.get? c!"pipeline"
          | .imm _ => none)
        else some v
    | .plain _ => o.attrs.get? a
    | .global _ => none
    | .refused => none

/-- Follow attributes from an object. -/
def follow (get : Nat → Str → Option Ref) : Ref → List Str → Option Ref
  | r, [] => some r
  | .imm _, _ :: _ => none
  | .obj n, a :: p => match get n a with
    | some r => follow get r p
    | none => none

/-- Attributes of the objects of a heap. -/
def attr (h : Heap) (n : Nat) (a : Str) : Option Ref := (h[n]?).bind fun o => o.attrs.get? a

/-- Object `m` is reached from `n`. -/
def Reached (h : Heap) (n m : Nat) : Prop := ∃ p, follow (sent h) (.obj n) p = some (.obj m)

/-- Pickle refuses nothing of what is reached, and the last pipelines of environments are jobs. -/
def Sendable (h : Heap) (n : Nat) : Prop := ∀ (m : Nat) (o : Obj), Reached h n m → h[m]? = some o →
  o.kind ≠ .refused ∧ (o.kind = .env → ∀ v, o.attrs.get? c!"last_pipeline" = some v → sent h m c!"last_pipeline" ≠ none)

/-- The attribute names of every object are different. -/
def Uniq (h : Heap) : Prop := ∀ o ∈ h, Dict.Uniq o.attrs

end Pieshell.Pickle
