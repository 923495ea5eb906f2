import Verif.Model.Expand
import Verif.Spec.Path
/-! # Vocabulary for C24-C27 -/
namespace Pieshell.Expand

/-- the string with every `%` written twice -/
def double (s : Str) : Str := s.flatMap (fun c => if c = '%' then ['%', '%'] else [c])

/-- A template: literal text and variables. -/
inductive Piece where
  | lit (s : Str) | var (name : Str)

/-- how a piece is written in an argument -/
def Piece.source : Piece → Str
  | .lit s => double s
  | .var n => c!"%(" ++ n ++ c!")s"

/-- Text in which parentheses are balanced. -/
inductive Balanced : Str → Prop
  | nil : Balanced []
  | char {c : Char} {s : Str} : c ≠ '(' → c ≠ ')' → Balanced s → Balanced (c :: s)
  | paren {s t : Str} : Balanced s → Balanced t → Balanced ('(' :: (s ++ ')' :: t))

/-- a variable name that can be written: parentheses in it are balanced -/
def Piece.Plain : Piece → Prop
  | .lit _ => True
  | .var n => Balanced n

/-- names without parentheses -/
theorem Balanced.of_none {n : Str} (h : '(' ∉ n ∧ ')' ∉ n) : Balanced n := by
  induction n with
  | nil => exact .nil
  | cons c n ih =>
    simp only [List.mem_cons, not_or] at h
    exact .char (fun e => h.1.1 e.symm) (fun e => h.2.1 e.symm) (ih ⟨h.1.2, h.2.2⟩)

/-- literal text and the values of the variables, concatenated; the first undefined variable is an error -/
def values (lookup : Str → Except Exn Str) : List Piece → Except Exn Str
  | [] => .ok []
  | .lit s :: ps => prepend s (values lookup ps)
  | .var n :: ps => match lookup n with
    | .error e => .error e
    | .ok v => prepend v (values lookup ps)

/-- Text that is not changed by expansion of home directories and file names. -/
def Inert (s : Str) : Prop := s.head? ≠ some '~' ∧ '*' ∉ s ∧ '?' ∉ s ∧ '[' ∉ s

/-- `Cancel l r`: `r` is `l` without some components that are followed by `..`, each removed together with that `..`. -/
inductive Cancel : List Str → List Str → Prop
  | refl (l : List Str) : Cancel l l
  | step (l : List Str) (a : Str) (r x : List Str) : a ≠ c!".." → Cancel (l ++ r) x → Cancel (l ++ a :: c!".." :: r) x

/-- Every path can be brought into the form `../../a/b`. -/
theorem cancel_total (l : List Str) : ∃ ups qs, Cancel l (List.replicate ups c!".." ++ qs) ∧ c!".." ∉ qs := by
  have key : ∀ (n : Nat) (l : List Str), l.length ≤ n → ∃ ups qs, Cancel l (List.replicate ups c!".." ++ qs) ∧ c!".." ∉ qs := by
    intro n
    induction n with
    | zero =>
      intro l hl
      have : l = [] := List.length_eq_zero_iff.1 (by omega)
      subst this
      exact ⟨0, [], .refl [], by simp⟩
    | succ n ih =>
      intro l hl
      have split : (∃ m qs, l = List.replicate m c!".." ++ qs ∧ c!".." ∉ qs) ∨ ∃ a x r, l = a ++ x :: c!".." :: r ∧ x ≠ c!".." := by
        clear ih hl
        induction l with
        | nil => exact .inl ⟨0, [], rfl, by simp⟩
        | cons w l ih =>
          rcases ih with ⟨m, qs, rfl, hq⟩ | ⟨a, x, r, rfl, hx⟩
          · by_cases hw : w = c!".."
            · exact .inl ⟨m + 1, qs, by rw [hw, List.replicate_succ]; rfl, hq⟩
            · cases m with
              | zero => exact .inl ⟨0, w :: qs, rfl, by simp [hq, Ne.symm hw]⟩
              | succ m => exact .inr ⟨[], w, List.replicate m c!".." ++ qs, by rw [List.replicate_succ]; rfl, hw⟩
          · exact .inr ⟨w :: a, x, r, rfl, hx⟩
      rcases split with ⟨m, qs, rfl, hq⟩ | ⟨a, x, r, rfl, hx⟩
      · exact ⟨m, qs, .refl _, hq⟩
      · obtain ⟨m, qs, hc, hq⟩ := ih (a ++ r) (by simp at hl ⊢; omega)
        exact ⟨m, qs, .step a x r _ hx hc, hq⟩
  exact key l.length l (Nat.le_refl _)

end Pieshell.Expand
