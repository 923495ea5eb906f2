import Verif.Model.Base
/-! # What wild cards mean (C98) -/
namespace Pieshell.Fnm

/-- The ranges written in the text of a bracket expression, read from the left: `a-b` with anything on both sides is a
range, everything else stands for itself. -/
def readRanges : Str → List (Char × Char)
  | [] => []
  | [a] => [(a, a)]
  | [a, b] => [(a, a), (b, b)]
  | a :: b :: c :: s => if b = '-' then (a, c) :: readRanges s else (a, a) :: readRanges (b :: c :: s)

/-- `c` is one of the characters that `[body]` stands for -/
def InBrackets (body : Str) (c : Char) : Prop := ∃ r ∈ readRanges body, r.1 ≤ c ∧ c ≤ r.2

/-- what follows a `[` contains the end of the bracket expression -/
inductive Closed : Str → Prop where
  | pos (x : Char) (ys p : Str) : x ≠ '!' → ']' ∉ ys → Closed (x :: ys ++ ']' :: p)
  | neg (x : Char) (ys p : Str) : ']' ∉ ys → Closed ('!' :: x :: ys ++ ']' :: p)

/-- `Wild pattern name`: the name is one of those the pattern stands for. -/
inductive Wild : Str → Str → Prop where
  | done : Wild [] []
  /-- `*` stands for any text -/
  | star (t : Str) {p s : Str} : Wild p s → Wild ('*' :: p) (t ++ s)
  /-- `?` for any character -/
  | one (c : Char) {p s : Str} : Wild p s → Wild ('?' :: p) (c :: s)
  /-- other characters for themselves -/
  | lit (c : Char) {p s : Str} : c ≠ '*' → c ≠ '?' → c ≠ '[' → Wild p s → Wild (c :: p) (c :: s)
  /-- and so does a `[` without end -/
  | bare {p s : Str} : ¬ Closed p → Wild p s → Wild ('[' :: p) ('[' :: s)
  /-- `[...]` for one of the characters listed -/
  | set (x : Char) (ys : Str) {p : Str} (c : Char) {s : Str} : x ≠ '!' → ']' ∉ ys → InBrackets (x :: ys) c → Wild p s →
      Wild ('[' :: x :: ys ++ ']' :: p) (c :: s)
  /-- `[!...]` for one of the others -/
  | nset (x : Char) (ys : Str) {p : Str} (c : Char) {s : Str} : ']' ∉ ys → ¬ InBrackets (x :: ys) c → Wild p s →
      Wild ('[' :: '!' :: x :: ys ++ ']' :: p) (c :: s)

/-- No bracket expression of the pattern contains an empty range, such as `[b-a]`. -/
inductive Proper : Str → Prop where
  | done : Proper []
  | other (c : Char) {p : Str} : c ≠ '[' → Proper p → Proper (c :: p)
  | bare {p : Str} : ¬ Closed p → Proper p → Proper ('[' :: p)
  | set (x : Char) (ys : Str) {p : Str} : x ≠ '!' → ']' ∉ ys → (∀ r ∈ readRanges (x :: ys), r.1 ≤ r.2) → Proper p →
      Proper ('[' :: x :: ys ++ ']' :: p)
  | nset (x : Char) (ys : Str) {p : Str} : ']' ∉ ys → (∀ r ∈ readRanges (x :: ys), r.1 ≤ r.2) → Proper p →
      Proper ('[' :: '!' :: x :: ys ++ ']' :: p)

end Pieshell.Fnm
