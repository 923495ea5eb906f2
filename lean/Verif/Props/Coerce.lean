import Verif.Model.Coerce
/-! # C20, C21: what can be piped; operators -/
namespace Pieshell.Coerce

/-- Specification: a plain redirection of descriptor `fd` to a file, opened for reading if it is standard input, and
for writing, created if missing, otherwise. -/
def toFile (fd : Nat) (path : Str) : Redirects :=
  [(fd, { fd := fd, source := .path path, flag := if fd = 0 then 0 else 1 + 64, mode := 0o777, pipe := .none, borrowed := false })]

/-- Specification of C20: what putting the value `v` at the side `fd` (0: left, 1: right) of pipeline `p` means.
`join` is the pipe in the right order. `none` stands for ValueError. -/
def meaning (fd : Nat) (join : Pipeline → Pipeline) (p : Pipeline) : PyVal → Option Pipeline
  | .none => some (.redirect p (toFile fd c!"/dev/null"))
  | .str s => some (.redirect p (toFile fd s))
  | .bytes s => some (.redirect p (toFile fd s))
  | .path s => some (.redirect p (toFile fd s))
  | .redirect r => some (.redirect p [(r.fd, r)])
  | .redirects rs => some (.redirect p rs)
  | .pipeline q => some (join q)
  | .function id => some (join (.func id))
  | .method id => some (join (.func id))
  | .obj id f => if f.iter || f.next || f.aiter then some (join (.iter id)) else none
  | .bool _ => none

/-- The value is only asynchronously iterable. -/
def AsyncOnly : PyVal → Prop
  | .obj _ f => f.aiter = true ∧ f.iter = false ∧ f.next = false
  | _ => False

/-- A redirection that closes a descriptor. -/
def Closing : PyVal → Prop
  | .redirect r => r.source = .none
  | _ => False

/-- ValueError for `none` -/
def orValueError : Option Pipeline → Except Exn Pipeline
  | some p => .ok p
  | none => .error .valueError

theorem registers {r : Redirect} (h : r.source ≠ .none) : Redirects.new [.one r] = .ok [(r.fd, r)] := by
  rcases r with ⟨fd, src, fl, mo, pi, bo⟩
  cases src <;> first | rfl | exact absurd rfl h

theorem closes {r : Redirect} (h : r.source = .none) : Redirects.new [.one r] = .error .keyError := by
  rcases r with ⟨fd, src, fl, mo, pi, bo⟩
  cases src <;> first | rfl | cases h

/-- C20 for `p | v`: all python values except asynchronous iterators and closing redirections (see the
refutations); `True` is the special case `p | True = p`. -/
theorem C20_piped_into_partial (p : Pipeline) (v : PyVal) (h1 : ¬ AsyncOnly v) (h2 : ¬ Closing v) :
    pyOr (.pipeline p) v =
      (match v with
       | .bool true => .ok p
       | v => orValueError (meaning 1 (.pipe p) p v)) := by
  cases v with
  | none => rfl
  | bool b => cases b <;> rfl
  | str s => rfl
  | bytes s => rfl
  | path s => rfl
  | redirect r =>
    simp only [Closing] at h2
    simp [pyOr, opOr, coerce, step1, step2, step3, registers h2, step4, step5, meaning, orValueError]
  | redirects rs => rfl
  | pipeline q => rfl
  | function id => rfl
  | method id => rfl
  | obj id f =>
    rcases f with ⟨a, b, c⟩
    cases a <;> cases b <;> cases c <;> first | rfl | exact absurd ⟨rfl, rfl, rfl⟩ h1

/-- C20 for `v | p`. -/
theorem C20_piped_from_partial (p : Pipeline) (v : PyVal) (h1 : ¬ AsyncOnly v) (h2 : ¬ Closing v) (h3 : ∀ q, v ≠ .pipeline q) :
    pyOr v (.pipeline p) = orValueError (meaning 0 (fun q => .pipe q p) p v) := by
  cases v with
  | none => rfl
  | bool b => cases b <;> rfl
  | str s => rfl
  | bytes s => rfl
  | path s => rfl
  | redirect r =>
    simp only [Closing] at h2
    simp [pyOr, opRor, coerce, step1, step2, step3, registers h2, step4, step5, meaning, orValueError]
  | redirects rs => rfl
  | pipeline q => exact absurd rfl (h3 q)
  | function id => rfl
  | method id => rfl
  | obj id f =>
    rcases f with ⟨a, b, c⟩
    cases a <;> cases b <;> cases c <;> first | rfl | exact absurd ⟨rfl, rfl, rfl⟩ h1

/-- Piping one pipeline into another, from either side. -/
theorem C20_pipelines (p q : Pipeline) : pyOr (.pipeline p) (.pipeline q) = .ok (.pipe p q) := rfl

/-- The hypotheses are met by a generator (which is iterable and an iterator) piped into a command, giving a pipe. -/
example : ¬ AsyncOnly (.obj 3 ⟨true, true, false⟩) ∧ ¬ Closing (.obj 3 ⟨true, true, false⟩) ∧
    pyOr (.obj 3 ⟨true, true, false⟩) (.pipeline (.command 1 .nil)) = .ok (.pipe (.iter 3) (.command 1 .nil)) :=
  ⟨(fun h => Bool.noConfusion h.1), id, rfl⟩

/-- C20 is false for asynchronous iterators and generators: every one of them is refused, on both sides. -/
theorem C20_refuted_async (p : Pipeline) (v : PyVal) (h : AsyncOnly v) :
    pyOr (.pipeline p) v = .error .valueError ∧ pyOr v (.pipeline p) = .error .valueError := by
  cases v with
  | obj id f =>
    rcases f with ⟨a, b, c⟩
    obtain ⟨rfl, rfl, rfl⟩ := h
    exact ⟨rfl, rfl⟩
  | _ => cases h

/-- an asynchronous generator has `__aiter__` but neither `__iter__` nor `__next__` -/
example : AsyncOnly (.obj 0 ⟨false, false, true⟩) := ⟨rfl, rfl, rfl⟩

/-- C20 is false for redirections that close a descriptor (`p | Redirect("stderr", None)`): KeyError, on both
sides, for every such redirection. -/
theorem C20_refuted_closing (p : Pipeline) (r : Redirect) (h : r.source = .none) :
    pyOr (.pipeline p) (.redirect r) = .error .keyError ∧ pyOr (.redirect r) (.pipeline p) = .error .keyError := by
  simp [pyOr, opOr, opRor, coerce, step1, step2, step3, closes h]

/-- C21: `>`, `<` and `&` mean the corresponding `|`; `&` starts the result without waiting; building operators run
nothing. -/
theorem C21_operators (p : Pipeline) (v : PyVal) :
    (opGt p v = match pyOr (.pipeline p) v with | .ok q => .ok (.value q) | .error e => .error e) ∧
    (opLt p v = match pyOr v (.pipeline p) with | .ok q => .ok (.value q) | .error e => .error e) ∧
    (opAnd p v = match pyOr (.pipeline p) v with | .ok q => .ok (.started q) | .error e => .error e) := by
  refine ⟨?_, ?_, ?_⟩
  · unfold opGt building; cases pyOr (.pipeline p) v <;> rfl
  · unfold opLt building; cases pyOr v (.pipeline p) <;> rfl
  · unfold opAnd; cases pyOr (.pipeline p) v <;> rfl

/-- C21: explicit forms: output and input files, background, running. -/
theorem C21_explicit (p q : Pipeline) (f : Str) :
    opGt p (.str f) = .ok (.value (.redirect p (toFile 1 f))) ∧
    opLt p (.str f) = .ok (.value (.redirect p (toFile 0 f))) ∧
    opAnd p (.bool true) = .ok (.started p) ∧
    opAnd p .none = .ok (.started (.redirect p (toFile 1 c!"/dev/null"))) ∧
    opInvert p = .started p ∧ opPos p = .waited p ∧ opAwait p = .waited p ∧ opAdd p q = .value (.group p q) :=
  ⟨rfl, rfl, rfl, rfl, rfl, rfl, rfl, rfl⟩

example : opLt (.command 1 .nil) (.str c!"in") =
    .ok (.value (.redirect (.command 1 .nil)
      [(0, { fd := 0, source := .path c!"in", flag := 0, mode := 511, pipe := .none, borrowed := false })])) := rfl

/-- `a` comes after `b` in the order of strings: `b` is a proper prefix of it, or it has the greater character at the first difference. -/
def After (a b : Str) : Prop :=
  (∃ x r, a = b ++ x :: r) ∨ ∃ p x y r r', a = p ++ x :: r ∧ b = p ++ y :: r' ∧ y.toNat < x.toNat

theorem strLt_after (a b : Str) : strLt b a = true ↔ After a b := by
  induction a generalizing b with
  | nil =>
    cases b <;> simp [strLt, After]
  | cons x a ih =>
    cases b with
    | nil => simp only [strLt, true_iff]; exact .inl ⟨x, a, rfl⟩
    | cons y b =>
      simp only [strLt]
      split
      · rename_i h
        simp only [true_iff]
        exact .inr ⟨[], x, y, a, b, rfl, rfl, h⟩
      · rename_i h
        split
        · rename_i h2
          simp only [Bool.false_eq_true, false_iff]
          rintro (⟨z, r, h3⟩ | ⟨p, u, v, r, r', h3, h4, h5⟩)
          · injection h3 with h3 _; subst h3; omega
          · cases p with
            | nil => cases h3; cases h4; omega
            | cons w p => injection h3 with h3 _; injection h4 with h4 _; subst h3; subst h4; omega
        · rename_i h2
          have e : x = y := Char.ext (UInt32.toNat_inj.1 (show x.toNat = y.toNat by omega))
          subst e
          rw [ih]
          constructor
          · rintro (⟨z, r, rfl⟩ | ⟨p, u, v, r, r', rfl, rfl, h5⟩)
            · exact .inl ⟨z, r, rfl⟩
            · exact .inr ⟨x :: p, u, v, r, r', rfl, rfl, h5⟩
          · rintro (⟨z, r, h3⟩ | ⟨p, u, v, r, r', h3, h4, h5⟩)
            · injection h3 with _ h3; exact .inl ⟨z, r, h3⟩
            · cases p with
              | nil => cases h3; cases h4; omega
              | cons w p => injection h3 with _ h3; injection h4 with _ h4; exact .inr ⟨p, u, v, r, r', h3, h4, h5⟩

/-- C63: what it is instead: the result of comparing the two file names. -/
theorem C63_value (p : Pipeline) (a b : Str) : ∃ c, chainLtGt p a b = .ok (.inr c) ∧ (c = true ↔ After a b) := ⟨_, rfl, strLt_after a b⟩

example : After c!"in" c!"ignored" := .inr ⟨c!"i", 'n', 'g', [], c!"nored", rfl, rfl, by decide⟩

/-- C63 is false: `p < "a" > "b"` is never a pipeline with both redirections (python evaluates it as a comparison
chain): its value is a bool for every pipeline and every two strings. -/
theorem C63_refuted (p : Pipeline) (a b : Str) : ∃ c, chainLtGt p a b = .ok (.inr c) := ⟨_, rfl⟩

/-- With parentheses it works. -/
theorem C63_parenthesised_partial (p : Pipeline) (a b : Str) :
    opLt p (.str a) = .ok (.value (.redirect p (toFile 0 a))) ∧
    opGt (.redirect p (toFile 0 a)) (.str b) = .ok (.value (.redirect (.redirect p (toFile 0 a)) (toFile 1 b))) := ⟨rfl, rfl⟩

end Pieshell.Coerce
