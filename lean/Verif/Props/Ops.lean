import Verif.Spec.Ops
import Verif.Props.Coerce
/-!
# Background jobs: what `& True`, `~` and `+` apply to (C120)
-/
namespace Pieshell.Ops
open Coerce

/-! ## python's grammar -/

theorem climb_tight (c : Option (Ex × List (Op × Ex) × Op)) (o a : Option Ex) (s : Ex) (l : List (Op × Ex)) (h : ∀ p ∈ l, p.1.tight = true) :
    climb c o a s l = joinCmp c (joinOr o (climb none none a s l)) := by
  induction l generalizing a s with
  | nil => rfl
  | cons p l ih =>
    obtain ⟨op, y⟩ := p
    have hl : ∀ p ∈ l, p.1.tight = true := fun p hp => h p (List.mem_cons_of_mem _ hp)
    cases op with
    | plus => simp only [climb]; exact ih a (.bin .plus s y) hl
    | amp => simp only [climb]; exact ih (some (joinAnd a s)) y hl
    | bar => have := h (.bar, y) (by simp); simp [Op.tight] at this
    | lt => have := h (.lt, y) (by simp); simp [Op.tight] at this
    | gt => have := h (.gt, y) (by simp); simp [Op.tight] at this

theorem climb_bar (o a : Option Ex) (s y : Ex) (l m : List (Op × Ex)) (hl : ∀ p ∈ l, p.1.compares = false) (hm : ∀ p ∈ m, p.1.tight = true) :
    climb none o a s (l ++ (.bar, y) :: m) = .bin .bar (climb none o a s l) (parse y m) := by
  induction l generalizing o a s with
  | nil => simp only [List.nil_append, climb]; rw [climb_tight _ _ _ _ _ hm]; rfl
  | cons p l ih =>
    obtain ⟨op, z⟩ := p
    have hl' : ∀ p ∈ l, p.1.compares = false := fun p hp => hl p (List.mem_cons_of_mem _ hp)
    cases op with
    | plus => simp only [List.cons_append, climb]; exact ih _ _ _ hl'
    | amp => simp only [List.cons_append, climb]; exact ih _ _ _ hl'
    | bar => simp only [List.cons_append, climb]; exact ih _ _ _ hl'
    | lt => have := hl (.lt, z) (by simp); simp [Op.compares] at this
    | gt => have := hl (.gt, z) (by simp); simp [Op.compares] at this

theorem climb_amp (a : Option Ex) (s y : Ex) (l m : List (Op × Ex)) (hl : ∀ p ∈ l, p.1.tight = true) (hm : ∀ p ∈ m, p.1 = .plus) :
    climb none none a s (l ++ (.amp, y) :: m) = .bin .amp (climb none none a s l) (parse y m) := by
  induction l generalizing a s with
  | nil =>
    simp only [List.nil_append, climb, joinCmp, joinOr]
    generalize hb : joinAnd a s = b
    clear hb
    unfold parse
    induction m generalizing y with
    | nil => rfl
    | cons p m ih =>
      obtain ⟨op, z⟩ := p
      obtain rfl : op = .plus := hm (op, z) (by simp)
      simp only [climb]
      exact ih _ (fun p hp => hm p (List.mem_cons_of_mem _ hp))
  | cons p l ih =>
    obtain ⟨op, z⟩ := p
    have hl' : ∀ p ∈ l, p.1.tight = true := fun p hp => hl p (List.mem_cons_of_mem _ hp)
    cases op with
    | plus => simp only [List.cons_append, climb]; exact ih _ _ hl'
    | amp => simp only [List.cons_append, climb]; exact ih _ _ hl'
    | bar => have := hl (.bar, z) (by simp); simp [Op.tight] at this
    | lt => have := hl (.lt, z) (by simp); simp [Op.tight] at this
    | gt => have := hl (.gt, z) (by simp); simp [Op.tight] at this

theorem climb_plain (c : Option (Ex × List (Op × Ex) × Op)) (o a : Option Ex) (s : Ex) (l : List (Op × Ex)) (h : ∀ p ∈ l, p.1.compares = false) :
    climb c o a s l = joinCmp c (climb none o a s l) := by
  induction l generalizing o a s with
  | nil => rfl
  | cons p l ih =>
    obtain ⟨op, y⟩ := p
    have hl : ∀ p ∈ l, p.1.compares = false := fun p hp => h p (List.mem_cons_of_mem _ hp)
    cases op with
    | plus => simp only [climb]; exact ih _ _ _ hl
    | amp => simp only [climb]; exact ih _ _ _ hl
    | bar => simp only [climb]; exact ih _ _ _ hl
    | lt => have := h (.lt, y) (by simp); simp [Op.compares] at this
    | gt => have := h (.gt, y) (by simp); simp [Op.compares] at this

theorem climb_cmp (o a : Option Ex) (s y : Ex) (op : Op) (l m : List (Op × Ex)) (hop : op.compares = true) (hl : ∀ p ∈ l, p.1.compares = false) (hm : ∀ p ∈ m, p.1.compares = false) :
    climb none o a s (l ++ (op, y) :: m) = .cmp (climb none o a s l) [(op, parse y m)] := by
  induction l generalizing o a s with
  | nil => cases op <;> first | (cases hop; done) | (simp only [List.nil_append, climb]; rw [climb_plain _ _ _ _ _ hm]; rfl)
  | cons p l ih =>
    obtain ⟨op', z⟩ := p
    have hl' : ∀ p ∈ l, p.1.compares = false := fun p hp => hl p (List.mem_cons_of_mem _ hp)
    cases op' with
    | plus => simp only [List.cons_append, climb]; exact ih _ _ _ hl'
    | amp => simp only [List.cons_append, climb]; exact ih _ _ _ hl'
    | bar => simp only [List.cons_append, climb]; exact ih _ _ _ hl'
    | lt => have := hl (.lt, z) (by simp); simp [Op.compares] at this
    | gt => have := hl (.gt, z) (by simp); simp [Op.compares] at this

theorem exs_then (rest : Rest) (o : Op) (pre : List Prefix) (x : Operand) (r : Rest) :
    (rest.then o (.mk pre x r)).exs = rest.exs ++ (o, prefixed pre x.ex) :: r.exs := by
  match rest with
  | .nil => simp [Rest.then, Rest.exs]
  | .cons o' pre' x' rest' => simp [Rest.then, Rest.exs, exs_then rest']

theorem exs_ops (rest : Rest) : rest.exs.map Prod.fst = rest.ops := by
  match rest with
  | .nil => simp [Rest.exs, Rest.ops]
  | .cons o pre x rest' => simp [Rest.exs, Rest.ops, exs_ops rest']

theorem exs_all {rest : Rest} {P : Op → Prop} (h : ∀ o ∈ rest.ops, P o) : ∀ p ∈ rest.exs, P p.1 := fun p hp => h _ (by rw [← exs_ops]; exact List.mem_map_of_mem hp)

/-- python's grammar, `or_expr ::= or_expr "|" and_expr`: in `a | b`, where no comparison is in `a`, and `b` has no `|` and no comparison outside of parentheses, the operands of the last `|` are `a` and `b`. -/
theorem grammar_bar (a b : Src) (ha : ∀ o ∈ a.ops, o.compares = false) (hb : ∀ o ∈ b.ops, o.tight = true) : (a.then .bar b).ex = .bin .bar a.ex b.ex := by
  obtain ⟨pre, x, r⟩ := a
  obtain ⟨pre', x', r'⟩ := b
  simp only [Src.then, Src.ex, exs_then]
  exact climb_bar none none _ _ _ _ (exs_all ha) (exs_all hb)

/-- `and_expr ::= and_expr "&" a_expr` -/
theorem grammar_amp (a b : Src) (ha : ∀ o ∈ a.ops, o.tight = true) (hb : ∀ o ∈ b.ops, o = .plus) : (a.then .amp b).ex = .bin .amp a.ex b.ex := by
  obtain ⟨pre, x, r⟩ := a
  obtain ⟨pre', x', r'⟩ := b
  simp only [Src.then, Src.ex, exs_then]
  exact climb_amp none _ _ _ _ (exs_all ha) (exs_all hb)

theorem climb_plus (a : Option Ex) (s y : Ex) (l : List (Op × Ex)) (hl : ∀ p ∈ l, p.1 = .plus) :
    climb none none none s (l ++ [(.plus, y)]) = .bin .plus (climb none none none s l) y := by
  induction l generalizing s with
  | nil => rfl
  | cons p l ih =>
    obtain ⟨op, z⟩ := p
    obtain rfl : op = .plus := hl (op, z) (by simp)
    simp only [List.cons_append, climb]
    exact ih _ (fun p hp => hl p (List.mem_cons_of_mem _ hp))

/-- `a_expr ::= a_expr "+" u_expr`: the right operand is one operand with its prefix operators -/
theorem grammar_plus (a : Src) (pre : List Prefix) (x : Operand) (ha : ∀ o ∈ a.ops, o = .plus) : (a.then .plus (.mk pre x .nil)).ex = .bin .plus a.ex (prefixed pre x.ex) := by
  obtain ⟨pre', x', r'⟩ := a
  simp only [Src.then, Src.ex, exs_then]
  exact climb_plus none _ _ _ (exs_all ha)

/-- `comparison ::= or_expr (comp_operator or_expr)*`, for one comparison -/
theorem grammar_cmp (a b : Src) (op : Op) (hop : op.compares = true) (ha : ∀ o ∈ a.ops, o.compares = false) (hb : ∀ o ∈ b.ops, o.compares = false) :
    (a.then op b).ex = .cmp a.ex [(op, b.ex)] := by
  obtain ⟨pre, x, r⟩ := a
  obtain ⟨pre', x', r'⟩ := b
  simp only [Src.then, Src.ex, exs_then]
  exact climb_cmp none none _ _ _ _ _ hop (exs_all ha) (exs_all hb)

theorem rest_assoc (pre' : List Prefix) (x' : Operand) (r' : Rest) (c : Src) (o o' : Op) : (r : Rest) → (r.then o (.mk pre' x' r')).then o' c = r.then o (.mk pre' x' (r'.then o' c))
  | .nil => by simp [Rest.then]
  | .cons o1 p1 x1 r1 => by
    simp only [Rest.then, Rest.cons.injEq, true_and]
    exact rest_assoc pre' x' r' c o o' r1

theorem then_assoc (a b c : Src) (o o' : Op) : (a.then o b).then o' c = a.then o (b.then o' c) := by
  obtain ⟨pre, x, r⟩ := a
  obtain ⟨pre', x', r'⟩ := b
  simp only [Src.then, Src.mk.injEq, true_and]
  exact rest_assoc pre' x' r' c o o' r

/-! ## C120 -/

/-- **C120, where it holds.** Appending `& True` to an expression without `|`, `<` and `>` outside of parentheses starts the pipeline the expression stands for, and nothing else. -/
theorem C120_append_partial (wait : Pipeline → Option Exn) (s : Src) (h : ∀ o ∈ s.ops, o.tight = true) (p : Pipeline) (log : List Ran) (hs : s.run wait = (.ok (.py (.pipeline p)), log)) :
    (s.then .amp (.one (.bool true))).run wait = (.ok (.running p), log ++ [.started p]) := by
  unfold Src.run at hs ⊢
  rw [grammar_amp s _ h (by simp [Src.one, Src.ops, Rest.ops])]
  simp [eval, hs, Src.one, Src.ex, Operand.ex, prefixed, Rest.exs, parse, climb, joinCmp, joinOr, joinAnd, vBin, vAnd, vOr, opOr, ofPipeline]

/-- **C120, where it holds.** Appending `& None` also redirects its output to `/dev/null`. -/
theorem C120_append_none_partial (wait : Pipeline → Option Exn) (s : Src) (h : ∀ o ∈ s.ops, o.tight = true) (p : Pipeline) (log : List Ran) (hs : s.run wait = (.ok (.py (.pipeline p)), log)) :
    (s.then .amp (.one .none)).run wait = (.ok (.running (.redirect p (toFile 1 c!"/dev/null"))), log ++ [.started (.redirect p (toFile 1 c!"/dev/null"))]) := by
  unfold Src.run at hs ⊢
  rw [grammar_amp s _ h (by simp [Src.one, Src.ops, Rest.ops])]
  have hw : eval wait (Src.one .none).ex log = (.ok (.py .none), log) := rfl
  simp only [eval, hs, hw, vBin, vAnd]
  rfl

/-- **C120, where it holds.** In parentheses every expression can be started: `(s) & True` and `~(s)` start it, `+(s)` also waits for it, and nothing else is run. -/
theorem C120_parentheses_partial (wait : Pipeline → Option Exn) (s : Src) (p : Pipeline) (log : List Ran) (hs : s.run wait = (.ok (.py (.pipeline p)), log)) :
    (s.inParens.then .amp (.one (.bool true))).run wait = (.ok (.running p), log ++ [.started p]) ∧
    (s.inParens.after .inv).run wait = (.ok (.running p), log ++ [.started p]) ∧
    (wait p = none → (s.inParens.after .pos).run wait = (.ok (.running p), log ++ [.waited p])) := by
  unfold Src.run at hs
  refine ⟨?_, ?_, ?_⟩
  · simp [Src.run, Src.inParens, Src.then, Rest.then, eval, hs, Src.one, Src.ex, Operand.ex, prefixed, Rest.exs, parse, climb, joinCmp, joinOr, joinAnd, vBin, vAnd, vOr, opOr, ofPipeline]
  · simp [Src.run, Src.inParens, Src.after, eval, hs, Src.ex, Operand.ex, prefixed, Rest.exs, parse, climb, joinCmp, joinOr, joinAnd, vPrefix]
  · intro hw
    simp [Src.run, Src.inParens, Src.after, eval, hs, hw, Src.ex, Operand.ex, prefixed, Rest.exs, parse, climb, joinCmp, joinOr, joinAnd, vPrefix]

/-- **C120 is false**: `a | b & True` is `a | (b & True)`. Although `a | b` stands for the pipeline of both, this starts `b` alone, reading from the terminal, and then raises ValueError: for all expressions
`a` and `b` for pipelines, `b` without `|` outside of parentheses. -/
theorem C120_append_refuted (wait : Pipeline → Option Exn) (a b : Src) (ha : ∀ o ∈ a.ops, o.compares = false) (hb : ∀ o ∈ b.ops, o.tight = true) (p q : Pipeline) (log log' : List Ran)
    (h1 : a.run wait = (.ok (.py (.pipeline p)), log)) (h2 : eval wait b.ex log = (.ok (.py (.pipeline q)), log')) :
    (a.then .bar b).run wait = (.ok (.py (.pipeline (.pipe p q))), log') ∧
    ((a.then .bar b).then .amp (.one (.bool true))).run wait = (.error (.exn .valueError), log' ++ [.started q]) := by
  unfold Src.run at h1
  have hb' : ∀ o ∈ (b.then .amp (.one (.bool true))).ops, o.tight = true := by
    obtain ⟨pre, x, r⟩ := b
    intro o ho
    simp only [Src.then, Src.ops, Src.one] at ho
    rw [← exs_ops, exs_then, List.map_append, exs_ops, List.mem_append] at ho
    rcases ho with ho | ho
    · exact hb o ho
    · simp [Rest.exs] at ho; rw [ho]; rfl
  rw [then_assoc]
  unfold Src.run
  rw [grammar_bar a b ha hb, grammar_bar a _ ha hb', grammar_amp b _ hb (by simp [Src.one, Src.ops, Rest.ops])]
  refine ⟨?_, ?_⟩
  · simp [eval, h1, h2, vBin, vOr, opOr, coerce, step1, step2, step3, step4, step5, ofPipeline]
  · simp [eval, h1, h2, Src.one, Src.ex, Operand.ex, prefixed, Rest.exs, parse, climb, joinCmp, joinOr, joinAnd, vBin, vAnd, vOr, opOr, ofPipeline]

/-- **C120 is false, silently**: `"file" | b & True` starts `b` reading from the terminal instead of from the file, and is None. -/
theorem C120_append_file_refuted (wait : Pipeline → Option Exn) (f : Str) (b : Src) (hb : ∀ o ∈ b.ops, o.tight = true) (q : Pipeline) (log : List Ran)
    (h2 : b.run wait = (.ok (.py (.pipeline q)), log)) :
    ((Src.one (.str f)).then .bar b).run wait = (.ok (.py (.pipeline (.redirect q (toFile 0 f)))), log) ∧
    (((Src.one (.str f)).then .bar b).then .amp (.one (.bool true))).run wait = (.ok (.py .none), log ++ [.started q]) := by
  unfold Src.run at h2
  have ha : ∀ o ∈ (Src.one (.str f)).ops, o.compares = false := by simp [Src.one, Src.ops, Rest.ops]
  have hb' : ∀ o ∈ (b.then .amp (.one (.bool true))).ops, o.tight = true := by
    obtain ⟨pre, x, r⟩ := b
    intro o ho
    simp only [Src.then, Src.ops, Src.one] at ho
    rw [← exs_ops, exs_then, List.map_append, exs_ops, List.mem_append] at ho
    rcases ho with ho | ho
    · exact hb o ho
    · simp [Rest.exs] at ho; rw [ho]; rfl
  rw [then_assoc]
  unfold Src.run
  rw [grammar_bar _ b ha hb, grammar_bar _ _ ha hb', grammar_amp b _ hb (by simp [Src.one, Src.ops, Rest.ops])]
  have hv : eval wait (Src.one (.str f)).ex [] = (.ok (.py (.str f)), []) := rfl
  have hw : eval wait (Src.one (.bool true)).ex log = (.ok (.py (.bool true)), log) := rfl
  refine ⟨?_, ?_⟩
  · simp only [eval, hv, h2]; rfl
  · simp only [eval, hv, h2, hw, vBin, vAnd, vOr, opOr, ofPipeline]; rfl

/-- **C120 is false for prefix operators**: `~x | b` is `(~x) | b`: it starts `x` alone, and is None; `b` is lost. -/
theorem C120_prefix_refuted (wait : Pipeline → Option Exn) (x : Operand) (b : Src) (hb : ∀ o ∈ b.ops, o.tight = true) (p q : Pipeline) (log log' : List Ran)
    (h1 : eval wait x.ex [] = (.ok (.py (.pipeline p)), log)) (h2 : eval wait b.ex (log ++ [.started p]) = (.ok (.py (.pipeline q)), log')) :
    (((Src.mk [] x .nil).then .bar b).after .inv).run wait = (.ok (.py .none), log') := by
  have : ((Src.mk [] x .nil).then .bar b).after .inv = (Src.mk [.inv] x .nil).then .bar b := rfl
  rw [this, Src.run, grammar_bar _ _ (by simp [Src.ops, Rest.ops]) hb]
  have h3 : eval wait (Src.mk [.inv] x .nil).ex [] = (.ok (.running p), log ++ [.started p]) := by
    simp [Src.ex, Rest.exs, prefixed, parse, climb, joinCmp, joinOr, joinAnd, eval, h1, vPrefix]
  simp [eval, h3, h2, vBin, vOr, runningOr, coerce, step1, step2, step3, step4, step5]

/-- **C120**: ... the same with `+x | b`, after `x` has ended. -/
theorem C120_prefix_plus_refuted (wait : Pipeline → Option Exn) (x : Operand) (b : Src) (hb : ∀ o ∈ b.ops, o.tight = true) (p q : Pipeline) (log log' : List Ran) (hw : wait p = none)
    (h1 : eval wait x.ex [] = (.ok (.py (.pipeline p)), log)) (h2 : eval wait b.ex (log ++ [.waited p]) = (.ok (.py (.pipeline q)), log')) :
    (((Src.mk [] x .nil).then .bar b).after .pos).run wait = (.ok (.py .none), log') := by
  have : ((Src.mk [] x .nil).then .bar b).after .pos = (Src.mk [.pos] x .nil).then .bar b := rfl
  rw [this, Src.run, grammar_bar _ _ (by simp [Src.ops, Rest.ops]) hb]
  have h3 : eval wait (Src.mk [.pos] x .nil).ex [] = (.ok (.running p), log ++ [.waited p]) := by
    simp [Src.ex, Rest.exs, prefixed, parse, climb, joinCmp, joinOr, joinAnd, eval, h1, vPrefix, hw]
  simp [eval, h3, h2, vBin, vOr, runningOr, coerce, step1, step2, step3, step4, step5]

/-- **C120**: ... and in `~x | b | c` the None is taken for `/dev/null`: the value is `c` with its input redirected from `/dev/null`; only `x` has been started. -/
theorem C120_prefix_chain_refuted (wait : Pipeline → Option Exn) (x : Operand) (b c : Src) (hb : ∀ o ∈ b.ops, o.tight = true) (hc : ∀ o ∈ c.ops, o.tight = true) (p q r : Pipeline) (log log' log'' : List Ran)
    (h1 : eval wait x.ex [] = (.ok (.py (.pipeline p)), log)) (h2 : eval wait b.ex (log ++ [.started p]) = (.ok (.py (.pipeline q)), log')) (h3 : eval wait c.ex log' = (.ok (.py (.pipeline r)), log'')) :
    ((((Src.mk [] x .nil).then .bar b).then .bar c).after .inv).run wait = (.ok (.py (.pipeline (.redirect r (toFile 0 c!"/dev/null")))), log'') := by
  have h4 := C120_prefix_refuted wait x b hb p q log log' h1 h2
  obtain ⟨pre', x', r'⟩ := b
  have : (((Src.mk [] x .nil).then .bar (.mk pre' x' r')).then .bar c).after .inv = (((Src.mk [] x .nil).then .bar (.mk pre' x' r')).after .inv).then .bar c := rfl
  rw [this, Src.run, grammar_bar _ _ ?_ hc]
  · unfold Src.run at h4
    simp only [eval, h4, h3]; rfl
  · intro o ho
    simp only [Src.then, Rest.then, Src.after, Src.ops, Rest.ops, List.mem_cons] at ho
    rcases ho with rfl | ho
    · rfl
    · have := hb o ho
      cases o <;> simp_all [Op.tight, Op.compares]

/-- **C120**: `s > "file" & True` raises TypeError and starts nothing: it is `s > ("file" & True)`. -/
theorem C120_redirected_refuted (wait : Pipeline → Option Exn) (s : Src) (h : ∀ o ∈ s.ops, o.compares = false) (v : V) (log : List Ran) (f : Str) (hs : s.run wait = (.ok v, log)) :
    ((s.then .gt (.one (.str f))).then .amp (.one (.bool true))).run wait = (.error (.exn .typeError), log) := by
  rw [then_assoc, Src.run, grammar_cmp s _ .gt rfl h (by simp [Src.one, Src.then, Rest.then, Src.ops, Rest.ops, Op.compares])]
  unfold Src.run at hs
  simp [eval, hs, evalCmp, Src.one, Src.then, Rest.then, Src.ex, Operand.ex, prefixed, Rest.exs, parse, climb, joinCmp, joinOr, joinAnd, vBin, vAnd]

/-- **C21, C63 for whole expressions**: `s > "f"` and `s < "f"`, for any `s` without comparisons outside of parentheses, redirect the pipeline `s` stands for, and run nothing. -/
theorem C120_redirections (wait : Pipeline → Option Exn) (s : Src) (h : ∀ o ∈ s.ops, o.compares = false) (p : Pipeline) (log : List Ran) (f : Str) (hs : s.run wait = (.ok (.py (.pipeline p)), log)) :
    (s.then .gt (.one (.str f))).run wait = (.ok (.py (.pipeline (.redirect p (toFile 1 f)))), log) ∧
    (s.then .lt (.one (.str f))).run wait = (.ok (.py (.pipeline (.redirect p (toFile 0 f)))), log) := by
  unfold Src.run at hs
  have hv : eval wait (Src.one (.str f)).ex log = (.ok (.py (.str f)), log) := rfl
  refine ⟨?_, ?_⟩
  · rw [Src.run, grammar_cmp s _ .gt rfl h (by simp [Src.one, Src.ops, Rest.ops])]
    simp only [eval, evalCmp, hs, hv]; rfl
  · rw [Src.run, grammar_cmp s _ .lt rfl h (by simp [Src.one, Src.ops, Rest.ops])]
    simp only [eval, evalCmp, hs, hv]; rfl

theorem climb_cmp2 (o a : Option Ex) (s y z : Ex) (op op' : Op) (l : List (Op × Ex)) (hop : op.compares = true) (hop' : op'.compares = true) (hl : ∀ p ∈ l, p.1.compares = false) :
    climb none o a s (l ++ [(op, y), (op', z)]) = .cmp (climb none o a s l) [(op, y), (op', z)] := by
  induction l generalizing o a s with
  | nil => cases op <;> first | (cases hop; done) | (cases op' <;> first | (cases hop'; done) | rfl)
  | cons p l ih =>
    obtain ⟨op1, x⟩ := p
    have hl' : ∀ p ∈ l, p.1.compares = false := fun p hp => hl p (List.mem_cons_of_mem _ hp)
    cases op1 with
    | plus => simp only [List.cons_append, climb]; exact ih _ _ _ hl'
    | amp => simp only [List.cons_append, climb]; exact ih _ _ _ hl'
    | bar => simp only [List.cons_append, climb]; exact ih _ _ _ hl'
    | lt => have := hl (.lt, x) (by simp); simp [Op.compares] at this
    | gt => have := hl (.gt, x) (by simp); simp [Op.compares] at this

/-- `comparison ::= or_expr (comp_operator or_expr)*`, for two comparisons with single operands -/
theorem grammar_cmp2 (a : Src) (v v' : PyVal) (op op' : Op) (hop : op.compares = true) (hop' : op'.compares = true) (ha : ∀ o ∈ a.ops, o.compares = false) :
    ((a.then op (.one v)).then op' (.one v')).ex = .cmp a.ex [(op, .val (.py v)), (op', .val (.py v'))] := by
  obtain ⟨pre, x, r⟩ := a
  rw [then_assoc]
  simp only [Src.then, Src.one, Rest.then, Src.ex, exs_then, Rest.exs, prefixed, Operand.ex]
  exact climb_cmp2 none none _ _ _ _ _ _ hop hop' (exs_all ha)

/-- **C63 for whole expressions is false**: `s < "a" > "b"` is a bool, and nothing is run, for every `s` that stands for a pipeline. -/
theorem C63_expression_refuted (wait : Pipeline → Option Exn) (s : Src) (h : ∀ o ∈ s.ops, o.compares = false) (p : Pipeline) (log : List Ran) (a b : Str) (hs : s.run wait = (.ok (.py (.pipeline p)), log)) :
    ((s.then .lt (.one (.str a))).then .gt (.one (.str b))).run wait = (.ok (.py (.bool (strLt b a))), log) := by
  unfold Src.run at hs
  rw [Src.run, grammar_cmp2 s _ _ .lt .gt rfl rfl h]
  simp only [eval, evalCmp, hs]; rfl

/-- **C120**: `~x > b > "f"` starts `x`; the first comparison is None, so that the second one is not made. -/
theorem C120_prefix_compared_refuted (wait : Pipeline → Option Exn) (x : Operand) (p q : Pipeline) (f : Str) (log : List Ran) (h1 : eval wait x.ex [] = (.ok (.py (.pipeline p)), log)) :
    ((((Src.mk [] x .nil).then .gt (.one (.pipeline q))).then .gt (.one (.str f))).after .inv).run wait = (.ok (.py .none), log ++ [.started p]) := by
  have : (((Src.mk [] x .nil).then .gt (.one (.pipeline q))).then .gt (.one (.str f))).after .inv = ((Src.mk [.inv] x .nil).then .gt (.one (.pipeline q))).then .gt (.one (.str f)) := rfl
  have h3 : eval wait (Src.mk [.inv] x .nil).ex [] = (.ok (.running p), log ++ [.started p]) := by
    simp [Src.ex, Rest.exs, prefixed, parse, climb, joinCmp, joinOr, joinAnd, eval, h1, vPrefix]
  rw [this, Src.run, grammar_cmp2 _ _ _ .gt .gt rfl rfl (by simp [Src.ops, Rest.ops])]
  simp only [eval, evalCmp, h3]
  rfl

/-- **C120**: prefix operators apply from the inside: `+~x` and `~~x` start `x`, and then raise TypeError. -/
theorem C120_two_prefixes_refuted (wait : Pipeline → Option Exn) (x : Operand) (o : Prefix) (p : Pipeline) (log : List Ran) (h1 : eval wait x.ex [] = (.ok (.py (.pipeline p)), log)) :
    (Src.mk [o, .inv] x .nil).run wait = (.error (.exn .typeError), log ++ [.started p]) := by
  simp [Src.run, Src.ex, Rest.exs, prefixed, parse, climb, joinCmp, joinOr, joinAnd, eval, h1, vPrefix]

namespace Ex
/-- a program -/
def cmd (n : Nat) : Src := .one (.pipeline (.command n .nil))
def noWait : Pipeline → Option Exn := fun _ => none
end Ex

/-- `a + b & True` starts both. -/
example : ((Ex.cmd 1).then .plus (Ex.cmd 2)).ops = [.plus] ∧ ((Ex.cmd 1).then .plus (Ex.cmd 2)).run Ex.noWait = (.ok (.py (.pipeline (.group (.command 1 .nil) (.command 2 .nil)))), []) := ⟨rfl, rfl⟩
/-- `(a | b > "f")`, in parentheses -/
example : (((Ex.cmd 1).then .bar (Ex.cmd 2)).then .gt (.one (.str c!"f"))).run Ex.noWait = (.ok (.py (.pipeline (.redirect (.pipe (.command 1 .nil) (.command 2 .nil)) (toFile 1 c!"f")))), []) := rfl
/-- `a | b | c & True` -/
example : (∀ o ∈ ((Ex.cmd 1).then .bar (Ex.cmd 2)).ops, o.compares = false) ∧ ((Ex.cmd 1).then .bar (Ex.cmd 2)).run Ex.noWait = (.ok (.py (.pipeline (.pipe (.command 1 .nil) (.command 2 .nil)))), []) ∧
    eval Ex.noWait (Ex.cmd 3).ex [] = (.ok (.py (.pipeline (.command 3 .nil))), []) ∧
    ((((Ex.cmd 1).then .bar (Ex.cmd 2)).then .bar (Ex.cmd 3)).then .amp (.one (.bool true))).run Ex.noWait = (.error (.exn .valueError), [.started (.command 3 .nil)]) :=
  ⟨by decide, rfl, rfl, rfl⟩
/-- `"foo" | cat & True` -/
example : (∀ o ∈ (Ex.cmd 1).ops, o.tight = true) ∧ (Ex.cmd 1).run Ex.noWait = (.ok (.py (.pipeline (.command 1 .nil))), []) := ⟨by decide, rfl⟩
/-- `~a | b | c` -/
example : ((((Ex.cmd 1).then .bar (Ex.cmd 2)).then .bar (Ex.cmd 3)).after .inv).run Ex.noWait =
    (.ok (.py (.pipeline (.redirect (.command 3 .nil) (toFile 0 c!"/dev/null")))), [.started (.command 1 .nil)]) :=
  C120_prefix_chain_refuted Ex.noWait (.val (.py (.pipeline (.command 1 .nil)))) (Ex.cmd 2) (Ex.cmd 3) (by decide) (by decide) _ _ _ _ _ _ rfl rfl rfl
/-- `+a | b` -/
example : (((Ex.cmd 1).then .bar (Ex.cmd 2)).after .pos).run Ex.noWait = (.ok (.py .none), [.waited (.command 1 .nil)]) :=
  C120_prefix_plus_refuted Ex.noWait (.val (.py (.pipeline (.command 1 .nil)))) (Ex.cmd 2) (by decide) _ _ _ _ rfl rfl rfl
/-- `a | b > "f" & True` -/
example : ((((Ex.cmd 1).then .bar (Ex.cmd 2)).then .gt (.one (.str c!"f"))).then .amp (.one (.bool true))).run Ex.noWait = (.error (.exn .typeError), []) :=
  C120_redirected_refuted Ex.noWait ((Ex.cmd 1).then .bar (Ex.cmd 2)) (by decide) _ _ _ rfl

/-- Operators of python values that are no pipelines are python's. -/
example : vAdd (.py (.str c!"a")) (.py (.str c!"b")) = .ok (.py (.str c!"ab")) ∧
    vLt (.py (.str c!"a")) (.py (.str c!"b")) = .ok (.py (.bool true)) ∧ vLt (.py (.str c!"b")) (.py (.str c!"a")) = .ok (.py (.bool false)) ∧
    vGt (.py (.str c!"a")) (.py (.str c!"b")) = .ok (.py (.bool false)) ∧
    vOr (.py (.bool true)) (.py (.bool false)) = .ok (.py (.bool true)) ∧
    (vAnd (.py (.bool true)) (.py (.bool false)) []).1 = .ok (.py (.bool false)) := ⟨rfl, rfl, rfl, rfl, rfl, rfl⟩

end Pieshell.Ops
