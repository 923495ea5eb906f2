import Verif.Props.Flow
/-!
# Python functions on the lines of a pipeline (C84)
-/
namespace Pieshell.Flow
open Pieshell.Io (IsLines joined)

theorem Runs.map {σ ρ : Type} {next : Prog σ} {next' : Prog ρ} (g : σ → ρ) (hg : ∀ s, next' (g s) = (next s).map g) {s : σ} {inp out : Bytes} {c : Nat}
    (h : Runs next s inp out c) : Runs next' (g s) inp out c := by
  induction h with
  | exit h => exact .exit (by rw [hg, h]; rfl)
  | write h _ ih => exact .write (by rw [hg, h]; rfl) ih
  | read h _ ih => exact .read (f := fun x => g _) (by rw [hg, h]; rfl) ih
  | eof h _ ih => exact .eof (f := fun x => g _) (by rw [hg, h]; rfl) ih

section
variable {τ : Type} {lnext : τ → LOp τ}

theorem put_runs (v : Bytes) {t : τ} {inp out : Bytes} {c : Nat} (h : Runs (lineNext lnext) (.run t) inp out c) :
    Runs (lineNext lnext) (.put v t) inp (v ++ 10 :: out) c := by
  induction v with
  | nil => exact .write rfl h
  | cons b v ih => exact .write rfl ih

theorem line_runs (l : Bytes) (hl : (10 : UInt8) ∉ l) (acc : Bytes) {k : Option Bytes → τ} {inp out : Bytes} {c : Nat}
    (h : Runs (lineNext lnext) (.run (k (some (acc ++ l)))) inp out c) :
    Runs (lineNext lnext) (.line acc k) (l ++ 10 :: inp) out c := by
  induction l generalizing acc with
  | nil => exact .read rfl (by simpa [LSt.got] using h)
  | cons b l ih =>
    simp only [List.mem_cons, not_or] at hl
    refine .read rfl ?_
    simp only [LSt.got, if_neg (Ne.symm hl.1)]
    exact ih hl.2 _ (by simpa using h)

/-- the last line, without a newline -/
theorem last_runs (l : Bytes) (hl : (10 : UInt8) ∉ l) (acc : Bytes) (hne : acc ++ l ≠ []) {k : Option Bytes → τ} {out : Bytes} {c : Nat}
    (h : Runs (lineNext lnext) (.run (k (some (acc ++ l)))) [] out c) :
    Runs (lineNext lnext) (.line acc k) l out c := by
  induction l generalizing acc with
  | nil =>
    rw [List.append_nil] at hne
    exact .eof rfl (by simpa [LSt.got, hne] using h)
  | cons b l ih =>
    simp only [List.mem_cons, not_or] at hl
    refine .read rfl ?_
    simp only [LSt.got, if_neg (Ne.symm hl.1)]
    exact ih hl.2 _ (by simp) (by simpa using h)

/-- the first read is made by the function itself -/
theorem run_of_line {t : τ} {k : Option Bytes → τ} (ho : lnext t = .next k) {inp out : Bytes} {c : Nat}
    (h : Runs (lineNext lnext) (.line [] k) inp out c) : Runs (lineNext lnext) (.run t) inp out c := by
  have hn : lineNext lnext (.run t) = .read (LSt.got [] k) := by simp only [lineNext, lineOp, ho]
  cases h with
  | exit h => cases h
  | write h _ => cases h
  | read h h' => cases h; exact .read hn h'
  | eof h h' => cases h; exact .eof hn h'

theorem joined_cons (l : Bytes) (ls : List Bytes) : joined (l :: ls) = l ++ 10 :: joined ls := by
  simp [joined, Io.NL]

theorem yields_runs {t : τ} {ls vs : List Bytes} (h : Yields lnext t ls vs) :
    ∀ b, IsLines b ls → Runs (lineNext lnext) (.run t) b (joined vs) 0 := by
  induction h with
  | ret ho => exact fun b _ => .exit (by simp only [lineNext, lineOp, ho])
  | @yield t t' v ls vs ho _ ih =>
    intro b hb
    rw [joined_cons]
    cases v with
    | nil => exact .write (by simp only [lineNext, lineOp, ho]) (ih b hb)
    | cons c v => exact .write (by simp only [lineNext, lineOp, ho]) (put_runs v (ih b hb))
  | @line t k l ls vs ho _ ih =>
    intro b hb
    refine run_of_line ho ?_
    obtain ⟨h1, h2⟩ := hb
    have hl : (10 : UInt8) ∉ l := h1 l (by simp)
    have h1' : ∀ l' ∈ ls, Io.NL ∉ l' := fun l' h => h1 l' (by simp [h])
    rcases h2 with h2 | ⟨h2, h3, h4⟩
    · rw [joined_cons] at h2
      rw [← h2]
      exact line_runs l hl [] (ih _ ⟨h1', .inl rfl⟩)
    · rw [joined_cons] at h2
      cases ls with
      | nil =>
        have : l = b := by
          have h2 : l ++ [10] = b ++ [10] := h2
          exact List.append_cancel_right h2
        subst this
        exact last_runs l hl [] (by simpa using h3) (ih _ ⟨by simp, .inl rfl⟩)
      | cons l' ls =>
        -- the rest ends with the added newline
        have hne : joined (l' :: ls) ≠ [] := by rw [joined_cons]; simp
        obtain ⟨rest, x, hx⟩ : ∃ rest x, joined (l' :: ls) = rest ++ [x] := ⟨_, _, (List.dropLast_concat_getLast hne).symm⟩
        rw [hx] at h2
        have h2 : (l ++ 10 :: rest) ++ [x] = b ++ [10] := by simpa [Io.NL] using h2
        have e1 : x = 10 := by
          have := congrArg List.getLast? h2
          rw [List.getLast?_concat, List.getLast?_concat] at this
          exact Option.some.inj this
        have e2 : l ++ 10 :: rest = b := by
          subst e1; exact List.append_cancel_right h2
        subst e1
        rw [← e2]
        refine line_runs l hl [] (ih rest ⟨h1', .inr ⟨hx, ?_, ?_⟩⟩)
        · rintro rfl
          rw [← e2] at h4; simp [Io.NL] at h4
        · intro h
          apply h4
          rw [← e2]
          cases rest with
          | nil => cases h
          | cons y rest => rw [List.getLast?_append]; simp [h, List.getLast?_cons_cons]
  | @stop t k vs ho _ ih =>
    intro b hb
    have hb' : b = [] := by
      rcases hb.2 with h | ⟨h, h', _⟩
      · exact h.symm
      · cases b <;> simp [joined] at h
    subst hb'
    refine .eof (f := LSt.got [] k) (by simp only [lineNext, lineOp, ho]) ?_
    simp only [LSt.got, if_true]
    exact ih [] ⟨by simp, .inl rfl⟩

end

/-- **C84.** A python function in a pipeline gets the lines of what it reads, one by one, and each value that it yields is
written with a newline: with the whole of its input available, it writes exactly the values it yields for these lines. -/
theorem C84_function_on_lines {τ : Type} (lnext : τ → LOp τ) (t : τ) (b : Bytes) (ls vs : List Bytes) (hb : IsLines b ls)
    (h : Yields lnext t ls vs) : Runs (lineNext lnext) (.run t) b (joined vs) 0 := yields_runs h b hb

theorem mapLines_yields (g : Bytes → Bytes) (ls : List Bytes) : Yields (mapLines g) .loop ls (ls.map g) := by
  induction ls with
  | nil => exact .stop rfl (.ret rfl)
  | cons l ls ih => exact .line rfl (.yield rfl ih)

/-- `P`, for the states in which a part of a line or of a value is handled -/
def lineP {ρ τ : Type} (P : τ → Prop) : ρ ⊕ LSt τ → Prop
  | .inl _ => False
  | .inr (.run t) => P t
  | .inr (.line _ k) => ∀ l, P (k (some l))
  | .inr (.put _ t) => P t

/-- **C84.** `list(env.prog() | f)`, for a program `prog` and a python function `f`: whatever the schedule and the capacities of
the pipes, it takes a bounded number of steps, and what the shell has received is always a part of, and in the end exactly, the
values that `f` yields for the lines of the output of `prog`, each with a newline; in the end `prog`, too, has ended, if `f` reads all
lines. -/
theorem C84_program_then_function (sys : Sys) (cwd : Str) (w : World) (rs : Redirects) (id id' : Nat) (args : Args) (i : Obj) (o e : Want)
    (hs : Startable sys cwd w rs (.pipe (.command id args) (.func id')) i o e) (ha : Words args) (hm : w.PipesMade) (ho : o = .pipeOut) :
    ∃ items rs' w', runP sys cwd (.pipe (.command id args) (.func id')) rs w = (.ok (items, rs'), w') ∧
      ∀ {ρ τ : Type} (pnext : Prog ρ) (lnext : τ → LOp τ) (s0 : ρ) (t0 : τ) (inp b : Bytes) (c : Nat) (ls vs : List Bytes),
        Runs pnext s0 inp b c → IsLines b ls → Yields lnext t0 ls vs →
        ∃ B, ∀ cap : Nat → Nat, (∀ k, 0 < cap k) →
          ∀ L s, Steps (bothNext pnext lnext) (started cwd w (.pipe (.command id args) (.func id')) o items rs' w' cap) L
              (St.start (fun k => if k = 0 then .inl s0 else .inr (.run t0)) fun _ => inp) s →
            L ≤ B ∧ s.got <+: joined vs ∧
            ((∀ t, ¬ Step (bothNext pnext lnext) (started cwd w (.pipe (.command id args) (.func id')) o items rs' w' cap) s t) →
              s.got = joined vs ∧ s.proc 1 = .exited 0 ∧
              ((∃ P : τ → Prop, P t0 ∧ ∀ t, P t → lnext t ≠ .ret ∧ (∀ v t', lnext t = .yield v t' → P t') ∧
                ∀ k l, lnext t = .next k → P (k (some l))) → s.proc 0 = .exited c)) := by
  subst ho
  have hp : Mixed (.pipe (.command id args) (.func id')) := by
    constructor
    · intro l hl
      simp only [Pipeline.links, List.cons_append, List.nil_append, List.mem_cons, List.not_mem_nil, or_false] at hl
      rcases hl with rfl | rfl
      · exact .inl ⟨_, _, rfl, ha⟩
      · exact .inr (.inl ⟨_, rfl⟩)
    · intro k l h
      match k, h with
      | 0, h => cases h; exact ⟨rfl, trivial⟩
      | k + 1, h => cases h
  have hpo : (Pipeline.pipe (.command id args) (.func id')).outWant cwd .pipeOut = .pipeOut := rfl
  have hlen : (Pipeline.pipe (.command id args) (.func id')).links.length = 2 := rfl
  have hfun : IsFunc (.pipe (.command id args) (.func id')) 1 := ⟨_, id', rfl, rfl⟩
  obtain ⟨items, rs', w', h1, h2, h3, h4⟩ := C82_as_if_through_files sys cwd w rs _ i .pipeOut e hs hp hm
  obtain ⟨items2, rs2, w2, h1', h5⟩ := C82_all_end sys cwd w rs _ i .pipeOut e hs hp hm
  rw [h1] at h1'
  cases h1'
  refine ⟨items, rs', w', h1, ?_⟩
  intro ρ τ pnext lnext s0 t0 inp b c ls vs hr hl hy
  have hseq : Sequentially (bothNext pnext lnext) (fun k => if k = 0 then .inl s0 else .inr (.run t0)) 2 inp
      (fun k => if k = 0 then b else joined vs) (fun k => if k = 0 then c else 0) := by
    intro k hk
    match k, hk with
    | 0, _ => exact hr.map (next' := bothNext pnext lnext) Sum.inl fun _ => rfl
    | 1, _ => exact (yields_runs hy b hl).map (next' := bothNext pnext lnext) Sum.inr fun _ => rfl
  obtain ⟨B, hB⟩ := h4 (bothNext pnext lnext) _ (fun _ => inp) _ _ hseq
  refine ⟨B 0, fun cap hcap L s hst => ?_⟩
  obtain ⟨g1, g2, g3, g4⟩ := hB cap hcap L s hst
  have hnc : ∀ k, k < 2 → s.cut k = false := by
    intro k hk
    cases hc : s.cut k with
    | false => rfl
    | true =>
      obtain ⟨a1, a2, -⟩ := (g2 k hk).2.2.2 hc
      obtain rfl : k = 0 := by omega
      exact absurd hfun a2
  refine ⟨g1 0 (.inr hnc), g3 hpo, fun hstuck => ?_⟩
  obtain ⟨f1, -, f2, -⟩ := g4 hstuck
  refine ⟨f2 hpo, f1.1, ?_⟩
  rintro ⟨P, p0, hP⟩
  have hg : Greedy (bothNext pnext lnext) (Sum.inr (LSt.run t0) : ρ ⊕ LSt τ) := by
    refine ⟨lineP P, p0, ?_⟩
    intro st hst
    match st, hst with
    | .inr (.run t), h =>
      obtain ⟨a1, a2, a3⟩ := hP t h
      simp only [bothNext, lineNext, lineOp]
      cases hl : lnext t with
      | ret => exact absurd hl a1
      | yield v t' =>
        cases v with
        | nil => simp only [Op.map]; exact ⟨by simp, fun _ _ h => by cases h; exact a2 _ _ hl, by simp⟩
        | cons x v => simp only [Op.map]; exact ⟨by simp, fun _ _ h => by cases h; exact a2 _ _ hl, by simp⟩
      | next k =>
        simp only [Op.map]
        refine ⟨by simp, by simp, fun f b' h => ?_⟩
        cases h
        by_cases hb : b' = 10
        · simp only [LSt.got, if_pos hb]; exact a3 k _ hl
        · simp only [LSt.got, if_neg hb]; exact fun l => a3 k l hl
    | .inr (.line acc k), h =>
      simp only [bothNext, lineNext, lineOp, Op.map]
      refine ⟨by simp, by simp, fun f b' hf => ?_⟩
      cases hf
      by_cases hb : b' = 10
      · simp only [LSt.got, if_pos hb]; exact h _
      · simp only [LSt.got, if_neg hb]; exact h
    | .inr (.put [] t), h => simp only [bothNext, lineNext, lineOp, Op.map]; exact ⟨by simp, fun _ _ hf => by cases hf; exact h, by simp⟩
    | .inr (.put (x :: v) t), h => simp only [bothNext, lineNext, lineOp, Op.map]; exact ⟨by simp, fun _ _ hf => by cases hf; exact h, by simp⟩
  have hend := h5 (bothNext pnext lnext) (fun k => if k = 0 then .inl s0 else .inr (.run t0)) (fun _ => inp)
    (fun k hk j hj hjl => by
      have : j = 1 := by omega
      subst this; exact hg) cap hcap L s hst hstuck
  cases hp0 : s.proc 0 with
  | running st => exact absurd hp0 (hend.1 0 (by omega) st)
  | killed => exact absurd hp0 (hend.2 0 hfun 0 (by omega) (by omega)).1
  | exited c' => rw [((g2 0 (by omega)).2.1 c' ⟨hp0, hnc 0 (by omega)⟩).2]; rfl

/-! ### examples -/

namespace FlowEx

/-- `async for line in inp: yield b">" + line` -/
def quote (l : Bytes) : Bytes := 62 :: l

/-- output of `printf 'ab\n\nc'` -/
def text : Bytes := [97, 98, 10, 10, 99]

theorem text_lines : IsLines text [[97, 98], [], [99]] := by
  refine ⟨by decide, .inr ⟨by decide, by decide, by decide⟩⟩

theorem printf_runs (l inp : Bytes) : Runs next (.printf l) inp l 0 := by
  induction l with
  | nil => exact .exit rfl
  | cons b l ih => exact .write rfl ih

end FlowEx

example : Runs (lineNext (mapLines FlowEx.quote)) (.run .loop) FlowEx.text (joined [[62, 97, 98], [62], [62, 99]]) 0 :=
  C84_function_on_lines _ _ _ _ _ FlowEx.text_lines (mapLines_yields FlowEx.quote _)

/-- `list(env.printf('ab\n\nc') | f)` gives `>ab`, `>`, `>c`. -/
example : ∃ items rs' w', runP RunEx.sys [] (.pipe (.command 0 (.word [c!"printf"] .nil)) (.func 1)) RunEx.iterRs RunEx.world = (.ok (items, rs'), w') ∧
    ∀ L s, Steps (bothNext FlowEx.next (mapLines FlowEx.quote))
        (started [] RunEx.world (.pipe (.command 0 (.word [c!"printf"] .nil)) (.func 1)) .pipeOut items rs' w' fun _ => 1) L
        (St.start (fun k => if k = 0 then .inl (.printf FlowEx.text) else .inr (.run .loop)) fun _ => []) s →
      s.got <+: joined [[62, 97, 98], [62], [62, 99]] ∧
      ((∀ t, ¬ Step (bothNext FlowEx.next (mapLines FlowEx.quote))
        (started [] RunEx.world (.pipe (.command 0 (.word [c!"printf"] .nil)) (.func 1)) .pipeOut items rs' w' fun _ => 1) s t) →
        s.got = joined [[62, 97, 98], [62], [62, 99]] ∧ s.proc 0 = .exited 0) := by
  obtain ⟨items, rs', w', h1, h2⟩ := C84_program_then_function RunEx.sys [] RunEx.world RunEx.iterRs 0 1 (.word [c!"printf"] .nil) (.inherited 0) .pipeOut .tmp
    (RunEx.startable _ (by decide) (by simp [Pipeline.Redirectable, Args.Redirectable, Pipeline.outWant])) trivial RunEx.made rfl
  obtain ⟨B, hB⟩ := h2 FlowEx.next (mapLines FlowEx.quote) (.printf FlowEx.text) .loop [] FlowEx.text 0 _ _ (FlowEx.printf_runs _ _) FlowEx.text_lines
    (mapLines_yields FlowEx.quote _)
  refine ⟨items, rs', w', h1, fun L s h => ?_⟩
  obtain ⟨-, g1, g2⟩ := hB _ (by simp) L s h
  refine ⟨g1, fun hst => ?_⟩
  obtain ⟨f1, -, f2⟩ := g2 hst
  refine ⟨f1, f2 ⟨fun t => t = .loop ∨ ∃ v, t = .out v, .inl rfl, ?_⟩⟩
  rintro t (rfl | ⟨v, rfl⟩)
  · exact ⟨by simp [mapLines], by simp [mapLines], fun k l h => by cases h; exact .inr ⟨_, rfl⟩⟩
  · exact ⟨by simp [mapLines], fun v t' h => by cases h; exact .inl rfl, by simp [mapLines]⟩

end Pieshell.Flow
