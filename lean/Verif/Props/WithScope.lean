import Verif.Spec.WithScope
/-!
# C152: the prompt after `with scope:`

In a block `with scope:` the scope is the prompt, and after it the prompt is what it was before, however the block is left.

That is so if there was a prompt before, and the same scope is not entered again in the block (`C152_partial`). If there was none it is `None` afterwards (`C152_refuted_unset`), which an interactive
python shows as a prompt; and entering a scope again in its own block (`C152_refuted_again`) loses the prompt of the outer block.
-/
namespace Pieshell.WithScope

theorem saved_run {k : Nat} : ∀ (a : Stmt) (s : St), ¬ Uses k a → (run a s).1.saved k = s.saved k
  | .nop, _, _ => rfl
  | .set _, _, _ => rfl
  | .del, s, _ => by simp only [run]; split <;> rfl
  | .raise, _, _ => rfl
  | .seq a b, s, h => by
    have ha := saved_run a s (fun u => h (.seqL u))
    simp only [run]
    split
    · next s' e => rw [e] at ha; exact ha
    · next s' e => rw [e] at ha; rw [saved_run b s' (fun u => h (.seqR u))]; exact ha
  | .attempt a, s, h => saved_run a s (fun u => h (.attempt u))
  | .within j a, s, h => by
    have hj : k ≠ j := fun e => h (e ▸ .here a)
    have ha := saved_run a (enter j s) (fun u => h (.within u))
    simp only [enter, if_neg hj] at ha
    simp only [run, leave]
    split <;> exact ha

/-- No block loses the attribute of its scope: leaving a scope that was entered never raises. -/
theorem saved_some {k : Nat} : ∀ (a : Stmt) (s : St), (s.saved k).isSome → ((run a s).1.saved k).isSome
  | .nop, _, h => h
  | .set _, _, h => h
  | .del, s, h => by simp only [run]; split <;> exact h
  | .raise, _, h => h
  | .seq a b, s, h => by
    have ha := saved_some a s h
    simp only [run]
    split
    · next s' e => rw [e] at ha; exact ha
    · next s' e => rw [e] at ha; exact saved_some b s' ha
  | .attempt a, s, h => saved_some a s h
  | .within j a, s, h => by
    have ha := saved_some (k := k) a (enter j s) (by simp only [enter]; split <;> simp_all)
    simp only [run, leave]
    split <;> exact ha

/-- In every case: the block starts with the scope as the prompt, `with` itself raises nothing and hides no exception, and there is a prompt afterwards. -/
theorem C152_block (k : Nat) (a : Stmt) (s : St) :
    ∃ s1, s1.ps1 = some (.scope k) ∧ (run (.within k a) s).2 = (run a s1).2 ∧ (run (.within k a) s).1.ps1 ≠ none := by
  refine ⟨enter k s, rfl, ?_⟩
  have h := saved_some (k := k) a (enter k s) (by simp [enter])
  obtain ⟨v, hv⟩ := Option.isSome_iff_exists.1 h
  simp [run, leave, hv]

/-- What the prompt is after a block in which the scope is not entered again. -/
theorem within_ps1 {k : Nat} {a : Stmt} (s : St) (h : ¬ Uses k a) : (run (.within k a) s).1.ps1 = some (s.ps1.getD .pyNone) := by
  have hs := saved_run a (enter k s) h
  simp only [enter, if_true] at hs
  simp only [run, leave]
  rw [show (run a (enter k s)).1.saved k = _ from hs]

/-- **C152**, if there was a prompt and the block does not enter the same scope again: the prompt is what it was, whatever the block does: set or delete the prompt, enter other scopes, raise an exception. -/
theorem C152_partial (k : Nat) (a : Stmt) (s : St) (v : Ps1) (hv : s.ps1 = some v) (h : ¬ Uses k a) : (run (.within k a) s).1.ps1 = some v := by
  rw [within_ps1 s h, hv]; rfl

/-- **C152 is false if there was no prompt** (a script, or the `pieshell` program itself): it is `None` afterwards, for every block. -/
theorem C152_refuted_unset (k : Nat) (a : Stmt) (s : St) (hv : s.ps1 = none) (h : ¬ Uses k a) : (run (.within k a) s).1.ps1 = some .pyNone := by
  rw [within_ps1 s h, hv]; rfl

/-- **C152 is false if a scope is entered again in its own block**: after the outer block the prompt is what it was when the scope was entered again. -/
theorem C152_refuted_again (k : Nat) (a b c : Stmt) (s : St) (v : Ps1) (ha : (run a (enter k s)).2 = false) (hv : (run a (enter k s)).1.ps1 = some v)
    (hb : ¬ Uses k b) (hc : ¬ Uses k c) : (run (.within k (.seq a (.seq (.within k b) c))) s).1.ps1 = some v := by
  have key : (run (.seq a (.seq (.within k b) c)) (enter k s)).1.saved k = some v := by
    generalize hr : run a (enter k s) = r at ha hv
    obtain ⟨s', r2⟩ := r
    cases ha
    have hs : (run (.within k b) s').1.saved k = some v := by
      have hv : s'.ps1 = some v := hv
      have he : (enter k s').saved k = some v := by simp [enter, hv]
      have hb' := (saved_run b (enter k s') hb).trans he
      simp only [run, leave]
      split <;> exact hb'
    have hseq : run (.seq a (.seq (.within k b) c)) (enter k s) = run (.seq (.within k b) c) s' := by simp only [run, hr]
    rw [hseq]
    generalize hw : run (.within k b) s' = w at hs
    obtain ⟨s2, r⟩ := w
    have hq : run (.seq (.within k b) c) s' = if r then (s2, true) else run c s2 := by
      rw [run.eq_def]; simp only [hw]; cases r <;> rfl
    rw [hq]
    cases r
    · exact (saved_run c s2 hc).trans hs
    · exact hs
  rw [run.eq_def]
  simp only [leave, key]

/-- In particular: `with scope: with scope: pass` leaves the scope as the prompt, whatever the prompt was. -/
theorem C152_refuted (k : Nat) (s : St) : (run (.within k (.seq .nop (.seq (.within k .nop) .nop))) s).1.ps1 = some (.scope k) :=
  C152_refuted_again k .nop .nop .nop s _ rfl rfl (by intro h; cases h) (by intro h; cases h)

/-- Two scopes, an exception in the inner block, and a program that changes the prompt. -/
example : ¬ Uses 1 (.seq (.set (.text c!"$ ")) (.within 2 (.seq .del .raise))) ∧
    (run (.within 1 (.seq (.set (.text c!"$ ")) (.within 2 (.seq .del .raise)))) ⟨some (.text c!">>> "), fun _ => none⟩).1.ps1 = some (.text c!">>> ") ∧
    (run (.within 1 (.seq (.set (.text c!"$ ")) (.within 2 (.seq .del .raise)))) ⟨some (.text c!">>> "), fun _ => none⟩).2 = true := by
  have hu : ¬ Uses 1 (.seq (.set (.text c!"$ ")) (.within 2 (.seq .del .raise))) := by
    intro h
    cases h with
    | seqL h => cases h
    | seqR h => cases h with
      | within h => cases h with
        | seqL h => cases h
        | seqR h => cases h
  exact ⟨hu, C152_partial 1 _ _ _ rfl hu, rfl⟩

/-- A scope entered again, after the program has changed the prompt. -/
example : (run (.set (.text c!"$ ")) (enter 1 ⟨some (.text c!">>> "), fun _ => none⟩)).2 = false ∧
    (run (.within 1 (.seq (.set (.text c!"$ ")) (.seq (.within 1 .nop) .nop))) ⟨some (.text c!">>> "), fun _ => none⟩).1.ps1 = some (.text c!"$ ") := by
  exact ⟨rfl, rfl⟩

end Pieshell.WithScope
