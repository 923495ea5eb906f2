import Verif.Spec.FuncArg
import Verif.Lemmas.Subst
/-!
# Executions of a program with functions among its arguments
-/
namespace Pieshell.FuncArg
open Flow (Bytes Net Proc upd close sumTo upd_same upd_ne close_ne close_same sumTo_congr sumTo_le sumTo_lt)
open Subst (slot handler close_false close_true)
variable {σ : Type} {prog : Prog σ}

/-- `Runs` with the number of operations before the end. -/
inductive RunsN (prog : Prog σ) : Nat → σ → (Nat → Bytes) → (Nat → Bytes) → Nat → Prop
  | exit {s : σ} {inp : Nat → Bytes} {c : Nat} : prog.next s = .exit c → RunsN prog 0 s inp (fun _ => []) c
  | write {n : Nat} {s s' : σ} {inp outs : Nat → Bytes} {j : Nat} {b : UInt8} {c : Nat} :
      prog.next s = .write j b s' → RunsN prog n s' inp outs c → RunsN prog (n + 1) s inp (upd outs j (b :: outs j)) c
  | read {n : Nat} {s : σ} {j : Nat} {f : Option UInt8 → σ} {inp outs : Nat → Bytes} {rest : Bytes} {b : UInt8} {c : Nat} :
      prog.next s = .read j f → inp j = b :: rest → RunsN prog n (f (some b)) (upd inp j rest) outs c → RunsN prog (n + 1) s inp outs c
  | eof {n : Nat} {s : σ} {j : Nat} {f : Option UInt8 → σ} {inp outs : Nat → Bytes} {c : Nat} :
      prog.next s = .read j f → inp j = [] → RunsN prog n (f none) inp outs c → RunsN prog (n + 1) s inp outs c

theorem Runs.count {s : σ} {inp outs : Nat → Bytes} {c : Nat} (h : Runs prog s inp outs c) : ∃ n, RunsN prog n s inp outs c := by
  induction h with
  | exit h => exact ⟨0, .exit h⟩
  | write h _ ih => obtain ⟨n, ih⟩ := ih; exact ⟨_, .write h ih⟩
  | read h h' _ ih => obtain ⟨n, ih⟩ := ih; exact ⟨_, .read h h' ih⟩
  | eof h h' _ ih => obtain ⟨n, ih⟩ := ih; exact ⟨_, .eof h h' ih⟩

theorem RunsN.inv_read {n : Nat} {s : σ} {j : Nat} {f : Option UInt8 → σ} {inp outs : Nat → Bytes} {rest : Bytes} {b : UInt8} {c : Nat}
    (h : RunsN prog n s inp outs c) (h1 : prog.next s = .read j f) (h2 : inp j = b :: rest) :
    ∃ m, n = m + 1 ∧ RunsN prog m (f (some b)) (upd inp j rest) outs c := by
  cases h with
  | exit h => rw [h1] at h; cases h
  | write h _ => rw [h1] at h; cases h
  | read h h' hr => rw [h1] at h; cases h; rw [h2] at h'; cases h'; exact ⟨_, rfl, hr⟩
  | eof h h' _ => rw [h1] at h; cases h; rw [h2] at h'; cases h'

theorem RunsN.inv_eof {n : Nat} {s : σ} {j : Nat} {f : Option UInt8 → σ} {inp outs : Nat → Bytes} {c : Nat}
    (h : RunsN prog n s inp outs c) (h1 : prog.next s = .read j f) (h2 : inp j = []) :
    ∃ m, n = m + 1 ∧ RunsN prog m (f none) inp outs c := by
  cases h with
  | exit h => rw [h1] at h; cases h
  | write h _ => rw [h1] at h; cases h
  | read h h' hr => rw [h1] at h; cases h; rw [h2] at h'; cases h'
  | eof h h' hr => rw [h1] at h; cases h; exact ⟨_, rfl, hr⟩

theorem RunsN.inv_write {n : Nat} {s s' : σ} {j : Nat} {b : UInt8} {inp outs : Nat → Bytes} {c : Nat}
    (h : RunsN prog n s inp outs c) (h1 : prog.next s = .write j b s') :
    ∃ m o, n = m + 1 ∧ outs = upd o j (b :: o j) ∧ RunsN prog m s' inp o c := by
  cases h with
  | exit h => rw [h1] at h; cases h
  | write h hr => rw [h1] at h; cases h; exact ⟨_, _, rfl, rfl, hr⟩
  | read h h' hr => rw [h1] at h; cases h
  | eof h h' hr => rw [h1] at h; cases h

theorem RunsN.inv_exit {n : Nat} {s : σ} {inp outs : Nat → Bytes} {c c' : Nat}
    (h : RunsN prog n s inp outs c) (h1 : prog.next s = .exit c') : (∀ j, outs j = []) ∧ c' = c := by
  cases h with
  | exit h => rw [h1] at h; cases h; exact ⟨fun _ => rfl, rfl⟩
  | write h hr => rw [h1] at h; cases h
  | read h h' hr => rw [h1] at h; cases h
  | eof h h' hr => rw [h1] at h; cases h

/-- `n` functions, at positions `0`, ..., `n - 1`, and a program at position `n`; the function at `k` reads from pipe `u + 1 + k` with the shell's descriptor `a k`; it writes
to pipe `u`, with the shell's descriptor `b k`, and so does the program; the shell reads from there with descriptor `v`; nobody else has the ends of the pipes open. -/
structure IsStar (net : Net) (n u v : Nat) (a b : Nat → Nat) : Prop where
  len : net.items.length = n + 1
  inF : ∀ k, k < n → net.inFd k = some (a k)
  outF : ∀ k, k < n → net.outFd k = some (b k)
  inN : net.inFd n = none
  outN : net.outFd n = none
  slotF : ∀ k, k < n → slot net k 0 = some (u + 1 + k)
  slotX : ∀ k j, k < n → slot net k (j + 1) = none
  slotN : ∀ j, slot net n j = none
  out0 : ∀ k, k ≤ n → outSlot net k 0 = some u
  outX : ∀ k j, k < n → outSlot net k (j + 1) = none
  outP : ∀ j, outSlot net n (j + 1) = if j < n then some (u + 1 + j) else none
  injA : ∀ i j, i < n → j < n → a i = a j → i = j
  injB : ∀ i j, i < n → j < n → b i = b j → i = j
  disj : ∀ i j, i < n → j < n → a i ≠ b j
  va : ∀ i, i < n → v ≠ a i ∧ v ≠ b i
  openW : ∀ k, k < n → ∀ {σ : Type} (s : St σ), Open net s (.pipeW (u + 1 + k)) ↔ ∃ st, s.proc n = .running st
  openR : ∀ k, k < n → ∀ {σ : Type} (s : St σ), s.shut (a k) = false → Open net s (.pipeR (u + 1 + k))
  openB : ∀ {σ : Type} (s : St σ), Open net s (.pipeW u) → (∃ st, s.proc n = .running st) ∨ ∃ k, k < n ∧ s.shut (b k) = false
  openU : ∀ {σ : Type} (s : St σ), s.shut v = false → Open net s (.pipeR u)
  user : net.user = some u
  cap : ∀ k, 0 < net.cap k

section
variable {net : Net} {n u v : Nat} {a b : Nat → Nat} {outs : Nat → Nat → Bytes} {code : Nat → Nat}

/-- What is still to come for the handler of function `k`. -/
def base (n u : Nat) (outs : Nat → Nat → Bytes) (s : St σ) (k : Nat) : Bytes := s.buf (u + 1 + k) ++ (outs n (k + 1)).drop (s.out n (k + 1)).length

/-- What item `k` can still read from input `j`. -/
def rem (n u : Nat) (outs : Nat → Nat → Bytes) (s : St σ) (k j : Nat) : Bytes :=
  if k < n ∧ j = 0 then s.ahead k ++ base n u outs s k else s.src k j

/-- What the handler of function `k` has still to do. -/
def pend (n u : Nat) (outs : Nat → Nat → Bytes) (s : St σ) (k : Nat) : Nat := (base n u outs s k).length + if s.heof k then 0 else 1

/-- All that the shell should get. -/
def total (n : Nat) (outs : Nat → Nat → Bytes) : Nat := sumTo (n + 1) fun k => (outs k 0).length

structure Inv (prog : Prog σ) (n u v : Nat) (a : Nat → Nat) (outs : Nat → Nat → Bytes) (code : Nat → Nat) (B L : Nat) (s : St σ) (left : Nat → Nat) : Prop where
  run : ∀ k, k ≤ n → ∀ st, s.proc k = .running st →
    ∃ c ro, RunsN prog c st (rem n u outs s k) ro (code k) ∧ (∀ j, s.out k j ++ ro j = outs k j) ∧ c + 1 ≤ left k
  exited : ∀ k, k ≤ n → ∀ c, s.proc k = .exited c → c = code k ∧ ∀ j, s.out k j = outs k j
  alive : ∀ k, k ≤ n → s.proc k ≠ .killed
  cut : ∀ k, s.cut k = false
  heof : ∀ k, k < n → s.heof k = true → s.buf (u + 1 + k) = [] ∧ ∀ st, s.proc n ≠ .running st
  shutA : ∀ k, k < n → s.shut (a k) = true → s.heof k = true
  shutV : s.shut v = false
  merged : Merged n (fun k => s.out k 0) (s.got ++ s.buf u)
  budget : L + sumTo (n + 1) left + sumTo n (pend n u outs s) + (total n outs - s.got.length) ≤ B

theorem Inv.pre {B L : Nat} {s : St σ} {left : Nat → Nat} (hi : Inv prog n u v a outs code B L s left) (k : Nat) (hk : k ≤ n) (j : Nat) : s.out k j <+: outs k j := by
  cases h : s.proc k with
  | running st => obtain ⟨c, ro, -, h2, -⟩ := hi.run k hk st h; exact ⟨_, h2 j⟩
  | exited c => rw [(hi.exited k hk c h).2 j]; exact List.prefix_refl _
  | killed => exact absurd h (hi.alive k hk)

theorem sumTo_bump {f g : Nat → Nat} (m k : Nat) (hk : k < m) (h : ∀ j, j ≠ k → f j = g j) (hb : f k = g k + 1) : sumTo m f = sumTo m g + 1 := by
  induction m with
  | zero => omega
  | succ m ih =>
    simp only [sumTo]
    by_cases hm : k = m
    · subst hm
      rw [sumTo_congr k (fun j hj => h j (by omega)), hb]; omega
    · rw [ih (by omega), h m (by omega)]; omega

theorem tagged_length : ∀ (t : List (Nat × UInt8)), (∀ x ∈ t, x.1 ≤ n) → sumTo (n + 1) (fun k => (t.filter (fun x => x.1 == k)).length) = t.length
  | [], _ => by
    have : ∀ m, sumTo m (fun _ => 0) = 0 := by intro m; induction m with | zero => rfl | succ m ih => simp [sumTo, ih]
    simpa using this (n + 1)
  | x :: t, h => by
    rw [sumTo_bump (g := fun k => (t.filter (fun x => x.1 == k)).length) (n + 1) x.1 (by have := h x (by simp); omega) ?_ ?_, tagged_length t (fun y hy => h y (by simp [hy]))]
    · rfl
    · intro j hj
      simp [List.filter_cons, Ne.symm hj]
    · simp [List.filter_cons]

theorem Merged.length {f : Nat → Bytes} {l : Bytes} (h : Merged n f l) : l.length = sumTo (n + 1) fun k => (f k).length := by
  obtain ⟨t, rfl, h2, h3⟩ := h
  rw [List.length_map, ← tagged_length t h2]
  apply sumTo_congr
  intro k hk
  rw [← h3 k (by omega), List.length_map]

theorem Merged.snoc {f : Nat → Bytes} {l : Bytes} (h : Merged n f l) {k : Nat} (hk : k ≤ n) (x : UInt8) : Merged n (upd f k (f k ++ [x])) (l ++ [x]) := by
  obtain ⟨t, rfl, h2, h3⟩ := h
  refine ⟨t ++ [(k, x)], by simp, ?_, ?_⟩
  · intro y hy
    rcases List.mem_append.1 hy with hy | hy
    · exact h2 y hy
    · rw [List.mem_singleton.1 hy]; exact hk
  · intro j hj
    by_cases hjk : j = k
    · subst hjk; simp [List.filter_append, h3 j hj, upd_same]
    · rw [upd_ne _ _ hjk, ← h3 j hj]
      simp [List.filter_append, Ne.symm hjk]

theorem Inv.got_le {B L : Nat} {s : St σ} {left : Nat → Nat} (hi : Inv prog n u v a outs code B L s left) : s.got.length + (s.buf u).length ≤ total n outs := by
  have := hi.merged.length
  rw [List.length_append] at this
  rw [this]
  exact sumTo_le _ fun k hk => (hi.pre k (by omega) 0).length_le

theorem sumTo_dec {left : Nat → Nat} {m k x : Nat} (hk : k < m) (h : x + 1 ≤ left k) : sumTo m (upd left k x) + 1 ≤ sumTo m left :=
  sumTo_lt m k hk (fun j _ hj => by rw [upd_ne _ _ hj]; exact Nat.le_refl _) (by rw [upd_same]; exact h)

theorem inv_step (hn : IsStar net n u v a b) {B L : Nat} {s t : St σ} {left : Nat → Nat} (hi : Inv prog n u v a outs code B L s left) (h : Step prog net s t) :
    ∃ left', Inv prog n u v a outs code B (L + 1) t left' := by
  have hb := hi.budget
  have hFin : ∀ k fd, net.inFd k = some fd → k < net.items.length → k < n ∧ fd = a k := by
    intro k fd h hk
    rw [hn.len] at hk
    by_cases hkn : k = n
    · subst hkn; rw [hn.inN] at h; cases h
    · have hkn : k < n := by omega
      rw [hn.inF k hkn] at h; cases h; exact ⟨hkn, rfl⟩
  cases h with
  | @read k j st f q b rest h1 h2 h3 h4 h5 h6 =>
    exfalso
    rw [hn.len] at h1
    by_cases hk : k = n
    · subst hk; rw [hn.slotN] at h5; cases h5
    · cases j with
      | zero => rw [handler, hn.inF k (by omega)] at h4; cases h4
      | succ j => rw [hn.slotX k j (by omega)] at h5; cases h5
  | @eof k j st f q h1 h2 h3 h4 h5 h6 h7 =>
    exfalso
    rw [hn.len] at h1
    by_cases hk : k = n
    · subst hk; rw [hn.slotN] at h5; cases h5
    · cases j with
      | zero => rw [handler, hn.inF k (by omega)] at h4; cases h4
      | succ j => rw [hn.slotX k j (by omega)] at h5; cases h5
  | @readExt k j st f b rest h1 h2 h3 h4 h5 h6 =>
    rw [hn.len] at h1
    have hno : ¬ (k < n ∧ j = 0) := by
      rintro ⟨hk, rfl⟩; rw [handler, hn.inF k hk] at h4; cases h4
    obtain ⟨c, ro, r1, r2, r3⟩ := hi.run k (by omega) st h2
    obtain ⟨m, rfl, r1'⟩ := r1.inv_read h3 (by rw [rem, if_neg hno]; exact h6)
    refine ⟨upd left k (m + 1), ?_⟩
    exact {
      run := by
        intro k' hk' st' hst'
        simp only at hst'
        by_cases hkk : k' = k
        · subst hkk
          rw [upd_same] at hst'; cases hst'
          refine ⟨m, ro, ?_, r2, by rw [upd_same]; omega⟩
          have : rem n u outs { s with proc := upd s.proc k' (.running (f (some b))), src := upd s.src k' (upd (s.src k') j rest) } k' = upd (rem n u outs s k') j rest := by
            funext j'
            by_cases hj : j' = j
            · subst hj; rw [upd_same, rem, if_neg hno]; simp only [upd_same]
            · rw [upd_ne _ _ hj]
              simp only [rem, upd_same, upd_ne _ _ hj]; rfl
          rw [this]; exact r1'
        · rw [upd_ne _ _ hkk] at hst'
          obtain ⟨c', ro', e1, e2, e3⟩ := hi.run k' hk' st' hst'
          refine ⟨c', ro', ?_, e2, by rw [upd_ne _ _ hkk]; exact e3⟩
          have : rem n u outs { s with proc := upd s.proc k (.running (f (some b))), src := upd s.src k (upd (s.src k) j rest) } k' = rem n u outs s k' := by
            funext j'; simp only [rem, upd_ne _ _ hkk]; rfl
          rw [this]; exact e1
      exited := by
        intro k' hk' c' hc'
        simp only at hc'
        by_cases hkk : k' = k
        · subst hkk; rw [upd_same] at hc'; cases hc'
        · rw [upd_ne _ _ hkk] at hc'; exact hi.exited k' hk' c' hc'
      alive := by
        intro k' hk' hc'
        simp only at hc'
        by_cases hkk : k' = k
        · subst hkk; rw [upd_same] at hc'; cases hc'
        · rw [upd_ne _ _ hkk] at hc'; exact hi.alive k' hk' hc'
      cut := hi.cut
      heof := by
        intro k' hk' hh
        obtain ⟨e1, e2⟩ := hi.heof k' hk' hh
        refine ⟨e1, fun st' hst' => ?_⟩
        simp only at hst'
        by_cases hkk : n = k
        · subst hkk; exact e2 st h2
        · rw [upd_ne _ _ hkk] at hst'; exact e2 st' hst'
      shutA := hi.shutA
      shutV := hi.shutV
      merged := hi.merged
      budget := by
        have := sumTo_dec (left := left) (m := n + 1) (k := k) (x := m + 1) (by omega) (by omega)
        have e : sumTo n (pend n u outs { s with proc := upd s.proc k (.running (f (some b))), src := upd s.src k (upd (s.src k) j rest) }) = sumTo n (pend n u outs s) := rfl
        rw [e]; simp only; omega }
  | @eofExt k j st f h1 h2 h3 h4 h5 h6 =>
    rw [hn.len] at h1
    have hno : ¬ (k < n ∧ j = 0) := by
      rintro ⟨hk, rfl⟩; rw [handler, hn.inF k hk] at h4; cases h4
    obtain ⟨c, ro, r1, r2, r3⟩ := hi.run k (by omega) st h2
    obtain ⟨m, rfl, r1'⟩ := r1.inv_eof h3 (by rw [rem, if_neg hno]; exact h6)
    refine ⟨upd left k (m + 1), ?_⟩
    exact {
      run := by
        intro k' hk' st' hst'
        simp only at hst'
        by_cases hkk : k' = k
        · subst hkk
          rw [upd_same] at hst'; cases hst'
          exact ⟨m, ro, r1', r2, by rw [upd_same]; omega⟩
        · rw [upd_ne _ _ hkk] at hst'
          obtain ⟨c', ro', e1, e2, e3⟩ := hi.run k' hk' st' hst'
          exact ⟨c', ro', e1, e2, by rw [upd_ne _ _ hkk]; exact e3⟩
      exited := by
        intro k' hk' c' hc'
        simp only at hc'
        by_cases hkk : k' = k
        · subst hkk; rw [upd_same] at hc'; cases hc'
        · rw [upd_ne _ _ hkk] at hc'; exact hi.exited k' hk' c' hc'
      alive := by
        intro k' hk' hc'
        simp only at hc'
        by_cases hkk : k' = k
        · subst hkk; rw [upd_same] at hc'; cases hc'
        · rw [upd_ne _ _ hkk] at hc'; exact hi.alive k' hk' hc'
      cut := hi.cut
      heof := by
        intro k' hk' hh
        obtain ⟨e1, e2⟩ := hi.heof k' hk' hh
        refine ⟨e1, fun st' hst' => ?_⟩
        simp only at hst'
        by_cases hkk : n = k
        · subst hkk; exact e2 st h2
        · rw [upd_ne _ _ hkk] at hst'; exact e2 st' hst'
      shutA := hi.shutA
      shutV := hi.shutV
      merged := hi.merged
      budget := by
        have := sumTo_dec (left := left) (m := n + 1) (k := k) (x := m + 1) (by omega) (by omega)
        have e : sumTo n (pend n u outs { s with proc := upd s.proc k (.running (f none)) }) = sumTo n (pend n u outs s) := rfl
        rw [e]; simp only; omega }
  | @fetch k fd q c rest h1 h2 h3 h4 h5 h6 h7 h8 =>
    obtain ⟨hk, rfl⟩ := hFin k fd h2 h1
    rw [hn.slotF k hk] at h5; cases h5
    have hbase : ∀ k', k' < n → k' ≠ k → base n u outs { s with ahead := upd s.ahead k (s.ahead k ++ c), buf := upd s.buf (u + 1 + k) rest } k' = base n u outs s k' := by
      intro k' hk' hkk
      simp only [base]; rw [upd_ne _ _ (by omega)]
    have hbase' : base n u outs s k = c ++ base n u outs { s with ahead := upd s.ahead k (s.ahead k ++ c), buf := upd s.buf (u + 1 + k) rest } k := by
      simp only [base, h6, upd_same, List.append_assoc]
    refine ⟨left, ?_⟩
    exact {
      run := by
        intro k' hk' st' hst'
        obtain ⟨c', ro', e1, e2, e3⟩ := hi.run k' hk' st' hst'
        refine ⟨c', ro', ?_, e2, e3⟩
        have : rem n u outs { s with ahead := upd s.ahead k (s.ahead k ++ c), buf := upd s.buf (u + 1 + k) rest } k' = rem n u outs s k' := by
          funext j'
          simp only [rem]
          split
          · next hkj =>
            by_cases hkk : k' = k
            · subst hkk; rw [upd_same, hbase', List.append_assoc]
            · rw [upd_ne _ _ hkk, hbase k' hkj.1 hkk]
          · rfl
        rw [this]; exact e1
      exited := hi.exited
      alive := hi.alive
      cut := hi.cut
      heof := by
        intro k' hk' hh
        obtain ⟨e1, e2⟩ := hi.heof k' hk' hh
        refine ⟨?_, e2⟩
        simp only
        by_cases hkk : k' = k
        · subst hkk; rw [h3] at hh; cases hh
        · rw [upd_ne _ _ (by omega)]; exact e1
      shutA := hi.shutA
      shutV := hi.shutV
      merged := by simp only; rw [upd_ne _ _ (by omega)]; exact hi.merged
      budget := by
        have hlen : 0 < c.length := List.length_pos_iff.2 h7
        have : sumTo n (pend n u outs { s with ahead := upd s.ahead k (s.ahead k ++ c), buf := upd s.buf (u + 1 + k) rest }) + 1 ≤ sumTo n (pend n u outs s) := by
          refine sumTo_lt n k hk ?_ ?_
          · intro j hj hjk
            simp only [pend]; rw [hbase j hj hjk]; exact Nat.le_refl _
          · simp only [pend]; rw [hbase', List.length_append]; simp only [h3]; omega
        simp only at this ⊢; omega }
  | @hup k fd q h1 h2 h3 h4 h5 h6 h7 =>
    obtain ⟨hk, rfl⟩ := hFin k fd h2 h1
    rw [hn.slotF k hk] at h5; cases h5
    rw [hn.openW k hk] at h7
    refine ⟨left, ?_⟩
    exact {
      run := hi.run
      exited := hi.exited
      alive := hi.alive
      cut := hi.cut
      heof := by
        intro k' hk' hh
        simp only at hh
        by_cases hkk : k' = k
        · subst hkk; exact ⟨h6, fun st hst => h7 ⟨st, hst⟩⟩
        · rw [upd_ne _ _ hkk] at hh; exact hi.heof k' hk' hh
      shutA := by
        intro k' hk' hh
        simp only at hh ⊢
        by_cases hkk : k' = k
        · subst hkk; exact upd_same ..
        · rw [upd_ne _ _ hkk]
          rw [close_ne (by intro h; exact hkk (hn.injA k' k hk' hk (Option.some.inj h).symm))] at hh
          exact hi.shutA k' hk' hh
      shutV := by
        simp only
        rw [close_ne (by intro h; exact (hn.va k hk).1 (Option.some.inj h).symm)]
        exact hi.shutV
      merged := hi.merged
      budget := by
        have : sumTo n (pend n u outs { s with heof := upd s.heof k true, shut := close s.shut (some (a k)) }) + 1 ≤ sumTo n (pend n u outs s) := by
          refine sumTo_lt n k hk ?_ ?_
          · intro j hj hjk
            have e : upd s.heof k true j = s.heof j := upd_ne _ _ hjk
            simp only [pend, base, e]; exact Nat.le_refl _
          · simp only [pend, upd_same, h3]; exact Nat.le_refl _
        simp only at this ⊢; omega }
  | @fetchExt k fd c rest h1 h2 h3 h4 h5 h6 h7 h8 =>
    obtain ⟨hk, rfl⟩ := hFin k fd h2 h1
    rw [hn.slotF k hk] at h5; cases h5
  | @hupExt k fd h1 h2 h3 h4 h5 h6 =>
    obtain ⟨hk, rfl⟩ := hFin k fd h2 h1
    rw [hn.slotF k hk] at h5; cases h5
  | @take k j fd st f b rest h1 h2 h3 h4 h5 =>
    obtain rfl : j = 0 := by cases j with | zero => rfl | succ j => cases h4
    obtain ⟨hk, rfl⟩ := hFin k fd h4 h1
    obtain ⟨c, ro, r1, r2, r3⟩ := hi.run k (by omega) st h2
    obtain ⟨m, rfl, r1'⟩ := r1.inv_read h3 (rest := rest ++ base n u outs s k) (by rw [rem, if_pos ⟨hk, rfl⟩, h5]; rfl)
    refine ⟨upd left k (m + 1), ?_⟩
    exact {
      run := by
        intro k' hk' st' hst'
        simp only at hst'
        by_cases hkk : k' = k
        · subst hkk
          rw [upd_same] at hst'; cases hst'
          refine ⟨m, ro, ?_, r2, by rw [upd_same]; omega⟩
          have : rem n u outs { s with proc := upd s.proc k' (.running (f (some b))), ahead := upd s.ahead k' rest } k' = upd (rem n u outs s k') 0 (rest ++ base n u outs s k') := by
            funext j'
            by_cases hj : j' = 0
            · subst hj; rw [upd_same, rem, if_pos ⟨hk, rfl⟩]; simp only [upd_same]; rfl
            · rw [upd_ne _ _ hj]; simp only [rem, hj, and_false, if_false]
          rw [this]; exact r1'
        · rw [upd_ne _ _ hkk] at hst'
          obtain ⟨c', ro', e1, e2, e3⟩ := hi.run k' hk' st' hst'
          refine ⟨c', ro', ?_, e2, by rw [upd_ne _ _ hkk]; exact e3⟩
          have : rem n u outs { s with proc := upd s.proc k (.running (f (some b))), ahead := upd s.ahead k rest } k' = rem n u outs s k' := by
            funext j'; simp only [rem, upd_ne _ _ hkk]; rfl
          rw [this]; exact e1
      exited := by
        intro k' hk' c' hc'
        simp only at hc'
        by_cases hkk : k' = k
        · subst hkk; rw [upd_same] at hc'; cases hc'
        · rw [upd_ne _ _ hkk] at hc'; exact hi.exited k' hk' c' hc'
      alive := by
        intro k' hk' hc'
        simp only at hc'
        by_cases hkk : k' = k
        · subst hkk; rw [upd_same] at hc'; cases hc'
        · rw [upd_ne _ _ hkk] at hc'; exact hi.alive k' hk' hc'
      cut := hi.cut
      heof := by
        intro k' hk' hh
        obtain ⟨e1, e2⟩ := hi.heof k' hk' hh
        refine ⟨e1, fun st' hst' => ?_⟩
        simp only at hst'
        rw [upd_ne _ _ (by omega)] at hst'; exact e2 st' hst'
      shutA := hi.shutA
      shutV := hi.shutV
      merged := hi.merged
      budget := by
        have := sumTo_dec (left := left) (m := n + 1) (k := k) (x := m + 1) (by omega) (by omega)
        have e : sumTo n (pend n u outs { s with proc := upd s.proc k (.running (f (some b))), ahead := upd s.ahead k rest }) = sumTo n (pend n u outs s) := rfl
        rw [e]; simp only; omega }
  | @takeEof k j fd st f h1 h2 h3 h4 h5 h6 =>
    obtain rfl : j = 0 := by cases j with | zero => rfl | succ j => cases h4
    obtain ⟨hk, rfl⟩ := hFin k fd h4 h1
    obtain ⟨e1, e2⟩ := hi.heof k hk h6
    have hdone : s.out n (k + 1) = outs n (k + 1) := by
      cases h : s.proc n with
      | running st => exact absurd h (e2 st)
      | exited c => exact (hi.exited n (Nat.le_refl _) c h).2 _
      | killed => exact absurd h (hi.alive n (Nat.le_refl _))
    obtain ⟨c, ro, r1, r2, r3⟩ := hi.run k (by omega) st h2
    obtain ⟨m, rfl, r1'⟩ := r1.inv_eof h3 (by rw [rem, if_pos ⟨hk, rfl⟩, h5, base, e1, hdone]; simp)
    refine ⟨upd left k (m + 1), ?_⟩
    exact {
      run := by
        intro k' hk' st' hst'
        simp only at hst'
        by_cases hkk : k' = k
        · subst hkk
          rw [upd_same] at hst'; cases hst'
          exact ⟨m, ro, r1', r2, by rw [upd_same]; omega⟩
        · rw [upd_ne _ _ hkk] at hst'
          obtain ⟨c', ro', e1, e2, e3⟩ := hi.run k' hk' st' hst'
          exact ⟨c', ro', e1, e2, by rw [upd_ne _ _ hkk]; exact e3⟩
      exited := by
        intro k' hk' c' hc'
        simp only at hc'
        by_cases hkk : k' = k
        · subst hkk; rw [upd_same] at hc'; cases hc'
        · rw [upd_ne _ _ hkk] at hc'; exact hi.exited k' hk' c' hc'
      alive := by
        intro k' hk' hc'
        simp only at hc'
        by_cases hkk : k' = k
        · subst hkk; rw [upd_same] at hc'; cases hc'
        · rw [upd_ne _ _ hkk] at hc'; exact hi.alive k' hk' hc'
      cut := hi.cut
      heof := by
        intro k' hk' hh
        obtain ⟨e1, e2⟩ := hi.heof k' hk' hh
        refine ⟨e1, fun st' hst' => ?_⟩
        simp only at hst'
        rw [upd_ne _ _ (by omega)] at hst'; exact e2 st' hst'
      shutA := hi.shutA
      shutV := hi.shutV
      merged := hi.merged
      budget := by
        have := sumTo_dec (left := left) (m := n + 1) (k := k) (x := m + 1) (by omega) (by omega)
        have e : sumTo n (pend n u outs { s with proc := upd s.proc k (.running (f none)) }) = sumTo n (pend n u outs s) := rfl
        rw [e]; simp only; omega }
  | @write k j st st' x q h1 h2 h3 h4 h5 h6 =>
    rw [hn.len] at h1
    obtain ⟨c, ro, r1, r2, r3⟩ := hi.run k (by omega) st h2
    obtain ⟨m, o, rfl, rfl, r1'⟩ := r1.inv_write h3
    have hout : s.out k j ++ x :: o j = outs k j := by have := r2 j; rwa [upd_same] at this
    obtain ⟨t, ht⟩ : ∃ t : St σ, t = { s with proc := upd s.proc k (.running st'), buf := upd s.buf q (s.buf q ++ [x]), out := upd s.out k (upd (s.out k) j (s.out k j ++ [x])) } := ⟨_, rfl⟩
    rw [← ht]
    -- which pipe it is
    have hq : (j = 0 ∧ q = u) ∨ (∃ j', j = j' + 1 ∧ k = n ∧ j' < n ∧ q = u + 1 + j') := by
      cases j with
      | zero => rw [hn.out0 k (by omega)] at h4; cases h4; exact .inl ⟨rfl, rfl⟩
      | succ j' =>
        by_cases hk : k = n
        · subst hk
          rw [hn.outP] at h4
          split at h4
          · next hj => cases h4; exact .inr ⟨j', rfl, rfl, hj, rfl⟩
          · cases h4
        · rw [hn.outX k j' (by omega)] at h4; cases h4
    have hbase : ∀ k', k' < n → base n u outs t k' = base n u outs s k' := by
      intro k' hk'
      simp only [base, ht]
      rcases hq with ⟨rfl, rfl⟩ | ⟨j', rfl, rfl, hj', rfl⟩
      · rw [upd_ne _ _ (by omega)]
        by_cases hkn : n = k
        · subst hkn; rw [upd_same, upd_ne _ _ (by omega)]
        · rw [upd_ne _ _ hkn]
      · rw [upd_same]
        by_cases hjj : k' = j'
        · subst hjj
          rw [upd_same, upd_same, ← hout]
          simp [List.drop_append]
        · rw [upd_ne _ _ (by omega), upd_ne _ _ (by omega)]
    have hrem : ∀ k', rem n u outs t k' = rem n u outs s k' := by
      intro k'
      funext j'
      simp only [rem]
      split
      · next hk' => rw [hbase k' hk'.1]; simp only [ht]
      · simp only [ht]
    refine ⟨upd left k (m + 1), ?_⟩
    exact {
      run := by
        intro k' hk' st'' hst'
        rw [hrem]
        simp only [ht] at hst'
        by_cases hkk : k' = k
        · subst hkk
          rw [upd_same] at hst'; cases hst'
          refine ⟨m, o, r1', ?_, by rw [upd_same]; omega⟩
          intro j'
          simp only [ht, upd_same]
          by_cases hj : j' = j
          · subst hj; rw [upd_same, List.append_assoc]; exact hout
          · rw [upd_ne _ _ hj]; have := r2 j'; rwa [upd_ne _ _ hj] at this
        · rw [upd_ne _ _ hkk] at hst'
          obtain ⟨c', ro', e1, e2, e3⟩ := hi.run k' hk' st'' hst'
          refine ⟨c', ro', e1, ?_, by rw [upd_ne _ _ hkk]; exact e3⟩
          intro j'; simp only [ht]; rw [upd_ne _ _ hkk]; exact e2 j'
      exited := by
        intro k' hk' c' hc'
        simp only [ht] at hc' ⊢
        by_cases hkk : k' = k
        · subst hkk; rw [upd_same] at hc'; cases hc'
        · rw [upd_ne _ _ hkk] at hc' ⊢; exact hi.exited k' hk' c' hc'
      alive := by
        intro k' hk' hc'
        simp only [ht] at hc'
        by_cases hkk : k' = k
        · subst hkk; rw [upd_same] at hc'; cases hc'
        · rw [upd_ne _ _ hkk] at hc'; exact hi.alive k' hk' hc'
      cut := by intro k'; rw [ht]; exact hi.cut k'
      heof := by
        intro k' hk' hh
        rw [ht] at hh
        obtain ⟨e1, e2⟩ := hi.heof k' hk' hh
        have hkn : n ≠ k := by rintro rfl; exact e2 st h2
        refine ⟨?_, fun st'' hst' => ?_⟩
        · simp only [ht]
          rcases hq with ⟨-, rfl⟩ | ⟨j', -, rfl, -, -⟩
          · rw [upd_ne _ _ (by omega)]; exact e1
          · exact absurd rfl hkn
        · simp only [ht] at hst'
          rw [upd_ne _ _ hkn] at hst'; exact e2 st'' hst'
      shutA := by rw [ht]; exact hi.shutA
      shutV := by rw [ht]; exact hi.shutV
      merged := by
        simp only [ht]
        rcases hq with ⟨rfl, rfl⟩ | ⟨j', rfl, rfl, hj', rfl⟩
        · rw [upd_same, ← List.append_assoc]
          have := hi.merged.snoc (k := k) (by omega) x
          have e : (fun k' => upd s.out k (upd (s.out k) 0 (s.out k 0 ++ [x])) k' 0) = upd (fun k' => s.out k' 0) k (s.out k 0 ++ [x]) := by
            funext k'
            by_cases hkk : k' = k
            · subst hkk; rw [upd_same, upd_same, upd_same]
            · rw [upd_ne _ _ hkk, upd_ne _ _ hkk]
          rw [e]; exact this
        · rw [upd_ne _ _ (by omega)]
          have e : (fun k' => upd s.out k (upd (s.out k) (j' + 1) (s.out k (j' + 1) ++ [x])) k' 0) = fun k' => s.out k' 0 := by
            funext k'
            by_cases hkk : k' = k
            · subst hkk; rw [upd_same, upd_ne _ _ (by omega)]
            · rw [upd_ne _ _ hkk]
          rw [e]; exact hi.merged
      budget := by
        have := sumTo_dec (left := left) (m := n + 1) (k := k) (x := m + 1) (by omega) (by omega)
        have e : sumTo n (pend n u outs t) = sumTo n (pend n u outs s) := by
          apply sumTo_congr; intro k' hk'; simp only [pend]; rw [hbase k' hk']; simp only [ht]
        have e' : t.got = s.got := by rw [ht]
        rw [e, e']; omega }
  | @sigpipe k j st st' x q h1 h2 h3 h4 h5 h6 =>
    exfalso
    rw [hn.len] at h1
    cases j with
    | zero => rw [hn.out0 k (by omega)] at h4; cases h4; exact h5 (hn.openU s hi.shutV)
    | succ j' =>
      by_cases hk : k = n
      · subst hk
        rw [hn.outP] at h4
        split at h4
        · next hj =>
          cases h4
          refine h5 (hn.openR j' hj s ?_)
          cases hs : s.shut (a j') with
          | false => rfl
          | true => exact absurd h2 ((hi.heof j' hj (hi.shutA j' hj hs)).2 st)
        · cases h4
      · rw [hn.outX k j' (by omega)] at h4; cases h4
  | @epipe k j st st' st'' x q h1 h2 h3 h4 h5 h6 =>
    exfalso
    rw [hn.len] at h1
    cases j with
    | zero => rw [hn.out0 k (by omega)] at h4; cases h4; exact h5 (hn.openU s hi.shutV)
    | succ j' =>
      by_cases hk : k = n
      · subst hk
        rw [hn.outP] at h4
        split at h4
        · next hj =>
          cases h4
          refine h5 (hn.openR j' hj s ?_)
          cases hs : s.shut (a j') with
          | false => rfl
          | true => exact absurd h2 ((hi.heof j' hj (hi.shutA j' hj hs)).2 st)
        · cases h4
      · rw [hn.outX k j' (by omega)] at h4; cases h4
  | @writeExt k j st st' x h1 h2 h3 h4 =>
    rw [hn.len] at h1
    obtain ⟨c, ro, r1, r2, r3⟩ := hi.run k (by omega) st h2
    obtain ⟨m, o, rfl, rfl, r1'⟩ := r1.inv_write h3
    have hout : s.out k j ++ x :: o j = outs k j := by have := r2 j; rwa [upd_same] at this
    obtain ⟨t, ht⟩ : ∃ t : St σ, t = { s with proc := upd s.proc k (.running st'), out := upd s.out k (upd (s.out k) j (s.out k j ++ [x])) } := ⟨_, rfl⟩
    rw [← ht]
    have hj0 : j ≠ 0 ∧ (k = n → ∀ j', j = j' + 1 → n ≤ j') := by
      constructor
      · rintro rfl; rw [hn.out0 k (by omega)] at h4; cases h4
      · rintro rfl j' rfl
        rw [hn.outP] at h4
        split at h4
        · cases h4
        · omega
    have hbase : ∀ k', k' < n → base n u outs t k' = base n u outs s k' := by
      intro k' hk'
      simp only [base, ht]
      by_cases hkn : n = k
      · subst hkn
        rw [upd_same, upd_ne]
        intro h
        have := hj0.2 rfl k' h.symm
        omega
      · rw [upd_ne _ _ hkn]
    have hrem : ∀ k', rem n u outs t k' = rem n u outs s k' := by
      intro k'
      funext j'
      simp only [rem]
      split
      · next hk' => rw [hbase k' hk'.1]; simp only [ht]
      · simp only [ht]
    refine ⟨upd left k (m + 1), ?_⟩
    exact {
      run := by
        intro k' hk' st'' hst'
        rw [hrem]
        simp only [ht] at hst'
        by_cases hkk : k' = k
        · subst hkk
          rw [upd_same] at hst'; cases hst'
          refine ⟨m, o, r1', ?_, by rw [upd_same]; omega⟩
          intro j'
          simp only [ht, upd_same]
          by_cases hj : j' = j
          · subst hj; rw [upd_same, List.append_assoc]; exact hout
          · rw [upd_ne _ _ hj]; have := r2 j'; rwa [upd_ne _ _ hj] at this
        · rw [upd_ne _ _ hkk] at hst'
          obtain ⟨c', ro', e1, e2, e3⟩ := hi.run k' hk' st'' hst'
          refine ⟨c', ro', e1, ?_, by rw [upd_ne _ _ hkk]; exact e3⟩
          intro j'; simp only [ht]; rw [upd_ne _ _ hkk]; exact e2 j'
      exited := by
        intro k' hk' c' hc'
        simp only [ht] at hc' ⊢
        by_cases hkk : k' = k
        · subst hkk; rw [upd_same] at hc'; cases hc'
        · rw [upd_ne _ _ hkk] at hc' ⊢; exact hi.exited k' hk' c' hc'
      alive := by
        intro k' hk' hc'
        simp only [ht] at hc'
        by_cases hkk : k' = k
        · subst hkk; rw [upd_same] at hc'; cases hc'
        · rw [upd_ne _ _ hkk] at hc'; exact hi.alive k' hk' hc'
      cut := by intro k'; rw [ht]; exact hi.cut k'
      heof := by
        intro k' hk' hh
        rw [ht] at hh
        obtain ⟨e1, e2⟩ := hi.heof k' hk' hh
        have hkn : n ≠ k := by rintro rfl; exact e2 st h2
        refine ⟨by rw [ht]; exact e1, fun st'' hst' => ?_⟩
        simp only [ht] at hst'
        rw [upd_ne _ _ hkn] at hst'; exact e2 st'' hst'
      shutA := by rw [ht]; exact hi.shutA
      shutV := by rw [ht]; exact hi.shutV
      merged := by
        simp only [ht]
        have e : (fun k' => upd s.out k (upd (s.out k) j (s.out k j ++ [x])) k' 0) = fun k' => s.out k' 0 := by
          funext k'
          by_cases hkk : k' = k
          · subst hkk; rw [upd_same, upd_ne _ _ (Ne.symm hj0.1)]
          · rw [upd_ne _ _ hkk]
        rw [e]; exact hi.merged
      budget := by
        have := sumTo_dec (left := left) (m := n + 1) (k := k) (x := m + 1) (by omega) (by omega)
        have e : sumTo n (pend n u outs t) = sumTo n (pend n u outs s) := by
          apply sumTo_congr; intro k' hk'; simp only [pend]; rw [hbase k' hk']; simp only [ht]
        have e' : t.got = s.got := by rw [ht]
        rw [e, e']; omega }
  | @exit k st c h1 h2 h3 =>
    rw [hn.len] at h1
    obtain ⟨c', ro, r1, r2, r3⟩ := hi.run k (by omega) st h2
    obtain ⟨r4, rfl⟩ := r1.inv_exit h3
    refine ⟨upd left k 0, ?_⟩
    exact {
      run := by
        intro k' hk' st' hst'
        simp only at hst'
        by_cases hkk : k' = k
        · subst hkk; rw [upd_same] at hst'; cases hst'
        · rw [upd_ne _ _ hkk] at hst'
          obtain ⟨c', ro', e1, e2, e3⟩ := hi.run k' hk' st' hst'
          exact ⟨c', ro', e1, e2, by rw [upd_ne _ _ hkk]; exact e3⟩
      exited := by
        intro k' hk' c'' hc'
        simp only at hc' ⊢
        by_cases hkk : k' = k
        · subst hkk; rw [upd_same] at hc'; cases hc'
          refine ⟨rfl, fun j => ?_⟩
          have := r2 j; rwa [r4 j, List.append_nil] at this
        · rw [upd_ne _ _ hkk] at hc'; exact hi.exited k' hk' c'' hc'
      alive := by
        intro k' hk' hc'
        simp only at hc'
        by_cases hkk : k' = k
        · subst hkk; rw [upd_same] at hc'; cases hc'
        · rw [upd_ne _ _ hkk] at hc'; exact hi.alive k' hk' hc'
      cut := hi.cut
      heof := by
        intro k' hk' hh
        obtain ⟨e1, e2⟩ := hi.heof k' hk' hh
        refine ⟨e1, fun st' hst' => ?_⟩
        simp only at hst'
        by_cases hkk : n = k
        · subst hkk; exact e2 st h2
        · rw [upd_ne _ _ hkk] at hst'; exact e2 st' hst'
      shutA := by
        intro k' hk' hh
        simp only at hh
        refine hi.shutA k' hk' ?_
        rcases close_true hh with hh | hh
        · exact hh
        · exfalso
          by_cases hk : k = n
          · subst hk; rw [hn.outN] at hh; cases hh
          · rw [hn.outF k (by omega)] at hh
            exact hn.disj k' k hk' (by omega) (Option.some.inj hh).symm
      shutV := by
        simp only
        rw [close_ne]
        · exact hi.shutV
        · intro hh
          by_cases hk : k = n
          · subst hk; rw [hn.outN] at hh; cases hh
          · rw [hn.outF k (by omega)] at hh
            exact (hn.va k (by omega)).2 (Option.some.inj hh).symm
      merged := hi.merged
      budget := by
        have := sumTo_dec (left := left) (m := n + 1) (k := k) (x := 0) (by omega) (by omega)
        have e : sumTo n (pend n u outs { s with proc := upd s.proc k (.exited (code k)), shut := close s.shut (net.outFd k) }) = sumTo n (pend n u outs s) := rfl
        rw [e]; simp only; omega }
  | @user q x rest h1 h2 =>
    rw [hn.user] at h1; cases h1
    have hgot := hi.got_le
    obtain ⟨t, ht⟩ : ∃ t : St σ, t = { s with buf := upd s.buf u rest, got := s.got ++ [x] } := ⟨_, rfl⟩
    rw [← ht]
    have hbase : ∀ k', base n u outs t k' = base n u outs s k' := by
      intro k'
      simp only [base, ht]; rw [upd_ne _ _ (by omega)]
    have hrem : ∀ k', rem n u outs t k' = rem n u outs s k' := by
      intro k'
      funext j'
      simp only [rem, hbase k']
      simp only [ht]
    refine ⟨left, ?_⟩
    exact {
      run := by
        intro k' hk' st' hst'
        rw [hrem]
        rw [ht] at hst'
        rw [ht]
        exact hi.run k' hk' st' hst'
      exited := by rw [ht]; exact hi.exited
      alive := by rw [ht]; exact hi.alive
      cut := by rw [ht]; exact hi.cut
      heof := by
        intro k' hk' hh
        rw [ht] at hh
        obtain ⟨e1, e2⟩ := hi.heof k' hk' hh
        refine ⟨?_, by rw [ht]; exact e2⟩
        simp only [ht]; rw [upd_ne _ _ (by omega)]; exact e1
      shutA := by rw [ht]; exact hi.shutA
      shutV := by rw [ht]; exact hi.shutV
      merged := by
        simp only [ht, upd_same]
        have := hi.merged
        rw [h2] at this
        simpa using this
      budget := by
        have e : sumTo n (pend n u outs t) = sumTo n (pend n u outs s) := by
          apply sumTo_congr; intro k' hk'; simp only [pend]; rw [hbase k']; simp only [ht]
        have e' : t.got.length = s.got.length + 1 := by rw [ht]; simp
        have e'' : (s.buf u).length = rest.length + 1 := by rw [h2]; rfl
        rw [e, e']; omega }

theorem inv_start {init : Nat → σ} {src : Nat → Nat → Bytes} {cnt : Nat → Nat}
    (hseq : ∀ k, k ≤ n → RunsN prog (cnt k) (init k) (inputs n src outs k) (outs k) (code k)) :
    Inv prog n u v a outs code (sumTo (n + 1) (fun k => cnt k + 1) + sumTo n (fun k => (outs n (k + 1)).length + 1) + total n outs) 0 (St.start init src) (fun k => cnt k + 1) where
  run := by
    intro k hk st hst
    cases hst
    refine ⟨cnt k, outs k, ?_, fun j => rfl, Nat.le_refl _⟩
    have : rem n u outs (St.start init src) k = inputs n src outs k := by
      funext j; simp [rem, inputs, St.start, base]
    rw [this]; exact hseq k hk
  exited := by intro k hk c h; cases h
  alive := by intro k hk h; cases h
  cut := fun _ => rfl
  heof := by intro k hk h; cases h
  shutA := by intro k hk h; cases h
  shutV := rfl
  merged := ⟨[], rfl, by simp, fun _ _ => rfl⟩
  budget := by
    have : sumTo n (pend n u outs (St.start init src)) = sumTo n (fun k => (outs n (k + 1)).length + 1) := by
      apply sumTo_congr; intro k hk; simp [pend, base, St.start]
    rw [this]; simp [St.start]

theorem inv_steps (hn : IsStar net n u v a b) {B L : Nat} {s t : St σ} (hst : Steps prog net L s t) {left : Nat → Nat} (hi : Inv prog n u v a outs code B 0 s left) :
    ∃ left', Inv prog n u v a outs code B L t left' := by
  induction hst with
  | nil => exact ⟨left, hi⟩
  | snoc _ h ih => obtain ⟨l, ih⟩ := ih hi; exact inv_step hn ih h

/-- A running function that cannot go on waits for input, with the program still running. -/
theorem stuck_func (hn : IsStar net n u v a b) {B L : Nat} {s : St σ} {left : Nat → Nat} (hi : Inv prog n u v a outs code B L s left)
    (hs : ∀ t, ¬ Step prog net s t) (k : Nat) (hk : k < n) (st : σ) (hr : s.proc k = .running st) :
    s.ahead k = [] ∧ s.buf (u + 1 + k) = [] ∧ ∃ st', s.proc n = .running st' := by
  have hlen : k < net.items.length := by rw [hn.len]; omega
  have hbu : s.buf u = [] := by
    cases h : s.buf u with
    | nil => rfl
    | cons x rest => exact absurd (Step.user hn.user h) (hs _)
  cases ho : prog.next st with
  | exit c => exact absurd (Step.exit hlen hr ho) (hs _)
  | write j x st' =>
    exfalso
    cases j with
    | zero => exact hs _ (Step.write hlen hr ho (hn.out0 k (by omega)) (by rw [hbu]; exact hn.cap u) (hn.openU s hi.shutV))
    | succ j => exact hs _ (Step.writeExt hlen hr ho (hn.outX k j hk))
  | read j f =>
    cases j with
    | succ j =>
      exfalso
      cases hsrc : s.src k (j + 1) with
      | nil => exact hs _ (Step.eofExt hlen hr ho rfl (hn.slotX k j hk) hsrc)
      | cons x rest => exact hs _ (Step.readExt hlen hr ho rfl (hn.slotX k j hk) hsrc)
    | zero =>
      have hh : handler net k 0 = some (a k) := hn.inF k hk
      cases ha : s.ahead k with
      | cons x rest => exact absurd (Step.take hlen hr ho hh ha) (hs _)
      | nil =>
        cases he : s.heof k with
        | true => exact absurd (Step.takeEof hlen hr ho hh ha he) (hs _)
        | false =>
          cases hb : s.buf (u + 1 + k) with
          | cons x rest =>
            exact absurd (Step.fetch hlen (hn.inF k hk) he (by rw [ha]; simp) (hn.slotF k hk) (c := [x]) (rest := rest) hb (by simp) (by simp)) (hs _)
          | nil =>
            refine ⟨rfl, rfl, ?_⟩
            rw [← hn.openW k hk s]
            exact Classical.byContradiction fun h => hs _ (Step.hup hlen (hn.inF k hk) he (by rw [ha]; simp) (hn.slotF k hk) hb h)

/-- If the program is running and cannot go on, then it wants to write to a function that has ended with input left. -/
theorem stuck_prog (hn : IsStar net n u v a b) {B L : Nat} {s : St σ} {left : Nat → Nat} (hi : Inv prog n u v a outs code B L s left)
    (hs : ∀ t, ¬ Step prog net s t) (st : σ) (hr : s.proc n = .running st) : ∃ k c x st', k < n ∧ prog.next st = .write (k + 1) x st' ∧ s.proc k = .exited c := by
  have hlen : n < net.items.length := by rw [hn.len]; omega
  have hbu : s.buf u = [] := by
    cases h : s.buf u with
    | nil => rfl
    | cons x rest => exact absurd (Step.user hn.user h) (hs _)
  have hh : ∀ j, handler net n j = none := by intro j; cases j with | zero => exact hn.inN | succ j => rfl
  cases ho : prog.next st with
  | exit c => exact absurd (Step.exit hlen hr ho) (hs _)
  | read j f =>
    exfalso
    cases hsrc : s.src n j with
    | nil => exact hs _ (Step.eofExt hlen hr ho (hh j) (hn.slotN j) hsrc)
    | cons x rest => exact hs _ (Step.readExt hlen hr ho (hh j) (hn.slotN j) hsrc)
  | write j x st' =>
    cases j with
    | zero => exact absurd (Step.write hlen hr ho (hn.out0 n (Nat.le_refl _)) (by rw [hbu]; exact hn.cap u) (hn.openU s hi.shutV)) (hs _)
    | succ j =>
      by_cases hj : j < n
      · have hp : outSlot net n (j + 1) = some (u + 1 + j) := by rw [hn.outP, if_pos hj]
        have hopen : Open net s (.pipeR (u + 1 + j)) := by
          refine hn.openR j hj s ?_
          cases hsh : s.shut (a j) with
          | false => rfl
          | true => exact absurd hr ((hi.heof j hj (hi.shutA j hj hsh)).2 st)
        have hfull : s.buf (u + 1 + j) ≠ [] := by
          intro h
          exact hs _ (Step.write hlen hr ho hp (by rw [h]; exact hn.cap _) hopen)
        cases hf : s.proc j with
        | running st'' => exact absurd (stuck_func hn hi hs j hj st'' hf).2.1 hfull
        | exited c => exact ⟨j, c, x, st', hj, rfl, hf⟩
        | killed => exact absurd hf (hi.alive j (by omega))
      · exact absurd (Step.writeExt hlen hr ho (by rw [hn.outP, if_neg hj])) (hs _)

/-- When nothing can happen any more, either all have ended, or the program is still running, and some function has ended. -/
theorem stuck (hn : IsStar net n u v a b) {B L : Nat} {s : St σ} {left : Nat → Nat} (hi : Inv prog n u v a outs code B L s left) (hs : ∀ t, ¬ Step prog net s t) :
    ((∀ k, k ≤ n → s.proc k = .exited (code k)) ∧ Merged n (fun k => outs k 0) s.got) ∨
    (∃ st k c x st', s.proc n = .running st ∧ k < n ∧ prog.next st = .write (k + 1) x st' ∧ s.proc k = .exited c) := by
  by_cases hr : ∃ st, s.proc n = .running st
  · obtain ⟨st, hr⟩ := hr
    obtain ⟨k, c, x, st', h⟩ := stuck_prog hn hi hs st hr
    exact .inr ⟨st, k, c, x, st', hr, h⟩
  · left
    have hall : ∀ k, k ≤ n → ∃ c, s.proc k = .exited c := by
      intro k hk
      cases h : s.proc k with
      | exited c => exact ⟨c, rfl⟩
      | killed => exact absurd h (hi.alive k hk)
      | running st =>
        exfalso
        by_cases hkn : k = n
        · subst hkn; exact hr ⟨st, h⟩
        · exact hr (stuck_func hn hi hs k (by omega) st h).2.2
    refine ⟨fun k hk => ?_, ?_⟩
    · obtain ⟨c, hc⟩ := hall k hk
      rw [hc, (hi.exited k hk c hc).1]
    · have hbu : s.buf u = [] := by
        cases h : s.buf u with
        | nil => rfl
        | cons x rest => exact absurd (Step.user hn.user h) (hs _)
      have hm := hi.merged
      rw [hbu, List.append_nil] at hm
      obtain ⟨t, h1, h2, h3⟩ := hm
      refine ⟨t, h1, h2, fun k hk => ?_⟩
      obtain ⟨c, hc⟩ := hall k hk
      rw [h3 k hk]; exact (hi.exited k hk c hc).2 0

/-- A function that has ended has closed its output. -/
theorem shut_steps (hn : IsStar net n u v a b) {L : Nat} {s t : St σ} (hst : Steps prog net L s t) (h0 : ∀ k, k < n → ∀ c, s.proc k = .exited c → s.shut (b k) = true) :
    ∀ k, k < n → ∀ c, t.proc k = .exited c → t.shut (b k) = true := by
  induction hst with
  | nil => exact h0
  | snoc _ h ih =>
    have ih := ih h0
    intro k hk c hc
    cases h
    case exit k' st c' h1 h2 h3 =>
      simp only at hc ⊢
      by_cases hkk : k = k'
      · subst hkk; rw [hn.outF k hk]; exact close_same
      · rw [upd_ne _ _ hkk] at hc
        have := ih k hk c hc
        simp only [close, this, Bool.true_or]
    case sigpipe k' j st st' x q h1 h2 h3 h4 h5 h6 =>
      simp only at hc ⊢
      by_cases hkk : k = k'
      · subst hkk; rw [upd_same] at hc; cases hc
      · rw [upd_ne _ _ hkk] at hc
        have := ih k hk c hc
        simp only [close, this, Bool.true_or]
    case hup =>
      have := ih k hk c hc
      simp only [close, this, Bool.true_or]
    case hupExt =>
      have := ih k hk c hc
      simp only [close, this, Bool.true_or]
    case fetch => exact ih k hk c hc
    case fetchExt => exact ih k hk c hc
    case user => exact ih k hk c hc
    all_goals
      simp only [upd] at hc ⊢
      split at hc
      · cases hc
      · exact ih k hk c hc

/-- A function that reads to the end has not ended before its handler has come to the end. -/
theorem greedy_steps (hn : IsStar net n u v a b) {B : Nat} {L : Nat} {s t : St σ} (hst : Steps prog net L s t) {left : Nat → Nat}
    (hi : Inv prog n u v a outs code B 0 s left) {P : Nat → σ → Prop}
    (hP : ∀ k, k < n → ∀ st, P k st → (∀ c, prog.next st ≠ .exit c) ∧ (∀ j b st', prog.next st = .write j b st' → P k st') ∧
      ∀ j f, prog.next st = .read j f → (∀ b, P k (f (some b))) ∧ (j ≠ 0 → P k (f none)))
    (h0 : ∀ k, k < n → s.heof k = true ∨ ∃ st, s.proc k = .running st ∧ P k st) :
    ∀ k, k < n → t.heof k = true ∨ ∃ st, t.proc k = .running st ∧ P k st := by
  induction hst with
  | nil => exact h0
  | @snoc m s' t' u' hst' h ih =>
    have ih := ih hi h0
    obtain ⟨left', hi'⟩ := inv_steps hn hst' hi
    obtain ⟨left'', hi''⟩ := inv_step hn hi' h
    intro k hk
    rcases ih k hk with he | ⟨st0, hr, hp⟩
    · left
      cases h <;> first | exact he | (simp only [upd]; split <;> first | rfl | exact he)
    · obtain ⟨p1, p2, p3⟩ := hP k hk st0 hp
      have hh : ∀ j, handler net k j = none → j ≠ 0 := by
        rintro j hj rfl; rw [handler, hn.inF k hk] at hj; cases hj
      cases h
      case user => exact .inr ⟨st0, hr, hp⟩
      case fetch => exact .inr ⟨st0, hr, hp⟩
      case fetchExt => exact .inr ⟨st0, hr, hp⟩
      case hup => exact .inr ⟨st0, hr, hp⟩
      case hupExt => exact .inr ⟨st0, hr, hp⟩
      case read k' j st f q x rest h1 h2 h3 h4 h5 h6 =>
        by_cases hkk : k = k'
        · subst hkk; rw [hr] at h2; cases h2
          exact .inr ⟨_, upd_same .., (p3 j f h3).1 _⟩
        · exact .inr ⟨st0, by simp only; rw [upd_ne _ _ hkk]; exact hr, hp⟩
      case readExt k' j st f x rest h1 h2 h3 h4 h5 h6 =>
        by_cases hkk : k = k'
        · subst hkk; rw [hr] at h2; cases h2
          exact .inr ⟨_, upd_same .., (p3 j f h3).1 _⟩
        · exact .inr ⟨st0, by simp only; rw [upd_ne _ _ hkk]; exact hr, hp⟩
      case take k' j fd st f x rest h1 h2 h3 h4 h5 =>
        by_cases hkk : k = k'
        · subst hkk; rw [hr] at h2; cases h2
          exact .inr ⟨_, upd_same .., (p3 j f h3).1 _⟩
        · exact .inr ⟨st0, by simp only; rw [upd_ne _ _ hkk]; exact hr, hp⟩
      case eof k' j st f q h1 h2 h3 h4 h5 h6 h7 =>
        by_cases hkk : k = k'
        · subst hkk; rw [hr] at h2; cases h2
          exact .inr ⟨_, upd_same .., (p3 j f h3).2 (hh j h4)⟩
        · exact .inr ⟨st0, by simp only; rw [upd_ne _ _ hkk]; exact hr, hp⟩
      case eofExt k' j st f h1 h2 h3 h4 h5 h6 =>
        by_cases hkk : k = k'
        · subst hkk; rw [hr] at h2; cases h2
          exact .inr ⟨_, upd_same .., (p3 j f h3).2 (hh j h4)⟩
        · exact .inr ⟨st0, by simp only; rw [upd_ne _ _ hkk]; exact hr, hp⟩
      case takeEof k' j fd st f h1 h2 h3 h4 h5 h6 =>
        by_cases hkk : k = k'
        · subst hkk; exact .inl h6
        · exact .inr ⟨st0, by simp only; rw [upd_ne _ _ hkk]; exact hr, hp⟩
      case write k' j st st' x q h1 h2 h3 h4 h5 h6 =>
        by_cases hkk : k = k'
        · subst hkk; rw [hr] at h2; cases h2
          exact .inr ⟨_, upd_same .., p2 _ _ _ h3⟩
        · exact .inr ⟨st0, by simp only; rw [upd_ne _ _ hkk]; exact hr, hp⟩
      case writeExt k' j st st' x h1 h2 h3 h4 =>
        by_cases hkk : k = k'
        · subst hkk; rw [hr] at h2; cases h2
          exact .inr ⟨_, upd_same .., p2 _ _ _ h3⟩
        · exact .inr ⟨st0, by simp only; rw [upd_ne _ _ hkk]; exact hr, hp⟩
      case sigpipe k' j st st' x q h1 h2 h3 h4 h5 h6 =>
        have := hi''.cut k'
        simp only [upd_same] at this; cases this
      case epipe k' j st st' st'' x q h1 h2 h3 h4 h5 h6 h7 =>
        have := hi''.cut k'
        simp only [upd_same] at this; cases this
      case exit k' st c h1 h2 h3 =>
        by_cases hkk : k = k'
        · subst hkk; rw [hr] at h2; cases h2
          exact absurd h3 (p1 c)
        · exact .inr ⟨st0, by simp only; rw [upd_ne _ _ hkk]; exact hr, hp⟩

end

end Pieshell.FuncArg
