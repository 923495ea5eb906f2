import Verif.Spec.Flow
/-!
# Traces of a program, families of traces along a chain, determinacy
-/
namespace Pieshell.Flow
variable {σ : Type} {next : Prog σ}

/-- Program `s0` has made `n` steps, read `rd` (and then, if `e`, the end of file), written `wr`, and is in state `s`. -/
inductive Trace (next : Prog σ) (s0 : σ) : Nat → Bytes → Bool → Bytes → σ → Prop
  | nil : Trace next s0 0 [] false [] s0
  | read {n : Nat} {rd wr : Bytes} {s : σ} {f : Option UInt8 → σ} {b : UInt8} :
      Trace next s0 n rd false wr s → next s = .read f → Trace next s0 (n + 1) (rd ++ [b]) false wr (f (some b))
  | eof {n : Nat} {rd wr : Bytes} {e : Bool} {s : σ} {f : Option UInt8 → σ} :
      Trace next s0 n rd e wr s → next s = .read f → Trace next s0 (n + 1) rd true wr (f none)
  | write {n : Nat} {rd wr : Bytes} {e : Bool} {s s' : σ} {b : UInt8} :
      Trace next s0 n rd e wr s → next s = .write b s' → Trace next s0 (n + 1) rd e (wr ++ [b]) s'

/-- What two runs of a program have read are parts of one input. -/
structure Compat (rd1 : Bytes) (e1 : Bool) (rd2 : Bytes) (e2 : Bool) : Prop where
  cmp : rd1 <+: rd2 ∨ rd2 <+: rd1
  end1 : e1 = true → rd2 <+: rd1
  end2 : e2 = true → rd1 <+: rd2

theorem Compat.symm {rd1 rd2 : Bytes} {e1 e2 : Bool} (h : Compat rd1 e1 rd2 e2) : Compat rd2 e2 rd1 e1 :=
  ⟨h.cmp.symm, h.end2, h.end1⟩

theorem cmp_of_prefix {a b c d : Bytes} (h : c <+: d ∨ d <+: c) (ha : a <+: c) (hb : b <+: d) : a <+: b ∨ b <+: a := by
  rcases h with h | h
  · exact List.prefix_or_prefix_of_prefix (ha.trans h) hb
  · exact List.prefix_or_prefix_of_prefix ha (hb.trans h)

theorem prefix_concat (l : Bytes) (b : UInt8) : l <+: l ++ [b] := ⟨[b], rfl⟩

theorem eq_of_prefix_length {a b : Bytes} (h : a <+: b ∨ b <+: a) (hl : a.length = b.length) : a = b := by
  rcases h with h | h
  · exact h.eq_of_length hl
  · exact (h.eq_of_length hl.symm).symm

/-- Before its last step. -/
theorem Trace.pred {s0 : σ} {n : Nat} {rd : Bytes} {e : Bool} {wr : Bytes} {s : σ} (h : Trace next s0 (n + 1) rd e wr s) :
    ∃ rd' e' wr' s', Trace next s0 n rd' e' wr' s' ∧ rd' <+: rd ∧ wr' <+: wr ∧ (e' = true → rd' = rd ∧ e = true) ∧
      ((∃ f b, next s' = .read f ∧ rd = rd' ++ [b] ∧ e' = false ∧ e = false ∧ wr = wr' ∧ s = f (some b)) ∨
       (∃ f, next s' = .read f ∧ rd = rd' ∧ e = true ∧ wr = wr' ∧ s = f none) ∨
       (∃ b s'', next s' = .write b s'' ∧ rd = rd' ∧ e = e' ∧ wr = wr' ++ [b] ∧ s = s'')) := by
  cases h with
  | read h1 h2 => exact ⟨_, _, _, _, h1, prefix_concat _ _, List.prefix_rfl, by simp, .inl ⟨_, _, h2, rfl, rfl, rfl, rfl, rfl⟩⟩
  | eof h1 h2 => exact ⟨_, _, _, _, h1, List.prefix_rfl, List.prefix_rfl, fun _ => ⟨rfl, rfl⟩, .inr (.inl ⟨_, h2, rfl, rfl, rfl, rfl⟩)⟩
  | write h1 h2 =>
    exact ⟨_, _, _, _, h1, List.prefix_rfl, prefix_concat _ _, fun h => ⟨rfl, h⟩, .inr (.inr ⟨_, _, h2, rfl, rfl, rfl, rfl⟩)⟩

theorem Trace.same {s0 : σ} (n : Nat) : ∀ {rd1 rd2 : Bytes} {e1 e2 : Bool} {wr1 wr2 : Bytes} {s1 s2 : σ},
    Trace next s0 n rd1 e1 wr1 s1 → Trace next s0 n rd2 e2 wr2 s2 → Compat rd1 e1 rd2 e2 →
    rd1 = rd2 ∧ e1 = e2 ∧ wr1 = wr2 ∧ s1 = s2 := by
  induction n with
  | zero => intro rd1 rd2 e1 e2 wr1 wr2 s1 s2 h1 h2 _; cases h1; cases h2; exact ⟨rfl, rfl, rfl, rfl⟩
  | succ n ih =>
    intro rd1 rd2 e1 e2 wr1 wr2 s1 s2 h1 h2 hc
    obtain ⟨rd1', e1', wr1', s1', t1, p1, -, q1, c1⟩ := h1.pred
    obtain ⟨rd2', e2', wr2', s2', t2, p2, -, q2, c2⟩ := h2.pred
    have hc' : Compat rd1' e1' rd2' e2' := by
      refine ⟨cmp_of_prefix hc.cmp p1 p2, fun h => ?_, fun h => ?_⟩
      · rw [(q1 h).1]; exact p2.trans (hc.end1 (q1 h).2)
      · rw [(q2 h).1]; exact p1.trans (hc.end2 (q2 h).2)
    obtain ⟨r1, r2, r3, r4⟩ := ih t1 t2 hc'
    subst r1 r2 r3 r4
    rcases c1 with ⟨f, b, a1, a2, a3, a4, a5, a6⟩ | ⟨f, a1, a2, a3, a4, a5⟩ | ⟨b, s'', a1, a2, a3, a4, a5⟩ <;>
      rcases c2 with ⟨f', b', b1, b2, b3, b4, b5, b6⟩ | ⟨f', b1, b2, b3, b4, b5⟩ | ⟨b', s''', b1, b2, b3, b4, b5⟩ <;>
      (rw [a1] at b1; try (cases b1; done))
    · cases b1
      have := eq_of_prefix_length hc.cmp (by rw [a2, b2]; simp)
      rw [a2, b2] at this
      have hb := List.append_cancel_left this
      cases hb
      exact ⟨by rw [a2, b2], by rw [a4, b4], by rw [a5, b5], by rw [a6, b6]⟩
    · exfalso
      have := (hc.end2 b3).length_le
      rw [a2, b2] at this
      simp at this
      omega
    · exfalso
      have := (hc.end1 a3).length_le
      rw [a2, b2] at this
      simp at this
      omega
    · cases b1
      exact ⟨by rw [a2, b2], by rw [a3, b3], by rw [a4, b4], by rw [a5, b5]⟩
    · cases b1
      exact ⟨by rw [a2, b2], by rw [a3, b3], by rw [a4, b4], by rw [a5, b5]⟩

/-- A shorter run with the same input. -/
theorem Trace.take {s0 : σ} {m : Nat} (d : Nat) : ∀ {rd : Bytes} {e : Bool} {wr : Bytes} {s : σ},
    Trace next s0 (m + d) rd e wr s → ∃ rd' e' wr' s', Trace next s0 m rd' e' wr' s' ∧ rd' <+: rd ∧ wr' <+: wr ∧
      (e' = true → rd' = rd ∧ e = true) ∧ (∀ c, next s' = .exit c → d = 0) := by
  induction d with
  | zero => intro rd e wr s h; exact ⟨rd, e, wr, s, h, List.prefix_rfl, List.prefix_rfl, fun h => ⟨rfl, h⟩, fun _ _ => rfl⟩
  | succ d ih =>
    intro rd e wr s h
    obtain ⟨rd1, e1, wr1, s1, t1, p1, w1, q1, c1⟩ := Trace.pred (n := m + d) h
    obtain ⟨rd2, e2, wr2, s2, t2, p2, w2, q2, x2⟩ := ih t1
    refine ⟨rd2, e2, wr2, s2, t2, p2.trans p1, w2.trans w1, ?_, ?_⟩
    · intro h
      obtain ⟨h1, h2⟩ := q2 h
      obtain ⟨h3, h4⟩ := q1 h2
      exact ⟨h1.trans h3, h4⟩
    · intro c hx
      exfalso
      have hd := x2 c hx
      subst hd
      obtain ⟨-, -, -, hs⟩ := Trace.same _ t1 t2 ⟨.inr p2, fun _ => p2, fun h => by rw [(q2 h).1]; exact List.prefix_rfl⟩
      rw [← hs] at hx
      rcases c1 with ⟨f, b, a1, -⟩ | ⟨f, a1, -⟩ | ⟨b, s'', a1, -⟩ <;> (rw [a1] at hx; cases hx)

/-- Two runs of a program on parts of one input. -/
theorem Trace.le {s0 : σ} {n m : Nat} {rd1 rd2 : Bytes} {e1 e2 : Bool} {wr1 wr2 : Bytes} {s1 s2 : σ}
    (h1 : Trace next s0 n rd1 e1 wr1 s1) (h2 : Trace next s0 m rd2 e2 wr2 s2) (hc : Compat rd1 e1 rd2 e2) (hnm : n ≤ m) :
    rd1 <+: rd2 ∧ wr1 <+: wr2 ∧ ∀ c, next s1 = .exit c → n = m ∧ wr1 = wr2 ∧ s1 = s2 := by
  obtain ⟨d, rfl⟩ : ∃ d, m = n + d := ⟨m - n, by omega⟩
  obtain ⟨rd', e', wr', s', t, p, w, q, x⟩ := Trace.take d h2
  have hc' : Compat rd1 e1 rd' e' := by
    refine ⟨cmp_of_prefix hc.cmp List.prefix_rfl p, fun h => p.trans (hc.end1 h), fun h => ?_⟩
    rw [(q h).1]; exact hc.end2 (q h).2
  obtain ⟨r1, r2, r3, r4⟩ := Trace.same _ h1 t hc'
  subst r1 r2 r3 r4
  refine ⟨p, w, fun c hx => ?_⟩
  have hd := x c hx
  subst hd
  obtain ⟨-, -, r3, r4⟩ := Trace.same _ h1 h2 hc
  exact ⟨rfl, r3, r4⟩

/-! ### Families -/

/-- The runs of the programs of a chain: steps made, bytes read, end of file seen, bytes written, state, status if ended, all up to the moment when a
write fails; bytes read and steps made after that. -/
structure Fam (σ : Type) where
  cnt : Nat → Nat
  rd : Nat → Bytes
  eof : Nat → Bool
  wr : Nat → Bytes
  cur : Nat → σ
  fin : Nat → Option Nat
  ext : Nat → Bytes
  aft : Nat → Nat

/-- Each reads what the one before has written. -/
structure Coh (next : Prog σ) (init : Nat → σ) (N : Nat) (inp : Bytes) (F : Fam σ) : Prop where
  trace : ∀ k, k < N → Trace next (init k) (F.cnt k) (F.rd k) (F.eof k) (F.wr k) (F.cur k)
  fin : ∀ k c, k < N → F.fin k = some c → next (F.cur k) = .exit c
  first : F.rd 0 <+: inp
  firstEof : F.eof 0 = true → F.rd 0 = inp
  rest : ∀ k, k + 1 < N → F.rd (k + 1) <+: F.wr k
  restEof : ∀ k, k + 1 < N → F.eof (k + 1) = true → F.rd (k + 1) = F.wr k ∧ ∃ c, F.fin k = some c

/-- What is known about the outputs of two runs. -/
structure Agree (next : Prog σ) (F G : Fam σ) (k : Nat) : Prop where
  cmp : F.wr k <+: G.wr k ∨ G.wr k <+: F.wr k
  left : ∀ c, F.fin k = some c → G.wr k <+: F.wr k ∧ G.cnt k ≤ F.cnt k ∧ ∀ d, G.fin k = some d → d = c
  right : ∀ c, G.fin k = some c → F.wr k <+: G.wr k ∧ F.cnt k ≤ G.cnt k ∧ ∀ d, F.fin k = some d → d = c

theorem agree_of_compat {init : Nat → σ} {N : Nat} {inp : Bytes} {F G : Fam σ} (hF : Coh next init N inp F) (hG : Coh next init N inp G)
    {k : Nat} (hk : k < N) (hc : Compat (F.rd k) (F.eof k) (G.rd k) (G.eof k)) : Agree next F G k := by
  have key : ∀ (F G : Fam σ), Coh next init N inp F → Coh next init N inp G → Compat (F.rd k) (F.eof k) (G.rd k) (G.eof k) →
      F.cnt k ≤ G.cnt k → Agree next F G k := by
    intro F G hF hG hc hle
    obtain ⟨-, h2, h3⟩ := (hF.trace k hk).le (hG.trace k hk) hc hle
    refine ⟨.inl h2, fun c hfc => ?_, fun c hgc => ⟨h2, hle, fun d hfd => ?_⟩⟩
    · have hx := hF.fin k c hk hfc
      obtain ⟨a, b, e⟩ := h3 c hx
      refine ⟨by rw [b]; exact List.prefix_rfl, by omega, fun d hgd => ?_⟩
      have hy := hG.fin k d hk hgd
      rw [e, hy] at hx
      cases hx; rfl
    · have hx := hF.fin k d hk hfd
      obtain ⟨a, b, e⟩ := h3 d hx
      have hy := hG.fin k c hk hgc
      rw [e, hy] at hx
      cases hx; rfl
  rcases Nat.le_total (F.cnt k) (G.cnt k) with h | h
  · exact key F G hF hG hc h
  · have := key G F hG hF hc.symm h
    exact ⟨this.cmp.symm, this.right, this.left⟩

/-- Two families of runs of the same chain on the same input agree. -/
theorem agree {init : Nat → σ} {N : Nat} {inp : Bytes} {F G : Fam σ} (hF : Coh next init N inp F) (hG : Coh next init N inp G)
    (k : Nat) (hk : k < N) : Agree next F G k := by
  induction k with
  | zero =>
    refine agree_of_compat hF hG hk ⟨List.prefix_or_prefix_of_prefix hF.first hG.first, fun h => ?_, fun h => ?_⟩
    · rw [hF.firstEof h]; exact hG.first
    · rw [hG.firstEof h]; exact hF.first
  | succ k ih =>
    have A := ih (by omega)
    refine agree_of_compat hF hG hk ⟨cmp_of_prefix A.cmp (hF.rest k hk) (hG.rest k hk), fun h => ?_, fun h => ?_⟩
    · obtain ⟨h1, c, h2⟩ := hF.restEof k hk h
      rw [h1]; exact (hG.rest k hk).trans (A.left c h2).1
    · obtain ⟨h1, c, h2⟩ := hG.restEof k hk h
      rw [h1]; exact (hF.rest k hk).trans (A.right c h2).1

/-! ### Running one after the other is such a family -/

theorem Trace.cons {s0 s1 : σ} {op : Op σ} (hop : next s0 = op) {n : Nat} {rd : Bytes} {e : Bool} {wr : Bytes} {s : σ}
    (h : Trace next s1 n rd e wr s) :
    (∀ b, op = .write b s1 → Trace next s0 (n + 1) rd e (b :: wr) s) ∧
    (∀ f b, op = .read f → s1 = f (some b) → Trace next s0 (n + 1) (b :: rd) e wr s) ∧
    (∀ f, op = .read f → s1 = f none → rd = [] → Trace next s0 (n + 1) [] true wr s) := by
  induction h with
  | nil =>
    refine ⟨fun b h => ?_, fun f b h h' => ?_, fun f h h' _ => ?_⟩
    · exact .write .nil (hop.trans h)
    · subst h'; exact .read (rd := []) .nil (hop.trans h)
    · subst h'; exact .eof .nil (hop.trans h)
  | read h1 h2 ih =>
    refine ⟨fun b h => .read (ih.1 b h) h2, fun f b h h' => .read (rd := b :: _) (ih.2.1 f b h h') h2, fun f h h' h'' => ?_⟩
    simp at h''
  | eof h1 h2 ih =>
    exact ⟨fun b h => .eof (ih.1 b h) h2, fun f b h h' => .eof (ih.2.1 f b h h') h2, fun f h h' h'' => .eof (ih.2.2 f h h' h'') h2⟩
  | write h1 h2 ih =>
    exact ⟨fun b h => .write (wr := b :: _) (ih.1 b h) h2, fun f b h h' => .write (ih.2.1 f b h h') h2,
      fun f h h' h'' => .write (ih.2.2 f h h' h'') h2⟩

theorem runs_trace {s : σ} {inp out : Bytes} {c : Nat} (h : Runs next s inp out c) :
    ∃ n rd e s', Trace next s n rd e out s' ∧ next s' = .exit c ∧ rd <+: inp ∧ (e = true → rd = inp) := by
  induction h with
  | exit h => exact ⟨0, [], false, _, .nil, h, List.nil_prefix, by simp⟩
  | write h1 _ ih =>
    obtain ⟨n, rd, e, s', t, hx, hp, he⟩ := ih
    exact ⟨n + 1, rd, e, s', (Trace.cons h1 t).1 _ rfl, hx, hp, he⟩
  | read h1 _ ih =>
    obtain ⟨n, rd, e, s', t, hx, hp, he⟩ := ih
    exact ⟨n + 1, _ :: rd, e, s', (Trace.cons h1 t).2.1 _ _ rfl rfl, hx, List.cons_prefix_cons.2 ⟨rfl, hp⟩, fun h => by rw [he h]⟩
  | eof h1 _ ih =>
    obtain ⟨n, rd, e, s', t, hx, hp, he⟩ := ih
    have hrd := List.prefix_nil.1 hp
    exact ⟨n + 1, [], true, s', (Trace.cons h1 t).2.2 _ rfl rfl hrd, hx, List.nil_prefix, fun _ => rfl⟩

theorem sequentially_coh {init : Nat → σ} {N : Nat} {inp : Bytes} {out : Nat → Bytes} {code : Nat → Nat}
    (h : Sequentially next init N inp out code) :
    ∃ F : Fam σ, Coh next init N inp F ∧ ∀ k, k < N → F.wr k = out k ∧ F.fin k = some (code k) := by
  have ex : ∀ k, ∃ x : Nat × Bytes × Bool × σ, k < N → Trace next (init k) x.1 x.2.1 x.2.2.1 (out k) x.2.2.2 ∧ next x.2.2.2 = .exit (code k) ∧
      x.2.1 <+: (if k = 0 then inp else out (k - 1)) ∧ (x.2.2.1 = true → x.2.1 = if k = 0 then inp else out (k - 1)) := by
    intro k
    by_cases hk : k < N
    · obtain ⟨n, rd, e, s', h1, h2, h3, h4⟩ := runs_trace (h k hk)
      exact ⟨(n, rd, e, s'), fun _ => ⟨h1, h2, h3, h4⟩⟩
    · exact ⟨(0, [], false, init k), fun h => absurd h hk⟩
  cases N with
  | zero =>
    refine ⟨⟨fun _ => 0, fun _ => [], fun _ => false, fun _ => [], init, fun _ => none, fun _ => [], fun _ => 0⟩, ⟨?_, ?_, ?_, ?_, ?_, ?_⟩, ?_⟩ <;>
      (intros; first | omega | exact List.nil_prefix | simp_all)
  | succ N =>
    have hx := fun k => (ex k).choose_spec
    refine ⟨⟨fun k => (ex k).choose.1, fun k => (ex k).choose.2.1, fun k => (ex k).choose.2.2.1, out, fun k => (ex k).choose.2.2.2,
      fun k => some (code k), fun _ => [], fun _ => 0⟩, ⟨?_, ?_, ?_, ?_, ?_, ?_⟩, ?_⟩
    · intro k hk; exact (hx k hk).1
    · intro k c hk hc; cases hc; exact (hx k hk).2.1
    · exact (hx 0 (by omega)).2.2.1
    · intro he; exact (hx 0 (by omega)).2.2.2 he
    · intro k hk; exact (hx (k + 1) hk).2.2.1
    · intro k hk he; exact ⟨(hx (k + 1) hk).2.2.2 he, code k, rfl⟩
    · intro k hk; exact ⟨rfl, rfl⟩

end Pieshell.Flow
