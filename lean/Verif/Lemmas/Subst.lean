import Verif.Spec.Subst
import Verif.Lemmas.Flow2
/-!
# Executions of a tree of programs
-/
namespace Pieshell.Subst
open Flow (Bytes Net Proc upd close sumTo upd_same upd_ne close_ne close_same)
variable {σ : Type} {prog : Prog σ}

/-- `Runs` with the number of operations before the end. -/
inductive RunsN (prog : Prog σ) : Nat → σ → (Nat → Bytes) → Bytes → Nat → Prop
  | exit {s : σ} {inp : Nat → Bytes} {c : Nat} : prog.next s = .exit c → RunsN prog 0 s inp [] c
  | write {n : Nat} {s s' : σ} {inp : Nat → Bytes} {out : Bytes} {b : UInt8} {c : Nat} :
      prog.next s = .write b s' → RunsN prog n s' inp out c → RunsN prog (n + 1) s inp (b :: out) c
  | read {n : Nat} {s : σ} {j : Nat} {f : Option UInt8 → σ} {inp : Nat → Bytes} {rest out : Bytes} {b : UInt8} {c : Nat} :
      prog.next s = .read j f → inp j = b :: rest → RunsN prog n (f (some b)) (upd inp j rest) out c → RunsN prog (n + 1) s inp out c
  | eof {n : Nat} {s : σ} {j : Nat} {f : Option UInt8 → σ} {inp : Nat → Bytes} {out : Bytes} {c : Nat} :
      prog.next s = .read j f → inp j = [] → RunsN prog n (f none) inp out c → RunsN prog (n + 1) s inp out c

theorem Runs.count {s : σ} {inp : Nat → Bytes} {out : Bytes} {c : Nat} (h : Runs prog s inp out c) : ∃ n, RunsN prog n s inp out c := by
  induction h with
  | exit h => exact ⟨0, .exit h⟩
  | write h _ ih => obtain ⟨n, ih⟩ := ih; exact ⟨_, .write h ih⟩
  | read h h' _ ih => obtain ⟨n, ih⟩ := ih; exact ⟨_, .read h h' ih⟩
  | eof h h' _ ih => obtain ⟨n, ih⟩ := ih; exact ⟨_, .eof h h' ih⟩

/-- `N` items; item `x` writes to pipe `q x`, which input `j` of item `m` reads from if `fd m j = some x`; nobody else has the ends of the pipes open, but
for some items in `quiet` (which come later than `x`). -/
structure IsTree (net : Net) (N : Nat) (q : Nat → Nat) (fd : Nat → Nat → Option Nat) (quiet : List Nat) : Prop where
  len : net.items.length = N
  pos : 0 < N
  inj : ∀ j k, j < N → k < N → q j = q k → j = k
  feedlt : ∀ m j x, fd m j = some x → x < m ∧ m < N
  reader : ∀ x, x + 1 < N → ∃ m j, fd m j = some x
  uniq : ∀ m j m' j' x, fd m j = some x → fd m' j' = some x → m = m' ∧ j = j'
  slotF : ∀ m j x, fd m j = some x → slot net m j = some (q x)
  slotN : ∀ m j, m < N → fd m j = none → (j = 0 → m ∉ quiet) → slot net m j = none
  out : ∀ x, x + 1 < N → net.outPipe x = some (q x)
  last : net.outPipe (N - 1) = net.user
  user : ∀ u, net.user = some u → u = q (N - 1)
  openW : ∀ x, x + 1 < N →
    (net.outFd x = none ∧ ∀ {σ : Type} (s : St σ), Open net s (.pipeW (q x)) ↔ ∃ st, s.proc x = .running st) ∨
    (∃ n, net.outFd x = some n ∧ ∀ {σ : Type} (s : St σ), Open net s (.pipeW (q x)) ↔ s.shut n = false)
  openR : ∀ x, x + 1 < N → ∀ {σ : Type} (s : St σ), Open net s (.pipeR (q x)) →
    (∃ m st, x < m ∧ m < N ∧ s.proc m = .running st) ∨ ∃ m n, fd m 0 = some x ∧ net.inFd m = some n ∧ s.shut n = false
  openF : ∀ m j x, fd m j = some x →
    (net.inFd m = none ∧ ∀ {σ : Type} (s : St σ) (st : σ), s.proc m = .running st → Open net s (.pipeR (q x))) ∨
    (j = 0 ∧ ∃ n, net.inFd m = some n ∧ ∀ {σ : Type} (s : St σ), s.shut n = false → Open net s (.pipeR (q x)))
  openU : ∀ u, net.user = some u → ∃ n, (∀ k, net.outFd k ≠ some n ∧ net.inFd k ≠ some n) ∧
    ∀ {σ : Type} (s : St σ), s.shut n = false → Open net s (.pipeR u)
  fdOut : ∀ x n, x + 1 < N → net.outFd x = some n → (∀ k, net.outFd k = some n → k = x) ∧ ∀ k, net.inFd k ≠ some n
  fdIn : ∀ m x n, fd m 0 = some x → net.inFd m = some n → (∀ k, net.inFd k = some n → k = m) ∧ ∀ k, net.outFd k ≠ some n
  quietP : ∀ m, m ∈ quiet → net.inFd m = none
  cap : ∀ k, 0 < net.cap k

section
variable {net : Net} {N : Nat} {q : Nat → Nat} {fd : Nat → Nat → Option Nat} {quiet : List Nat} {out : Nat → Bytes} {code : Nat → Nat} {n : Nat}

/-- What is still to come through the pipe of item `x`. -/
def tail (q : Nat → Nat) (out : Nat → Bytes) (s : St σ) (x : Nat) : Bytes := s.buf (q x) ++ (out x).drop (s.out x).length

/-- What is still to come at input `j` of item `m`, or of the handler there. -/
def base (q : Nat → Nat) (fd : Nat → Nat → Option Nat) (out : Nat → Bytes) (s : St σ) (m j : Nat) : Bytes :=
  match fd m j with
  | some x => tail q out s x
  | none => s.src m j

/-- What the handler has read for item `m`. -/
def front (s : St σ) (m : Nat) : Nat → Bytes
  | 0 => s.ahead m
  | _ + 1 => []

/-- What item `m` can still read from input `j`. -/
def rem (q : Nat → Nat) (fd : Nat → Nat → Option Nat) (out : Nat → Bytes) (s : St σ) (m j : Nat) : Bytes := front s m j ++ base q fd out s m j

/-- What the handler of item `m` has still to do. -/
def pend (net : Net) (q : Nat → Nat) (fd : Nat → Nat → Option Nat) (out : Nat → Bytes) (s : St σ) (m : Nat) : Nat :=
  match net.inFd m with
  | none => 0
  | some _ => (base q fd out s m 0).length + if s.heof m then 0 else 1

/-- What is known of the handlers. -/
structure Hand (net : Net) (N : Nat) (q : Nat → Nat) (fd : Nat → Nat → Option Nat) (out : Nat → Bytes) (s : St σ) : Prop where
  ahead : ∀ m, net.inFd m = none → s.ahead m = []
  func : ∀ m, s.heof m = true → net.inFd m ≠ none
  base : ∀ m, m < N → s.heof m = true → base q fd out s m 0 = []
  ended : ∀ m x, fd m 0 = some x → s.heof m = true → (∀ st, s.proc x ≠ .running st) ∧ s.cut x = false
  shut : ∀ m x n, fd m 0 = some x → net.inFd m = some n → s.shut n = true → s.heof m = true

/-- What is known of item `k`, which has at most `l` more operations to go. -/
structure ItemInv (prog : Prog σ) (net : Net) (N : Nat) (q : Nat → Nat) (fd : Nat → Nat → Option Nat) (quiet : List Nat) (out : Nat → Bytes) (code : Nat → Nat)
    (n : Nat) (s : St σ) (l k : Nat) : Prop where
  pre : s.out k <+: out k
  run : ∀ st, s.cut k = false → s.proc k = .running st →
    ∃ c rest, RunsN prog c st (rem q fd out s k) rest (code k) ∧ s.out k ++ rest = out k ∧ c + n + 2 ≤ l
  runcut : ∀ st, s.cut k = true → s.proc k = .running st → GivesUp prog n → ∃ m, StopsIn prog m st ∧ m + 1 ≤ l
  killed : s.proc k = .killed → s.cut k = true
  exited : ∀ c, s.proc k = .exited c → s.cut k = false → s.out k = out k ∧ c = code k
  quiet : ∀ st, k ∈ quiet → s.proc k = .running st → NoStdin prog st
  shut : k + 1 < N → ∀ fd, net.outFd k = some fd → (s.shut fd = false ↔ ∃ st, s.proc k = .running st)

theorem ItemInv.congr {s t : St σ} {l k : Nat} (h : ItemInv prog net N q fd quiet out code n s l k) (h1 : t.proc k = s.proc k) (h2 : t.cut k = s.cut k)
    (h3 : t.out k = s.out k) (h4 : ∀ j, rem q fd out t k j = rem q fd out s k j) (h5 : k + 1 < N → ∀ f, net.outFd k = some f → t.shut f = s.shut f) :
    ItemInv prog net N q fd quiet out code n t l k := by
  have h4' : rem q fd out t k = rem q fd out s k := funext h4
  constructor
  · rw [h3]; exact h.pre
  · rw [h1, h2, h3, h4']; exact h.run
  · rw [h1, h2]; exact h.runcut
  · rw [h1, h2]; exact h.killed
  · rw [h1, h2, h3]; exact h.exited
  · rw [h1]; exact h.quiet
  · intro hk f hf; rw [h1, h5 hk f hf]; exact h.shut hk f hf

structure Inv (prog : Prog σ) (net : Net) (N : Nat) (q : Nat → Nat) (fd : Nat → Nat → Option Nat) (quiet : List Nat) (out : Nat → Bytes) (code : Nat → Nat)
    (n B L : Nat) (s : St σ) (left : Nat → Nat) : Prop where
  items : ∀ k, k < N → ItemInv prog net N q fd quiet out code n s (left k) k
  cut : ∀ k, k < N → s.cut k = true → ∃ p, net.outPipe k = some p ∧ ¬ Open net s (.pipeR p)
  got : ∀ u, net.user = some u → s.got ++ tail q out s (N - 1) = out (N - 1)
  noUser : net.user = none → s.got = []
  shut : ∀ f, s.shut f = true → ∃ k, net.outFd k = some f ∨ net.inFd k = some f
  hand : Hand net N q fd out s
  budget : (GivesUp prog n ∨ ∀ k, k < N → s.cut k = false) → L + sumTo N left + sumTo N (pend net q fd out s) + ((out (N - 1)).length - s.got.length) ≤ B

theorem open_mono {s t : St σ} {ob : Obj} (hp : ∀ k st, t.proc k = .running st → ∃ st', s.proc k = .running st') (hs : ∀ f, t.shut f = false → s.shut f = false)
    (h : Open net t ob) : Open net s ob := by
  rcases h with ⟨k, id, argv, fds, rs, m, st, h1, h2, h3⟩ | ⟨f, en, h1, h2, h3⟩
  · obtain ⟨st', h2⟩ := hp k st h2
    exact .inl ⟨k, id, argv, fds, rs, m, st', h1, h2, h3⟩
  · exact .inr ⟨f, en, h1, h2, hs f h3⟩

theorem close_false {shut : Nat → Bool} {o : Option Nat} {f : Nat} (h : close shut o f = false) : shut f = false := by
  simp only [close, Bool.or_eq_false_iff] at h; exact h.1

theorem close_true {shut : Nat → Bool} {o : Option Nat} {f : Nat} (h : close shut o f = true) : shut f = true ∨ o = some f := by
  simp only [close, Bool.or_eq_true, beq_iff_eq] at h; exact h

theorem NoStdin.read {st : σ} {j : Nat} {f : Option UInt8 → σ} (h : NoStdin prog st) (ho : prog.next st = .read j f) (x : Option UInt8) :
    NoStdin prog (f x) := by
  obtain ⟨P, h1, h2⟩ := h
  exact ⟨P, ((h2 st h1).1 j f ho).2 x, h2⟩
theorem NoStdin.notStdin {st : σ} {j : Nat} {f : Option UInt8 → σ} (h : NoStdin prog st) (ho : prog.next st = .read j f) : j ≠ 0 := by
  obtain ⟨P, h1, h2⟩ := h
  exact ((h2 st h1).1 j f ho).1
theorem NoStdin.write {st st' : σ} {b : UInt8} (h : NoStdin prog st) (ho : prog.next st = .write b st') : NoStdin prog st' := by
  obtain ⟨P, h1, h2⟩ := h
  exact ⟨P, ((h2 st h1).2 b st' ho).1, h2⟩
theorem NoStdin.epipe {st st' st'' : σ} {b : UInt8} (h : NoStdin prog st) (ho : prog.next st = .write b st') (he : prog.epipe st = some st'') :
    NoStdin prog st'' := by
  obtain ⟨P, h1, h2⟩ := h
  exact ⟨P, ((h2 st h1).2 b st' ho).2 st'' he, h2⟩

theorem StopsIn.read {m : Nat} {st : σ} {j : Nat} {f : Option UInt8 → σ} (h : StopsIn prog m st) (ho : prog.next st = .read j f) (x : Option UInt8) :
    ∃ m', StopsIn prog m' (f x) ∧ m' + 1 = m := by
  cases m with
  | zero => obtain ⟨c, h⟩ := h; rw [ho] at h; cases h
  | succ m =>
    rcases h with ⟨c, h⟩ | ⟨j', f', h, h'⟩ | ⟨b, s', h, -⟩
    · rw [ho] at h; cases h
    · rw [ho] at h; cases h; exact ⟨m, h' x, rfl⟩
    · rw [ho] at h; cases h

theorem StopsIn.epipe {m : Nat} {st st' st'' : σ} {b : UInt8} (h : StopsIn prog m st) (ho : prog.next st = .write b st') (he : prog.epipe st = some st'') :
    ∃ m', StopsIn prog m' st'' ∧ m' + 1 = m := by
  cases m with
  | zero => obtain ⟨c, h⟩ := h; rw [ho] at h; cases h
  | succ m =>
    rcases h with ⟨c, h⟩ | ⟨j', f', h, h'⟩ | ⟨b, s', h, h'⟩
    · rw [ho] at h; cases h
    · rw [ho] at h; cases h
    · rw [ho] at h; cases h; exact ⟨m, h' _ he, rfl⟩

theorem outPipe_eq (hn : IsTree net N q fd quiet) {k p : Nat} (hk : k < N) (h : net.outPipe k = some p) : p = q k := by
  by_cases hx : k + 1 < N
  · rw [hn.out k hx] at h; exact (Option.some.inj h).symm
  · obtain rfl : k = N - 1 := by omega
    rw [hn.last] at h; exact hn.user p h

/-- A step of item `k` that leaves what comes through pipes to others unchanged. -/
theorem inv_item (hn : IsTree net N q fd quiet) {B L : Nat} {s t : St σ} {left : Nat → Nat} (hi : Inv prog net N q fd quiet out code n B L s left)
    {k : Nat} (hk : k < N) {st : σ} (hr : s.proc k = .running st)
    (hproc : ∀ m, m ≠ k → t.proc m = s.proc m)
    (hcut : ∀ m, m ≠ k → t.cut m = s.cut m)
    (hout : ∀ m, m ≠ k → t.out m = s.out m)
    (hrem : ∀ m, m < N → m ≠ k → ∀ j, rem q fd out t m j = rem q fd out s m j)
    (hshut : t.shut = s.shut ∨ t.shut = close s.shut (net.outFd k))
    (hgot : t.got = s.got)
    (htail : net.user ≠ none → tail q out t (N - 1) = tail q out s (N - 1))
    (hcutk : t.cut k = true → ∃ p, net.outPipe k = some p ∧ ¬ Open net s (.pipeR p))
    (hmono : s.cut k = true → t.cut k = true)
    (hk' : ItemInv prog net N q fd quiet out code n t (left k - 1) k)
    (hleft : (GivesUp prog n ∨ t.cut k = false) → 1 ≤ left k)
    (hheof : t.heof = s.heof) (hah : ∀ m, net.inFd m = none → t.ahead m = s.ahead m)
    (hbase : ∀ m, m < N → net.inFd m ≠ none → base q fd out t m 0 = base q fd out s m 0) :
    ∃ left', Inv prog net N q fd quiet out code n B (L + 1) t left' := by
  have hopen : ∀ ob, Open net t ob → Open net s ob := by
    intro ob h
    refine open_mono ?_ ?_ h
    · intro m st' hm
      by_cases hmk : m = k
      · subst hmk; exact ⟨st, hr⟩
      · rw [hproc m hmk] at hm; exact ⟨_, hm⟩
    · intro f hf
      rcases hshut with h' | h'
      · rw [h'] at hf; exact hf
      · rw [h'] at hf; exact close_false hf
  refine ⟨upd left k (left k - 1), ?_, ?_, ?_, ?_, ?_, ?_, ?_⟩
  · intro m hm
    by_cases hmk : m = k
    · subst hmk; rw [upd_same]; exact hk'
    · rw [upd_ne _ _ hmk]
      refine (hi.items m hm).congr (hproc m hmk) (hcut m hmk) (hout m hmk) (hrem m hm hmk) ?_
      intro hmN f hf
      rcases hshut with h' | h'
      · rw [h']
      · rw [h']
        exact close_ne fun h => hmk ((hn.fdOut m f hmN hf).1 k h).symm
  · intro m hm hc
    by_cases hmk : m = k
    · subst hmk
      obtain ⟨p, h1, h2⟩ := hcutk hc
      exact ⟨p, h1, fun h => h2 (hopen _ h)⟩
    · rw [hcut m hmk] at hc
      obtain ⟨p, h1, h2⟩ := hi.cut m hm hc
      exact ⟨p, h1, fun h => h2 (hopen _ h)⟩
  · intro u hu
    rw [hgot, htail (by rw [hu]; simp)]; exact hi.got u hu
  · rw [hgot]; exact hi.noUser
  · intro f hf
    rcases hshut with h' | h'
    · rw [h'] at hf; exact hi.shut f hf
    · rw [h'] at hf
      rcases close_true hf with h | h
      · exact hi.shut f h
      · exact ⟨k, .inl h⟩
  · have H := hi.hand
    refine ⟨fun m hm => by rw [hah m hm]; exact H.ahead m hm, fun m hm => H.func m (by rw [← hheof]; exact hm), ?_, ?_, ?_⟩
    · intro m hm hh
      rw [hheof] at hh
      rw [hbase m hm (H.func m hh)]; exact H.base m hm hh
    · intro m x hf hh
      rw [hheof] at hh
      obtain ⟨h1, h2⟩ := H.ended m x hf hh
      have hxk : x ≠ k := by rintro rfl; exact h1 st hr
      rw [hproc x hxk, hcut x hxk]; exact ⟨h1, h2⟩
    · intro m x n' hf hin hsh
      rw [hheof]
      refine H.shut m x n' hf hin ?_
      rcases hshut with h' | h'
      · rw [h'] at hsh; exact hsh
      · rw [h'] at hsh
        rcases close_true hsh with h | h
        · exact h
        · exact absurd h ((hn.fdIn m x n' hf hin).2 k)
  · intro hb
    have h1 : 1 ≤ left k := hleft (hb.imp id fun h => h k hk)
    have h2 := hi.budget (hb.imp id fun h m hm => by
      by_cases hmk : m = k
      · subst hmk
        cases hc : s.cut m with
        | false => rfl
        | true => have := h m hm; rw [hmono hc] at this; cases this
      · rw [← hcut m hmk]; exact h m hm)
    have h3 := Flow.sumTo_lt (f := upd left k (left k - 1)) (g := left) N k hk (fun j _ hj => by rw [upd_ne _ _ hj]; exact Nat.le_refl _)
      (by rw [upd_same]; omega)
    have h4 : sumTo N (pend net q fd out t) = sumTo N (pend net q fd out s) := by
      refine Flow.sumTo_congr N fun m hm => ?_
      unfold pend
      split
      · rfl
      · next h' => rw [hbase m hm (by rw [h']; simp), hheof]
    rw [hgot, h4]; omega

/-- A step of the handler of function `k`. -/
theorem inv_hand (hn : IsTree net N q fd quiet) {B L : Nat} {s t : St σ} {left : Nat → Nat} (hi : Inv prog net N q fd quiet out code n B L s left)
    {k fdk : Nat} (hk : k < N) (hfd : net.inFd k = some fdk)
    (hproc : t.proc = s.proc) (hcut : t.cut = s.cut) (hout : t.out = s.out) (hgot : t.got = s.got)
    (hrem : ∀ m j, m < N → rem q fd out t m j = rem q fd out s m j)
    (htail : tail q out t (N - 1) = tail q out s (N - 1))
    (hshut : t.shut = s.shut ∨ t.shut = close s.shut (some fdk))
    (hand : Hand net N q fd out t)
    (hpend : ∀ m, m < N → m ≠ k → pend net q fd out t m = pend net q fd out s m)
    (hpendk : pend net q fd out t k + 1 ≤ pend net q fd out s k) :
    ∃ left', Inv prog net N q fd quiet out code n B (L + 1) t left' := by
  have hopen : ∀ ob, Open net t ob → Open net s ob := by
    intro ob h
    refine open_mono (fun m st h => ⟨st, by rw [← hproc]; exact h⟩) ?_ h
    intro f hf
    rcases hshut with h' | h'
    · rw [h'] at hf; exact hf
    · rw [h'] at hf; exact close_false hf
  refine ⟨left, ?_, ?_, ?_, ?_, ?_, hand, ?_⟩
  · intro m hm
    refine (hi.items m hm).congr (by rw [hproc]) (by rw [hcut]) (by rw [hout]) (fun j => hrem m j hm) ?_
    intro hmN f hf
    rcases hshut with h' | h'
    · rw [h']
    · rw [h']
      refine close_ne fun h => ?_
      cases h
      exact (hn.fdOut m fdk hmN hf).2 k hfd
  · intro m hm hc
    rw [hcut] at hc
    obtain ⟨p, h1, h2⟩ := hi.cut m hm hc
    exact ⟨p, h1, fun h => h2 (hopen _ h)⟩
  · intro u hu
    rw [hgot, htail]; exact hi.got u hu
  · rw [hgot]; exact hi.noUser
  · intro f hf
    rcases hshut with h' | h'
    · rw [h'] at hf; exact hi.shut f hf
    · rw [h'] at hf
      rcases close_true hf with h | h
      · exact hi.shut f h
      · cases h; exact ⟨k, .inr hfd⟩
  · intro hb
    have h1 := hi.budget (by rw [hcut] at hb; exact hb)
    have h2 := Flow.sumTo_lt (f := pend net q fd out t) (g := pend net q fd out s) N k hk
      (fun j hj hjk => by rw [hpend j hj hjk]; exact Nat.le_refl _) hpendk
    rw [hgot]; omega

theorem left_pos {s : St σ} {l k : Nat} (h : ItemInv prog net N q fd quiet out code n s l k) {st : σ} (hr : s.proc k = .running st) {b : Bool}
    (hb : b = s.cut k) : (GivesUp prog n ∨ b = false) → 1 ≤ l := by
  intro hg
  cases hc : s.cut k with
  | false => obtain ⟨c, rest, -, -, h3⟩ := h.run st hc hr; omega
  | true =>
    rcases hg with hg | hg
    · obtain ⟨m, -, h2⟩ := h.runcut st hc hr hg; omega
    · rw [hb, hc] at hg; cases hg

/-- A read: item `k` gets `x` from input `j`. -/
theorem item_read {s t : St σ} {l k : Nat} (h : ItemInv prog net N q fd quiet out code n s l k) {st : σ} (hr : s.proc k = .running st) {j : Nat}
    {f : Option UInt8 → σ} (ho : prog.next st = .read j f) (x : Option UInt8) (hp : t.proc k = .running (f x)) (hc : t.cut k = s.cut k)
    (hout : t.out k = s.out k) (hsh : t.shut = s.shut)
    (hrem : s.cut k = false → match x with
      | some b => ∃ rest, rem q fd out s k j = b :: rest ∧ rem q fd out t k = upd (rem q fd out s k) j rest
      | none => rem q fd out s k j = [] ∧ rem q fd out t k = rem q fd out s k) :
    ItemInv prog net N q fd quiet out code n t (l - 1) k := by
  constructor
  · rw [hout]; exact h.pre
  · intro st' hc' hp'
    rw [hp] at hp'; cases hp'
    rw [hc] at hc'
    obtain ⟨c, rest, h1, h2, h3⟩ := h.run st hc' hr
    have hrem := hrem hc'
    cases x with
    | some b =>
      obtain ⟨rst, e1, e2⟩ := hrem
      cases h1 with
      | exit h => rw [ho] at h; cases h
      | write h => rw [ho] at h; cases h
      | eof h h' => rw [ho] at h; cases h; rw [e1] at h'; cases h'
      | read h h' h'' =>
        rw [ho] at h; cases h; rw [e1] at h'; cases h'
        exact ⟨_, rest, by rw [e2]; exact h'', by rw [hout]; exact h2, by omega⟩
    | none =>
      obtain ⟨e1, e2⟩ := hrem
      cases h1 with
      | exit h => rw [ho] at h; cases h
      | write h => rw [ho] at h; cases h
      | read h h' => rw [ho] at h; cases h; rw [e1] at h'; cases h'
      | eof h h' h'' =>
        rw [ho] at h; cases h
        exact ⟨_, rest, by rw [e2]; exact h'', by rw [hout]; exact h2, by omega⟩
  · intro st' hc' hp' hg
    rw [hp] at hp'; cases hp'
    rw [hc] at hc'
    obtain ⟨m, h1, h2⟩ := h.runcut st hc' hr hg
    obtain ⟨m', h3, h4⟩ := h1.read ho x
    exact ⟨m', h3, by omega⟩
  · intro h'; rw [hp] at h'; cases h'
  · intro c h'; rw [hp] at h'; cases h'
  · intro st' hq hp'
    rw [hp] at hp'; cases hp'
    exact (h.quiet st hq hr).read ho x
  · intro hkN f' hf
    have := h.shut hkN f' hf
    rw [hsh]
    exact ⟨fun _ => ⟨_, hp⟩, fun _ => this.2 ⟨st, hr⟩⟩

theorem tail_congr {s t : St σ} {x : Nat} (h1 : t.buf (q x) = s.buf (q x)) (h2 : t.out x = s.out x) : tail q out t x = tail q out s x := by
  simp [tail, h1, h2]

theorem base_congr {s t : St σ} {m j : Nat} (h1 : ∀ x, fd m j = some x → tail q out t x = tail q out s x) (h2 : fd m j = none → t.src m j = s.src m j) :
    base q fd out t m j = base q fd out s m j := by
  unfold base
  cases hf : fd m j with
  | none => exact h2 hf
  | some x => exact h1 x hf

theorem rem_congr {s t : St σ} {m j : Nat} (h0 : t.ahead m = s.ahead m) (h1 : ∀ x, fd m j = some x → tail q out t x = tail q out s x)
    (h2 : fd m j = none → t.src m j = s.src m j) : rem q fd out t m j = rem q fd out s m j := by
  unfold rem
  rw [base_congr h1 h2]
  cases j <;> simp [front, h0]

theorem front_nil {s : St σ} (h : Hand net N q fd out s) {k j : Nat} (hh : handler net k j = none) : front s k j = [] := by
  cases j with
  | zero => exact h.ahead k hh
  | succ j => rfl

theorem handler_some {k j f : Nat} (h : handler net k j = some f) : j = 0 ∧ net.inFd k = some f := by
  cases j with
  | zero => exact ⟨rfl, h⟩
  | succ j => cases h

theorem func_feed (hn : IsTree net N q fd quiet) {k f : Nat} (hk : k < N) (h : net.inFd k = some f) :
    (∃ x, fd k 0 = some x ∧ slot net k 0 = some (q x)) ∨ (fd k 0 = none ∧ slot net k 0 = none) := by
  cases hf : fd k 0 with
  | some x => exact .inl ⟨x, rfl, hn.slotF k 0 x hf⟩
  | none => exact .inr ⟨rfl, hn.slotN k 0 hk hf fun _ hq => by rw [hn.quietP k hq] at h; cases h⟩

/-- Reading from a pipe. -/
theorem slot_feed (hn : IsTree net N q fd quiet) {s : St σ} {l k j : Nat} (hk : k < N) (h : ItemInv prog net N q fd quiet out code n s l k) {st : σ}
    (hr : s.proc k = .running st) {f : Option UInt8 → σ} (ho : prog.next st = .read j f) : (∃ x, fd k j = some x ∧ slot net k j = some (q x)) ∨ (fd k j = none ∧ slot net k j = none) := by
  cases hf : fd k j with
  | some x => exact .inl ⟨x, rfl, hn.slotF k j x hf⟩
  | none => exact .inr ⟨rfl, hn.slotN k j hk hf fun hj hq => (h.quiet st hq hr).notStdin ho hj⟩

/-- An item that has ended has written everything, as long as somebody can read it. -/
theorem ended_uncut (hn : IsTree net N q fd quiet) {B L : Nat} {s : St σ} {left : Nat → Nat} (hi : Inv prog net N q fd quiet out code n B L s left)
    {x : Nat} (hx : x + 1 < N) (ho : Open net s (.pipeR (q x))) (hw : ¬ Open net s (.pipeW (q x))) :
    (∀ st, s.proc x ≠ .running st) ∧ s.cut x = false ∧ (out x).drop (s.out x).length = [] := by
  have hI := hi.items x (by omega)
  have hnr : ∀ st', s.proc x ≠ .running st' := by
    intro st' h
    rcases hn.openW x (by omega) with ⟨-, g⟩ | ⟨f, g1, g2⟩
    · exact hw ((g s).2 ⟨st', h⟩)
    · exact hw ((g2 s).2 ((hI.shut hx f g1).2 ⟨st', h⟩))
  have hc : s.cut x = false := by
    cases hc : s.cut x with
    | false => rfl
    | true =>
      obtain ⟨p, e1, e2⟩ := hi.cut x (by omega) hc
      rw [outPipe_eq hn (by omega) e1] at e2
      exact absurd ho e2
  refine ⟨hnr, hc, ?_⟩
  cases hp : s.proc x with
  | running st' => exact absurd hp (hnr st')
  | killed => rw [hI.killed hp] at hc; cases hc
  | exited c => rw [(hI.exited c hp hc).1]; simp

/-- The reader of `x` can read: it is running, or a function whose handler has not seen the end of file. -/
theorem reader_open (hn : IsTree net N q fd quiet) {B L : Nat} {s : St σ} {left : Nat → Nat} (hi : Inv prog net N q fd quiet out code n B L s left)
    {m j x : Nat} (hf : fd m j = some x) (hr : (net.inFd m = none ∧ ∃ st, s.proc m = .running st) ∨ (net.inFd m ≠ none ∧ s.heof m = false)) :
    Open net s (.pipeR (q x)) := by
  rcases hn.openF m j x hf with ⟨h1, h2⟩ | ⟨rfl, n', h1, h2⟩
  · rcases hr with ⟨-, st, hr⟩ | ⟨hr, -⟩
    · exact h2 s st hr
    · exact absurd h1 hr
  · rcases hr with ⟨hr, -⟩ | ⟨-, hr⟩
    · rw [h1] at hr; cases hr
    · refine h2 s ?_
      cases hsh : s.shut n' with
      | false => rfl
      | true => rw [hi.hand.shut m x n' hf h1 hsh] at hr; cases hr

theorem write_uncut (hn : IsTree net N q fd quiet) {B L : Nat} {s : St σ} {left : Nat → Nat} (hi : Inv prog net N q fd quiet out code n B L s left)
    {k p : Nat} (hk : k < N) (h : net.outPipe k = some p) (ho : Open net s (.pipeR p)) : s.cut k = false := by
  cases hc : s.cut k with
  | false => rfl
  | true =>
    obtain ⟨p', e1, e2⟩ := hi.cut k hk hc
    rw [h] at e1; cases e1
    exact absurd ho e2

theorem inv_step (hn : IsTree net N q fd quiet) {B L : Nat} {s t : St σ} {left : Nat → Nat} (hi : Inv prog net N q fd quiet out code n B L s left)
    (h : Step prog net s t) : ∃ left', Inv prog net N q fd quiet out code n B (L + 1) t left' := by
  cases h with
  | @read k j st f p b rest hk hr ho hh hs hb =>
    rw [hn.len] at hk
    have hI := hi.items k hk
    have hfr := front_nil hi.hand hh
    rcases slot_feed hn hk hI hr ho with ⟨x, hf, hs'⟩ | ⟨_, hs'⟩
    · rw [hs] at hs'; cases hs'
      obtain ⟨hx1, -⟩ := hn.feedlt k j x hf
      have htl : ∀ y, y < N → y ≠ x → tail q out { s with proc := upd s.proc k (.running (f (some b))), buf := upd s.buf (q x) rest } y = tail q out s y := by
        intro y hy hyx
        exact tail_congr (upd_ne _ _ fun h => hyx (hn.inj y x hy (by omega) h)) rfl
      have htx : tail q out s x = b :: tail q out { s with proc := upd s.proc k (.running (f (some b))), buf := upd s.buf (q x) rest } x := by
        simp [tail, hb, upd_same]
      refine inv_item hn hi hk hr (fun m hm => upd_ne _ _ hm) (fun _ _ => rfl) (fun _ _ => rfl) ?_ (.inl rfl) rfl ?_ (hi.cut k hk) id ?_ (left_pos hI hr rfl) rfl (fun _ _ => rfl) ?_
      · intro m hm hmk j'
        refine rem_congr rfl (fun y hy => htl y ?_ fun e => ?_) (fun _ => rfl)
        · have := hn.feedlt m j' y hy; omega
        · subst e; exact hmk (hn.uniq m j' k j y hy hf).1
      · intro _
        exact htl _ (by have := hn.pos; omega) (by omega)
      · refine item_read hI hr ho (some b) (upd_same _ _ _) rfl rfl rfl fun _ => ⟨_, by simp only [rem, hfr, base, hf, List.nil_append]; exact htx, ?_⟩
        funext j'
        by_cases hj : j' = j
        · subst hj; rw [upd_same]
          simp only [rem, base, hf]
          show front s k _ ++ _ = _
          rw [hfr, List.nil_append]
        · rw [upd_ne _ _ hj]
          refine rem_congr rfl (fun y hy => htl y ?_ fun e => ?_) (fun _ => rfl)
          · have := hn.feedlt k j' y hy; omega
          · subst e; exact hj (hn.uniq k j' k j y hy hf).2
      · intro m hm hin
        refine base_congr (fun y hy => htl y ?_ fun e => ?_) (fun _ => rfl)
        · have := hn.feedlt m 0 y hy; omega
        · subst e
          obtain ⟨rfl, rfl⟩ := hn.uniq m 0 k j y hy hf
          exact hin hh
    · rw [hs] at hs'; cases hs'
  | @eof k j st f p hk hr ho hh hs hb hw =>
    rw [hn.len] at hk
    have hI := hi.items k hk
    have hfr := front_nil hi.hand hh
    refine inv_item hn hi hk hr (fun m hm => upd_ne _ _ hm) (fun _ _ => rfl) (fun _ _ => rfl) (fun _ _ _ _ => rfl) (.inl rfl) rfl (fun _ => rfl) (hi.cut k hk) id ?_ (left_pos hI hr rfl) rfl (fun _ _ => rfl) (fun _ _ _ => rfl)
    refine item_read hI hr ho none (upd_same _ _ _) rfl rfl rfl fun _ => ⟨?_, rfl⟩
    rcases slot_feed hn hk hI hr ho with ⟨x, hf, hs'⟩ | ⟨_, hs'⟩
    · rw [hs] at hs'; cases hs'
      have hx := hn.feedlt k j x hf
      have hop : Open net s (.pipeR (q x)) := by
        refine reader_open hn hi hf ?_
        rcases hn.openF k j x hf with ⟨h1, -⟩ | ⟨rfl, n', h1, -⟩
        · exact .inl ⟨h1, st, hr⟩
        · have hh : net.inFd k = none := hh
          rw [h1] at hh; cases hh
      simp only [rem, hfr, base, hf, tail, hb, (ended_uncut hn hi (by omega) hop hw).2.2, List.append_nil]
    · rw [hs] at hs'; cases hs'
  | @readExt k j st f b rest hk hr ho hh hs hb =>
    rw [hn.len] at hk
    have hI := hi.items k hk
    have hfr := front_nil hi.hand hh
    rcases slot_feed hn hk hI hr ho with ⟨x, hf, hs'⟩ | ⟨hf, _⟩
    · rw [hs] at hs'; cases hs'
    · refine inv_item hn hi hk hr (fun m hm => upd_ne _ _ hm) (fun _ _ => rfl) (fun _ _ => rfl) ?_ (.inl rfl) rfl (fun _ => rfl) (hi.cut k hk) id ?_ (left_pos hI hr rfl) rfl (fun _ _ => rfl) ?_
      · intro m hm hmk j'
        exact rem_congr rfl (fun y hy => rfl) (fun _ => by simp [upd_ne _ _ hmk])
      · refine item_read hI hr ho (some b) (upd_same _ _ _) rfl rfl rfl fun _ => ⟨rest, by simp only [rem, hfr, base, hf, List.nil_append]; exact hb, ?_⟩
        funext j'
        by_cases hj : j' = j
        · subst hj; rw [upd_same]
          simp only [rem, base, hf, upd_same]
          show front s k _ ++ _ = _
          rw [hfr, List.nil_append]
        · rw [upd_ne _ _ hj]
          exact rem_congr rfl (fun y hy => rfl) (fun _ => by simp [upd_same, upd_ne _ _ hj])
      · intro m hm hin
        refine base_congr (fun y hy => rfl) (fun _ => ?_)
        by_cases hmk : m = k
        · subst hmk
          have : 0 ≠ j := by rintro rfl; exact hin hh
          simp [upd_same, upd_ne _ _ this]
        · simp [upd_ne _ _ hmk]
  | @eofExt k j st f hk hr ho hh hs hb =>
    rw [hn.len] at hk
    have hI := hi.items k hk
    have hfr := front_nil hi.hand hh
    refine inv_item hn hi hk hr (fun m hm => upd_ne _ _ hm) (fun _ _ => rfl) (fun _ _ => rfl) (fun _ _ _ _ => rfl) (.inl rfl) rfl (fun _ => rfl) (hi.cut k hk) id ?_ (left_pos hI hr rfl) rfl (fun _ _ => rfl) (fun _ _ _ => rfl)
    refine item_read hI hr ho none (upd_same _ _ _) rfl rfl rfl fun _ => ⟨?_, rfl⟩
    rcases slot_feed hn hk hI hr ho with ⟨x, hf, hs'⟩ | ⟨hf, hs'⟩
    · rw [hs] at hs'; cases hs'
    · simp only [rem, hfr, base, hf, List.nil_append]; exact hb
  | @fetch k fdk p c rest hk hfd he hnl hs hb hc _ =>
    rw [hn.len] at hk
    have H := hi.hand
    rcases func_feed hn hk hfd with ⟨x, hf, hs'⟩ | ⟨_, hs'⟩
    · rw [hs] at hs'; cases hs'
      obtain ⟨hx1, -⟩ := hn.feedlt k 0 x hf
      have htl : ∀ y, y < N → y ≠ x → tail q out { s with ahead := upd s.ahead k (s.ahead k ++ c), buf := upd s.buf (q x) rest } y = tail q out s y := by
        intro y hy hyx
        exact tail_congr (upd_ne _ _ fun h => hyx (hn.inj y x hy (by omega) h)) rfl
      have htx : tail q out s x = c ++ tail q out { s with ahead := upd s.ahead k (s.ahead k ++ c), buf := upd s.buf (q x) rest } x := by
        simp [tail, hb, upd_same]
      have hbs : ∀ m j, ¬ (m = k ∧ j = 0) →
          base q fd out { s with ahead := upd s.ahead k (s.ahead k ++ c), buf := upd s.buf (q x) rest } m j = base q fd out s m j := by
        intro m j hmj
        refine base_congr (fun y hy => htl y ?_ fun e => ?_) (fun _ => rfl)
        · have := hn.feedlt m j y hy; omega
        · subst e; exact hmj (hn.uniq m j k 0 y hy hf)
      have hbk : base q fd out s k 0 = c ++ base q fd out { s with ahead := upd s.ahead k (s.ahead k ++ c), buf := upd s.buf (q x) rest } k 0 := by
        simp only [base, hf]; exact htx
      refine inv_hand hn hi hk hfd rfl rfl rfl rfl ?_ (htl _ (by have := hn.pos; omega) (by omega)) (.inl rfl) ?_ ?_ ?_
      · intro m j hm
        by_cases hmk : m = k
        · subst hmk
          cases j with
          | zero => simp only [rem, front, upd_same]; rw [hbk, List.append_assoc]
          | succ j => simp only [rem, front]; rw [hbs m (j + 1) (by simp)]
        · simp only [rem]; rw [hbs m j (by simp [hmk])]
          cases j <;> simp [front, upd_ne _ _ hmk]
      · refine ⟨?_, H.func, ?_, H.ended, H.shut⟩
        · intro m hm
          have hmk : m ≠ k := by rintro rfl; rw [hfd] at hm; cases hm
          simp only [upd_ne _ _ hmk]; exact H.ahead m hm
        · intro m hm hh
          have hmk : m ≠ k := by rintro rfl; rw [show s.heof m = true from hh] at he; cases he
          rw [hbs m 0 (by simp [hmk])]; exact H.base m hm hh
      · intro m hm hmk
        simp only [pend]; rw [hbs m 0 (by simp [hmk])]
      · simp only [pend, hfd]
        rw [hbk, List.length_append]
        have := List.length_pos_iff.2 hc
        omega
    · rw [hs] at hs'; cases hs'
  | @hup k fdk p hk hfd he hnl hs hb hw =>
    rw [hn.len] at hk
    have H := hi.hand
    rcases func_feed hn hk hfd with ⟨x, hf, hs'⟩ | ⟨_, hs'⟩
    · rw [hs] at hs'; cases hs'
      obtain ⟨hx1, hx2⟩ := hn.feedlt k 0 x hf
      obtain ⟨u1, u2, u3⟩ := ended_uncut hn hi (by omega) (reader_open hn hi hf (.inr ⟨by rw [hfd]; simp, he⟩)) hw
      refine inv_hand hn hi hk hfd rfl rfl rfl rfl (fun _ _ _ => rfl) rfl (.inr rfl) ?_ ?_ ?_
      · refine ⟨H.ahead, ?_, ?_, ?_, ?_⟩
        · intro m hh
          by_cases hmk : m = k
          · subst hmk; rw [hfd]; simp
          · simp only [upd_ne _ _ hmk] at hh; exact H.func m hh
        · intro m hm hh
          by_cases hmk : m = k
          · subst hmk
            simp only [base, hf, tail, hb, u3, List.append_nil]
          · simp only [upd_ne _ _ hmk] at hh; exact H.base m hm hh
        · intro m y hy hh
          by_cases hmk : m = k
          · subst hmk; rw [hf] at hy; cases hy; exact ⟨u1, u2⟩
          · simp only [upd_ne _ _ hmk] at hh; exact H.ended m y hy hh
        · intro m y n' hy hin hsh
          by_cases hmk : m = k
          · subst hmk; exact upd_same _ _ _
          · simp only [upd_ne _ _ hmk]
            rcases close_true hsh with h | h
            · exact H.shut m y n' hy hin h
            · cases h; exact absurd ((hn.fdIn m y fdk hy hin).1 k hfd).symm hmk
      · intro m hm hmk
        simp only [pend, upd_ne _ _ hmk]; rfl
      · simp only [pend, hfd, upd_same, he]; simp only [base]; exact Nat.le_refl _
    · rw [hs] at hs'; cases hs'
  | @fetchExt k fdk c rest hk hfd he hnl hs hb hc _ =>
    rw [hn.len] at hk
    have H := hi.hand
    rcases func_feed hn hk hfd with ⟨x, hf, hs'⟩ | ⟨hf, _⟩
    · rw [hs] at hs'; cases hs'
    · have hbs : ∀ m j, ¬ (m = k ∧ j = 0) →
          base q fd out { s with ahead := upd s.ahead k (s.ahead k ++ c), src := upd s.src k (upd (s.src k) 0 rest) } m j = base q fd out s m j := by
        intro m j hmj
        refine base_congr (fun y hy => rfl) (fun _ => ?_)
        by_cases hmk : m = k
        · subst hmk
          have : j ≠ 0 := fun h => hmj ⟨rfl, h⟩
          simp [upd_same, upd_ne _ _ this]
        · simp [upd_ne _ _ hmk]
      have hbk : base q fd out s k 0 = c ++ base q fd out { s with ahead := upd s.ahead k (s.ahead k ++ c), src := upd s.src k (upd (s.src k) 0 rest) } k 0 := by
        simp only [base, hf, upd_same]; exact hb
      refine inv_hand hn hi hk hfd rfl rfl rfl rfl ?_ rfl (.inl rfl) ?_ ?_ ?_
      · intro m j hm
        by_cases hmk : m = k
        · subst hmk
          cases j with
          | zero => simp only [rem, front, upd_same]; rw [hbk, List.append_assoc]
          | succ j => simp only [rem, front]; rw [hbs m (j + 1) (by simp)]
        · simp only [rem]; rw [hbs m j (by simp [hmk])]
          cases j <;> simp [front, upd_ne _ _ hmk]
      · refine ⟨?_, H.func, ?_, H.ended, H.shut⟩
        · intro m hm
          have hmk : m ≠ k := by rintro rfl; rw [hfd] at hm; cases hm
          simp only [upd_ne _ _ hmk]; exact H.ahead m hm
        · intro m hm hh
          have hmk : m ≠ k := by rintro rfl; rw [show s.heof m = true from hh] at he; cases he
          rw [hbs m 0 (by simp [hmk])]; exact H.base m hm hh
      · intro m hm hmk
        simp only [pend]; rw [hbs m 0 (by simp [hmk])]
      · simp only [pend, hfd]
        rw [hbk, List.length_append]
        have := List.length_pos_iff.2 hc
        omega
  | @hupExt k fdk hk hfd he hnl hs hb =>
    rw [hn.len] at hk
    have H := hi.hand
    rcases func_feed hn hk hfd with ⟨x, hf, hs'⟩ | ⟨hf, _⟩
    · rw [hs] at hs'; cases hs'
    · refine inv_hand hn hi hk hfd rfl rfl rfl rfl (fun _ _ _ => rfl) rfl (.inr rfl) ?_ ?_ ?_
      · refine ⟨H.ahead, ?_, ?_, ?_, ?_⟩
        · intro m hh
          by_cases hmk : m = k
          · subst hmk; rw [hfd]; simp
          · simp only [upd_ne _ _ hmk] at hh; exact H.func m hh
        · intro m hm hh
          by_cases hmk : m = k
          · subst hmk
            simp only [base, hf]; exact hb
          · simp only [upd_ne _ _ hmk] at hh; exact H.base m hm hh
        · intro m y hy hh
          by_cases hmk : m = k
          · subst hmk; rw [hf] at hy; cases hy
          · simp only [upd_ne _ _ hmk] at hh; exact H.ended m y hy hh
        · intro m y n' hy hin hsh
          by_cases hmk : m = k
          · subst hmk; exact upd_same _ _ _
          · simp only [upd_ne _ _ hmk]
            rcases close_true hsh with h | h
            · exact H.shut m y n' hy hin h
            · cases h; exact absurd ((hn.fdIn m y fdk hy hin).1 k hfd).symm hmk
      · intro m hm hmk
        simp only [pend, upd_ne _ _ hmk]; rfl
      · simp only [pend, hfd, upd_same, he]; simp only [base]; exact Nat.le_refl _
  | @take k j fdk st f b rest hk hr ho hh hb =>
    rw [hn.len] at hk
    have hI := hi.items k hk
    obtain ⟨rfl, hfd⟩ := handler_some hh
    refine inv_item hn hi hk hr (fun m hm => upd_ne _ _ hm) (fun _ _ => rfl) (fun _ _ => rfl) ?_ (.inl rfl) rfl (fun _ => rfl) (hi.cut k hk) id ?_ (left_pos hI hr rfl) rfl ?_ (fun _ _ _ => rfl)
    · intro m hm hmk j'
      exact rem_congr (upd_ne _ _ hmk) (fun y hy => rfl) (fun _ => rfl)
    · refine item_read hI hr ho (some b) (upd_same _ _ _) rfl rfl rfl fun _ => ⟨rest ++ base q fd out s k 0, by simp only [rem, front, hb, List.cons_append], ?_⟩
      funext j'
      cases j' with
      | zero => rw [upd_same]; simp only [rem, front, upd_same]; rfl
      | succ j' => rw [upd_ne _ _ (by simp)]; rfl
    · intro m hm
      have hmk : m ≠ k := by rintro rfl; rw [hfd] at hm; cases hm
      exact upd_ne _ _ hmk
  | @takeEof k j fdk st f hk hr ho hh hb he =>
    rw [hn.len] at hk
    have hI := hi.items k hk
    obtain ⟨rfl, hfd⟩ := handler_some hh
    refine inv_item hn hi hk hr (fun m hm => upd_ne _ _ hm) (fun _ _ => rfl) (fun _ _ => rfl) (fun _ _ _ _ => rfl) (.inl rfl) rfl (fun _ => rfl) (hi.cut k hk) id ?_ (left_pos hI hr rfl) rfl (fun _ _ => rfl) (fun _ _ _ => rfl)
    refine item_read hI hr ho none (upd_same _ _ _) rfl rfl rfl fun _ => ⟨?_, rfl⟩
    simp only [rem, front, hb, hi.hand.base k hk he, List.append_nil]
  | @write k st st' b p hk hr ho hp hroom hop =>
    rw [hn.len] at hk
    have hI := hi.items k hk
    have hc := write_uncut hn hi hk hp hop
    obtain rfl := outPipe_eq hn hk hp
    obtain ⟨c, rest, h1, h2, h3⟩ := hI.run st hc hr
    cases h1 with
    | exit h => rw [ho] at h; cases h
    | read h => rw [ho] at h; cases h
    | eof h => rw [ho] at h; cases h
    | @write c' _ _ _ rest' _ _ h h' =>
      rw [ho] at h; cases h
      have htl : ∀ y, y < N → tail q out { s with proc := upd s.proc k (.running st'), buf := upd s.buf (q k) (s.buf (q k) ++ [b]), out := upd s.out k (s.out k ++ [b]) } y = tail q out s y := by
        intro y hy
        by_cases hyk : y = k
        · subst hyk
          simp only [tail, upd_same]
          rw [← h2]
          rw [List.drop_left]
          rw [show s.out y ++ b :: rest' = (s.out y ++ [b]) ++ rest' by simp, List.drop_left]
          simp
        · exact tail_congr (upd_ne _ _ fun h => hyk (hn.inj y k hy hk h)) (upd_ne _ _ hyk)
      have hrm : ∀ m j, rem q fd out { s with proc := upd s.proc k (.running st'), buf := upd s.buf (q k) (s.buf (q k) ++ [b]), out := upd s.out k (s.out k ++ [b]) } m j = rem q fd out s m j :=
        fun m j => rem_congr rfl (fun y hy => htl y (by have := hn.feedlt m j y hy; omega)) (fun _ => rfl)
      refine inv_item hn hi hk hr (fun m hm => upd_ne _ _ hm) (fun _ _ => rfl) (fun _ hm => upd_ne _ _ hm) (fun m _ _ j => hrm m j) (.inl rfl) rfl (fun _ => htl _ (by have := hn.pos; omega)) (hi.cut k hk) id ?_ (left_pos hI hr rfl) rfl (fun _ _ => rfl)
        (fun m _ _ => base_congr (fun y hy => htl y (by have := hn.feedlt m 0 y hy; omega)) (fun _ => rfl))
      have h2' : s.out k ++ [b] ++ rest' = out k := by rw [← h2]; simp
      constructor
      · simp only [upd_same]; exact ⟨rest', h2'⟩
      · intro st2 _ hr2
        simp only [upd_same, Proc.running.injEq] at hr2
        subst hr2
        exact ⟨c', rest', by rw [funext (hrm k)]; exact h', by simp only [upd_same]; exact h2', by omega⟩
      · intro st2 hc2; rw [hc] at hc2; cases hc2
      · intro h; simp only [upd_same] at h; cases h
      · intro c h; simp only [upd_same] at h; cases h
      · intro st2 hq hr2
        simp only [upd_same, Proc.running.injEq] at hr2
        subst hr2
        exact (hI.quiet st hq hr).write ho
      · intro hkN f hf
        exact ⟨fun _ => ⟨st', upd_same _ _ _⟩, fun _ => (hI.shut hkN f hf).2 ⟨st, hr⟩⟩
  | @sigpipe k st st' b p hk hr ho hp hop he =>
    rw [hn.len] at hk
    have hI := hi.items k hk
    refine inv_item hn hi hk hr (fun m hm => upd_ne _ _ hm) (fun m hm => upd_ne _ _ hm) (fun _ _ => rfl) (fun _ _ _ _ => rfl) (.inr rfl) rfl (fun _ => rfl) (fun _ => ⟨p, hp, hop⟩) (fun _ => upd_same _ _ _) ?_ ?_ rfl (fun _ _ => rfl) (fun _ _ _ => rfl)
    · constructor
      · exact hI.pre
      · intro st2 hc2; simp only [upd_same] at hc2; cases hc2
      · intro st2 hc2 hr2; simp only [upd_same] at hr2; cases hr2
      · intro _; exact upd_same _ _ _
      · intro c h; simp only [upd_same] at h; cases h
      · intro st2 hq hr2; simp only [upd_same] at hr2; cases hr2
      · intro _ f hf
        simp only [hf, upd_same]
        rw [close_same]
        simp
    · intro hg
      refine left_pos hI hr rfl (hg.imp id fun h => ?_)
      simp only [upd_same] at h; cases h
  | @epipe k st st' st'' b p hk hr ho hp hop hfd he =>
    rw [hn.len] at hk
    have hI := hi.items k hk
    refine inv_item hn hi hk hr (fun m hm => upd_ne _ _ hm) (fun m hm => upd_ne _ _ hm) (fun _ _ => rfl) (fun _ _ _ _ => rfl) (.inl rfl) rfl (fun _ => rfl) (fun _ => ⟨p, hp, hop⟩) (fun _ => upd_same _ _ _) ?_ ?_ rfl (fun _ _ => rfl) (fun _ _ _ => rfl)
    · constructor
      · exact hI.pre
      · intro st2 hc2; simp only [upd_same] at hc2; cases hc2
      · intro st2 hc2 hr2 hg
        simp only [upd_same, Proc.running.injEq] at hr2
        subst hr2
        cases hc : s.cut k with
        | false =>
          obtain ⟨c, rest, -, -, h3⟩ := hI.run st hc hr
          exact ⟨n, hg st b st' st'' ho he, by omega⟩
        | true =>
          obtain ⟨m, h1, h2⟩ := hI.runcut st hc hr hg
          obtain ⟨m', h3, h4⟩ := h1.epipe ho he
          exact ⟨m', h3, by omega⟩
      · intro _; exact upd_same _ _ _
      · intro c h; simp only [upd_same] at h; cases h
      · intro st2 hq hr2
        simp only [upd_same, Proc.running.injEq] at hr2
        subst hr2
        exact (hI.quiet st hq hr).epipe ho he
      · intro _ f hf; rw [hfd] at hf; cases hf
    · intro hg
      refine left_pos hI hr rfl (hg.imp id fun h => ?_)
      simp only [upd_same] at h; cases h
  | @writeExt k st st' b hk hr ho hp =>
    rw [hn.len] at hk
    have hI := hi.items k hk
    have hkN : k + 1 = N := by
      rcases Nat.lt_or_ge (k + 1) N with h | h
      · rw [hn.out k h] at hp; cases hp
      · omega
    have hnu : net.user = none := by rw [← hn.last, ← hkN]; exact hp
    have hc : s.cut k = false := by
      cases hc : s.cut k with
      | false => rfl
      | true => obtain ⟨p, e1, -⟩ := hi.cut k hk hc; rw [hp] at e1; cases e1
    obtain ⟨c, rest, h1, h2, h3⟩ := hI.run st hc hr
    cases h1 with
    | exit h => rw [ho] at h; cases h
    | read h => rw [ho] at h; cases h
    | eof h => rw [ho] at h; cases h
    | @write c' _ _ _ rest' _ _ h h' =>
      rw [ho] at h; cases h
      have hrm : ∀ m j, rem q fd out { s with proc := upd s.proc k (.running st'), out := upd s.out k (s.out k ++ [b]) } m j = rem q fd out s m j :=
        fun m j => rem_congr rfl (fun y hy => tail_congr rfl (upd_ne _ _ (by have := hn.feedlt m j y hy; omega))) (fun _ => rfl)
      refine inv_item hn hi hk hr (fun m hm => upd_ne _ _ hm) (fun _ _ => rfl) (fun _ hm => upd_ne _ _ hm) (fun m _ _ j => hrm m j) (.inl rfl) rfl (fun h => absurd hnu h) (hi.cut k hk) id ?_ (left_pos hI hr rfl) rfl (fun _ _ => rfl)
        (fun m _ _ => base_congr (fun y hy => tail_congr rfl (upd_ne _ _ (by have := hn.feedlt m 0 y hy; omega))) (fun _ => rfl))
      have h2' : s.out k ++ [b] ++ rest' = out k := by rw [← h2]; simp
      constructor
      · simp only [upd_same]; exact ⟨rest', h2'⟩
      · intro st2 _ hr2
        simp only [upd_same, Proc.running.injEq] at hr2
        subst hr2
        exact ⟨c', rest', by rw [funext (hrm k)]; exact h', by simp only [upd_same]; exact h2', by omega⟩
      · intro st2 hc2; rw [hc] at hc2; cases hc2
      · intro h; simp only [upd_same] at h; cases h
      · intro c h; simp only [upd_same] at h; cases h
      · intro st2 hq hr2
        simp only [upd_same, Proc.running.injEq] at hr2
        subst hr2
        exact (hI.quiet st hq hr).write ho
      · intro hkN f hf
        exact ⟨fun _ => ⟨st', upd_same _ _ _⟩, fun _ => (hI.shut hkN f hf).2 ⟨st, hr⟩⟩
  | @exit k st c hk hr ho =>
    rw [hn.len] at hk
    have hI := hi.items k hk
    refine inv_item hn hi hk hr (fun m hm => upd_ne _ _ hm) (fun _ _ => rfl) (fun _ _ => rfl) (fun _ _ _ _ => rfl) (.inr rfl) rfl (fun _ => rfl) (hi.cut k hk) id ?_ (left_pos hI hr rfl) rfl (fun _ _ => rfl) (fun _ _ _ => rfl)
    constructor
    · exact hI.pre
    · intro st2 hc2 hr2; simp only [upd_same] at hr2; cases hr2
    · intro st2 hc2 hr2; simp only [upd_same] at hr2; cases hr2
    · intro h; simp only [upd_same] at h; cases h
    · intro c' h hc
      simp only [upd_same, Proc.exited.injEq] at h
      subst h
      obtain ⟨c', rest, h1, h2, h3⟩ := hI.run st hc hr
      cases h1 with
      | exit h => rw [ho] at h; cases h; exact ⟨by rw [← h2]; simp, rfl⟩
      | read h => rw [ho] at h; cases h
      | eof h => rw [ho] at h; cases h
      | write h => rw [ho] at h; cases h
    · intro st2 hq hr2; simp only [upd_same] at hr2; cases hr2
    · intro _ f hf
      simp only [hf, upd_same]
      rw [close_same]
      simp
  | @user p b rest hu hb =>
    obtain rfl := hn.user p hu
    have hpos := hn.pos
    have hgot := hi.got _ hu
    have htx : tail q out s (N - 1) = b :: tail q out { s with buf := upd s.buf (q (N - 1)) rest, got := s.got ++ [b] } (N - 1) := by
      simp [tail, hb, upd_same]
    rw [htx] at hgot
    have hbs : ∀ m j, base q fd out { s with buf := upd s.buf (q (N - 1)) rest, got := s.got ++ [b] } m j = base q fd out s m j := by
      intro m j
      refine base_congr (fun y hy => tail_congr ?_ rfl) (fun _ => rfl)
      have := hn.feedlt m j y hy
      exact upd_ne _ _ fun h => by have := hn.inj y (N - 1) (by omega) (by omega) h; omega
    have H := hi.hand
    refine ⟨left, ?_, hi.cut, ?_, ?_, hi.shut, ⟨H.ahead, H.func, fun m hm hh => by rw [hbs]; exact H.base m hm hh, H.ended, H.shut⟩, ?_⟩
    · intro k hk
      refine (hi.items k hk).congr rfl rfl rfl ?_ (fun _ _ _ => rfl)
      intro j
      simp only [rem]; rw [hbs]; rfl
    · intro u _
      show s.got ++ [b] ++ _ = _
      rw [← hgot]; simp
    · intro h; rw [hu] at h; cases h
    · intro hg
      have h1 := hi.budget hg
      have h2 : (out (N - 1)).length ≥ s.got.length + 1 := by rw [← hgot]; simp
      have h3 : sumTo N (pend net q fd out { s with buf := upd s.buf (q (N - 1)) rest, got := s.got ++ [b] }) = sumTo N (pend net q fd out s) :=
        Flow.sumTo_congr N fun m _ => by simp only [pend]; rw [hbs]
      rw [h3]
      show L + 1 + sumTo N left + _ + ((out (N - 1)).length - (s.got ++ [b]).length) ≤ B
      rw [List.length_append, List.length_singleton]; omega

/-- What item `k` finds at its inputs. -/
def whole (fd : Nat → Nat → Option Nat) (src : Nat → Nat → Bytes) (out : Nat → Bytes) (k j : Nat) : Bytes :=
  match fd k j with
  | some x => out x
  | none => src k j

theorem inv_start {init : Nat → σ} {src : Nat → Nat → Bytes} {c : Nat → Nat}
    (hrun : ∀ k, k < N → RunsN prog (c k) (init k) (whole fd src out k) (out k) (code k))
    (hq : ∀ k ∈ quiet, NoStdin prog (init k)) :
    Inv prog net N q fd quiet out code n (sumTo N (fun k => c k + n + 2) + sumTo N (fun k => (whole fd src out k 0).length + 1) + (out (N - 1)).length) 0
      (St.start init src) (fun k => c k + n + 2) := by
  have hbase : ∀ k j, base q fd out (St.start init src) k j = whole fd src out k j := by
    intro k j
    unfold base whole
    cases fd k j <;> simp [tail, St.start]
  have hrem : ∀ k, rem q fd out (St.start init src) k = whole fd src out k := by
    intro k; funext j
    unfold rem
    rw [hbase]
    cases j <;> rfl
  refine ⟨fun k hk => ⟨⟨out k, rfl⟩, ?_, ?_, ?_, ?_, ?_, ?_⟩, ?_, ?_, ?_, ?_, ⟨?_, ?_, ?_, ?_, ?_⟩, ?_⟩
  · intro st _ h
    cases h
    exact ⟨c k, out k, by rw [hrem]; exact hrun k hk, rfl, Nat.le_refl _⟩
  · intro st h; cases h
  · intro h; cases h
  · intro c h; cases h
  · intro st h h'; cases h'; exact hq k h
  · intro _ f _; exact ⟨fun _ => ⟨_, rfl⟩, fun _ => rfl⟩
  · intro k _ h; cases h
  · intro u _; simp [tail, St.start]
  · intro _; rfl
  · intro f h; cases h
  · intro m _; rfl
  · intro m h; cases h
  · intro m _ h; cases h
  · intro m x _ h; cases h
  · intro m x n' _ _ h; cases h
  · intro _
    have h : sumTo N (pend net q fd out (St.start init src)) ≤ sumTo N (fun k => (whole fd src out k 0).length + 1) := by
      refine Flow.sumTo_le N fun m _ => ?_
      unfold pend
      split
      · omega
      · rw [hbase]; simp [St.start]
    have h' : (St.start init src).got.length = 0 := rfl
    omega

theorem inv_steps (hn : IsTree net N q fd quiet) {init : Nat → σ} {src : Nat → Nat → Bytes} {c : Nat → Nat}
    (hrun : ∀ k, k < N → RunsN prog (c k) (init k) (whole fd src out k) (out k) (code k))
    (hq : ∀ k ∈ quiet, NoStdin prog (init k)) {L : Nat} {s : St σ} (h : Steps prog net L (St.start init src) s) :
    ∃ left, Inv prog net N q fd quiet out code n
      (sumTo N (fun k => c k + n + 2) + sumTo N (fun k => (whole fd src out k 0).length + 1) + (out (N - 1)).length) L s left := by
  generalize hs0 : St.start init src = s0 at h
  induction h with
  | nil => subst hs0; exact ⟨_, inv_start hrun hq⟩
  | snoc _ hst ih => obtain ⟨left, ih⟩ := ih hs0; exact inv_step hn ih hst

/-! ### nothing can happen any more -/

theorem stuck_read (hn : IsTree net N q fd quiet) {B L : Nat} {s : St σ} {left : Nat → Nat} (hi : Inv prog net N q fd quiet out code n B L s left)
    (hs : ∀ t, ¬ Step prog net s t) (k : Nat) : ∀ {st : σ} {j : Nat} {f : Option UInt8 → σ}, k < N → s.proc k = .running st → prog.next st ≠ .read j f := by
  induction k using Nat.strongRecOn with
  | ind k ih =>
    intro st j f hk hr ho
    have hI := hi.items k hk
    have hkl : k < net.items.length := by rw [hn.len]; exact hk
    -- the feeder of the pipe that `k` waits for
    have feeder : ∀ x, fd k j = some x → s.buf (q x) = [] → Open net s (.pipeR (q x)) → ¬ Open net s (.pipeW (q x)) := by
      intro x hf hb hop hw
      obtain ⟨hx, -⟩ := hn.feedlt k j x hf
      have hrun : ∃ st, s.proc x = .running st := by
        rcases hn.openW x (by omega) with ⟨-, g⟩ | ⟨f', g1, g2⟩
        · exact (g s).1 hw
        · exact ((hi.items x (by omega)).shut (by omega) f' g1).1 ((g2 s).1 hw)
      obtain ⟨st', hr'⟩ := hrun
      have hxl : x < net.items.length := by rw [hn.len]; omega
      cases ho' : prog.next st' with
      | read j' f' => exact ih x hx (by omega) hr' ho'
      | exit c => exact hs _ (.exit hxl hr' ho')
      | write b st'' => exact hs _ (.write hxl hr' ho' (hn.out x (by omega)) (by rw [hb]; exact hn.cap _) hop)
    cases hh : handler net k j with
    | none =>
      rcases slot_feed hn hk hI hr ho with ⟨x, hf, hsl⟩ | ⟨hf, hsl⟩
      · cases hb : s.buf (q x) with
        | cons b rest => exact hs _ (.read hkl hr ho hh hsl hb)
        | nil =>
          refine hs _ (.eof hkl hr ho hh hsl hb (feeder x hf hb ?_))
          refine reader_open hn hi hf ?_
          rcases hn.openF k j x hf with ⟨h1, -⟩ | ⟨rfl, n', h1, -⟩
          · exact .inl ⟨h1, st, hr⟩
          · have hh : net.inFd k = none := hh
            rw [h1] at hh; cases hh
      · cases hb : s.src k j with
        | cons b rest => exact hs _ (.readExt hkl hr ho hh hsl hb)
        | nil => exact hs _ (.eofExt hkl hr ho hh hsl hb)
    | some fdk =>
      obtain ⟨rfl, hfd⟩ := handler_some hh
      cases ha : s.ahead k with
      | cons b rest => exact hs _ (.take hkl hr ho hh ha)
      | nil =>
        cases he : s.heof k with
        | true => exact hs _ (.takeEof hkl hr ho hh ha he)
        | false =>
          have hnl : (10 : UInt8) ∉ s.ahead k := by rw [ha]; simp
          rcases func_feed hn hk hfd with ⟨x, hf, hsl⟩ | ⟨hf, hsl⟩
          · cases hb : s.buf (q x) with
            | cons b rest => exact hs _ (.fetch (c := [b]) hkl hfd he hnl hsl hb (by simp) (by simp))
            | nil =>
              exact hs _ (.hup hkl hfd he hnl hsl hb (feeder x hf hb (reader_open hn hi hf (.inr ⟨by rw [hfd]; simp, he⟩))))
          · cases hb : s.src k 0 with
            | cons b rest => exact hs _ (.fetchExt (c := [b]) hkl hfd he hnl hsl hb (by simp) (by simp))
            | nil => exact hs _ (.hupExt hkl hfd he hnl hsl hb)

/-- An item that goes on waiting for ever leads to one whose output a function should read that has ended. -/
theorem stuck_running (hn : IsTree net N q fd quiet) {B L : Nat} {s : St σ} {left : Nat → Nat} (hi : Inv prog net N q fd quiet out code n B L s left)
    (hs : ∀ t, ¬ Step prog net s t) (d : Nat) : ∀ k, k + d + 1 = N → ∀ st, s.proc k = .running st →
      ∃ x m, k ≤ x ∧ fd m 0 = some x ∧ net.inFd m ≠ none ∧ (∃ st, s.proc x = .running st) ∧ ∀ st, s.proc m ≠ .running st := by
  induction d using Nat.strongRecOn with
  | ind d ih =>
    intro k hd st hr
    have hk : k < N := by omega
    have hI := hi.items k hk
    have hkl : k < net.items.length := by rw [hn.len]; exact hk
    have next : ∀ m st', k < m → m < N → s.proc m = .running st' →
        ∃ x m, k ≤ x ∧ fd m 0 = some x ∧ net.inFd m ≠ none ∧ (∃ st, s.proc x = .running st) ∧ ∀ st, s.proc m ≠ .running st := by
      intro m st' h1 h2 h3
      obtain ⟨x, m', e1, e2⟩ := ih (N - 1 - m) (by omega) m (by omega) st' h3
      exact ⟨x, m', by omega, e2⟩
    cases ho : prog.next st with
    | read j f => exact (stuck_read hn hi hs k hk hr ho).elim
    | exit c => exact (hs _ (.exit hkl hr ho)).elim
    | write b st' =>
      cases hp : net.outPipe k with
      | none => exact (hs _ (.writeExt hkl hr ho hp)).elim
      | some p =>
        have hopen : Open net s (.pipeR p) := by
          apply Classical.byContradiction
          intro hno
          cases hfd : net.outFd k with
          | some f' => exact hs _ (.sigpipe hkl hr ho hp hno (by rw [hfd]; intro h; cases h))
          | none =>
            cases he : prog.epipe st with
            | none => exact hs _ (.sigpipe hkl hr ho hp hno (fun _ => he))
            | some st'' => exact hs _ (.epipe hkl hr ho hp hno hfd he)
        obtain rfl := outPipe_eq hn hk hp
        by_cases hlast : k + 1 < N
        · rcases hn.openR k hlast s hopen with ⟨m, st', h1, h2, h3⟩ | ⟨m, n', h1, h2, -⟩
          · exact next m st' h1 h2 h3
          · obtain ⟨h3, h4⟩ := hn.feedlt m 0 k h1
            cases hm : s.proc m with
            | running st' => exact next m st' h3 h4 hm
            | exited c => exact ⟨k, m, Nat.le_refl _, h1, by rw [h2]; simp, ⟨st, hr⟩, by rw [hm]; simp⟩
            | killed => exact ⟨k, m, Nat.le_refl _, h1, by rw [h2]; simp, ⟨st, hr⟩, by rw [hm]; simp⟩
        · obtain rfl : k = N - 1 := by omega
          rw [hn.last] at hp
          have hbuf : s.buf (q (N - 1)) = [] := by
            cases hb : s.buf (q (N - 1)) with
            | nil => rfl
            | cons b rest => exact absurd (Step.user hp hb) (hs _)
          exact (hs _ (.write hkl hr ho (by rw [hn.last]; exact hp) (by rw [hbuf]; exact hn.cap _) hopen)).elim

/-- A write fails only if the item that should read is a program, and has ended. -/
theorem cut_reader (hn : IsTree net N q fd quiet) {B L : Nat} {s : St σ} {left : Nat → Nat} (hi : Inv prog net N q fd quiet out code n B L s left)
    {k m j : Nat} (hc : s.cut k = true) (hf : fd m j = some k) : net.inFd m = none ∧ ∀ st, s.proc m ≠ .running st := by
  obtain ⟨h1, h2⟩ := hn.feedlt m j k hf
  obtain ⟨p, e1, e2⟩ := hi.cut k (by omega) hc
  rw [outPipe_eq hn (by omega) e1] at e2
  rcases hn.openF m j k hf with ⟨g1, g2⟩ | ⟨rfl, n', g1, g2⟩
  · exact ⟨g1, fun st hr => e2 (g2 s st hr)⟩
  · exfalso
    cases hsh : s.shut n' with
    | false => exact e2 (g2 s hsh)
    | true =>
      have := (hi.hand.ended m k hf (hi.hand.shut m k n' hf g1 hsh)).2
      rw [hc] at this; cases this

/-- The last item's writes do not fail. -/
theorem last_uncut (hn : IsTree net N q fd quiet) {B L : Nat} {s : St σ} {left : Nat → Nat} (hi : Inv prog net N q fd quiet out code n B L s left) :
    s.cut (N - 1) = false := by
  have hpos := hn.pos
  cases hc : s.cut (N - 1) with
  | false => rfl
  | true =>
    obtain ⟨p, h1, h2⟩ := hi.cut (N - 1) (by omega) hc
    rw [hn.last] at h1
    obtain ⟨f, h3, h4⟩ := hn.openU p h1
    refine absurd (h4 s ?_) h2
    cases hsh : s.shut f with
    | false => rfl
    | true =>
      obtain ⟨k, h⟩ := hi.shut f hsh
      rcases h with h | h
      · exact absurd h (h3 k).1
      · exact absurd h (h3 k).2

end

end Pieshell.Subst
