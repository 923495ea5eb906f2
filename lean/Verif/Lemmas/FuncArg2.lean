import Verif.Lemmas.FuncArg
import Verif.Lemmas.Subst3
/-!
# A started program with functions among its arguments
-/
namespace Pieshell.FuncArg
open Flow (Bytes Net Proc upd close started userPipe)
open Subst (slot handler slotObj slotObj_eq devFds_get mem_heldFds_get held_mem held_mem_in Foreign rslot)
variable {sys : Sys} {cwd : Str}

/-- What `refArgs` says for words and functions. -/
theorem refArgs_funcArgs : (args : Args) → FuncArgs args → (i o e : Obj) → (c : Ctr) →
    (refArgs cwd args i o e c).items.length = arity args ∧
    (∀ k, k < arity args → ∃ id, (refArgs cwd args i o e c).items[k]? = some (.func id (some (.pipeR (c.p + k))) o)) ∧
    (∀ k, (devObjs (refArgs cwd args i o e c).words)[k]? = if k < arity args then some (.pipeW (c.p + k)) else none) ∧
    (refArgs cwd args i o e c).leaks = []
  | .nil, _, i, o, e, c => by simp [refArgs, arity, Args.ids, devObjs]
  | .word ws rest, h, i, o, e, c => by
    obtain ⟨h1, h2, h3, h4⟩ := refArgs_funcArgs rest h i o e c
    have : ∀ ws : List Str, devObjs (ws.map RWord.lit ++ (refArgs cwd rest i o e c).words) = devObjs (refArgs cwd rest i o e c).words := by
      intro ws; induction ws with
      | nil => rfl
      | cons _ _ ih => simpa [devObjs] using ih
    simp only [refArgs, arity, Args.ids, this]
    exact ⟨h1, h2, h3, h4⟩
  | .pipeArg .., h, _, _, _, _ => h.elim
  | .funcArg pre id rest, h, i, o, e, c => by
    obtain ⟨h1, h2, h3, h4⟩ := refArgs_funcArgs rest h i o e { c with p := c.p + 1 }
    have ha : arity (.funcArg pre id rest) = arity rest + 1 := rfl
    simp only [refArgs, ha, devObjs]
    refine ⟨by simp [h1], ?_, ?_, h4⟩
    · intro k hk
      cases k with
      | zero => exact ⟨id, rfl⟩
      | succ k =>
        obtain ⟨id', h⟩ := h2 k (by omega)
        refine ⟨id', ?_⟩
        simp only [List.getElem?_cons_succ, h, Option.some.injEq, RItem.func.injEq, true_and, Obj.pipeR.injEq, and_true]
        omega
    · intro k
      cases k with
      | zero => simp
      | succ k =>
        simp only [List.getElem?_cons_succ, h3 k]
        by_cases hk : k < arity rest
        · rw [if_pos hk, if_pos (by omega)]
          simp only [Option.some.injEq, Obj.pipeW.injEq]; omega
        · rw [if_neg hk, if_neg (by omega)]

/-- No two functions hold the same descriptor. -/
theorem held_inj {its : List Item} (hd : (heldFds its).Nodup) {k k' id id' outFd outFd' : Nat} {inFd inFd' : Option Nat} {rs rs' : Redirects}
    (h : its[k]? = some (.func id inFd outFd rs)) (h' : its[k']? = some (.func id' inFd' outFd' rs')) :
    (∀ n, inFd = some n → inFd' = some n → k = k') ∧ (outFd = outFd' → k = k') ∧ inFd ≠ some outFd' := by
  induction its generalizing k k' with
  | nil => simp at h
  | cons x its ih =>
    have hd' : (heldFds its).Nodup := by
      cases x with
      | proc => exact hd
      | func _ i o _ => simp only [heldFds] at hd; exact (List.nodup_cons.1 (List.nodup_append.1 hd).2.1).2
    cases k with
    | zero =>
      simp only [List.getElem?_cons_zero, Option.some.injEq] at h
      subst h
      simp only [heldFds] at hd
      obtain ⟨-, hn, hx⟩ := List.nodup_append.1 hd
      have hn := (List.nodup_cons.1 hn).1
      cases k' with
      | zero =>
        simp only [List.getElem?_cons_zero, Option.some.injEq, Item.func.injEq] at h'
        obtain ⟨-, -, rfl, -⟩ := h'
        exact ⟨fun _ _ _ => rfl, fun _ => rfl, fun he => hx outFd (by rw [he]; simp) outFd (by simp) rfl⟩
      | succ k' =>
        have h' : its[k']? = some (.func id' inFd' outFd' rs') := by simpa using h'
        refine ⟨fun n e1 e2 => ?_, ?_, ?_⟩
        · exact absurd rfl (hx n (by rw [e1]; simp) n (by simp [held_mem_in h' e2]))
        · rintro rfl; exact absurd (held_mem h') hn
        · intro he; exact hx outFd' (by rw [he]; simp) outFd' (by simp [held_mem h']) rfl
    | succ k =>
      replace h : its[k]? = some (.func id inFd outFd rs) := by simpa using h
      cases k' with
      | zero =>
        simp only [List.getElem?_cons_zero, Option.some.injEq] at h'
        subst h'
        simp only [heldFds] at hd
        obtain ⟨-, hn, hx⟩ := List.nodup_append.1 hd
        have hn := (List.nodup_cons.1 hn).1
        refine ⟨fun n e1 e2 => ?_, ?_, ?_⟩
        · exact absurd rfl (hx n (by rw [e2]; simp) n (by simp [held_mem_in h e1]))
        · rintro rfl; exact absurd (held_mem h) hn
        · intro he; exact hn (held_mem_in h he)
      | succ k' =>
        have h' : its[k']? = some (.func id' inFd' outFd' rs') := by simpa using h'
        obtain ⟨e1, e2, e3⟩ := ih hd' h h'
        exact ⟨fun n a b => by rw [e1 n a b], fun a => by rw [e2 a], e3⟩

theorem started_star {w : World} {rs : Redirects} {id : Nat} {args : Args} {i : Obj} {e : Want}
    (hs : Startable sys cwd w rs (.command id args) i .pipeOut e) (hf : FuncArgs args) (hm : w.PipesMade) :
    ∃ items rs' w', runP sys cwd (.command id args) rs w = (.ok (items, rs'), w') ∧ items.map Item.id = args.ids ++ [id] ∧ (heldFds items).Nodup ∧
      ∃ u v a b, ∀ cap : Nat → Nat, (∀ k, 0 < cap k) → IsStar (started cwd w (.command id args) .pipeOut items rs' w' cap) (arity args) u v a b := by
  obtain ⟨⟨H, L, hr, hl, hstd⟩, ho, he, hsh, hlow, hpo⟩ := hs
  obtain ⟨items, rs', w', ul, lk, hrun, P⟩ := run_spec sys cwd (.command id args) hsh hr hl hstd ho he hlow hpo
  obtain ⟨oi, -, oe⟩ := hstd.old
  have hold : ∀ ob, OldIn w.fds ob → Foreign w.nextPipe ob := fun ob h q hq => (h.notPipe hm q hq).symm
  obtain ⟨n, hn⟩ : ∃ n, n = arity args := ⟨_, rfl⟩
  obtain ⟨u, hu⟩ : ∃ u, u = w.nextPipe := ⟨_, rfl⟩
  have hi : Foreign u i := hu ▸ hold i (oi i rfl)
  obtain ⟨eb, ct, heb, heF⟩ : ∃ eb ct, e.pick { w.ctr with p := u + 1 } = (eb, ⟨u + 1, ct⟩) ∧ Foreign u eb := by
    cases e with
    | obj x => exact ⟨x, _, rfl, hu ▸ hold x (oe x rfl)⟩
    | tmp => exact ⟨_, _, rfl, fun q _ => ⟨by simp, by simp⟩⟩
    | pipeOut => exact he.elim
    | pipeIn => exact he.elim
  obtain ⟨c, hc⟩ : ∃ c : Ctr, c = ⟨u + 1, ct⟩ := ⟨_, rfl⟩
  obtain ⟨R, hR⟩ : ∃ R, R = refArgs cwd args i (.pipeW u) eb c := ⟨_, rfl⟩
  obtain ⟨A1, A2, A3, A4⟩ := refArgs_funcArgs (cwd := cwd) args hf i (.pipeW u) eb c
  rw [← hR, ← hn] at A1 A2 A3
  rw [← hR] at A4
  have hcp : c.p = u + 1 := by rw [hc]
  rw [hcp] at A2 A3
  have href : refRun cwd (.command id args) i .pipeOut e w.ctr = { items := R.items ++ [.proc id R.words i (.pipeW u) eb], out := u, leaks := R.leaks, ctr := R.ctr } := by
    have hp : Want.pipeOut.pick w.ctr = (.pipeW u, { w.ctr with p := u + 1 }) := by rw [hu]; rfl
    simp only [refRun, hp, heb]
    rw [← hc, ← hR, hu]; rfl
  have hI := P.itemsOk
  have hlk := P.leaks
  rw [href] at hI hlk
  simp only [A4] at hlk
  have hlk : lk = [] := by cases hlk; rfl
  have hlen : items.length = n + 1 := by rw [hI.length]; simp [A1]
  -- the functions
  have hfun : ∀ k, k < n → ∃ id' ia ob rsx, items[k]? = some (.func id' (some ia) ob rsx) ∧ (w'.fds.get ia).map Entry.obj = some (.pipeR (u + 1 + k)) ∧
      (w'.fds.get ob).map Entry.obj = some (.pipeW u) := by
    intro k hk
    obtain ⟨id', hy⟩ := A2 k hk
    have hx : items[k]? = some (items[k]'(by omega)) := by simp
    obtain ⟨y, h1, h2⟩ := hI.get' hx
    rw [List.getElem?_append_left (by omega), hy] at h1
    cases h1
    generalize items[k]'(by omega) = it at hx h2
    cases it with
    | proc => simp only [ItemOk] at h2
    | func id'' inFd outFd rsx =>
      simp only [ItemOk] at h2
      obtain ⟨-, e1, -, e2⟩ := h2
      cases inFd with
      | none => simp at e1
      | some ia => exact ⟨id'', ia, outFd, rsx, hx, e1, e2⟩
  -- the program
  obtain ⟨id', argv, fds, rsx, hprog, hpok⟩ : ∃ id' argv fds rsx, items[n]? = some (.proc id' argv fds rsx) ∧
      ItemOk sys.logfd (execTable w.fds sys.logfd) w'.fds.get (.proc id' argv fds rsx) (.proc id R.words i (.pipeW u) eb) := by
    have hx : items[n]? = some (items[n]'(by omega)) := by simp
    obtain ⟨y, h1, h2⟩ := hI.get' hx
    rw [List.getElem?_append_right (by omega), A1, Nat.sub_self] at h1
    cases h1
    generalize items[n]'(by omega) = it at hx h2
    cases it with
    | func => simp only [ItemOk] at h2
    | proc id' argv fds rsx => exact ⟨id', argv, fds, rsx, hx, h2⟩
  have hbeyond : ∀ k x, items[k]? = some x → k ≤ n := by
    intro k x h
    have := (List.getElem?_eq_some_iff.1 h).1; omega
  -- the shell
  obtain ⟨r, g1, g2⟩ := P.r1
  obtain ⟨v, g3, g4, g5⟩ := g2 rfl
  rw [href] at g5
  have hshell : ∀ fd en q, w'.fds.get fd = some en → u ≤ q → (en.obj = .pipeW q ∨ en.obj = .pipeR q) →
      en.obj = .pipeW u ∨ (∃ k, k < n ∧ en.obj = .pipeR (u + 1 + k)) ∨ en.obj = .pipeR u := by
    intro fd en q hfd hq hor
    have hfresh : w.fds.get fd = none := by
      rcases Option.eq_none_or_eq_some (w.fds.get fd) with h | ⟨en', h⟩
      · exact h
      · exfalso
        have heq : w'.fds.get fd = w.fds.get fd := by
          by_cases hcl : fd ∈ usedFds (.command id args) rs
          · have := (P.delta.closed fd hcl).2; rw [this] at hfd; cases hfd
          · exact P.delta.kept fd (by simp [h]) hcl
        rw [heq] at hfd
        have := hm fd en _ hfd (hu ▸ hq)
        rcases hor with h | h
        · exact this.2 h
        · exact this.1 h
    have hmem := P.delta.only fd (by simp [hfd]) hfresh
    rw [hlk, List.append_nil] at hmem
    rcases List.mem_append.1 hmem with hmem | hmem
    · obtain ⟨k, id'', inFd, outFd, rsx', h1, h2⟩ := mem_heldFds_get hmem
      have hk := hbeyond k _ h1
      by_cases hkn : k = n
      · subst hkn; rw [hprog] at h1; cases h1
      · obtain ⟨id3, ia, ob, rs3, f1, f2, f3⟩ := hfun k (by omega)
        rw [f1] at h1; cases h1
        rcases h2 with h2 | h2
        · cases h2
          rw [hfd] at f2
          exact .inr (.inl ⟨k, by omega, Option.some.inj f2⟩)
        · subst h2
          rw [hfd] at f3
          exact .inl (Option.some.inj f3)
    · rw [g3, List.mem_singleton] at hmem
      subst hmem
      rw [g5] at hfd
      cases hfd
      exact .inr (.inr rfl)
  obtain ⟨a, ha⟩ : ∃ a : Nat → Nat, ∀ k, k < n → ∃ id' ob rsx, items[k]? = some (.func id' (some (a k)) ob rsx) := by
    refine ⟨fun k => match items[k]? with | some (.func _ (some ia) _ _) => ia | _ => 0, fun k hk => ?_⟩
    obtain ⟨id', ia, ob, rsx, f1, f2, f3⟩ := hfun k hk
    exact ⟨id', ob, rsx, by simp only [f1]⟩
  obtain ⟨b, hb⟩ : ∃ b : Nat → Nat, ∀ k, k < n → ∃ id' rsx, items[k]? = some (.func id' (some (a k)) (b k) rsx) := by
    refine ⟨fun k => match items[k]? with | some (.func _ _ ob _) => ob | _ => 0, fun k hk => ?_⟩
    obtain ⟨id', ob, rsx, f1⟩ := ha k hk
    exact ⟨id', rsx, by simp only [f1]⟩
  have hfun : ∀ k, k < n → ∃ id' rsx, items[k]? = some (.func id' (some (a k)) (b k) rsx) ∧ (w'.fds.get (a k)).map Entry.obj = some (.pipeR (u + 1 + k)) ∧
      (w'.fds.get (b k)).map Entry.obj = some (.pipeW u) := by
    intro k hk
    obtain ⟨id', ia, ob, rsx, f1, f2, f3⟩ := hfun k hk
    obtain ⟨id'', rsx', f4⟩ := hb k hk
    rw [f1] at f4; cases f4
    exact ⟨id', rsx, f1, f2, f3⟩
  have hshellW : ∀ fd en, w'.fds.get fd = some en → en.obj = .pipeW u → ∃ k, k < n ∧ b k = fd := by
    intro fd en hfd hor
    have hfresh : w.fds.get fd = none := by
      rcases Option.eq_none_or_eq_some (w.fds.get fd) with h | ⟨en', h⟩
      · exact h
      · exfalso
        have heq : w'.fds.get fd = w.fds.get fd := by
          by_cases hcl : fd ∈ usedFds (.command id args) rs
          · have := (P.delta.closed fd hcl).2; rw [this] at hfd; cases hfd
          · exact P.delta.kept fd (by simp [h]) hcl
        rw [heq] at hfd
        exact (hm fd en u hfd (by omega)).2 hor
    have hmem := P.delta.only fd (by simp [hfd]) hfresh
    rw [hlk, List.append_nil] at hmem
    rcases List.mem_append.1 hmem with hmem | hmem
    · obtain ⟨k, id'', inFd, outFd, rsx', h1, h2⟩ := mem_heldFds_get hmem
      have hk := hbeyond k _ h1
      by_cases hkn : k = n
      · subst hkn; rw [hprog] at h1; cases h1
      · obtain ⟨id3, rs3, f1, f2, f3⟩ := hfun k (by omega)
        rw [f1] at h1; cases h1
        rcases h2 with h2 | h2
        · cases h2
          rw [hfd, Option.map_some, hor] at f2
          cases f2
        · exact ⟨k, by omega, h2⟩
    · rw [g3, List.mem_singleton] at hmem
      subst hmem
      rw [g5] at hfd
      cases hfd
      cases hor
  have huser : userPipe w' rs' = some u := by simp only [userPipe, g1, g4, g5, Option.map_some]
  have hpw := hpok
  simp only [ItemOk] at hpw
  obtain ⟨-, p0, p1, p2, pw, -⟩ := hpw
  have hdev : ∀ j, ((devFds argv)[j]?).bind fds = if j < n then some (.pipeW (u + 1 + j)) else none := by
    intro j; rw [devFds_get pw j, A3 j]
  have hheld := P.disj v (by rw [g3]; simp)
  refine ⟨items, rs', w', hrun, ?_, P.held, u, v, a, b, fun cap hcap => ?_⟩
  · rw [ItemOk.ids P.itemsOk, refRun_ids]; rfl
  rw [← hn]
  exact {
    len := hlen
    inF := by
      intro k hk
      obtain ⟨id', rsx, f1, -⟩ := hfun k hk
      simp only [Net.inFd, started, f1]
    outF := by
      intro k hk
      obtain ⟨id', rsx, f1, -⟩ := hfun k hk
      simp only [Net.outFd, started, f1]
    inN := by simp only [Net.inFd, started, hprog]
    outN := by simp only [Net.outFd, started, hprog]
    slotF := by
      intro k hk
      obtain ⟨id', rsx, f1, f2, -⟩ := hfun k hk
      have hle : w.nextPipe ≤ u + 1 + k := by omega
      simp only [slot, started, f1, Option.bind_some, slotObj, Item.stdin, f2]
      exact if_pos hle
    slotX := by
      intro k j hk
      obtain ⟨id', rsx, f1, f2, -⟩ := hfun k hk
      simp only [slot, started, f1, Option.bind_some, slotObj]
    slotN := by
      intro j
      simp only [slot, started, hprog, Option.bind_some]
      cases j with
      | zero =>
        simp only [slotObj, Item.stdin, p0]
        split
        · next q hq =>
          refine if_neg fun hle => (hi q (by omega)).2 ?_
          exact Option.some.inj hq
        · rfl
      | succ j =>
        simp only [slotObj, hdev]
        split
        · next q hq =>
          split at hq
          · cases hq
          · cases hq
        · rfl
    out0 := by
      intro k hk
      have hle : w.nextPipe ≤ u := by omega
      by_cases hkn : k = n
      · subst hkn
        simp only [outSlot, started, hprog, Option.bind_some, outObj, Item.stdout, p1]
        exact if_pos hle
      · obtain ⟨id', rsx, f1, f2, f3⟩ := hfun k (by omega)
        simp only [outSlot, started, f1, Option.bind_some, outObj, Item.stdout, f3]
        exact if_pos hle
    outX := by
      intro k j hk
      obtain ⟨id', rsx, f1, f2, -⟩ := hfun k hk
      simp only [outSlot, started, f1, Option.bind_some, outObj]
    outP := by
      intro j
      have hle : w.nextPipe ≤ u + 1 + j := by omega
      simp only [outSlot, started, hprog, Option.bind_some, outObj, hdev]
      by_cases hj : j < n
      · simp only [if_pos hj]
        exact if_pos hle
      · simp only [if_neg hj]
    injA := by
      intro x y hx hy hxy
      obtain ⟨_, _, f1, -⟩ := hfun x hx
      obtain ⟨_, _, f2, -⟩ := hfun y hy
      exact (held_inj P.held f1 f2).1 (a x) rfl (by rw [hxy])
    injB := by
      intro x y hx hy hxy
      obtain ⟨_, _, f1, -⟩ := hfun x hx
      obtain ⟨_, _, f2, -⟩ := hfun y hy
      exact (held_inj P.held f1 f2).2.1 hxy
    disj := by
      intro x y hx hy hxy
      obtain ⟨_, _, f1, -⟩ := hfun x hx
      obtain ⟨_, _, f2, -⟩ := hfun y hy
      exact (held_inj P.held f1 f2).2.2 (by rw [hxy])
    va := by
      intro k hk
      obtain ⟨_, _, f1, -⟩ := hfun k hk
      constructor
      · intro h; exact hheld.1 (h ▸ held_mem_in f1 rfl)
      · intro h; exact hheld.1 (h ▸ held_mem f1)
    openW := by
      intro k hk σ s
      constructor
      · rintro (⟨m, id'', argv', fds', rs'', x, st, f1, f2, f3⟩ | ⟨fd, en, f1, f2, -⟩)
        · have hm' := hbeyond m _ f1
          by_cases hmn : m = n
          · subst hmn; exact ⟨st, f2⟩
          · obtain ⟨_, _, f4, -⟩ := hfun m (by omega)
            have f1 : items[m]? = _ := f1
            rw [f4] at f1; cases f1
        · rcases hshell fd en (u + 1 + k) f1 (by omega) (.inl f2) with h | ⟨j, _, h⟩ | h
          · rw [f2] at h; injection h with h; omega
          · rw [f2] at h; cases h
          · rw [f2] at h; cases h
      · rintro ⟨st, hst⟩
        have := hdev k
        rw [if_pos hk] at this
        cases hd : (devFds argv)[k]? with
        | none => rw [hd] at this; cases this
        | some x => rw [hd] at this; exact .inl ⟨n, _, _, _, _, x, st, hprog, hst, this⟩
    openR := by
      intro k hk σ s hsh
      obtain ⟨_, _, f1, f2, -⟩ := hfun k hk
      cases hg : w'.fds.get (a k) with
      | none => rw [hg] at f2; cases f2
      | some en => rw [hg] at f2; exact .inr ⟨a k, en, hg, Option.some.inj f2, hsh⟩
    openB := by
      intro σ s
      rintro (⟨m, id'', argv', fds', rs'', x, st, f1, f2, f3⟩ | ⟨fd, en, f1, f2, f5⟩)
      · have hm' := hbeyond m _ f1
        by_cases hmn : m = n
        · subst hmn; exact .inl ⟨st, f2⟩
        · obtain ⟨_, _, f4, -⟩ := hfun m (by omega)
          have f1 : items[m]? = _ := f1
          rw [f4] at f1; cases f1
      · right
        obtain ⟨k, hk, rfl⟩ := hshellW fd en f1 f2
        exact ⟨k, hk, f5⟩
    openU := by
      intro σ s hsh
      exact .inr ⟨v, _, g5, rfl, hsh⟩
    user := by
      simp only [started, Pipeline.outWant, if_true]
      exact huser
    cap := hcap }

end Pieshell.FuncArg
