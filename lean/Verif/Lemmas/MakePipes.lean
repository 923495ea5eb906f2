import Verif.Lemmas.RedirTable
/-! Helper lemmas: materialising pipes. -/
namespace Pieshell

theorem isWr_iff (flag : Nat) : isWr flag = true ↔ Writing flag := by
  unfold isWr Writing O_WRONLY
  rw [Nat.and_one_is_mod]
  have := Nat.mod_two_eq_zero_or_one flag
  rcases this with h | h <;> simp [h]

/-- `w'` extends `w`: nothing that was open changed. -/
structure World.Ext (w w' : World) : Prop where
  keep : ∀ n e, w.fds.get n = some e → w'.fds.get n = some e
  pipes : w.nextPipe ≤ w'.nextPipe
  tmps : w.nextTmp ≤ w'.nextTmp
  bounded : w.fds.Bounded → w'.fds.Bounded

theorem World.Ext.refl (w : World) : w.Ext w := ⟨fun _ _ h => h, Nat.le_refl _, Nat.le_refl _, id⟩

theorem World.Ext.trans {a b c : World} (h1 : a.Ext b) (h2 : b.Ext c) : a.Ext c :=
  ⟨fun n e h => h2.keep n e (h1.keep n e h), Nat.le_trans h1.pipes h2.pipes, Nat.le_trans h1.tmps h2.tmps,
    fun h => h2.bounded (h1.bounded h)⟩

theorem Materialises.mono {w0 w w' w'' : World} {r r' : Redirect} (h0 : w0.Ext w) (h : Materialises w w' r r')
    (h' : w'.Ext w'') : Materialises w0 w'' r r' := by
  have hn : ∀ n, w.fds.get n = none → w0.fds.get n = none := by
    intro n hn
    rcases Option.eq_none_or_eq_some (w0.fds.get n) with h | ⟨e, h⟩
    · exact h
    · rw [h0.keep n e h] at hn; cases hn
  have hp := h0.pipes
  have hp' := h'.pipes
  have ht := h0.tmps
  have ht' := h'.tmps
  unfold Materialises at h ⊢
  split at h
  · rename_i hs
    obtain ⟨a, b, p, hr, h1, h2, h3, h4, h5, h6⟩ := h
    exact ⟨a, b, p, hr, by omega, by omega, hn _ h3, hn _ h4,
      fun hw => ⟨h'.keep _ _ (h5 hw).1, h'.keep _ _ (h5 hw).2⟩,
      fun hw => ⟨h'.keep _ _ (h6 hw).1, h'.keep _ _ (h6 hw).2⟩⟩
  · obtain ⟨hw, f, n, hr, h1, h2, h3, h4⟩ := h
    exact ⟨hw, f, n, hr, by omega, by omega, hn _ h3, h'.keep _ _ h4⟩
  · obtain ⟨hw, f, n, hr, h1, h2, h3, h4⟩ := h
    exact ⟨hw, f, n, hr, by omega, by omega, hn _ h3, h'.keep _ _ h4⟩
  · exact h

/-- The descriptors a materialised redirection refers to. -/
def Redirect.ends (r : Redirect) : List Nat :=
  (match r.source with | .fd n => [n] | _ => []) ++ (match r.pipe with | .fd n => [n] | _ => [])

theorem pipeCloexec_spec (w : World) (hb : w.fds.Bounded) :
    ∃ a b w', pipeCloexec w = ((a, b), w') ∧ w.Ext w' ∧ a ≠ b ∧ w.fds.get a = none ∧ w.fds.get b = none ∧
      w'.fds.get a = some { obj := .pipeR w.nextPipe, cloexec := true } ∧
      w'.fds.get b = some { obj := .pipeW w.nextPipe, cloexec := true } ∧
      (∀ n, n ≠ a → n ≠ b → w'.fds.get n = w.fds.get n) ∧
      w'.nextPipe = w.nextPipe + 1 ∧ w'.nextTmp = w.nextTmp ∧ a < b ∧
      (∀ n, w.fds.get n = none → a ≤ n) := by
  let a := w.fds.lowestFree
  let t1 := w.fds.set a { obj := .pipeR w.nextPipe, cloexec := true }
  let b := t1.lowestFree
  have ha : w.fds.get a = none := FdTable.lowestFree_free hb
  have hb1 : t1.Bounded := FdTable.bounded_set hb _ _
  have hbf : t1.get b = none := FdTable.lowestFree_free hb1
  have hab : b ≠ a := by intro h; rw [h] at hbf; simp [t1] at hbf
  have hbf' : w.fds.get b = none := by simpa [t1, hab] using hbf
  have hmin : ∀ n, w.fds.get n = none → a ≤ n := fun n hn => FdTable.lowestFree_le_of_free hb hn
  refine ⟨a, b, { w with fds := t1.set b { obj := .pipeW w.nextPipe, cloexec := true }, nextPipe := w.nextPipe + 1 },
    rfl, ?_, Ne.symm hab, ha, hbf', ?_, ?_, ?_, rfl, rfl, ?_, hmin⟩
  · refine ⟨?_, by simp, by simp, fun _ => FdTable.bounded_set hb1 _ _⟩
    intro n e hn
    have h1 : n ≠ a := by intro h; rw [h, ha] at hn; cases hn
    have h2 : n ≠ b := by intro h; rw [h, hbf'] at hn; cases hn
    simp [t1, h1, h2, hn]
  · simp [t1, Ne.symm hab]
  · simp
  · intro n h1 h2; simp [t1, h1, h2]
  · have := hmin b hbf'; omega

theorem makePipe_spec (r : Redirect) (w : World) (hb : w.fds.Bounded)
    (hok : r.source = .TMP ∨ r.source = .STRING → Writing r.flag) :
    ∃ r' w', r.makePipe w = (.ok r', w') ∧ w.Ext w' ∧ Materialises w w' r r' ∧
      (∀ n, w'.fds.get n ≠ w.fds.get n → n ∈ r'.ends) := by
  unfold Redirect.makePipe
  cases hs : r.source with
  | PIPE =>
    obtain ⟨a, b, w', he, hext, hab, ha, hb', hga, hgb, hoth, hnp, hnt, -⟩ := pipeCloexec_spec w hb
    simp only [he]
    by_cases hw : isWr r.flag = true
    · have hW := (isWr_iff r.flag).1 hw
      simp only [hw, ↓reduceIte]
      refine ⟨_, w', rfl, hext, ?_, ?_⟩
      · unfold Materialises; rw [hs]
        exact ⟨b, a, w.nextPipe, rfl, Nat.le_refl _, by omega, hb', ha, fun _ => ⟨hgb, hga⟩, fun h => absurd hW h⟩
      · intro n hn
        by_cases h1 : n = a
        · subst h1; simp [Redirect.ends]
        · by_cases h2 : n = b
          · subst h2; simp [Redirect.ends]
          · exact absurd (hoth n h1 h2) hn
    · have hW : ¬ Writing r.flag := fun h => hw ((isWr_iff r.flag).2 h)
      simp only [hw]
      refine ⟨_, w', rfl, hext, ?_, ?_⟩
      · unfold Materialises; rw [hs]
        exact ⟨a, b, w.nextPipe, rfl, Nat.le_refl _, by omega, ha, hb', fun h => absurd h hW, fun _ => ⟨hga, hgb⟩⟩
      · intro n hn
        by_cases h1 : n = a
        · subst h1; simp [Redirect.ends]
        · by_cases h2 : n = b
          · subst h2; simp [Redirect.ends]
          · exact absurd (hoth n h1 h2) hn
  | TMP =>
    have hW := hok (.inl hs)
    have hw := (isWr_iff r.flag).2 hW
    have hf := FdTable.lowestFree_free hb
    simp only [hw, ↓reduceIte, mkstemp]
    refine ⟨_, _, rfl, ⟨?_, by simp, by simp, fun h => FdTable.bounded_set h _ _⟩, ?_, ?_⟩
    · intro n e hn
      have : n ≠ w.fds.lowestFree := by intro h; rw [h, hf] at hn; cases hn
      simp [this, hn]
    · unfold Materialises; rw [hs]
      exact ⟨hW, _, _, rfl, Nat.le_refl _, by simp, hf, by simp⟩
    · intro n hn
      by_cases h : n = w.fds.lowestFree
      · subst h; simp [Redirect.ends]
      · simp [h] at hn
  | STRING =>
    have hW := hok (.inr hs)
    have hw := (isWr_iff r.flag).2 hW
    have hf := FdTable.lowestFree_free hb
    simp only [hw, ↓reduceIte, mkstemp]
    refine ⟨_, _, rfl, ⟨?_, by simp, by simp, fun h => FdTable.bounded_set h _ _⟩, ?_, ?_⟩
    · intro n e hn
      have : n ≠ w.fds.lowestFree := by intro h; rw [h, hf] at hn; cases hn
      simp [this, hn]
    · unfold Materialises; rw [hs]
      exact ⟨hW, _, _, rfl, Nat.le_refl _, by simp, hf, by simp⟩
    · intro n hn
      by_cases h : n = w.fds.lowestFree
      · subst h; simp [Redirect.ends]
      · simp [h] at hn
  | none => exact ⟨r, w, rfl, .refl w, by unfold Materialises; rw [hs], fun n h => absurd rfl h⟩
  | fd m => exact ⟨r, w, rfl, .refl w, by unfold Materialises; rw [hs], fun n h => absurd rfl h⟩
  | path p => exact ⟨r, w, rfl, .refl w, by unfold Materialises; rw [hs], fun n h => absurd rfl h⟩
  | inst p => exact ⟨r, w, rfl, .refl w, by unfold Materialises; rw [hs], fun n h => absurd rfl h⟩

theorem makePipesList_spec (l : List Redirect) (w : World) (hb : w.fds.Bounded)
    (hok : ∀ r ∈ l, r.source = .TMP ∨ r.source = .STRING → Writing r.flag) :
    ∃ l' w', makePipesList l w = (.ok l', w') ∧ w.Ext w' ∧ Pointwise (Materialises w w') l l' ∧
      (∀ n, w'.fds.get n ≠ w.fds.get n → ∃ r' ∈ l', n ∈ r'.ends) := by
  induction l generalizing w with
  | nil => exact ⟨[], w, rfl, .refl w, .nil, fun n h => absurd rfl h⟩
  | cons r l ih =>
    obtain ⟨r', w1, h1, hext, hm, hn⟩ := makePipe_spec r w hb (hok r (by simp))
    obtain ⟨l', w2, h2, hext2, hm2, hn2⟩ := ih w1 (hext.bounded hb) (fun q hq => hok q (by simp [hq]))
    refine ⟨r' :: l', w2, by simp [makePipesList, h1, h2], hext.trans hext2, ?_, ?_⟩
    · refine .cons (hm.mono (.refl w) hext2) ?_
      clear ih h2 hn2 hok
      induction hm2 with
      | nil => exact .nil
      | cons h _ ih => exact .cons (h.mono hext (.refl _)) ih
    · intro n hne
      by_cases h : w2.fds.get n = w1.fds.get n
      · rw [h] at hne; exact ⟨r', by simp, hn n hne⟩
      · obtain ⟨q, hq, he⟩ := hn2 n h; exact ⟨q, by simp [hq], he⟩

theorem Materialises.fd_eq {w w' : World} {r r' : Redirect} (h : Materialises w w' r r') : r'.fd = r.fd := by
  unfold Materialises at h
  split at h
  · obtain ⟨a, b, p, hr, -⟩ := h; rw [hr]
  · obtain ⟨_, a, b, hr, -⟩ := h; rw [hr]
  · obtain ⟨_, a, b, hr, -⟩ := h; rw [hr]
  · rw [h]

theorem Materialises.source_ne {w w' : World} {r r' : Redirect} (h : Materialises w w' r r')
    (hr : r.source ≠ .none) : r'.source ≠ .none ∧ r'.source ≠ .PIPE ∧ r'.source ≠ .TMP ∧ r'.source ≠ .STRING := by
  unfold Materialises at h
  split at h
  · obtain ⟨a, b, p, hr, -⟩ := h; rw [hr]; simp
  · obtain ⟨_, a, b, hr, -⟩ := h; rw [hr]; simp
  · obtain ⟨_, a, b, hr, -⟩ := h; rw [hr]; simp
  · rename_i h1 h2 h3; rw [h]; exact ⟨hr, h1, h2, h3⟩

/-- Registering a list with distinct descriptors and no None source gives exactly that list. -/
theorem registerAll_distinct (rs : Redirects) (l : List Redirect) (hnn : ∀ r ∈ l, r.source ≠ .none)
    (hnd : (Dict.keys rs ++ l.map Redirect.fd).Nodup) :
    rs.registerAll l = .ok (rs ++ l.map (fun r => (r.fd, r))) := by
  induction l generalizing rs with
  | nil => simp [Redirects.registerAll]
  | cons r l ih =>
    have hset : ∀ rs : Redirects, r.fd ∉ Dict.keys rs → Dict.set rs r.fd r = rs ++ [(r.fd, r)] := by
      intro rs h
      induction rs with
      | nil => rfl
      | cons p rs ih =>
        obtain ⟨a, b⟩ := p
        have : a ≠ r.fd := by intro e; apply h; simp [Dict.keys, e]
        simp only [Dict.set, this, ↓reduceIte, List.cons_append]
        rw [ih (by intro hm; apply h; simp [Dict.keys] at hm ⊢; exact .inr hm)]
    have hk : r.fd ∉ Dict.keys rs := by
      intro h
      rw [List.nodup_append] at hnd
      exact hnd.2.2 _ h r.fd (by simp) rfl
    have hreg : rs.register r = .ok (rs ++ [(r.fd, r)]) := by
      unfold Redirects.register
      have := hnn r (by simp)
      rw [← hset rs hk]
      cases hs : r.source <;> simp_all
    simp only [Redirects.registerAll, hreg]
    rw [ih _ (fun q hq => hnn q (by simp [hq]))]
    · simp
    · have : Dict.keys (rs ++ [(r.fd, r)]) = Dict.keys rs ++ [r.fd] := by simp [Dict.keys]
      rw [this]; simpa using hnd

theorem Redirects.WF.eq_map {rs : Redirects} (h : rs.WF) : rs = (Dict.values rs).map (fun r => (r.fd, r)) := by
  unfold Dict.values
  rw [List.map_map]
  conv => lhs; rw [← List.map_id rs]
  apply List.map_congr_left
  intro p hp
  have := (h.2 p hp).1
  simp only [id, Function.comp, ← this]

/-- Copying a table (`Redirects(t)`) gives an equal table. -/
theorem new_table {rs : Redirects} (h : rs.WF) : Redirects.new [.table rs] = .ok rs := by
  have := registerAll_distinct [] (Dict.values rs) (fun r hr => values_source_ne_none h hr)
    (by simpa [Dict.keys] using h.nodup_fds)
  simp only [Redirects.new, List.flatMap_cons, List.flatMap_nil, RArg.list, List.append_nil, this, List.nil_append]
  rw [← h.eq_map]

theorem makePipes_spec {rs : Redirects} (hwf : rs.WF) (w : World) (hb : w.fds.Bounded)
    (hok : ∀ r ∈ Dict.values rs, r.source = .TMP ∨ r.source = .STRING → Writing r.flag) :
    ∃ l' w', rs.makePipes w = (.ok (l'.map (fun r => (r.fd, r))), w') ∧ w.Ext w' ∧
      Pointwise (Materialises w w') (Dict.values rs) l' ∧ l'.map Redirect.fd = Dict.keys rs ∧
      (∀ n, w'.fds.get n ≠ w.fds.get n → ∃ r' ∈ l', n ∈ r'.ends) := by
  obtain ⟨l', w', h1, h2, h3, h4⟩ := makePipesList_spec (Dict.values rs) w hb hok
  have hfds : l'.map Redirect.fd = Dict.keys rs := by
    rw [← hwf.keys_eq]
    clear h1 h4
    generalize Dict.values rs = l at h3
    induction h3 with
    | nil => rfl
    | cons h _ ih => simp [h.fd_eq]; exact ih
  have hnn : ∀ r' ∈ l', r'.source ≠ .none := by
    have hv : ∀ r ∈ Dict.values rs, r.source ≠ .none := fun r hr => values_source_ne_none hwf hr
    clear h1 h4 hfds hok
    generalize Dict.values rs = l at h3 hv
    induction h3 with
    | nil => simp
    | cons h _ ih =>
      intro q hq
      rcases List.mem_cons.1 hq with hq | hq
      · subst hq; exact (h.source_ne (hv _ (by simp))).1
      · exact ih (fun r hr => hv r (by simp [hr])) q hq
  refine ⟨l', w', ?_, h2, h3, hfds, h4⟩
  have hreg := registerAll_distinct [] l' hnn (by rw [hfds]; simpa [Dict.keys, Dict.Uniq] using hwf.1)
  have hflat : (l'.map RArg.one).flatMap RArg.list = l' := by
    clear h1 h3 h4 hfds hnn hreg
    induction l' with
    | nil => rfl
    | cons a l ih => simp [RArg.list] at ih ⊢; exact ih
  simp only [Redirects.makePipes, h1, Redirects.new, hflat, hreg, List.nil_append]

/-- TMP/STRING for reading is refused. -/
theorem makePipesList_error (l : List Redirect) (w : World)
    (h : ∃ r ∈ l, (r.source = .TMP ∨ r.source = .STRING) ∧ ¬ Writing r.flag) :
    ∃ e w', makePipesList l w = (.error e, w') := by
  induction l generalizing w with
  | nil => simp at h
  | cons r l ih =>
    simp only [makePipesList]
    cases hm : r.makePipe w with
    | mk res w1 =>
      cases res with
      | error e => exact ⟨e, w1, rfl⟩
      | ok r' =>
        obtain ⟨q, hq, hs, hw⟩ := h
        rcases List.mem_cons.1 hq with hq | hq
        · subst hq
          have hw' : isWr q.flag = false := by
            cases hx : isWr q.flag with
            | false => rfl
            | true => exact absurd ((isWr_iff _).1 hx) hw
          rcases hs with hs | hs <;> simp [Redirect.makePipe, hs, hw'] at hm
        · obtain ⟨e, w', he⟩ := ih w1 ⟨q, hq, hs, hw⟩
          exact ⟨e, w', by simp [he]⟩

end Pieshell
