import Verif.Spec.Files
import Verif.Props.Run
/-!
# C77: two items writing to one output file
-/
namespace Pieshell

namespace Files

/-- The bytes of a file after a write: the data, what was there before, zeros in a gap, and nothing else. -/
theorem putAt_get (c : List UInt8) (pos : Nat) (d : List UInt8) (i : Nat) :
    (putAt c pos d)[i]? = if i < pos then some (c[i]?.getD 0) else if i < pos + d.length then d[i - pos]? else c[i]? := by
  have hl : ((c ++ List.replicate (pos - c.length) 0).take pos).length = pos := by simp; omega
  unfold putAt
  rw [List.append_assoc, List.getElem?_append]
  rw [hl]
  split
  · rename_i hi
    rw [List.getElem?_take, if_pos hi, List.getElem?_append]
    split
    · rename_i hc; rw [List.getElem?_eq_getElem hc]; rfl
    · rename_i hc
      rw [List.getElem?_eq_none (by omega : c.length ≤ i), List.getElem?_replicate, if_pos (by omega)]
      rfl
  · rename_i hi
    rw [List.getElem?_append]
    split
    · rename_i h2; rw [if_pos (by omega)]
    · rename_i h2; rw [if_neg (by omega), List.getElem?_drop]; congr 1; omega

theorem putAt_le {c : List UInt8} {pos : Nat} (h : pos ≤ c.length) (d : List UInt8) :
    putAt c pos d = c.take pos ++ d ++ c.drop (pos + d.length) := by
  simp [putAt, Nat.sub_eq_zero_of_le h]

theorem output_append (i : Nat) (a b : List FileEv) : output i (a ++ b) = output i a ++ output i b := by
  induction a with
  | nil => rfl
  | cons e a ih => cases e <;> simp [output] <;> (try split) <;> simp [ih]

theorem allOutput_append (a b : List FileEv) : allOutput (a ++ b) = allOutput a ++ allOutput b := by
  induction a with
  | nil => rfl
  | cons e a ih => cases e <;> simp [allOutput, ih]

/-- What is known after a history `done`, of which `s` is the result. -/
structure Inv (old : List UInt8) (done : List FileEv) (op : Nat → Bool) (s : FileState) : Prop where
  isOpen : ∀ i, op i = true → s.opened i = some ⟨65, (output i done).length⟩
  notOpen : ∀ i, op i = false → output i done = []
  fits : ∀ i, (output i done).length ≤ s.content.length
  oldFits : old.length ≤ s.content.length
  attained : s.content.length = old.length ∨ ∃ i, s.content.length = (output i done).length
  bytes : ∀ k x, s.content[k]? = some x →
    (∃ i, (output i done)[k]? = some x) ∨ ((∀ i, (output i done).length ≤ k) ∧ old[k]? = some x)

theorem inv_run (old : List UInt8) (evs : List FileEv) : ∀ (done : List FileEv) (op : Nat → Bool) (s : FileState),
    Inv old done op s → Orderly 65 op evs → ∃ op', Inv old (done ++ evs) op' (s.run evs) := by
  induction evs with
  | nil => intro done op s h _; exact ⟨op, by simpa [FileState.run] using h⟩
  | cons e evs ih =>
    intro done op s h ho
    have key : ∃ op1, Inv old (done ++ [e]) op1 (s.step e) ∧ Orderly 65 op1 evs := by
      cases e with
      | opens i f =>
        obtain ⟨rfl, h2, h3⟩ := ho
        have hout : ∀ j, output j (done ++ [.opens i 65]) = output j done := by simp [output_append, output]
        refine ⟨_, ⟨?_, ?_, ?_, ?_, ?_, ?_⟩, h3⟩
        · intro j hj
          rw [hout]
          by_cases hij : j = i
          · subst hij; simp [FileState.step, h.notOpen _ h2]
          · simp [hij] at hj; simp [FileState.step, hij, h.isOpen j hj]
        · intro j hj; rw [hout]; simp at hj; exact h.notOpen j hj.2
        · intro j; rw [hout]; exact h.fits j
        · exact h.oldFits
        · simp only [hout]; exact h.attained
        · simp only [hout]; exact h.bytes
      | writes i d =>
        obtain ⟨h1, h2⟩ := ho
        have hf := h.isOpen i h1
        have hle := h.fits i
        have hout : ∀ j, output j (done ++ [.writes i d]) = if j = i then output i done ++ d else output j done := by
          intro j; simp only [output_append, output]
          by_cases hij : j = i
          · subst hij; simp
          · simp [hij, Ne.symm hij]
        have hstep : s.step (.writes i d) = { content := s.content.take (output i done).length ++ d ++ s.content.drop ((output i done).length + d.length), opened := fun j => if j = i then some ⟨65, (output i done).length + d.length⟩ else s.opened j } := by
          simp only [FileState.step, hf]
          rw [if_neg (by decide), putAt_le hle]
        have hlen : (s.step (.writes i d)).content.length = max s.content.length ((output i done).length + d.length) := by
          rw [hstep]; simp only [List.length_append, List.length_take, List.length_drop]; omega
        refine ⟨op, ⟨?_, ?_, ?_, ?_, ?_, ?_⟩, h2⟩
        · intro j hj
          rw [hout, hstep]
          by_cases hij : j = i
          · subst hij; simp
          · simp [hij, h.isOpen j hj]
        · intro j hj
          rw [hout]
          have hij : j ≠ i := by rintro rfl; simp [h1] at hj
          simp [hij, h.notOpen j hj]
        · intro j
          rw [hout, hlen]
          have := h.fits j
          by_cases hij : j = i
          · subst hij; simp; omega
          · simp [hij]; omega
        · rw [hlen]; have := h.oldFits; omega
        · rw [hlen]
          rcases Nat.le_total s.content.length ((output i done).length + d.length) with hm | hm
          · right; exact ⟨i, by rw [hout, if_pos rfl]; simp; omega⟩
          · rw [Nat.max_eq_left hm]
            rcases h.attained with ha | ⟨j, hj⟩
            · exact .inl ha
            · right
              by_cases hij : j = i
              · subst hij
                refine ⟨j, ?_⟩
                rw [hout, if_pos rfl]; simp; omega
              · exact ⟨j, by rw [hout, if_neg hij]; exact hj⟩
        · intro k x hx
          rw [hstep] at hx
          simp only at hx
          by_cases hk1 : k < (output i done).length
          · rw [List.append_assoc, List.getElem?_append_left (by simp; omega), List.getElem?_take, if_pos hk1] at hx
            rcases h.bytes k x hx with ⟨j, hj⟩ | ⟨hj, -⟩
            · left
              by_cases hij : j = i
              · subst hij; exact ⟨j, by rw [hout, if_pos rfl, List.getElem?_append_left hk1]; exact hj⟩
              · exact ⟨j, by rw [hout, if_neg hij]; exact hj⟩
            · have := hj i; omega
          · by_cases hk2 : k < (output i done).length + d.length
            · left
              refine ⟨i, ?_⟩
              rw [hout, if_pos rfl, List.getElem?_append_right (by omega)]
              rw [List.append_assoc, List.getElem?_append_right (by simp; omega)] at hx
              simp only [List.length_take, Nat.min_eq_left hle] at hx
              rwa [List.getElem?_append_left (by omega)] at hx
            · rw [List.getElem?_append_right (by simp; omega), List.getElem?_drop] at hx
              have hk3 : (output i done).length + d.length + (k - (s.content.take (output i done).length ++ d).length) = k := by
                simp; omega
              rw [hk3] at hx
              rcases h.bytes k x hx with ⟨j, hj⟩ | ⟨hj, ho⟩
              · left
                have hij : j ≠ i := by
                  rintro rfl
                  have := List.getElem?_eq_some_iff.1 hj
                  obtain ⟨h', -⟩ := this
                  omega
                exact ⟨j, by rw [hout, if_neg hij]; exact hj⟩
              · right
                refine ⟨fun j => ?_, ho⟩
                rw [hout]
                by_cases hij : j = i
                · subst hij; simp; omega
                · rw [if_neg hij]; exact hj j
    obtain ⟨op1, h1, h2⟩ := key
    obtain ⟨op', h3⟩ := ih (done ++ [e]) op1 (s.step e) h1 h2
    exact ⟨op', by simpa [FileState.run] using h3⟩

theorem inv_start (old : List UInt8) : Inv old [] (fun _ => false) (.closed old) :=
  ⟨by simp, by simp [output], by simp [output], Nat.le_refl _, .inl rfl, fun k x h => .inr ⟨by simp [output], h⟩⟩

theorem interleaving_length {a b c : List UInt8} (h : Interleaving a b c) : c.length = a.length + b.length := by
  induction h <;> simp_all <;> omega

theorem interleaving_left (d : List UInt8) {a b c : List UInt8} (h : Interleaving a b c) : Interleaving (d ++ a) b (d ++ c) := by
  induction d with
  | nil => exact h
  | cons x d ih => exact .left x ih

theorem interleaving_right (d : List UInt8) {a b c : List UInt8} (h : Interleaving a b c) : Interleaving a (d ++ b) (d ++ c) := by
  induction d with
  | nil => exact h
  | cons x d ih => exact .right x ih

end Files

/-- Only writers 0 and 1 take part. -/
def TwoWriters (evs : List FileEv) : Prop := ∀ i, 2 ≤ i → output i evs = []

/-- **C77, exactly what is in the file**, for every number of writers that each open the file by name with the flags of a
redirection of stdout, and for every order in which the system executes their writes: the file is exactly as long as the
longest of the outputs and the old content, and the byte at each position is one that some writer wrote at *that* position
of its own output, or the old one if no output is that long. -/
theorem C77_content (p : Str) (r : Redirect) (old : List UInt8) (evs : List FileEv)
    (hr : mkRedirect (.name c!"stdout") (.path p) = .ok r) (ho : Orderly r.flag (fun _ => false) evs) :
    let new := ((FileState.closed old).run evs).content
    (∀ i, (output i evs).length ≤ new.length) ∧ old.length ≤ new.length ∧
    (new.length = old.length ∨ ∃ i, new.length = (output i evs).length) ∧
    ∀ k x, new[k]? = some x →
      (∃ i, (output i evs)[k]? = some x) ∨ ((∀ i, (output i evs).length ≤ k) ∧ old[k]? = some x) := by
  have hf : r.flag = 65 := by cases hr; rfl
  rw [hf] at ho
  obtain ⟨op, h⟩ := Files.inv_run old evs [] _ _ (Files.inv_start old) ho
  exact ⟨h.fits, h.oldFits, h.attained, h.bytes⟩

/-- **C77 is false**: if both write something, then - whatever the schedule, unless the file happened to have exactly the
right length before - the file does not consist of the two outputs. In particular this holds for every new or empty
file. -/
theorem C77_refuted (p : Str) (r : Redirect) (old : List UInt8) (evs : List FileEv)
    (hr : mkRedirect (.name c!"stdout") (.path p) = .ok r) (ho : Orderly r.flag (fun _ => false) evs)
    (h2 : TwoWriters evs) (ha : output 0 evs ≠ []) (hb : output 1 evs ≠ [])
    (hold : old.length ≠ (output 0 evs).length + (output 1 evs).length) :
    ¬ Interleaving (output 0 evs) (output 1 evs) ((FileState.closed old).run evs).content := by
  intro h
  obtain ⟨-, -, h3, -⟩ := C77_content p r old evs hr ho
  have hl := Files.interleaving_length h
  have l0 := List.length_pos_iff.2 ha
  have l1 := List.length_pos_iff.2 hb
  rcases h3 with h3 | ⟨i, h3⟩
  · omega
  · match i with
    | 0 => omega
    | 1 => omega
    | i + 2 => rw [h2 (i + 2) (by omega), List.length_nil] at h3; omega

/-- Opening with O_APPEND (a `Redirect` made with explicit flags). -/
theorem Files.append_run (flag : Nat) (ht : flag &&& O_TRUNC = 0) (ha : flag &&& O_APPEND ≠ 0) (evs : List FileEv) :
    ∀ (op : Nat → Bool) (s : FileState), (∀ i, op i = true → ∃ off, s.opened i = some ⟨flag, off⟩) →
    Orderly flag op evs → (s.run evs).content = s.content ++ allOutput evs := by
  induction evs with
  | nil => intro op s _ _; simp [FileState.run, allOutput]
  | cons e evs ih =>
    intro op s hs ho
    cases e with
    | opens i f =>
      obtain ⟨rfl, h2, h3⟩ := ho
      have := ih _ (s.step (.opens i f)) (by
        intro j hj
        by_cases hij : j = i
        · subst hij; exact ⟨0, by simp [FileState.step]⟩
        · simp [hij] at hj; simpa [FileState.step, hij] using hs j hj) h3
      simp only [FileState.run, List.foldl_cons] at this ⊢
      rw [this]; simp [FileState.step, openContent, ht, allOutput]
    | writes i d =>
      obtain ⟨h1, h2⟩ := ho
      obtain ⟨off, hf⟩ := hs i h1
      have := ih op (s.step (.writes i d)) (by
        intro j hj
        by_cases hij : j = i
        · subst hij; simp [FileState.step, hf]
        · simpa [FileState.step, hf, hij] using hs j hj) h2
      simp only [FileState.run, List.foldl_cons] at this ⊢
      rw [this]; simp [FileState.step, hf, ha, allOutput, Files.putAt_le (Nat.le_refl _)]

theorem Files.allOutput_interleaving (evs : List FileEv) (h : ∀ i d, FileEv.writes i d ∈ evs → i < 2) :
    Interleaving (output 0 evs) (output 1 evs) (allOutput evs) := by
  induction evs with
  | nil => exact .nil
  | cons e evs ih =>
    have ih := ih fun i d hm => h i d (List.mem_cons_of_mem _ hm)
    cases e with
    | opens i f => exact ih
    | writes i d =>
      have := h i d List.mem_cons_self
      match i, this with
      | 0, _ => simpa [output, allOutput] using interleaving_left d ih
      | 1, _ => simpa [output, allOutput] using interleaving_right d ih

/-- **C77, the part that holds**: with a redirection whose flags contain O_APPEND and not O_TRUNC, the old content is kept
and everything both write is added to it, in the order in which they write it. -/
theorem C77_append_partial (flag : Nat) (ht : flag &&& O_TRUNC = 0) (ha : flag &&& O_APPEND ≠ 0) (old : List UInt8)
    (evs : List FileEv) (ho : Orderly flag (fun _ => false) evs) (h2 : ∀ i d, FileEv.writes i d ∈ evs → i < 2) :
    ∃ new, ((FileState.closed old).run evs).content = old ++ new ∧ Interleaving (output 0 evs) (output 1 evs) new :=
  ⟨_, Files.append_run flag ht ha evs _ _ (by simp) ho, Files.allOutput_interleaving evs h2⟩

namespace FilesEx
/-- two programs writing "ab", "c" and "XY" -/
def evs (flag : Nat) : List FileEv :=
  [.opens 0 flag, .writes 0 [97, 98], .opens 1 flag, .writes 1 [88], .writes 0 [99], .writes 1 [89]]
example : ((FileState.closed []).run (evs 65)).content = [88, 89, 99] := by decide
example : ((FileState.closed [1]).run (evs 1089)).content = [1, 97, 98, 88, 99, 89] := by decide
theorem orderly (flag : Nat) : Orderly flag (fun _ => false) (evs flag) := by simp [evs, Orderly]
theorem two (flag : Nat) : TwoWriters (evs flag) := by
  intro i hi
  have h0 : 0 ≠ i := by omega
  have h1 : 1 ≠ i := by omega
  simp [evs, output, h0, h1]
example : ¬ Interleaving [97, 98, 99] [88, 89] ((FileState.closed []).run (evs 65)).content :=
  C77_refuted c!"f" _ [] (evs 65) rfl (orderly 65) (two 65) (by simp [evs, output]) (by simp [evs, output]) (by simp [evs, output])
example : ∃ new, ((FileState.closed [1]).run (evs 1089)).content = [1] ++ new ∧ Interleaving [97, 98, 99] [88, 89] new :=
  C77_append_partial 1089 (by decide) (by decide) [1] (evs 1089) (orderly _) (by simp [evs]; omega)
end FilesEx

mutual
theorem Files.leaks_pipeR (cwd : Str) : (p : Pipeline) → (i : Obj) → (o e : Want) → (c : Ctr) →
    ∀ ob ∈ (refRun cwd p i o e c).leaks, ∃ n, ob = .pipeR n
  | .command id args, i, o, e, c, ob, h => by
    simp only [refRun] at h; exact Files.leaksA_pipeR cwd args _ _ _ _ ob h
  | .func _, _, _, _, _, ob, h => by simp [refRun] at h
  | .iter _, _, _, _, _, ob, h => by simp [refRun] at h
  | .pipe a b, i, o, e, c, ob, h => by
    simp only [refRun, List.mem_append] at h
    rcases h with (h | h) | h
    · exact Files.leaks_pipeR cwd a _ _ _ _ ob h
    · exact Files.leaks_pipeR cwd b _ _ _ _ ob h
    · split at h
      · simp at h; exact ⟨_, h⟩
      · cases h
  | .group a b, i, o, e, c, ob, h => by
    simp only [refRun, List.mem_append] at h
    rcases h with (h | h) | h
    · exact Files.leaks_pipeR cwd a _ _ _ _ ob h
    · exact Files.leaks_pipeR cwd b _ _ _ _ ob h
    · split at h
      · simp at h; exact ⟨_, h⟩
      · cases h
  | .redirect p crs, i, o, e, c, ob, h => by
    simp only [refRun] at h; exact Files.leaks_pipeR cwd p _ _ _ _ ob h
theorem Files.leaksA_pipeR (cwd : Str) : (a : Args) → (i o e : Obj) → (c : Ctr) →
    ∀ ob ∈ (refArgs cwd a i o e c).leaks, ∃ n, ob = .pipeR n
  | .nil, _, _, _, _, ob, h => by simp [refArgs] at h
  | .word ws rest, i, o, e, c, ob, h => by
    simp only [refArgs] at h; exact Files.leaksA_pipeR cwd rest _ _ _ _ ob h
  | .pipeArg pre p rest, i, o, e, c, ob, h => by
    simp only [refArgs, List.mem_append] at h
    rcases h with h | h
    · exact Files.leaks_pipeR cwd p _ _ _ _ ob h
    · exact Files.leaksA_pipeR cwd rest _ _ _ _ ob h
  | .funcArg pre id rest, i, o, e, c, ob, h => by
    simp only [refArgs] at h; exact Files.leaksA_pipeR cwd rest _ _ _ _ ob h
end

/-- **C77, the connection with running**: when `a + b` (none of them redirecting its own output) is redirected to a file
by name and started, the last item of each half has as output that file as the result of its own `os.open` with the flags of
the redirection: if no descriptor of the shell is on it before, then none is afterwards, except those that python functions
among the items have opened for themselves. So commands do not get it from the shell, and share no file offset. -/
theorem C77_each_opens_the_file (sys : Sys) (cwd : Str) (w : World) (rs crs : Redirects) (a b : Pipeline) (i : Obj) (o e : Want)
    (p : Str) (r : Redirect) (hcrs : Dict.get? crs 1 = some r) (hr : r.source = .path p)
    (hnew : ∀ fd, (w.fds.get fd).map Entry.obj ≠ some (.file cwd p r.flag r.mode))
    (ha : a.outWant cwd (.obj (.file cwd p r.flag r.mode)) = .obj (.file cwd p r.flag r.mode))
    (hb : b.outWant cwd (.obj (.file cwd p r.flag r.mode)) = .obj (.file cwd p r.flag r.mode))
    (hs : Startable sys cwd w rs (.redirect (.group a b) crs) i o e) :
    ∃ items rs' w' xs ys m m', runP sys cwd (.redirect (.group a b) crs) rs w = (.ok (items, rs'), w') ∧
      items = xs ++ ys ∧ xs.map Item.id = a.ids ∧ ys.map Item.id = b.ids ∧
      xs.getLast? = some m ∧ m.stdout w' = some (.file cwd p r.flag r.mode) ∧
      ys.getLast? = some m' ∧ m'.stdout w' = some (.file cwd p r.flag r.mode) ∧
      ∀ fd, (w'.fds.get fd).map Entry.obj = some (.file cwd p r.flag r.mode) → fd ∈ heldFds items := by
  obtain ⟨⟨H, L, hr', hl, hstd⟩, ho, he, hsh, hlow, hpo⟩ := hs
  obtain ⟨items, rs', w', ul, lk, hrun, P⟩ := run_spec sys cwd (.redirect (.group a b) crs) hsh hr' hl hstd ho he hlow hpo
  have hI := P.itemsOk
  have hov : crs.over cwd 1 o = .obj (.file cwd p r.flag r.mode) := by simp [Redirects.over, orWant, hcrs, Redirect.want, hr]
  simp only [refRun, hov] at hI
  obtain ⟨xs, ys, rfl, hx, hy⟩ := items_split hI
  obtain ⟨m, hm1, hm2⟩ := refRun_last (cwd := cwd) a (crs.overIn cwd i) (.obj (.file cwd p r.flag r.mode)) (crs.over cwd 2 e) w.ctr trivial
  obtain ⟨m', hm1', hmok⟩ := hx.getLast hm1
  obtain ⟨n, hn1, hn2⟩ := refRun_last (cwd := cwd) b (crs.overIn cwd i) (.obj (.file cwd p r.flag r.mode)) (crs.over cwd 2 e) (refRun cwd a (crs.overIn cwd i) (.obj (.file cwd p r.flag r.mode)) (crs.over cwd 2 e) w.ctr).ctr trivial
  obtain ⟨n', hn1', hnok⟩ := hy.getLast hn1
  rw [ha] at hm2
  rw [hb] at hn2
  refine ⟨_, rs', w', xs, ys, m', n', hrun, rfl, by rw [ItemOk.ids hx, refRun_ids], by rw [ItemOk.ids hy, refRun_ids], hm1',
    by rw [hmok.stdout]; exact congrArg some hm2, hn1', by rw [hnok.stdout]; exact congrArg some hn2, ?_⟩
  intro fd hfd
  have hul : ul = [] := P.r1' (by simp [Pipeline.outWant, hov, hb])
  by_cases hold : w.fds.get fd = none
  · have hm := P.delta.only fd (by intro h; rw [h] at hfd; cases hfd) hold
    simp only [hul, List.append_nil, List.mem_append] at hm
    rcases hm with hm | hm
    · exact hm
    · obtain ⟨ob, hob, hk⟩ := P.leaks.mem hm
      rw [hk] at hfd
      obtain ⟨n, rfl⟩ := Files.leaks_pipeR cwd _ _ _ _ _ ob hob
      simp at hfd
  · by_cases hc : fd ∈ usedFds (.redirect (.group a b) crs) rs
    · rw [(P.delta.closed fd hc).2] at hfd; cases hfd
    · rw [P.delta.kept fd hold hc] at hfd; exact absurd hfd (hnew fd)

/-- `(a + b) > "out"` -/
example : Startable RunEx.sys [] RunEx.world defaultRedirects (.redirect (.group (.command 1 .nil) (.command 2 .nil)) (RunEx.to_ c!"out"))
      (.inherited 0) (.obj (.inherited 1)) .tmp ∧
    (∀ fd, (RunEx.world.fds.get fd).map Entry.obj ≠ some (.file [] c!"out" 65 511)) ∧
    (Pipeline.command 1 .nil).outWant [] (.obj (.file [] c!"out" 65 511)) = .obj (.file [] c!"out" 65 511) := by
  refine ⟨RunEx.startable' _ (by decide) ?_, ?_, rfl⟩
  · refine ⟨⟨trivial, trivial⟩, RunEx.built _ rfl, ?_⟩
    intro r hr
    simp [RunEx.to_, Dict.values] at hr
    subst hr
    exact .inl ⟨_, rfl, rfl, by decide⟩
  · intro fd
    rw [RunEx.get_world]
    repeat' split
    all_goals simp [RunEx.inh]

end Pieshell
