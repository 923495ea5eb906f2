import Verif.Lemmas.Redir
import Verif.Spec.Redir
/-! Helper lemmas: redirection tables as maps. -/
namespace Pieshell

theorem wf_nil : Redirects.WF [] := ⟨Dict.uniq_nil, by simp⟩

theorem Dict.mem_set {κ α : Type} [DecidableEq κ] {d : Dict κ α} {k : κ} {v : α} {p : κ × α}
    (h : p ∈ Dict.set d k v) : p = (k, v) ∨ p ∈ d := by
  induction d with
  | nil => simp [Dict.set] at h; exact .inl h
  | cons q d ih =>
    obtain ⟨a, b⟩ := q
    simp only [Dict.set] at h
    split at h
    · rcases List.mem_cons.1 h with h | h
      · exact .inl h
      · exact .inr (List.mem_cons_of_mem _ h)
    · rcases List.mem_cons.1 h with h | h
      · exact .inr (by simp [h])
      · rcases ih h with h | h
        · exact .inl h
        · exact .inr (List.mem_cons_of_mem _ h)

theorem Dict.mem_erase {κ α : Type} [DecidableEq κ] {d : Dict κ α} {k : κ} {p : κ × α}
    (h : p ∈ Dict.erase d k) : p ∈ d := by
  induction d with
  | nil => simp [Dict.erase] at h
  | cons q d ih =>
    obtain ⟨a, b⟩ := q
    simp only [Dict.erase] at h
    split at h
    · exact List.mem_cons_of_mem _ h
    · rcases List.mem_cons.1 h with h | h
      · simp [h]
      · exact List.mem_cons_of_mem _ (ih h)

theorem register_wf {rs rs' : Redirects} {r : Redirect} (h : rs.WF) (hr : rs.register r = .ok rs') :
    rs'.WF := by
  unfold Redirects.register at hr
  split at hr
  · split at hr
    · cases hr
      exact ⟨Dict.uniq_erase _ h.1 _, fun p hp => h.2 p (Dict.mem_erase hp)⟩
    · cases hr
  · rename_i hs
    cases hr
    refine ⟨Dict.uniq_set _ h.1 _ _, fun p hp => ?_⟩
    rcases Dict.mem_set hp with h1 | h1
    · subst h1; exact ⟨rfl, hs⟩
    · exact h.2 p h1

theorem registerAll_wf {rs rs' : Redirects} {l : List Redirect} (h : rs.WF)
    (hr : rs.registerAll l = .ok rs') : rs'.WF := by
  induction l generalizing rs with
  | nil => cases hr; exact h
  | cons r l ih =>
    simp only [Redirects.registerAll] at hr
    split at hr
    · cases hr
    · rename_i rs1 h1; exact ih (register_wf h h1) hr

theorem borrow_get? (rs : Redirects) (n : Nat) :
    Dict.get? rs.borrow n = (Dict.get? rs n).map Redirect.borrow := by
  induction rs with
  | nil => rfl
  | cons p rs ih =>
    obtain ⟨a, b⟩ := p
    simp only [Redirects.borrow, List.map_cons, Dict.get?] at ih ⊢
    split
    · rfl
    · exact ih

theorem borrow_keys (rs : Redirects) : Dict.keys rs.borrow = Dict.keys rs := by
  simp [Redirects.borrow, Dict.keys]

theorem borrow_wf {rs : Redirects} (h : rs.WF) : rs.borrow.WF := by
  refine ⟨by unfold Dict.Uniq; rw [borrow_keys]; exact h.1, fun p hp => ?_⟩
  obtain ⟨q, hq, rfl⟩ := List.mem_map.1 hp
  exact h.2 q hq

theorem makePipes_wf {rs rs' : Redirects} {w : World} (hr : (rs.makePipes w).1 = .ok rs') : rs'.WF := by
  unfold Redirects.makePipes at hr
  split at hr
  · cases hr
  · exact registerAll_wf wf_nil hr

theorem Redirects.Built.wf {rs : Redirects} (h : rs.Built) : rs.WF := by
  induction h with
  | new h => exact registerAll_wf wf_nil h
  | register _ h ih => exact register_wf ih h
  | borrow _ ih => exact borrow_wf ih
  | makePipes _ h _ => exact makePipes_wf h

/-! ### map semantics -/

theorem register_get? {rs rs' : Redirects} {r : Redirect} (h : rs.WF) (hr : rs.register r = .ok rs') (n : Nat) :
    Dict.get? rs' n = if r.fd = n then (if r.source = .none then none else some r) else Dict.get? rs n := by
  unfold Redirects.register at hr
  split at hr
  · rename_i hs
    split at hr
    · cases hr
      rw [Dict.get?_erase _ h.1]; simp [hs]
    · cases hr
  · rename_i hs
    cases hr
    have hs' : r.source ≠ .none := by simpa using hs
    rw [Dict.get?_set]; simp only [if_neg hs']

theorem lastFor_cons (n : Nat) (r : Redirect) (l : List Redirect) :
    lastFor n (r :: l) = match lastFor n l with
      | some q => some q
      | none => if r.fd = n then some r else none := by
  unfold lastFor
  rw [List.reverse_cons, List.find?_append]
  cases h : List.find? (fun r => r.fd == n) l.reverse with
  | some q => simp
  | none =>
    by_cases hf : r.fd = n
    · simp [hf]
    · simp [hf]

theorem afterAll_cons (m : Nat → Option Redirect) (r : Redirect) (l : List Redirect) (n : Nat) :
    afterAll m (r :: l) n =
      afterAll (fun k => if r.fd = k then (if r.source = .none then none else some r) else m k) l n := by
  unfold afterAll
  rw [lastFor_cons]
  cases lastFor n l with
  | some q => rfl
  | none => by_cases h : r.fd = n <;> simp [h]

theorem registerAll_get? {rs rs' : Redirects} {l : List Redirect} (h : rs.WF)
    (hr : rs.registerAll l = .ok rs') (n : Nat) : Dict.get? rs' n = afterAll (Dict.get? rs) l n := by
  induction l generalizing rs with
  | nil => cases hr; simp [afterAll, lastFor]
  | cons r l ih =>
    simp only [Redirects.registerAll] at hr
    split at hr
    · cases hr
    · rename_i rs1 h1
      rw [ih (register_wf h h1) hr, afterAll_cons]
      congr 1
      funext k; exact register_get? h h1 k

theorem register_error_iff {rs : Redirects} {r : Redirect} {e : Exn} :
    rs.register r = .error e ↔ e = .keyError ∧ r.source = .none ∧ Dict.get? rs r.fd = none := by
  unfold Redirects.register
  split
  · rename_i hs
    simp only [Dict.mem, hs]
    rcases Option.eq_none_or_eq_some (Dict.get? rs r.fd) with h | ⟨q, h⟩ <;> simp [h, eq_comm]
  · rename_i hs
    constructor
    · intro h; cases h
    · rintro ⟨-, h, -⟩; exact absurd h (by simpa using hs)

theorem registerAll_error_iff {rs : Redirects} {l : List Redirect} {e : Exn} (h : rs.WF) :
    rs.registerAll l = .error e ↔
      e = .keyError ∧ ∃ l1 r l2, l = l1 ++ r :: l2 ∧ r.source = .none ∧ afterAll (Dict.get? rs) l1 r.fd = none := by
  induction l generalizing rs with
  | nil => simp [Redirects.registerAll]
  | cons r l ih =>
    simp only [Redirects.registerAll]
    cases h1 : rs.register r with
    | error e' =>
      have h2 := register_error_iff.1 h1
      constructor
      · intro he; cases he
        exact ⟨h2.1, [], r, l, rfl, h2.2.1, by simp [afterAll, lastFor, h2.2.2]⟩
      · rintro ⟨he, -⟩; rw [h2.1, he]
    | ok rs1 =>
      simp only
      rw [ih (register_wf h h1)]
      have hm : Dict.get? rs1 = fun k => if r.fd = k then (if r.source = .none then none else some r) else Dict.get? rs k := by
        funext k; exact register_get? h h1 k
      constructor
      · rintro ⟨he, l1, q, l2, rfl, hq, hn⟩
        refine ⟨he, r :: l1, q, l2, rfl, hq, ?_⟩
        rw [afterAll_cons, ← hm]; exact hn
      · rintro ⟨he, l1, q, l2, hl, hq, hn⟩
        refine ⟨he, ?_⟩
        cases l1 with
        | nil =>
          simp at hl; obtain ⟨rfl, rfl⟩ := hl
          simp [afterAll, lastFor] at hn
          rw [(register_error_iff (e := .keyError)).2 ⟨rfl, hq, hn⟩] at h1; cases h1
        | cons r' l1 =>
          simp at hl; obtain ⟨rfl, rfl⟩ := hl
          rw [afterAll_cons, ← hm] at hn
          exact ⟨l1, q, l2, rfl, hq, hn⟩

theorem new_get? {args : List RArg} {rs : Redirects} (h : Redirects.new args = .ok rs) (n : Nat) :
    Dict.get? rs n = afterAll (fun _ => none) (args.flatMap RArg.list) n := by
  have := registerAll_get? wf_nil h n
  simpa [Dict.get?] using this

/-- Redirections of a well-formed table: looking up the last for a key. -/
theorem lastFor_values {rs : Redirects} (h : rs.WF) (n : Nat) : lastFor n (Dict.values rs) = Dict.get? rs n := by
  cases hg : Dict.get? rs n with
  | some r =>
    have hv := h.value_of_get? hg
    unfold lastFor
    cases hf : List.find? (fun r => r.fd == n) (Dict.values rs).reverse with
    | none =>
      rw [List.find?_eq_none] at hf
      have := hf r (by simpa using hv.1); simp [hv.2] at this
    | some q =>
      have h1 := List.find?_some hf
      have h2 := List.mem_of_find?_eq_some hf
      simp at h1 h2
      have := h.get?_of_value h2
      rw [h1, hg] at this; exact this.symm
  | none =>
    unfold lastFor
    rw [List.find?_eq_none]
    intro r hr
    have := h.get?_of_value (by simpa using hr)
    intro h1; simp at h1; rw [h1, hg] at this; cases this

theorem values_source_ne_none {rs : Redirects} (h : rs.WF) {r : Redirect} (hr : r ∈ Dict.values rs) :
    r.source ≠ .none := by
  obtain ⟨p, hp, rfl⟩ := List.mem_map.1 hr; exact (h.2 p hp).2

theorem registerAll_ok_of_no_none {rs : Redirects} {l : List Redirect}
    (h : ∀ r ∈ l, r.source ≠ .none) : ∃ rs', rs.registerAll l = .ok rs' := by
  induction l generalizing rs with
  | nil => exact ⟨rs, rfl⟩
  | cons r l ih =>
    have h1 : rs.register r = .ok (Dict.set rs r.fd r) := by
      unfold Redirects.register
      have := h r (by simp)
      cases hs : r.source <;> simp_all
    simp only [Redirects.registerAll, h1]
    exact ih (fun q hq => h q (by simp [hq]))

/-! ### from user-level hypotheses to `Performable` -/

theorem srcFds_nodup {l : List Redirect} (h : (l.map Redirect.fd).Nodup)
    (hd : ∀ r ∈ l, ∀ q ∈ l, ∀ s, r.source = .fd s → q.source = .fd s → r.fd = q.fd) : (srcFds l).Nodup := by
  induction l with
  | nil => simp [srcFds]
  | cons r l ih =>
    have h' := List.nodup_cons.1 h
    have ih' := ih h'.2 (fun a ha b hb => hd a (by simp [ha]) b (by simp [hb]))
    by_cases hf : ∃ n, r.source = .fd n
    · obtain ⟨n, hn⟩ := hf
      rw [srcFds_cons_fd hn]
      refine List.nodup_cons.2 ⟨?_, ih'⟩
      intro hm
      obtain ⟨q, hq, hqs⟩ := mem_srcFds.1 hm
      have := hd r (by simp) q (by simp [hq]) n hn hqs
      exact h'.1 (by rw [this]; exact List.mem_map_of_mem hq)
    · rw [srcFds_cons_nofd (fun n hn => hf ⟨n, hn⟩)]; exact ih'

theorem foldl_max_lt (l : List Nat) (a k : Nat) (ha : a < k) (h : ∀ x ∈ l, x < k) : l.foldl max a < k := by
  induction l generalizing a with
  | nil => exact ha
  | cons y l ih =>
    rw [List.foldl_cons]
    exact ih _ (by have := h y (by simp); omega) (fun x hx => h x (by simp [hx]))

theorem room_of_fits {sys : Sys} {rs : Redirects} (hwf : rs.WF) (h : FitsLimit sys rs) :
    rs.findFreeFd + rs.length ≤ sys.maxfd := by
  have key : ((Dict.values rs).map Redirect.fd ++ srcFds (Dict.values rs) ++ [2]).foldl max 0 < sys.maxfd - rs.length := by
    apply foldl_max_lt
    · have := h.1; omega
    · intro x hx
      simp only [List.mem_append, List.mem_singleton] at hx
      rcases hx with (hx | hx) | hx
      · rw [hwf.keys_eq, Dict.mem_keys_iff] at hx
        obtain ⟨r, hr⟩ := hx
        have := (h.2 x r hr).1; omega
      · obtain ⟨r, hr, hs⟩ := mem_srcFds.1 hx
        have := (h.2 r.fd r (hwf.get?_of_value hr)).2 x hs; omega
      · have := h.1; omega
  unfold Redirects.findFreeFd; omega

theorem freeAfter_iff {rs : Redirects} (hwf : rs.WF) {t : FdTable} {bef : List Redirect} {n : Nat} :
    FreeAfter rs t bef n ↔ (t.get n = none ∨ n ∈ srcFds (Dict.values rs)) ∧ n ∉ bef.map Redirect.fd := by
  unfold FreeAfter
  refine and_congr (or_congr Iff.rfl ?_) ?_
  · rw [mem_srcFds]
    constructor
    · rintro ⟨m, q, h1, h2⟩; exact ⟨q, (hwf.value_of_get? h1).1, h2⟩
    · rintro ⟨q, h1, h2⟩; exact ⟨q.fd, q, hwf.get?_of_value h1, h2⟩
  · simp only [List.mem_map, not_exists, not_and]

theorem performable_of_noClash {sys : Sys} {cwd : Str} {rs : Redirects} {t : FdTable}
    (hwf : rs.WF) (hb : t.Bounded) (hm : Materialised rs) (ho : OpenSources rs t)
    (hd : DistinctSources rs) (hl : FitsLimit sys rs)
    (hp : ∀ n r p, Dict.get? rs n = some r → r.source = .path p → sys.openErr cwd p r.flag = none) (hc : ¬ Clash rs t) :
    Performable sys cwd rs t where
  bounded := hb
  wf := hwf
  plain := fun r hr => hm r.fd r (hwf.get?_of_value hr)
  openSrc := fun s hs => by
    obtain ⟨r, hr, he⟩ := mem_srcFds.1 hs
    exact ho r.fd r s (hwf.get?_of_value hr) he
  distinct := srcFds_nodup hwf.nodup_fds (fun r hr q hq s h1 h2 =>
    hd r.fd q.fd r q s (hwf.get?_of_value hr) (hwf.get?_of_value hq) h1 h2)
  canOpen := fun r hr p h => hp r.fd r p (hwf.get?_of_value hr) h
  noClash := fun bef r aft p hl h hcl => hc ⟨bef, r, aft, p, hl, h, (freeAfter_iff hwf).2 ⟨hcl.1, hcl.2.1⟩, fun m hm hf => hcl.2.2 m hm ((freeAfter_iff hwf).1 hf)⟩
  room := room_of_fits hwf hl

theorem performAll_append (sys : Sys) (cwd : Str) (l1 l2 : List Redirect) (t : FdTable) :
    performAll sys cwd (l1 ++ l2) t = match performAll sys cwd l1 t with
      | (.ok _, t1) => performAll sys cwd l2 t1
      | (.error e, t1) => (.error e, t1) := by
  induction l1 generalizing t with
  | nil => rfl
  | cons r l1 ih =>
    simp only [List.cons_append, performAll]
    split
    · rfl
    · rw [ih]

theorem srcFds_append (a b : List Redirect) : srcFds (a ++ b) = srcFds a ++ srcFds b := by simp [srcFds]

/-- the first redirection that clashes -/
theorem first_clash {t : FdTable} (L : List Redirect) : ∀ bef r aft p, L = bef ++ r :: aft → r.source = .path p → ClashAt t bef r.fd →
    ∃ bef r aft p, L = bef ++ r :: aft ∧ r.source = .path p ∧ ClashAt t bef r.fd ∧
      ∀ bef' r' aft', bef = bef' ++ r' :: aft' → ∀ p, r'.source = .path p → ¬ ClashAt t bef' r'.fd := by
  intro bef
  induction h : bef.length using Nat.strongRecOn generalizing bef with
  | _ n ih =>
    intro r aft p hL hp hc
    by_cases hex : ∃ bef' r' aft' p', bef = bef' ++ r' :: aft' ∧ r'.source = .path p' ∧ ClashAt t bef' r'.fd
    · obtain ⟨bef', r', aft', p', e1, e2, e3⟩ := hex
      exact ih bef'.length (by rw [← h, e1]; simp) bef' rfl r' (aft' ++ r :: aft) p' (by rw [hL, e1]; simp) e2 e3
    · exact ⟨bef, r, aft, p, hL, hp, hc, fun b r' a e p' e2 e3 => hex ⟨b, r', a, p', e, e2, e3⟩⟩

/-- a clash: the assertion fails and the descriptor is left close-on-exec -/
theorem performAll_clash (sys : Sys) (cwd : Str) (b : Nat) (L : List Redirect) (t : FdTable)
    (hb : t.Bounded)
    (hplain : ∀ r ∈ L, r.Plain)
    (htgt : ∀ r ∈ L, r.fd < b ∧ r.fd < sys.maxfd)
    (htnd : (L.map Redirect.fd).Nodup)
    (hsrc : ∀ s ∈ srcFds L, b ≤ s ∧ ∃ e, t.get s = some e)
    (hsnd : (srcFds L).Nodup)
    (hpath : ∀ r ∈ L, ∀ p, r.source = .path p → sys.openErr cwd p r.flag = none)
    {bef aft : List Redirect} {r : Redirect} {p : Str} (hL : L = bef ++ r :: aft) (hp : r.source = .path p) (hc : ClashAt t bef r.fd) :
    ∃ r ∈ L, ∃ t' e, performAll sys cwd L t = (.error .assertion, t') ∧ t'.get r.fd = some e ∧ e.cloexec = true := by
  obtain ⟨bef, r, aft, p, hL, hp, hc, hfirst⟩ := first_clash L bef r aft p hL hp hc
  have hin : ∀ q ∈ bef, q ∈ L := fun q hq => by rw [hL]; simp [hq]
  rw [hL, List.map_append, List.nodup_append] at htnd
  rw [hL, srcFds_append, List.nodup_append] at hsnd
  obtain ⟨t1, h1, hb1, -, h2, h3⟩ := performAll_ok sys cwd b bef t hb (fun q hq => hplain q (hin q hq)) (fun q hq => htgt q (hin q hq)) htnd.1
    (fun s hs => hsrc s (by rw [hL, srcFds_append]; simp [hs])) hsnd.1 (fun q hq => hpath q (hin q hq)) hfirst
  have hfd : r.fd < b := (htgt r (by rw [hL]; simp)).1
  have hns : ∀ m, m < b → m ∉ srcFds bef := fun m hm hs => by have := (hsrc m (by rw [hL, srcFds_append]; simp [hs])).1; omega
  have hlow : t1.lowestFree = r.fd := by
    have hle := FdTable.lowestFree_le_of_free hb1 (show t1.get r.fd = none by rw [h2 _ hc.1.2 (hns _ hfd)]; exact hc.1.1)
    rcases Nat.lt_or_ge t1.lowestFree r.fd with h | h
    · exfalso
      have hfree := FdTable.lowestFree_free hb1
      by_cases hm : t1.lowestFree ∈ bef.map Redirect.fd
      · obtain ⟨q, hq, he⟩ := List.mem_map.1 hm
        obtain ⟨t1', h1', -, hd, -, -⟩ := performAll_ok sys cwd b bef t hb (fun q hq => hplain q (hin q hq)) (fun q hq => htgt q (hin q hq)) htnd.1
          (fun s hs => hsrc s (by rw [hL, srcFds_append]; simp [hs])) hsnd.1 (fun q hq => hpath q (hin q hq)) hfirst
        rw [h1] at h1'; cases h1'
        obtain ⟨o, -, ho⟩ := hd q hq
        rw [he, hfree] at ho; cases ho
      · rw [h2 _ hm (hns _ (by omega))] at hfree
        exact hc.2 _ h ⟨hfree, hm⟩
    · omega
  refine ⟨r, by rw [hL]; simp, t1.set r.fd { obj := .file cwd p r.flag r.mode, cloexec := true }, { obj := .file cwd p r.flag r.mode, cloexec := true }, ?_, by simp, rfl⟩
  rw [hL, performAll_append, h1]
  simp [performAll, Redirect.perform, Redirect.open, hp, osOpen, hpath r (by rw [hL]; simp) p hp, hlow]

/-- and so for the whole of `perform` -/
theorem perform_clash {sys : Sys} {cwd : Str} {rs : Redirects} {t : FdTable}
    (hwf : rs.WF) (hb : t.Bounded) (hm : Materialised rs) (ho : OpenSources rs t)
    (hd : DistinctSources rs) (hl : FitsLimit sys rs)
    (hp : ∀ n r p, Dict.get? rs n = some r → r.source = .path p → sys.openErr cwd p r.flag = none) (hc : Clash rs t) :
    (rs.performTry sys cwd t).1 = .error .assertion ∧ ∃ n r, Dict.get? rs n = some r ∧ execTable (rs.perform sys cwd t) n = none := by
  have hfree := findFreeFd_gt rs
  have hlen : (Dict.values rs).length = rs.length := by simp [Dict.values]
  have hplain : ∀ r ∈ Dict.values rs, r.Plain := fun r hr => hm r.fd r (hwf.get?_of_value hr)
  have hopen : ∀ s ∈ srcFds (Dict.values rs), ∃ e, t.get s = some e := fun s hs => by
    obtain ⟨r, hr, he⟩ := mem_srcFds.1 hs
    exact ho r.fd r s (hwf.get?_of_value hr) he
  have hnd := srcFds_nodup hwf.nodup_fds (fun r hr q hq s h1 h2 => hd r.fd q.fd r q s (hwf.get?_of_value hr) (hwf.get?_of_value hq) h1 h2)
  have hroom := room_of_fits hwf hl
  obtain ⟨t1, hmv, hb1, hg1⟩ := moveAll_ok sys (Dict.values rs) rs.findFreeFd t hb hplain
    (fun s hs => ⟨hfree.2.1 s hs, hopen s hs⟩) hnd (by rw [hlen]; exact hroom)
  obtain ⟨bef, r, aft, p, hL, hps, hf1, hf2⟩ := hc
  obtain ⟨bef1, aft1, e1, e2⟩ := moved_split' (b := rs.findFreeFd) hL hps
  have hrm : r ∈ Dict.values rs := by rw [hL]; simp
  have hcl : ClashAt t1 bef1 r.fd := clash_moved' hg1 (hfree.1 r hrm) e2.symm
    ⟨((freeAfter_iff hwf).1 hf1).1, ((freeAfter_iff hwf).1 hf1).2, fun m hm h => hf2 m hm ((freeAfter_iff hwf).2 h)⟩
  obtain ⟨q, hq, t', e, h1, h2, h3⟩ := performAll_clash sys cwd rs.findFreeFd (moved rs.findFreeFd (Dict.values rs)) t1 hb1
    (by
      intro r' hr'
      obtain ⟨i, r, h1, h2⟩ := mem_moved hr'
      rcases hplain r (List.mem_of_getElem? h1) with ⟨n, hn⟩ | ⟨p, hp⟩
      · left; simp [hn] at h2; exact ⟨rs.findFreeFd + i, by rw [h2]⟩
      · right; simp [hp] at h2; exact ⟨p, by rw [h2, hp]⟩)
    (by
      intro r hr
      have h1 : r.fd ∈ (moved rs.findFreeFd (Dict.values rs)).map Redirect.fd := List.mem_map_of_mem hr
      rw [moved_fd] at h1
      obtain ⟨r0, hr0, he⟩ := List.mem_map.1 h1
      have := hfree.1 r0 hr0
      omega)
    (by rw [moved_fd]; exact hwf.nodup_fds)
    (by
      intro s hs
      obtain ⟨h1, i, r, n, he, hi, hn⟩ := srcFds_moved_ge hs
      refine ⟨h1, ?_⟩
      rw [hg1 s]
      have h3 : ¬ s < rs.findFreeFd := by omega
      have h4 : s - rs.findFreeFd = i := by omega
      obtain ⟨e, hee⟩ := hopen n (mem_srcFds.2 ⟨r, List.mem_of_getElem? hi, hn⟩)
      exact ⟨{ obj := e.obj, cloexec := false }, by simp [movedGet, h3, h4, hi, hn, hee]⟩)
    (srcFds_moved_nodup _ _)
    (by
      intro r' hr' p hp'
      obtain ⟨i, r, h1, h2⟩ := mem_moved hr'
      have hmem := List.mem_of_getElem? h1
      have hrp : r' = r := by
        rcases hplain r hmem with ⟨n, hn⟩ | ⟨p', hp''⟩
        · simp [hn] at h2; subst h2; simp at hp'
        · simpa [hp''] using h2
      subst hrp
      exact hp r'.fd r' p (hwf.get?_of_value hmem) hp') e1 hps hcl
  have hq' : q.fd ∈ Dict.keys rs := by
    rw [← hwf.keys_eq, ← moved_fd rs.findFreeFd]; exact List.mem_map_of_mem hq
  obtain ⟨r2, hr2⟩ := (Dict.mem_keys_iff rs q.fd).1 hq'
  refine ⟨by simp [Redirects.performTry, Redirects.moveExistingFds, hmv, h1], q.fd, r2, hr2, ?_⟩
  simp [Redirects.perform, Redirects.performTry, Redirects.moveExistingFds, hmv, h1, execTable, h2, h3]

theorem performable_of {sys : Sys} {cwd : Str} {rs : Redirects} {t : FdTable}
    (hwf : rs.WF) (hb : t.Bounded) (hm : Materialised rs) (ho : OpenSources rs t)
    (hd : DistinctSources rs) (hl : FitsLimit sys rs)
    (hp : ∀ n r p, Dict.get? rs n = some r → r.source = .path p →
      sys.openErr cwd p r.flag = none ∧ t.get n ≠ none ∧
      ∀ m q, Dict.get? rs m = some q → q.source ≠ .fd n) :
    Performable sys cwd rs t where
  bounded := hb
  wf := hwf
  plain := fun r hr => hm r.fd r (hwf.get?_of_value hr)
  openSrc := fun s hs => by
    obtain ⟨r, hr, he⟩ := mem_srcFds.1 hs
    exact ho r.fd r s (hwf.get?_of_value hr) he
  distinct := srcFds_nodup hwf.nodup_fds (fun r hr q hq s h1 h2 =>
    hd r.fd q.fd r q s (hwf.get?_of_value hr) (hwf.get?_of_value hq) h1 h2)
  canOpen := fun r hr p h => (hp r.fd r p (hwf.get?_of_value hr) h).1
  noClash := fun bef r aft p hl h hc => by
    have := hp r.fd r p (hwf.get?_of_value (by rw [hl]; simp)) h
    rcases hc.1 with hc | hc
    · exact this.2.1 hc
    · obtain ⟨q, hq, he⟩ := mem_srcFds.1 hc
      exact this.2.2 q.fd q (hwf.get?_of_value hq) he
  room := room_of_fits hwf hl

/-! ### failing moves -/

theorem move_ok_fd {sys : Sys} {r r' : Redirect} {b n : Nat} {t t1 : FdTable} (hn : r.source = .fd n)
    (hnb : n ≠ b) (h : r.move sys b t = (.ok r', t1)) :
    ∃ e, t.get n = some e ∧ t1 = (t.set b { obj := e.obj, cloexec := false }).clear n := by
  simp only [Redirect.move, hn, osDup2] at h
  cases hg : t.get n with
  | none => simp [hg] at h
  | some e =>
    by_cases hm : sys.maxfd ≤ b
    · simp [hg, hm] at h
    · simp [hg, hm, hnb, osClose] at h
      exact ⟨e, rfl, h.2.symm⟩

theorem moveAll_error_closed (sys : Sys) (l : List Redirect) (b s : Nat) (t : FdTable)
    (hs : s ∈ srcFds l) (hcl : t.get s = none) (hsb : s < b) :
    ∃ e t', moveAll sys l b t = (.error e, t') := by
  induction l generalizing b t with
  | nil => simp [srcFds] at hs
  | cons r l ih =>
    simp only [moveAll]
    cases hmv : r.move sys b t with
    | mk res t1 =>
      cases res with
      | error e => exact ⟨e, t1, rfl⟩
      | ok r' =>
        simp only
        have key : t1.get s = none ∧ s ∈ srcFds l := by
          by_cases hf : ∃ n, r.source = .fd n
          · obtain ⟨n, hn⟩ := hf
            rw [srcFds_cons_fd hn] at hs
            by_cases hnb : n = b
            · subst hnb
              have hne : s ≠ n := by omega
              refine ⟨?_, by simpa [hne] using hs⟩
              have hmv2 := congrArg Prod.snd hmv
              simp only [Redirect.move, hn, osDup2, osClose] at hmv2
              rcases Option.eq_none_or_eq_some (t.get n) with hg | ⟨e, hg⟩
              · simp [hg] at hmv2; rw [← hmv2]; exact hcl
              · by_cases hm : sys.maxfd ≤ n
                · simp [hg, hm] at hmv2; rw [← hmv2]; exact hcl
                · simp [hg, hm] at hmv2; rw [← hmv2]; simp [hcl]
            · obtain ⟨e, hg, ht1⟩ := move_ok_fd hn hnb hmv
              rcases List.mem_cons.1 hs with h | h
              · subst h; rw [hcl] at hg; cases hg
              · refine ⟨?_, h⟩
                have : s ≠ b := by omega
                rw [ht1]; simp [hcl, this]
          · rw [srcFds_cons_nofd (fun n hn => hf ⟨n, hn⟩)] at hs
            refine ⟨?_, hs⟩
            have : r.move sys b t = (.ok r, t) := by
              unfold Redirect.move; split
              · rename_i n hn; exact absurd ⟨n, hn⟩ hf
              · rfl
            rw [this] at hmv; cases hmv; exact hcl
        obtain ⟨e, t', he⟩ := ih (b+1) t1 key.2 key.1 (by omega)
        exact ⟨e, t', by rw [he]⟩

theorem moveAll_error_dup (sys : Sys) (l : List Redirect) (b : Nat) (t : FdTable)
    (hdup : ¬ (srcFds l).Nodup) (hb : ∀ s ∈ srcFds l, s < b) :
    ∃ e t', moveAll sys l b t = (.error e, t') := by
  induction l generalizing b t with
  | nil => simp [srcFds] at hdup
  | cons r l ih =>
    by_cases hf : ∃ n, r.source = .fd n
    · obtain ⟨n, hn⟩ := hf
      rw [srcFds_cons_fd hn] at hdup hb
      simp only [moveAll]
      cases hmv : r.move sys b t with
      | mk res t1 =>
        cases res with
        | error e => exact ⟨e, t1, rfl⟩
        | ok r' =>
          simp only
          have key : ∃ e t', moveAll sys l (b+1) t1 = (.error e, t') := by
            by_cases hmem : n ∈ srcFds l
            · refine moveAll_error_closed sys l (b+1) n t1 hmem ?_ (by have := hb n (by simp); omega)
              have hnb : n ≠ b := by have := hb n (by simp); omega
              obtain ⟨e, hg, ht1⟩ := move_ok_fd hn hnb hmv
              rw [ht1]; simp
            · exact ih (b+1) t1 (fun h => hdup (List.nodup_cons.2 ⟨hmem, h⟩))
                (fun s hs => by have := hb s (by simp [hs]); omega)
          obtain ⟨e, t', he⟩ := key
          exact ⟨e, t', by rw [he]⟩
    · rw [srcFds_cons_nofd (fun n hn => hf ⟨n, hn⟩)] at hdup hb
      have : r.move sys b t = (.ok r, t) := by
        unfold Redirect.move; split
        · rename_i n hn; exact absurd ⟨n, hn⟩ hf
        · rfl
      obtain ⟨e, t', he⟩ := ih (b+1) t hdup (fun s hs => by have := hb s hs; omega)
      exact ⟨e, t', by simp only [moveAll, this, he]⟩

/-! ### closing sources in the shell -/

/-- Source descriptors that the shell closes. -/
def ownedFds (l : List Redirect) : List Nat := srcFds (l.filter (fun r => !r.borrowed))

theorem closeSources_ok (l : List Redirect) (t : FdTable)
    (hop : ∀ s ∈ ownedFds l, t.get s ≠ none) (hnd : (ownedFds l).Nodup) :
    ∃ t', closeSources l t = (.ok (), t') ∧
      (∀ n, t'.get n = if n ∈ ownedFds l then none else t.get n) ∧ (t.Bounded → t'.Bounded) := by
  induction l generalizing t with
  | nil => exact ⟨t, rfl, by simp [ownedFds, srcFds], id⟩
  | cons r l ih =>
    by_cases hf : ∃ n, r.source = .fd n ∧ r.borrowed = false
    · obtain ⟨n, hn, hbo⟩ := hf
      have ho : ownedFds (r :: l) = n :: ownedFds l := by
        simp only [ownedFds, List.filter_cons, hbo]; exact srcFds_cons_fd hn _
      rw [ho] at hop hnd
      have hnd' := List.nodup_cons.1 hnd
      cases hg : t.get n with
      | none => exact absurd hg (hop n (by simp))
      | some e =>
        have hc : r.closeSourceFd t = (.ok (), t.clear n) := by
          simp [Redirect.closeSourceFd, hn, hbo, osClose, hg]
        obtain ⟨t', h1, h2, h3⟩ := ih (t.clear n) (by
          intro s hs
          have : s ≠ n := by intro h; subst h; exact hnd'.1 hs
          simp [this]; exact hop s (by simp [hs])) hnd'.2
        refine ⟨t', by simp [closeSources, hc, h1], ?_, fun hb => h3 (FdTable.bounded_clear hb _)⟩
        intro m; rw [h2, ho]
        by_cases hm : m ∈ ownedFds l
        · simp [hm]
        · by_cases hmn : m = n <;> simp [hm, hmn]
    · have ho : ownedFds (r :: l) = ownedFds l := by
        unfold ownedFds
        rw [List.filter_cons]; split
        · rename_i hbo
          rw [srcFds_cons_nofd]
          intro n hn; exact hf ⟨n, hn, by simpa using hbo⟩
        · rfl
      have hc : r.closeSourceFd t = (.ok (), t) := by
        unfold Redirect.closeSourceFd
        split
        · rename_i n hn
          split
          · rfl
          · rename_i hbo; exact absurd ⟨n, hn, by simpa using hbo⟩ hf
        · rfl
      rw [ho] at hop hnd ⊢
      obtain ⟨t', h1, h2, h3⟩ := ih t hop hnd
      exact ⟨t', by simp [closeSources, hc, h1], h2, h3⟩

/-- Closing never affects a descriptor that is not owned, whether or not it raises. -/
theorem closeSources_other (l : List Redirect) (t : FdTable) (n : Nat) (h : n ∉ ownedFds l) :
    (closeSources l t).2.get n = t.get n := by
  induction l generalizing t with
  | nil => rfl
  | cons r l ih =>
    have hsub : n ∉ ownedFds l := by
      intro hm; apply h
      obtain ⟨q, hq, he⟩ := mem_srcFds.1 hm
      refine mem_srcFds.2 ⟨q, ?_, he⟩
      rw [List.filter_cons]; split
      · exact List.mem_cons_of_mem _ hq
      · exact hq
    have hc : (r.closeSourceFd t).2.get n = t.get n := by
      unfold Redirect.closeSourceFd
      split
      · rename_i s hs
        split
        · rfl
        · rename_i hbo
          have hne : n ≠ s := by
            intro e; subst e; apply h
            exact mem_srcFds.2 ⟨r, by simp [hbo], hs⟩
          unfold osClose; split
          · rfl
          · simp [hne]
      · rfl
    simp only [closeSources]
    cases hcc : r.closeSourceFd t with
    | mk res t1 =>
      rw [hcc] at hc
      cases res with
      | error e => exact hc
      | ok u => simp only; rw [ih t1 hsub]; exact hc

end Pieshell
