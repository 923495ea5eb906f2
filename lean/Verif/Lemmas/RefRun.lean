import Verif.Spec.Run
import Verif.Lemmas.RedirTable
/-! Facts about the reference semantics. -/
namespace Pieshell

variable {sys : Sys} {cwd : Str}

/-! ### chains -/

/-- Start one link of a chain. -/
def refLink (cwd : Str) (l : Link) (i : Obj) (o e : Want) (c : Ctr) : RefOut :=
  refRun cwd l.leaf (orIn cwd l.inp i) (orWant cwd l.out o) (orWant cwd l.err e) c

/-- Segments of a chain. -/
def refSegs (cwd : Str) : List Link → Obj → Want → Want → Ctr → List RefOut
  | [], _, _, _, _ => []
  | [l], i, o, e, c => [refLink cwd l i o e c]
  | l :: l' :: ls, i, o, e, c =>
    refLink cwd l i .pipeOut e c ::
      refSegs cwd (l' :: ls) (.pipeR (refLink cwd l i .pipeOut e c).out) o e (refLink cwd l i .pipeOut e c).ctr

theorem refSegs_cons {l : Link} {ls : List Link} (h : ls ≠ []) (i : Obj) (o e : Want) (c : Ctr) :
    refSegs cwd (l :: ls) i o e c = refLink cwd l i .pipeOut e c ::
      refSegs cwd ls (.pipeR (refLink cwd l i .pipeOut e c).out) o e (refLink cwd l i .pipeOut e c).ctr := by
  cases ls with
  | nil => exact absurd rfl h
  | cons a b => rfl

theorem refSegs_ne_nil {ls : List Link} (h : ls ≠ []) (i : Obj) (o e : Want) (c : Ctr) : refSegs cwd ls i o e c ≠ [] := by
  cases ls with
  | nil => exact absurd rfl h
  | cons l ls =>
    by_cases hl : ls = []
    · subst hl; simp [refSegs]
    · rw [refSegs_cons hl]; simp

theorem refSegs_append {xs ys : List Link} (hx : xs ≠ []) (hy : ys ≠ []) (i : Obj) (o e : Want) (c : Ctr) :
    ∃ r, (refSegs cwd xs i .pipeOut e c).getLast? = some r ∧
      refSegs cwd (xs ++ ys) i o e c = refSegs cwd xs i .pipeOut e c ++ refSegs cwd ys (.pipeR r.out) o e r.ctr := by
  induction xs generalizing i c with
  | nil => exact absurd rfl hx
  | cons l ls ih =>
    by_cases hl : ls = []
    · subst hl
      refine ⟨refLink cwd l i .pipeOut e c, rfl, ?_⟩
      rw [List.singleton_append, refSegs_cons hy]; rfl
    · obtain ⟨r, h1, h2⟩ := ih hl (.pipeR (refLink cwd l i .pipeOut e c).out) (refLink cwd l i .pipeOut e c).ctr
      refine ⟨r, ?_, ?_⟩
      · rw [refSegs_cons hl, List.getLast?_cons_of_ne_nil (refSegs_ne_nil hl _ _ _ _), h1]
      · rw [List.cons_append, refSegs_cons (by simp [hl]), h2, refSegs_cons hl]; rfl

theorem pushIn_length (r : Option Redirect) (ls : List Link) : (pushIn r ls).length = ls.length := by
  cases ls <;> simp [pushIn]
theorem pushOut_length (r : Option Redirect) (ls : List Link) : (pushOut r ls).length = ls.length := by
  induction ls with
  | nil => rfl
  | cons l ls ih =>
    cases ls with
    | nil => rfl
    | cons l' ls => simp only [pushOut, List.length_cons]; rw [ih]; rfl
theorem pushErr_length (r : Option Redirect) (ls : List Link) : (pushErr r ls).length = ls.length := by simp [pushErr]

theorem links_length_redirect (p : Pipeline) (crs : Redirects) : (Pipeline.redirect p crs).links.length = p.links.length := by
  simp only [Pipeline.links, pushIn_length, pushOut_length, pushErr_length]

theorem links_ne_nil : (p : Pipeline) → p.links ≠ []
  | .pipe a b => by simp only [Pipeline.links, ne_eq, List.append_eq_nil_iff]; exact fun h => links_ne_nil a h.1
  | .command _ _ => by simp [Pipeline.links]
  | .func _ => by simp [Pipeline.links]
  | .iter _ => by simp [Pipeline.links]
  | .group _ _ => by simp [Pipeline.links]
  | .redirect p crs => by
    have h := links_ne_nil p
    intro h'
    have := links_length_redirect p crs
    rw [h'] at this
    exact h (List.length_eq_zero_iff.1 this.symm)

theorem orWant_or (a b : Option Redirect) (x : Want) : orWant cwd (a.or b) x = orWant cwd a (orWant cwd b x) := by
  cases a <;> rfl

/-- The redirections of a link are possible: stdin from a file, stderr not to a pipe. -/
structure LinkOk (l : Link) : Prop where
  inp : ∀ r, l.inp = some r → ∃ p, r.source = .path p
  err : ∀ r, l.err = some r → r.source ≠ .PIPE

theorem orIn_or {a b : Option Redirect} (h : ∀ r, a = some r → ∃ p, r.source = .path p) (i : Obj) :
    orIn cwd (a.or b) i = orIn cwd a (orIn cwd b i) := by
  cases a with
  | none => rfl
  | some r =>
    obtain ⟨p, hp⟩ := h r rfl
    simp [orIn, orWant, Redirect.want, hp]

theorem refSegs_pushErr (r : Option Redirect) (ls : List Link) (i : Obj) (o e : Want) (c : Ctr) :
    refSegs cwd (pushErr r ls) i o e c = refSegs cwd ls i o (orWant cwd r e) c := by
  have hl : ∀ (l : Link) i o c, refLink cwd { l with err := l.err.or r } i o e c = refLink cwd l i o (orWant cwd r e) c := by
    intro l i o c; simp only [refLink, orWant_or]
  induction ls generalizing i c with
  | nil => rfl
  | cons l ls ih =>
    by_cases hn : ls = []
    · subst hn; simp only [pushErr, List.map_cons, List.map_nil, refSegs, hl]
    · have hn' : pushErr r ls ≠ [] := by simpa [pushErr] using hn
      show refSegs cwd ({ l with err := l.err.or r } :: pushErr r ls) i o e c = _
      rw [refSegs_cons hn', refSegs_cons hn, hl, ih]

theorem refSegs_pushOut (r : Option Redirect) (ls : List Link) (i : Obj) (o e : Want) (c : Ctr) :
    refSegs cwd (pushOut r ls) i o e c = refSegs cwd ls i (orWant cwd r o) e c := by
  induction ls generalizing i c with
  | nil => rfl
  | cons l ls ih =>
    cases ls with
    | nil => simp only [pushOut, refSegs, refLink, orWant_or]
    | cons l' ls =>
      have hn' : pushOut r (l' :: ls) ≠ [] := by
        intro h; have := pushOut_length r (l' :: ls); rw [h] at this; simp at this
      simp only [pushOut]
      rw [refSegs_cons hn', refSegs_cons (by simp), ih]

theorem refSegs_pushIn (r : Option Redirect) (ls : List Link) (h : ∀ l ∈ ls, LinkOk l) (i : Obj) (o e : Want) (c : Ctr) :
    refSegs cwd (pushIn r ls) i o e c = refSegs cwd ls (orIn cwd r i) o e c := by
  cases ls with
  | nil => rfl
  | cons l ls =>
    have hl : ∀ o, refLink cwd { l with inp := l.inp.or r } i o e c = refLink cwd l (orIn cwd r i) o e c := by
      intro o; simp only [refLink, orIn_or (h l (by simp)).inp]
    by_cases hn : ls = []
    · subst hn; simp only [pushIn, refSegs, hl]
    · simp only [pushIn]
      rw [refSegs_cons hn, refSegs_cons hn, hl]

theorem mem_pushIn {r : Option Redirect} {ls : List Link} {l : Link} (h : l ∈ pushIn r ls) :
    ∃ l0 ∈ ls, l = l0 ∨ l = { l0 with inp := l0.inp.or r } := by
  cases ls with
  | nil => simp [pushIn] at h
  | cons a ls =>
    simp only [pushIn, List.mem_cons] at h
    rcases h with h | h
    · exact ⟨a, by simp, .inr h⟩
    · exact ⟨l, by simp [h], .inl rfl⟩

theorem mem_pushOut {r : Option Redirect} {ls : List Link} {l : Link} (h : l ∈ pushOut r ls) :
    ∃ l0 ∈ ls, l = l0 ∨ l = { l0 with out := l0.out.or r } := by
  induction ls with
  | nil => simp [pushOut] at h
  | cons a ls ih =>
    cases ls with
    | nil => simp only [pushOut, List.mem_singleton] at h; exact ⟨a, by simp, .inr h⟩
    | cons b ls =>
      simp only [pushOut, List.mem_cons] at h
      rcases h with h | h
      · exact ⟨a, by simp, .inl h⟩
      · obtain ⟨l0, h1, h2⟩ := ih h
        exact ⟨l0, List.mem_cons_of_mem _ h1, h2⟩

theorem mem_pushErr {r : Option Redirect} {ls : List Link} {l : Link} (h : l ∈ pushErr r ls) :
    ∃ l0 ∈ ls, l = { l0 with err := l0.err.or r } := by
  obtain ⟨l0, h1, h2⟩ := List.mem_map.1 h
  exact ⟨l0, h1, h2.symm⟩

/-- Every link of a redirected pipeline is one of the pipeline, with possibly more redirections. -/
theorem mem_links_redirect {p : Pipeline} {crs : Redirects} {l : Link} (h : l ∈ (Pipeline.redirect p crs).links) :
    ∃ l0 ∈ p.links, l.leaf = l0.leaf ∧ (l.inp = l0.inp ∨ l.inp = l0.inp.or (Dict.get? crs 0)) ∧
      (l.out = l0.out ∨ l.out = l0.out.or (Dict.get? crs 1)) ∧ l.err = l0.err.or (Dict.get? crs 2) := by
  simp only [Pipeline.links] at h
  obtain ⟨l1, h1, h1'⟩ := mem_pushIn h
  obtain ⟨l2, h2, h2'⟩ := mem_pushOut h1
  obtain ⟨l3, h3, rfl⟩ := mem_pushErr h2
  refine ⟨l3, h3, ?_⟩
  rcases h1' with rfl | rfl <;> rcases h2' with rfl | rfl <;> simp

theorem Redirect.Simple.zero {r : Redirect} (h : r.Simple sys cwd) (h0 : r.fd = 0) : ∃ p, r.source = .path p := by
  rcases h with ⟨p, h, _⟩ | ⟨_, _, h⟩ | ⟨_, _, h⟩
  · exact ⟨p, h⟩
  · omega
  · omega

theorem Redirect.Simple.two {r : Redirect} (h : r.Simple sys cwd) (h0 : r.fd = 2) : r.source ≠ .PIPE := by
  rcases h with ⟨p, h, _⟩ | ⟨_, _, h⟩ | ⟨h | h, _⟩
  · rw [h]; simp
  · omega
  · rw [h]; simp
  · rw [h]; simp

theorem links_ok : (p : Pipeline) → p.Redirectable sys cwd → ∀ l ∈ p.links, LinkOk l
  | .pipe a b, h, l, hl => by
    simp only [Pipeline.Redirectable] at h
    simp only [Pipeline.links, List.mem_append] at hl
    rcases hl with hl | hl
    · exact links_ok a h.1 l hl
    · exact links_ok b h.2.1 l hl
  | .redirect p crs, h, l, hl => by
    simp only [Pipeline.Redirectable] at h
    obtain ⟨l0, h0, -, h1, -, h2⟩ := mem_links_redirect hl
    have ok := links_ok p h.1 l0 h0
    have hin : ∀ r, l0.inp.or (Dict.get? crs 0) = some r → ∃ p, r.source = .path p := by
      intro r hr
      cases hi : l0.inp with
      | some q => rw [hi] at hr; simp at hr; subst hr; exact ok.inp q hi
      | none =>
        rw [hi] at hr; simp at hr
        have hv := h.2.1.wf.value_of_get? hr
        exact (h.2.2 r hv.1).zero hv.2
    refine ⟨?_, ?_⟩
    · rcases h1 with h1 | h1
      · rw [h1]; exact ok.inp
      · rw [h1]; exact hin
    · rw [h2]; intro r hr
      cases hi : l0.err with
      | some q => rw [hi] at hr; simp at hr; subst hr; exact ok.err q hi
      | none =>
        rw [hi] at hr; simp at hr
        have hv := h.2.1.wf.value_of_get? hr
        exact (h.2.2 r hv.1).two hv.2
  | .command _ _, _, l, hl => by simp [Pipeline.links] at hl; subst hl; exact ⟨by simp, by simp⟩
  | .func _, _, l, hl => by simp [Pipeline.links] at hl; subst hl; exact ⟨by simp, by simp⟩
  | .iter _, _, l, hl => by simp [Pipeline.links] at hl; subst hl; exact ⟨by simp, by simp⟩
  | .group _ _, _, l, hl => by simp [Pipeline.links] at hl; subst hl; exact ⟨by simp, by simp⟩

theorem leaf_redirectable : (p : Pipeline) → p.Redirectable sys cwd → ∀ l ∈ p.links, l.leaf.Redirectable sys cwd
  | .pipe a b, h, l, hl => by
    simp only [Pipeline.Redirectable] at h
    simp only [Pipeline.links, List.mem_append] at hl
    rcases hl with hl | hl
    · exact leaf_redirectable a h.1 l hl
    · exact leaf_redirectable b h.2.1 l hl
  | .redirect p crs, h, l, hl => by
    simp only [Pipeline.Redirectable] at h
    obtain ⟨l0, h0, h1, -⟩ := mem_links_redirect hl
    rw [h1]; exact leaf_redirectable p h.1 l0 h0
  | .command _ _, h, l, hl => by simp [Pipeline.links] at hl; subst hl; exact h
  | .func _, h, l, hl => by simp [Pipeline.links] at hl; subst hl; exact h
  | .iter _, h, l, hl => by simp [Pipeline.links] at hl; subst hl; exact h
  | .group _ _, h, l, hl => by simp [Pipeline.links] at hl; subst hl; exact h

theorem getLast?_pushOut (r : Option Redirect) (ls : List Link) :
    (pushOut r ls).getLast? = ls.getLast?.map (fun l => { l with out := l.out.or r }) := by
  induction ls with
  | nil => rfl
  | cons a ls ih =>
    cases ls with
    | nil => rfl
    | cons b ls =>
      have hn' : pushOut r (b :: ls) ≠ [] := by
        intro h; have := pushOut_length r (b :: ls); rw [h] at this; simp at this
      simp only [pushOut]
      rw [List.getLast?_cons_of_ne_nil hn', ih]; rfl

theorem getLast?_pushIn (r : Option Redirect) (ls : List Link) :
    ∃ f : Link → Link, (pushIn r ls).getLast? = ls.getLast?.map f ∧ ∀ l, (f l).leaf = l.leaf ∧ (f l).out = l.out := by
  cases ls with
  | nil => exact ⟨id, rfl, fun _ => ⟨rfl, rfl⟩⟩
  | cons a ls =>
    by_cases h : ls = []
    · subst h; exact ⟨fun l => { l with inp := l.inp.or r }, rfl, fun _ => ⟨rfl, rfl⟩⟩
    · refine ⟨id, ?_, fun _ => ⟨rfl, rfl⟩⟩
      simp only [pushIn]
      rw [List.getLast?_cons_of_ne_nil h, List.getLast?_cons_of_ne_nil h]; simp

/-- Where the output goes, in terms of the last link. -/
theorem last_link : (p : Pipeline) → ∃ l, p.links.getLast? = some l ∧ ∀ o, p.outWant cwd o = l.leaf.outWant cwd (orWant cwd l.out o)
  | .pipe a b => by
    obtain ⟨l, h1, h2⟩ := last_link b
    exact ⟨l, by simp only [Pipeline.links, List.getLast?_append, h1]; rfl, fun o => by simp only [Pipeline.outWant]; exact h2 o⟩
  | .redirect p crs => by
    obtain ⟨l, h1, h2⟩ := last_link p
    obtain ⟨f, hf1, hf2⟩ := getLast?_pushIn (Dict.get? crs 0) (pushOut (Dict.get? crs 1) (pushErr (Dict.get? crs 2) p.links))
    refine ⟨_, by simp only [Pipeline.links]; rw [hf1, getLast?_pushOut, pushErr, List.getLast?_map, h1]; rfl, ?_⟩
    intro o
    simp only [hf2, Pipeline.outWant, orWant_or]
    exact h2 _
  | .command _ _ => ⟨_, rfl, fun _ => rfl⟩
  | .func _ => ⟨_, rfl, fun _ => rfl⟩
  | .iter _ => ⟨_, rfl, fun _ => rfl⟩
  | .group _ _ => ⟨_, rfl, fun _ => rfl⟩

theorem outWant_leaf {l : Pipeline} (h : l.leafId ≠ none) (o : Want) : l.outWant cwd o = o := by
  cases l <;> first | rfl | simp [Pipeline.leafId] at h

/-- All links but the last one write to a pipe. -/
def OutsOk (cwd : Str) : List Link → Prop
  | [] => True
  | [_] => True
  | l :: l' :: ls => orWant cwd l.out .pipeOut = .pipeOut ∧ OutsOk cwd (l' :: ls)

theorem OutsOk.append {xs ys : List Link} (hx : OutsOk cwd xs) (hy : OutsOk cwd ys)
    (hl : ∀ l, xs.getLast? = some l → orWant cwd l.out .pipeOut = .pipeOut) : OutsOk cwd (xs ++ ys) := by
  induction xs with
  | nil => exact hy
  | cons a xs ih =>
    cases xs with
    | nil =>
      cases ys with
      | nil => exact trivial
      | cons b ys => exact ⟨hl a rfl, hy⟩
    | cons b xs => exact ⟨hx.1, ih hx.2 (fun l h => hl l (by rw [List.getLast?_cons_of_ne_nil (by simp)]; exact h))⟩

theorem OutsOk.pushErr {xs : List Link} (h : OutsOk cwd xs) (r : Option Redirect) : OutsOk cwd (pushErr r xs) := by
  induction xs with
  | nil => exact h
  | cons a xs ih =>
    cases xs with
    | nil => exact trivial
    | cons b xs => exact ⟨h.1, ih h.2⟩

theorem OutsOk.pushOut {xs : List Link} (h : OutsOk cwd xs) (r : Option Redirect) : OutsOk cwd (pushOut r xs) := by
  induction xs with
  | nil => exact h
  | cons a xs ih =>
    cases xs with
    | nil => exact trivial
    | cons b xs =>
      have := ih h.2
      simp only [Pieshell.pushOut] at this ⊢
      cases xs with
      | nil => exact ⟨h.1, trivial⟩
      | cons c xs => exact ⟨h.1, this⟩

theorem OutsOk.pushIn {xs : List Link} (h : OutsOk cwd xs) (r : Option Redirect) : OutsOk cwd (pushIn r xs) := by
  cases xs with
  | nil => exact h
  | cons a xs =>
    cases xs with
    | nil => exact trivial
    | cons b xs => exact h

theorem outs_ok : (p : Pipeline) → p.Redirectable sys cwd → p.Chain → OutsOk cwd p.links
  | .pipe a b, h, hc => by
    simp only [Pipeline.Redirectable] at h
    have hca : a.Chain := fun l hl => hc l (by simp only [Pipeline.links, List.mem_append]; exact .inl hl)
    have hcb : b.Chain := fun l hl => hc l (by simp only [Pipeline.links, List.mem_append]; exact .inr hl)
    simp only [Pipeline.links]
    refine (outs_ok a h.1 hca).append (outs_ok b h.2.1 hcb) ?_
    intro l hl
    obtain ⟨l', h1, h2⟩ := last_link (cwd := cwd) a
    rw [hl] at h1; cases h1
    have := h2 .pipeOut
    rw [h.2.2, outWant_leaf (hca l (List.mem_of_getLast? hl))] at this
    exact this.symm
  | .redirect p crs, h, hc => by
    simp only [Pipeline.Redirectable] at h
    simp only [Pipeline.links]
    refine OutsOk.pushIn (OutsOk.pushOut (OutsOk.pushErr (outs_ok p h.1 ?_) _) _) _
    intro l hl
    -- every link of p is (up to redirections) one of the redirected pipeline
    have hmap : (Pipeline.redirect p crs).links.map Link.leaf = p.links.map Link.leaf := links_leaf_redirect p crs
    have : l.leaf ∈ (Pipeline.redirect p crs).links.map Link.leaf := by rw [hmap]; exact List.mem_map.2 ⟨l, hl, rfl⟩
    obtain ⟨l', h1, h2⟩ := List.mem_map.1 this
    rw [← h2]; exact hc l' h1
  | .command _ _, _, _ => trivial
  | .func _, _, _ => trivial
  | .iter _, _, _ => trivial
  | .group _ _, _, _ => trivial
where
  links_leaf_redirect (p : Pipeline) (crs : Redirects) : (Pipeline.redirect p crs).links.map Link.leaf = p.links.map Link.leaf := by
    have h1 : ∀ r (ls : List Link), (pushIn r ls).map Link.leaf = ls.map Link.leaf := by
      intro r ls; cases ls <;> rfl
    have h2 : ∀ r (ls : List Link), (pushOut r ls).map Link.leaf = ls.map Link.leaf := by
      intro r ls
      induction ls with
      | nil => rfl
      | cons a ls ih =>
        cases ls with
        | nil => rfl
        | cons b ls => simp only [pushOut, List.map_cons] at ih ⊢; rw [ih]
    have h3 : ∀ r (ls : List Link), (pushErr r ls).map Link.leaf = ls.map Link.leaf := by
      intro r ls; simp [pushErr, Function.comp_def]
    simp only [Pipeline.links, h1, h2, h3]

theorem OutsOk.get {ls : List Link} (h : OutsOk cwd ls) {k : Nat} {l : Link} (hk : ls[k]? = some l) (hlt : k + 1 < ls.length) :
    orWant cwd l.out .pipeOut = .pipeOut := by
  induction ls generalizing k with
  | nil => simp at hk
  | cons a ls ih =>
    cases ls with
    | nil => simp at hlt
    | cons b ls =>
      cases k with
      | zero => simp at hk; subst hk; exact h.1
      | succ k => exact ih h.2 (by simpa using hk) (by simpa using hlt)

/-- A pipeline that is redirected for stdin: so is its first link. -/
theorem takes_head : (p : Pipeline) → p.takes 0 = true → ∃ l, p.links[0]? = some l ∧ l.inp ≠ none
  | .redirect p crs, h => by
    simp only [Pipeline.takes, Bool.or_eq_true] at h
    have hn := links_ne_nil p
    have key : ∀ ls : List Link, ls ≠ [] → (Dict.mem crs 0 = true ∨ ∃ l, ls[0]? = some l ∧ l.inp ≠ none) →
        ∃ l, (pushIn (Dict.get? crs 0) ls)[0]? = some l ∧ l.inp ≠ none := by
      intro ls hne hh
      cases ls with
      | nil => exact absurd rfl hne
      | cons a ls =>
        refine ⟨_, rfl, ?_⟩
        rcases hh with hh | ⟨l, h1, h2⟩
        · simp only [Dict.mem] at hh
          cases ha : a.inp with
          | some q => simp
          | none => simp; intro h'; rw [h'] at hh; simp at hh
        · simp at h1; subst h1
          cases ha : a.inp with
          | some q => simp
          | none => exact absurd ha h2
    simp only [Pipeline.links]
    apply key
    · intro h'
      have := pushOut_length (Dict.get? crs 1) (pushErr (Dict.get? crs 2) p.links)
      rw [h', pushErr_length] at this
      exact hn (List.length_eq_zero_iff.1 this.symm)
    · rcases h with h | h
      · exact .inl h
      · obtain ⟨l, h1, h2⟩ := takes_head p h
        right
        cases hp : p.links with
        | nil => exact absurd hp hn
        | cons a ls =>
          rw [hp] at h1; simp at h1; subst h1
          cases ls with
          | nil => exact ⟨_, rfl, h2⟩
          | cons b ls => exact ⟨_, rfl, h2⟩
  | .pipe _ _, h => by simp [Pipeline.takes] at h
  | .command _ _, h => by simp [Pipeline.takes] at h
  | .func _, h => by simp [Pipeline.takes] at h
  | .iter _, h => by simp [Pipeline.takes] at h
  | .group _ _, h => by simp [Pipeline.takes] at h

theorem refSegs_length (ls : List Link) (i : Obj) (o e : Want) (c : Ctr) : (refSegs cwd ls i o e c).length = ls.length := by
  induction ls generalizing i c with
  | nil => rfl
  | cons x ls ih =>
    by_cases hl : ls = []
    · subst hl; rfl
    · rw [refSegs_cons hl]; simp [ih]

/-- Read ends that are left behind between two links because the second one does not read from the pipe. -/
def Cut (ls : List Link) (segs : List RefOut) (ob : Obj) : Prop :=
  ∃ (k : Nat) (r : RefOut) (l : Link), segs[k]? = some r ∧ ls[k + 1]? = some l ∧ l.inp ≠ none ∧ ob = .pipeR r.out

theorem links_redirect_get {p : Pipeline} {crs : Redirects} {k : Nat} {l : Link} (h : p.links[k]? = some l) (hi : l.inp ≠ none) :
    ∃ l', (Pipeline.redirect p crs).links[k]? = some l' ∧ l'.inp ≠ none := by
  have e1 : (pushErr (Dict.get? crs 2) p.links)[k]? = some { l with err := l.err.or (Dict.get? crs 2) } := by
    simp [pushErr, h]
  have e2 : ∀ (r : Option Redirect) (ls : List Link) (k : Nat) (l : Link), ls[k]? = some l → l.inp ≠ none →
      ∃ l', (pushOut r ls)[k]? = some l' ∧ l'.inp ≠ none := by
    intro r ls
    induction ls with
    | nil => intro k l h; simp at h
    | cons a ls ih =>
      intro k l h hi
      cases ls with
      | nil =>
        cases k with
        | zero => simp at h; subst h; exact ⟨_, rfl, hi⟩
        | succ k => simp at h
      | cons b ls =>
        cases k with
        | zero => simp at h; subst h; exact ⟨_, rfl, hi⟩
        | succ k =>
          simp only [pushOut, List.getElem?_cons_succ] at h ⊢
          exact ih k l h hi
  obtain ⟨l2, h2, hi2⟩ := e2 (Dict.get? crs 1) _ k _ e1 hi
  simp only [Pipeline.links]
  revert h2
  generalize pushOut (Dict.get? crs 1) (pushErr (Dict.get? crs 2) p.links) = ls
  intro h2
  cases ls with
  | nil => simp at h2
  | cons a ls =>
    cases k with
    | zero =>
      simp at h2; subst h2
      refine ⟨_, rfl, ?_⟩
      cases ha : a.inp with
      | some q => simp
      | none => exact absurd ha hi2
    | succ k => exact ⟨l2, by simpa [pushIn] using h2, hi2⟩

/-- Associativity: a tree of `|` behaves as the chain of its items. -/
theorem refRun_links : (p : Pipeline) → p.Redirectable sys cwd → (i : Obj) → (o e : Want) → (c : Ctr) →
    (refRun cwd p i o e c).items = (refSegs cwd p.links i o e c).flatMap RefOut.items ∧
    (∀ ob ∈ (refRun cwd p i o e c).leaks, ob ∈ (refSegs cwd p.links i o e c).flatMap RefOut.leaks ∨
      Cut p.links (refSegs cwd p.links i o e c) ob) ∧
    ∃ r, (refSegs cwd p.links i o e c).getLast? = some r ∧ (refRun cwd p i o e c).out = r.out ∧ (refRun cwd p i o e c).ctr = r.ctr
  | .pipe a b, h, i, o, e, c => by
    simp only [Pipeline.Redirectable] at h
    obtain ⟨ha1, ha2, ra, ha3, ha4, ha5⟩ := refRun_links a h.1 i .pipeOut e c
    obtain ⟨hb1, hb2, rb, hb3, hb4, hb5⟩ := refRun_links b h.2.1 (.pipeR (refRun cwd a i .pipeOut e c).out) o e (refRun cwd a i .pipeOut e c).ctr
    obtain ⟨r, h1, h2⟩ := refSegs_append (cwd := cwd) (links_ne_nil a) (links_ne_nil b) i o e c
    rw [h1] at ha3; cases ha3
    rw [ha4, ha5] at hb1 hb2 hb3 hb4 hb5
    simp only [refRun, Pipeline.links, h2, List.flatMap_append, ha4, ha5]
    have hla := refSegs_length (cwd := cwd) a.links i .pipeOut e c
    refine ⟨by rw [ha1, hb1], ?_, rb, ?_, hb4, hb5⟩
    · intro ob hob
      simp only [List.mem_append] at hob ⊢
      rcases hob with (hob | hob) | hob
      · rcases ha2 ob hob with h' | ⟨k, r', l, g1, g2, g3, g4⟩
        · exact .inl (.inl h')
        · refine .inr ⟨k, r', l, ?_, ?_, g3, g4⟩
          · have hk : k < a.links.length := by
              rcases Nat.lt_or_ge k a.links.length with h | h
              · exact h
              · rw [List.getElem?_eq_none (by rw [hla]; exact h)] at g1; cases g1
            rw [List.getElem?_append_left (by rw [hla]; exact hk)]; exact g1
          · have hk : k + 1 < a.links.length := by
              rcases Nat.lt_or_ge (k + 1) a.links.length with h | h
              · exact h
              · rw [List.getElem?_eq_none h] at g2; cases g2
            rw [List.getElem?_append_left hk]; exact g2
      · rcases hb2 ob hob with h' | ⟨k, r', l, g1, g2, g3, g4⟩
        · exact .inl (.inr h')
        · refine .inr ⟨a.links.length + k, r', l, ?_, ?_, g3, g4⟩
          · rw [List.getElem?_append_right (by rw [hla]; omega), hla, Nat.add_sub_cancel_left]; exact g1
          · rw [List.getElem?_append_right (by omega)]
            have : a.links.length + k + 1 - a.links.length = k + 1 := by omega
            rw [this]; exact g2
      · by_cases ht : b.takes 0 = true
        · simp only [ht, ↓reduceIte, List.mem_singleton] at hob
          obtain ⟨l, g1, g2⟩ := takes_head b ht
          have hpos : 0 < a.links.length := List.length_pos_iff.2 (links_ne_nil a)
          refine .inr ⟨a.links.length - 1, ra, l, ?_, ?_, g2, hob⟩
          · rw [List.getElem?_append_left (by rw [hla]; omega)]
            rw [List.getLast?_eq_getElem?, hla] at h1; exact h1
          · rw [List.getElem?_append_right (by omega)]
            have : a.links.length - 1 + 1 - a.links.length = 0 := by omega
            rw [this]; exact g1
        · simp [ht] at hob
    · rw [List.getLast?_append, hb3]; rfl
  | .redirect p crs, h, i, o, e, c => by
    simp only [Pipeline.Redirectable] at h
    have hlk := links_ok p h.1
    have hpush : ∀ l ∈ pushOut (Dict.get? crs 1) (pushErr (Dict.get? crs 2) p.links), LinkOk l := by
      intro l hl
      have hin : ∀ l, l ∈ pushErr (Dict.get? crs 2) p.links → LinkOk l := by
        intro l hl
        obtain ⟨l0, h0, rfl⟩ := mem_pushErr hl
        refine ⟨(hlk l0 h0).inp, fun r hr => ?_⟩
        simp only at hr
        cases hi : l0.err with
        | some q => rw [hi] at hr; simp at hr; subst hr; exact (hlk l0 h0).err q hi
        | none =>
          rw [hi] at hr; simp at hr
          have hv := h.2.1.wf.value_of_get? hr
          exact (h.2.2 r hv.1).two hv.2
      obtain ⟨l0, h0, rfl | rfl⟩ := mem_pushOut hl
      · exact hin _ h0
      · exact ⟨(hin _ h0).inp, (hin _ h0).err⟩
    have hseg : refSegs cwd (Pipeline.redirect p crs).links i o e c =
        refSegs cwd p.links (crs.overIn cwd i) (crs.over cwd 1 o) (crs.over cwd 2 e) c := by
      simp only [Pipeline.links]
      rw [refSegs_pushIn _ _ hpush, refSegs_pushOut, refSegs_pushErr]; rfl
    obtain ⟨h1, h2, h3⟩ := refRun_links p h.1 (crs.overIn cwd i) (crs.over cwd 1 o) (crs.over cwd 2 e) c
    rw [hseg]
    simp only [refRun]
    refine ⟨h1, fun ob hob => ?_, h3⟩
    rcases h2 ob hob with h' | ⟨k, r', l, g1, g2, g3, g4⟩
    · exact .inl h'
    · obtain ⟨l', g5, g6⟩ := links_redirect_get (crs := crs) g2 g3
      exact .inr ⟨k, r', l', g1, g5, g6, g4⟩
  | .command _ _, _, i, o, e, c => by simp [Pipeline.links, refSegs, refLink, orIn, orWant]; intro ob h; exact .inl h
  | .func _, _, i, o, e, c => by simp [Pipeline.links, refSegs, refLink, orIn, orWant]; intro ob h; exact .inl h
  | .iter _, _, i, o, e, c => by simp [Pipeline.links, refSegs, refLink, orIn, orWant]; intro ob h; exact .inl h
  | .group _ _, _, i, o, e, c => by simp [Pipeline.links, refSegs, refLink, orIn, orWant]; intro ob h; exact .inl h

/-- The k-th segment of a chain. -/
theorem refSegs_get (ls : List Link) (i : Obj) (o e : Want) (c : Ctr) (k : Nat) (l : Link) (hk : ls[k]? = some l) :
    ∃ i' c', (refSegs cwd ls i o e c)[k]? = some (refLink cwd l i' (if k + 1 = ls.length then o else .pipeOut) e c') ∧
      (k = 0 → i' = i ∧ c' = c) ∧
      (∀ j, k = j + 1 → ∃ r, (refSegs cwd ls i o e c)[j]? = some r ∧ i' = .pipeR r.out ∧ c' = r.ctr) := by
  induction ls generalizing i c k with
  | nil => simp at hk
  | cons x ls ih =>
    by_cases hl : ls = []
    · subst hl
      cases k with
      | succ k => simp at hk
      | zero => simp at hk; subst hk; exact ⟨i, c, by simp [refSegs], by simp, by intro j h; omega⟩
    · rw [refSegs_cons hl]
      cases k with
      | zero =>
        simp at hk; subst hk
        refine ⟨i, c, ?_, by simp, by intro j h; omega⟩
        have : ¬ (0 + 1 = (x :: ls).length) := by
          simp; exact fun h => hl h
        simp [hl]
      | succ k =>
        simp at hk
        obtain ⟨i', c', h1, h2, h3⟩ := ih (.pipeR (refLink cwd x i .pipeOut e c).out) (refLink cwd x i .pipeOut e c).ctr k hk
        refine ⟨i', c', ?_, by intro h; omega, ?_⟩
        · simp only [List.getElem?_cons_succ, h1, List.length_cons]
          by_cases hh : k + 1 = ls.length
          · simp [hh]
          · simp [hh]
        · intro j hj
          obtain rfl : j = k := by omega
          cases j with
          | zero => exact ⟨_, rfl, (h2 rfl).1, (h2 rfl).2⟩
          | succ j => obtain ⟨r, hr1, hr2⟩ := h3 j rfl; exact ⟨r, by simpa using hr1, hr2⟩

/-! ### counters -/

theorem pick_le (x : Want) (c : Ctr) : c.p ≤ (x.pick c).2.p ∧ c.t ≤ (x.pick c).2.t := by
  cases x <;> simp [Want.pick]

mutual
theorem refRun_mono : (p : Pipeline) → (i : Obj) → (o e : Want) → (c : Ctr) → c.p ≤ (refRun cwd p i o e c).ctr.p ∧ c.t ≤ (refRun cwd p i o e c).ctr.t
  | .command id args, i, o, e, c => by
    have h1 := pick_le o c
    have h2 := pick_le e (o.pick c).2
    have h3 := refArgs_mono args i (o.pick c).1 (e.pick (o.pick c).2).1 (e.pick (o.pick c).2).2
    simp only [refRun]; omega
  | .func id, i, o, e, c => by
    have h1 := pick_le o c
    have h2 := pick_le e (o.pick c).2
    simp only [refRun]; omega
  | .iter id, i, o, e, c => by
    have h1 := pick_le o c
    have h2 := pick_le e (o.pick c).2
    simp only [refRun]; omega
  | .pipe a b, i, o, e, c => by
    have h1 := refRun_mono a i .pipeOut e c
    have h2 := refRun_mono b (.pipeR (refRun cwd a i .pipeOut e c).out) o e (refRun cwd a i .pipeOut e c).ctr
    simp only [refRun]; omega
  | .group a b, i, o, e, c => by
    have h1 := refRun_mono a i o e c
    have h2 := refRun_mono b i o e (refRun cwd a i o e c).ctr
    simp only [refRun]; omega
  | .redirect p crs, i, o, e, c => by
    have h1 := refRun_mono p (crs.overIn cwd i) (crs.over cwd 1 o) (crs.over cwd 2 e) c
    simp only [refRun]; omega
theorem refArgs_mono : (a : Args) → (i o e : Obj) → (c : Ctr) → c.p ≤ (refArgs cwd a i o e c).ctr.p ∧ c.t ≤ (refArgs cwd a i o e c).ctr.t
  | .nil, i, o, e, c => by simp [refArgs]
  | .word ws rest, i, o, e, c => by have := refArgs_mono rest i o e c; simp only [refArgs]; omega
  | .pipeArg pre p rest, i, o, e, c => by
    have h1 := refRun_mono p i .pipeOut (.obj e) c
    have := refArgs_mono rest i o e (refRun cwd p i .pipeOut (.obj e) c).ctr
    simp only [refArgs]; omega
  | .funcArg pre id rest, i, o, e, c => by
    have := refArgs_mono rest i o e { c with p := c.p + 1 }
    simp only [refArgs]; simp at this; omega
end

theorem refRun_out : (p : Pipeline) → (i : Obj) → (o e : Want) → (c : Ctr) → c.p ≤ (refRun cwd p i o e c).out ∧
    (p.outWant cwd o = .pipeOut → (refRun cwd p i o e c).out < (refRun cwd p i o e c).ctr.p)
  | .command id args, i, o, e, c => by
    simp only [refRun, Pipeline.outWant]
    refine ⟨Nat.le_refl _, ?_⟩
    rintro rfl
    have h2 := pick_le e (Want.pipeOut.pick c).2
    have h3 := refArgs_mono (cwd := cwd) args i (Want.pipeOut.pick c).1 (e.pick (Want.pipeOut.pick c).2).1 (e.pick (Want.pipeOut.pick c).2).2
    simp only [Want.pick] at *; omega
  | .func id, i, o, e, c => by
    simp only [refRun, Pipeline.outWant]
    refine ⟨Nat.le_refl _, ?_⟩
    rintro rfl
    have h2 := pick_le e (Want.pipeOut.pick c).2
    simp only [Want.pick] at *; omega
  | .iter id, i, o, e, c => by
    simp only [refRun, Pipeline.outWant]
    refine ⟨Nat.le_refl _, ?_⟩
    rintro rfl
    have h2 := pick_le e (Want.pipeOut.pick c).2
    simp only [Want.pick] at *; omega
  | .pipe a b, i, o, e, c => by
    have h1 := refRun_mono (cwd := cwd) a i .pipeOut e c
    have h2 := refRun_out b (.pipeR (refRun cwd a i .pipeOut e c).out) o e (refRun cwd a i .pipeOut e c).ctr
    simp only [refRun, Pipeline.outWant]; exact ⟨by omega, h2.2⟩
  | .group a b, i, o, e, c => by
    have h1 := refRun_mono (cwd := cwd) a i o e c
    have h2 := refRun_out b i o e (refRun cwd a i o e c).ctr
    simp only [refRun, Pipeline.outWant]; exact ⟨by omega, h2.2⟩
  | .redirect p crs, i, o, e, c => by
    have h1 := refRun_out p (crs.overIn cwd i) (crs.over cwd 1 o) (crs.over cwd 2 e) c
    simp only [refRun]; exact h1

/-! ### last item -/

/-- identity of a reference item -/
def RItem.id : RItem → Nat
  | .proc id .. => id
  | .func id .. => id
/-- input of a reference item -/
def RItem.inp : RItem → Option Obj
  | .proc _ _ i _ _ => some i
  | .func _ i _ => i

/-- error output of a reference item -/
def RItem.err : RItem → Option Obj
  | .proc _ _ _ _ e => some e
  | .func .. => none

/-- `ob` is what was wanted; see `Want.Meets`. -/
def Want.MeetsC (c : Ctr) (q : Nat) (ob : Obj) : Want → Prop
  | .obj b => ob = b
  | .pipeOut => ob = .pipeW q
  | .tmp => ∃ n, c.t ≤ n ∧ ob = .tmp n
  | .pipeIn => False

theorem Want.MeetsC.mono {c d : Ctr} {q : Nat} {ob : Obj} {x : Want} (h : x.MeetsC c q ob) (hc : d.t ≤ c.t) : x.MeetsC d q ob := by
  cases x with
  | tmp => obtain ⟨n, h1, h2⟩ := h; exact ⟨n, by omega, h2⟩
  | _ => exact h

theorem Want.MeetsC.meets {w : World} {q : Nat} {ob : Obj} {x : Want} (h : x.MeetsC w.ctr q ob) : x.Meets w q ob := by
  cases x <;> exact h

theorem Want.Out.pick {x : Want} (h : x.Out) (c : Ctr) : x.MeetsC c c.p (x.pick c).1 := by
  cases x with
  | obj b => rfl
  | pipeOut => rfl
  | tmp => exact ⟨c.t, Nat.le_refl _, rfl⟩
  | pipeIn => exact h.elim

theorem Want.Plain.pick {x : Want} (h : x.Plain) (c : Ctr) (q : Nat) : x.MeetsC c q (x.pick c).1 := by
  cases x with
  | obj b => rfl
  | tmp => exact ⟨c.t, Nat.le_refl _, rfl⟩
  | pipeOut => exact h.elim
  | pipeIn => exact h.elim

theorem orWant_out {r : Option Redirect} {x : Want} (h : x.Out) : (orWant cwd r x).Out := by
  cases r with
  | none => exact h
  | some r => simp only [orWant, Redirect.want]; split <;> trivial

theorem orWant_plain {r : Option Redirect} {x : Want} (h : x.Plain) (hr : ∀ q, r = some q → q.source ≠ .PIPE) : (orWant cwd r x).Plain := by
  cases r with
  | none => exact h
  | some r =>
    simp only [orWant, Redirect.want]
    split
    · trivial
    · next h' => exact absurd h' (hr r rfl)
    · trivial

theorem orIn_cases (r : Option Redirect) (i : Obj) : orIn cwd r i = i ∨ ∃ p f m, orIn cwd r i = .file cwd p f m := by
  cases r with
  | none => exact .inl rfl
  | some r =>
    simp only [orIn, orWant, Redirect.want]
    split
    · next h =>
      split at h
      · injection h with h; subst h; exact .inr ⟨_, _, _, rfl⟩
      · cases h
      · cases h
    · exact .inl rfl

theorem orWant_obj {r : Option Redirect} {x : Want} {b : Obj} (h : orWant cwd r x = .obj b) :
    x = .obj b ∨ ∃ p f m, b = .file cwd p f m := by
  cases r with
  | none => exact .inl h
  | some r =>
    simp only [orWant, Redirect.want] at h
    split at h
    · injection h with h; subst h; exact .inr ⟨_, _, _, rfl⟩
    · cases h
    · cases h

theorem refRun_last : (p : Pipeline) → (i : Obj) → (o e : Want) → (c : Ctr) → o.Out →
    ∃ m, (refRun cwd p i o e c).items.getLast? = some m ∧ (p.outWant cwd o).MeetsC c (refRun cwd p i o e c).out m.out
  | .command id args, i, o, e, c, ho => ⟨_, by simp only [refRun]; rw [List.getLast?_concat], by simp only [refRun, RItem.out, Pipeline.outWant]; exact ho.pick c⟩
  | .func id, i, o, e, c, ho => ⟨_, by simp only [refRun]; rfl, by simp only [refRun, RItem.out, Pipeline.outWant]; exact ho.pick c⟩
  | .iter id, i, o, e, c, ho => ⟨_, by simp only [refRun]; rfl, by simp only [refRun, RItem.out, Pipeline.outWant]; exact ho.pick c⟩
  | .pipe a b, i, o, e, c, ho => by
    obtain ⟨m, h1, h2⟩ := refRun_last b (.pipeR (refRun cwd a i .pipeOut e c).out) o e (refRun cwd a i .pipeOut e c).ctr ho
    exact ⟨m, by simp only [refRun]; rw [List.getLast?_append, h1]; rfl, by
      simp only [refRun, Pipeline.outWant]; exact h2.mono (refRun_mono a i .pipeOut e c).2⟩
  | .group a b, i, o, e, c, ho => by
    obtain ⟨m, h1, h2⟩ := refRun_last b i o e (refRun cwd a i o e c).ctr ho
    exact ⟨m, by simp only [refRun]; rw [List.getLast?_append, h1]; rfl, by
      simp only [refRun, Pipeline.outWant]; exact h2.mono (refRun_mono a i o e c).2⟩
  | .redirect p crs, i, o, e, c, ho => by
    obtain ⟨m, h1, h2⟩ := refRun_last p (crs.overIn cwd i) (crs.over cwd 1 o) (crs.over cwd 2 e) c (orWant_out ho)
    exact ⟨m, by simp only [refRun]; exact h1, by simp only [refRun, Pipeline.outWant]; exact h2⟩

/-- The main item of a leaf. -/
theorem refRun_leaf (l : Pipeline) (hl : l.leafId ≠ none) (i : Obj) (o e : Want) (c : Ctr) (ho : o.Out) (he : e.Plain) :
    (refRun cwd l i o e c).out = c.p ∧
    ∃ m, (refRun cwd l i o e c).items.getLast? = some m ∧ l.leafId = some m.id ∧ (l.Reads → m.inp = some i) ∧
      o.MeetsC c c.p m.out ∧ (∀ id args, l = .command id args → ∃ ob, m.err = some ob ∧ ∀ q, e.MeetsC c q ob) := by
  cases l with
  | command id args =>
    refine ⟨by simp only [refRun], _, by simp only [refRun]; rw [List.getLast?_concat], rfl, fun _ => rfl, by simp only [RItem.out]; exact ho.pick c, ?_⟩
    intro id' args' _
    exact ⟨_, rfl, fun q => (he.pick (o.pick c).2 q).mono (pick_le o c).2⟩
  | func id =>
    exact ⟨by simp only [refRun], _, by simp only [refRun]; rfl, rfl, fun _ => rfl, by simp only [RItem.out]; exact ho.pick c, by simp⟩
  | iter id =>
    exact ⟨by simp only [refRun], _, by simp only [refRun]; rfl, rfl, fun h => h.elim, by simp only [RItem.out]; exact ho.pick c, by simp⟩
  | pipe a b => simp [Pipeline.leafId] at hl
  | group a b => simp [Pipeline.leafId] at hl
  | redirect a b => simp [Pipeline.leafId] at hl

/-! ### which objects items hold -/

/-- Objects of an argument vector. -/
def devObjs : List RWord → List Obj
  | [] => []
  | .lit _ :: l => devObjs l
  | .dev _ o :: l => o :: devObjs l

/-- Objects an item has open. -/
def RItem.objs : RItem → List Obj
  | .proc _ ws i o e => i :: o :: e :: devObjs ws
  | .func _ i o => i.toList ++ [o]

/-- `ob` was made between the counters `c` and `c'`, or is a file. -/
def Made (c c' : Ctr) (ob : Obj) : Prop :=
  (∃ n, c.p ≤ n ∧ n < c'.p ∧ (ob = .pipeR n ∨ ob = .pipeW n)) ∨ (∃ n, c.t ≤ n ∧ n < c'.t ∧ ob = .tmp n) ∨
  ∃ d p f m, ob = .file d p f m

theorem Made.mono {c c' d d' : Ctr} {ob : Obj} (h : Made c c' ob) (h1 : d.p ≤ c.p ∧ d.t ≤ c.t) (h2 : c'.p ≤ d'.p ∧ c'.t ≤ d'.t) :
    Made d d' ob := by
  rcases h with ⟨n, a, b, e⟩ | ⟨n, a, b, e⟩ | h
  · exact .inl ⟨n, by omega, by omega, e⟩
  · exact .inr (.inl ⟨n, by omega, by omega, e⟩)
  · exact .inr (.inr h)

theorem made_pick (x : Want) (c : Ctr) : x = .obj (x.pick c).1 ∨ Made c (x.pick c).2 (x.pick c).1 := by
  cases x with
  | obj b => exact .inl rfl
  | pipeOut => exact .inr (.inl ⟨c.p, Nat.le_refl _, by simp [Want.pick], .inr rfl⟩)
  | pipeIn => exact .inr (.inl ⟨c.p, Nat.le_refl _, by simp [Want.pick], .inl rfl⟩)
  | tmp => exact .inr (.inr (.inl ⟨c.t, Nat.le_refl _, by simp [Want.pick], rfl⟩))

theorem devObjs_lits (ws : List Str) (l : List RWord) : devObjs (ws.map .lit ++ l) = devObjs l := by
  induction ws with
  | nil => rfl
  | cons x ws ih => simpa [devObjs] using ih

mutual
theorem refRun_objs : (p : Pipeline) → p.Redirectable sys cwd → (i : Obj) → (o e : Want) → (c : Ctr) →
    (∀ x ∈ (refRun cwd p i o e c).items, ∀ ob ∈ x.objs,
      ob = i ∨ o = .obj ob ∨ e = .obj ob ∨ Made c (refRun cwd p i o e c).ctr ob) ∧
    (∀ ob ∈ (refRun cwd p i o e c).leaks, Made c (refRun cwd p i o e c).ctr ob)
  | .command id args, hp, i, o, e, c => by
    have h1 := pick_le o c
    have h2 := pick_le e (o.pick c).2
    have h3 := refArgs_mono (cwd := cwd) args i (o.pick c).1 (e.pick (o.pick c).2).1 (e.pick (o.pick c).2).2
    obtain ⟨A, B, C⟩ := refArgs_objs args (by simpa only [Pipeline.Redirectable] using hp) i (o.pick c).1 (e.pick (o.pick c).2).1 (e.pick (o.pick c).2).2
    have hob := made_pick o c
    have heb := made_pick e (o.pick c).2
    simp only [refRun]
    generalize (refArgs cwd args i (o.pick c).1 (e.pick (o.pick c).2).1 (e.pick (o.pick c).2).2) = R at *
    have fin : ∀ ob, (ob = i ∨ ob = (o.pick c).1 ∨ ob = (e.pick (o.pick c).2).1 ∨ Made (e.pick (o.pick c).2).2 R.ctr ob) →
        (ob = i ∨ o = .obj ob ∨ e = .obj ob ∨ Made c R.ctr ob) := by
      rintro ob (h | h | h | h)
      · exact .inl h
      · rcases hob with hob | hob
        · rw [h]; exact .inr (.inl hob)
        · rw [h]; exact .inr (.inr (.inr (hob.mono (by omega) (by omega))))
      · rcases heb with heb | heb
        · rw [h]; exact .inr (.inr (.inl heb))
        · rw [h]; exact .inr (.inr (.inr (heb.mono (by omega) (by omega))))
      · exact .inr (.inr (.inr (h.mono (by omega) (by omega))))
    constructor
    · intro x hx ob hob'
      apply fin
      rcases List.mem_append.1 hx with hx | hx
      · exact A x hx ob hob'
      · simp at hx; subst hx
        simp only [RItem.objs, List.mem_cons] at hob'
        rcases hob' with h | h | h | h
        · exact .inl h
        · exact .inr (.inl h)
        · exact .inr (.inr (.inl h))
        · exact .inr (.inr (.inr (B ob h)))
    · intro ob h; exact (C ob h).mono (by omega) (by omega)
  | .func id, hp, i, o, e, c => by
    have h1 := pick_le o c
    have h2 := pick_le e (o.pick c).2
    have hob := made_pick o c
    simp only [refRun]
    refine ⟨?_, by simp⟩
    intro x hx ob hob'
    simp at hx; subst hx
    simp [RItem.objs] at hob'
    rcases hob' with h | h
    · exact .inl h
    · rcases hob with hob | hob
      · rw [h]; exact .inr (.inl hob)
      · rw [h]; exact .inr (.inr (.inr (hob.mono (by omega) (by omega))))
  | .iter id, hp, i, o, e, c => by
    have h1 := pick_le o c
    have h2 := pick_le e (o.pick c).2
    have hob := made_pick o c
    simp only [refRun]
    refine ⟨?_, by simp⟩
    intro x hx ob hob'
    simp at hx; subst hx
    simp [RItem.objs] at hob'
    rcases hob with hob | hob
    · rw [hob']; exact .inr (.inl hob)
    · rw [hob']; exact .inr (.inr (.inr (hob.mono (by omega) (by omega))))
  | .pipe a b, hp, i, o, e, c => by
    simp only [Pipeline.Redirectable] at hp
    have m1 := refRun_mono (cwd := cwd) a i .pipeOut e c
    have m2 := refRun_mono (cwd := cwd) b (.pipeR (refRun cwd a i .pipeOut e c).out) o e (refRun cwd a i .pipeOut e c).ctr
    have q1 := refRun_out (cwd := cwd) a i .pipeOut e c
    obtain ⟨A, A'⟩ := refRun_objs a hp.1 i .pipeOut e c
    obtain ⟨B, B'⟩ := refRun_objs b hp.2.1 (.pipeR (refRun cwd a i .pipeOut e c).out) o e (refRun cwd a i .pipeOut e c).ctr
    have q2 := q1.2 hp.2.2
    simp only [refRun]
    constructor
    · intro x hx ob hob
      rcases List.mem_append.1 hx with hx | hx
      · rcases A x hx ob hob with h | h | h | h
        · exact .inl h
        · cases h
        · exact .inr (.inr (.inl h))
        · exact .inr (.inr (.inr (h.mono (by omega) (by omega))))
      · rcases B x hx ob hob with h | h | h | h
        · exact .inr (.inr (.inr (.inl ⟨_, q1.1, by omega, .inl h⟩)))
        · exact .inr (.inl h)
        · exact .inr (.inr (.inl h))
        · exact .inr (.inr (.inr (h.mono (by omega) (by omega))))
    · intro ob hob
      simp only [List.mem_append] at hob
      rcases hob with (h | h) | h
      · exact (A' ob h).mono (by omega) (by omega)
      · exact (B' ob h).mono (by omega) (by omega)
      · split at h
        · simp only [List.mem_singleton] at h
          exact .inl ⟨_, q1.1, by omega, .inl h⟩
        · simp at h
  | .group a b, hp, i, o, e, c => by
    simp only [Pipeline.Redirectable] at hp
    have m1 := refRun_mono (cwd := cwd) a i o e c
    have m2 := refRun_mono (cwd := cwd) b i o e (refRun cwd a i o e c).ctr
    have q1 := refRun_out (cwd := cwd) a i o e c
    obtain ⟨A, A'⟩ := refRun_objs a hp.1 i o e c
    obtain ⟨B, B'⟩ := refRun_objs b hp.2 i o e (refRun cwd a i o e c).ctr
    simp only [refRun]
    constructor
    · intro x hx ob hob
      rcases List.mem_append.1 hx with hx | hx
      · rcases A x hx ob hob with h | h | h | h
        · exact .inl h
        · exact .inr (.inl h)
        · exact .inr (.inr (.inl h))
        · exact .inr (.inr (.inr (h.mono (by omega) (by omega))))
      · rcases B x hx ob hob with h | h | h | h
        · exact .inl h
        · exact .inr (.inl h)
        · exact .inr (.inr (.inl h))
        · exact .inr (.inr (.inr (h.mono (by omega) (by omega))))
    · intro ob hob
      rcases List.mem_append.1 hob with h | h
      · rcases List.mem_append.1 h with h | h
        · exact (A' ob h).mono (by omega) (by omega)
        · exact (B' ob h).mono (by omega) (by omega)
      · by_cases ho : a.outWant cwd o = .pipeOut
        · have q2 := q1.2 ho
          simp only [ho, ↓reduceIte, List.mem_singleton] at h
          exact .inl ⟨_, q1.1, by omega, .inl h⟩
        · simp [ho] at h
  | .redirect p crs, hp, i, o, e, c => by
    simp only [Pipeline.Redirectable] at hp
    obtain ⟨A, B⟩ := refRun_objs p hp.1 (crs.overIn cwd i) (crs.over cwd 1 o) (crs.over cwd 2 e) c
    simp only [refRun]
    refine ⟨?_, B⟩
    intro x hx ob hob
    rcases A x hx ob hob with h | h | h | h
    · rcases orIn_cases (cwd := cwd) (Dict.get? crs 0) i with h' | ⟨p', f, m, h'⟩
      · exact .inl (h.trans h')
      · exact .inr (.inr (.inr (.inr (.inr ⟨_, p', f, m, h.trans h'⟩))))
    · rcases orWant_obj h with h' | ⟨p', f, m, h'⟩
      · exact .inr (.inl h')
      · exact .inr (.inr (.inr (.inr (.inr ⟨_, p', f, m, h'⟩))))
    · rcases orWant_obj h with h' | ⟨p', f, m, h'⟩
      · exact .inr (.inr (.inl h'))
      · exact .inr (.inr (.inr (.inr (.inr ⟨_, p', f, m, h'⟩))))
    · exact .inr (.inr (.inr h))
theorem refArgs_objs : (a : Args) → a.Redirectable sys cwd → (i o e : Obj) → (c : Ctr) →
    (∀ x ∈ (refArgs cwd a i o e c).items, ∀ ob ∈ x.objs, ob = i ∨ ob = o ∨ ob = e ∨ Made c (refArgs cwd a i o e c).ctr ob) ∧
    (∀ ob ∈ devObjs (refArgs cwd a i o e c).words, Made c (refArgs cwd a i o e c).ctr ob) ∧
    (∀ ob ∈ (refArgs cwd a i o e c).leaks, Made c (refArgs cwd a i o e c).ctr ob)
  | .nil, hp, i, o, e, c => by simp [refArgs, devObjs]
  | .word ws rest, hp, i, o, e, c => by
    obtain ⟨A, B, C⟩ := refArgs_objs rest (by simpa only [Args.Redirectable] using hp) i o e c
    simp only [refArgs]
    refine ⟨A, ?_, C⟩
    rw [devObjs_lits]; exact B
  | .pipeArg pre p rest, hp, i, o, e, c => by
    simp only [Args.Redirectable] at hp
    have m1 := refRun_mono (cwd := cwd) p i .pipeOut (.obj e) c
    have m2 := refArgs_mono (cwd := cwd) rest i o e (refRun cwd p i .pipeOut (.obj e) c).ctr
    have q1 := refRun_out (cwd := cwd) p i .pipeOut (.obj e) c
    have q2 := q1.2 hp.2.1
    obtain ⟨A, A'⟩ := refRun_objs p hp.1 i .pipeOut (.obj e) c
    obtain ⟨B, B', B''⟩ := refArgs_objs rest hp.2.2 i o e (refRun cwd p i .pipeOut (.obj e) c).ctr
    simp only [refArgs]
    refine ⟨?_, ?_, ?_⟩
    · intro x hx ob hob
      rcases List.mem_append.1 hx with hx | hx
      · rcases A x hx ob hob with h | h | h | h
        · exact .inl h
        · cases h
        · injection h with h; exact .inr (.inr (.inl h.symm))
        · exact .inr (.inr (.inr (h.mono (by omega) (by omega))))
      · rcases B x hx ob hob with h | h | h | h
        · exact .inl h
        · exact .inr (.inl h)
        · exact .inr (.inr (.inl h))
        · exact .inr (.inr (.inr (h.mono (by omega) (by omega))))
    · intro ob hob
      simp only [devObjs, List.mem_cons] at hob
      rcases hob with h | h
      · exact .inl ⟨_, q1.1, by omega, .inl h⟩
      · exact (B' ob h).mono (by omega) (by omega)
    · intro ob hob
      rcases List.mem_append.1 hob with h | h
      · exact (A' ob h).mono (by omega) (by omega)
      · exact (B'' ob h).mono (by omega) (by omega)
  | .funcArg pre id rest, hp, i, o, e, c => by
    have m2 := refArgs_mono (cwd := cwd) rest i o e { c with p := c.p + 1 }
    obtain ⟨B, B', B''⟩ := refArgs_objs rest (by simpa only [Args.Redirectable] using hp) i o e { c with p := c.p + 1 }
    simp only at m2
    simp only [refArgs]
    refine ⟨?_, ?_, ?_⟩
    · intro x hx ob hob
      rcases List.mem_cons.1 hx with hx | hx
      · subst hx
        simp [RItem.objs] at hob
        rcases hob with h | h
        · exact .inr (.inr (.inr (.inl ⟨c.p, Nat.le_refl _, by omega, .inl h⟩)))
        · exact .inr (.inl h)
      · rcases B x hx ob hob with h | h | h | h
        · exact .inl h
        · exact .inr (.inl h)
        · exact .inr (.inr (.inl h))
        · exact .inr (.inr (.inr (h.mono (by simp) (by omega))))
    · intro ob hob
      simp only [devObjs, List.mem_cons] at hob
      rcases hob with h | h
      · exact .inl ⟨c.p, Nat.le_refl _, by omega, .inr h⟩
      · exact (B' ob h).mono (by simp) (by omega)
    · intro ob hob
      exact (B'' ob hob).mono (by simp) (by omega)
end

/-- Objects of the items of one leaf: its own output pipe is not read within the leaf. -/
theorem refRun_leaf_objs (l : Pipeline) (hl : l.leafId ≠ none) (hp : l.Redirectable sys cwd) (i : Obj) (o e : Want) (c : Ctr) :
    (∀ x ∈ (refRun cwd l i o e c).items, ∀ ob ∈ x.objs,
      ob = i ∨ ob = (o.pick c).1 ∨ e = .obj ob ∨ Made (o.pick c).2 (refRun cwd l i o e c).ctr ob) ∧
    (∀ ob ∈ (refRun cwd l i o e c).leaks, Made (o.pick c).2 (refRun cwd l i o e c).ctr ob) := by
  have h1 := pick_le o c
  have h2 := pick_le e (o.pick c).2
  cases l with
  | command id args =>
    have h3 := refArgs_mono (cwd := cwd) args i (o.pick c).1 (e.pick (o.pick c).2).1 (e.pick (o.pick c).2).2
    obtain ⟨A, B, C⟩ := refArgs_objs args (by simpa only [Pipeline.Redirectable] using hp) i (o.pick c).1 (e.pick (o.pick c).2).1 (e.pick (o.pick c).2).2
    have heb := made_pick e (o.pick c).2
    simp only [refRun]
    generalize (refArgs cwd args i (o.pick c).1 (e.pick (o.pick c).2).1 (e.pick (o.pick c).2).2) = R at *
    have fin : ∀ ob, (ob = i ∨ ob = (o.pick c).1 ∨ ob = (e.pick (o.pick c).2).1 ∨ Made (e.pick (o.pick c).2).2 R.ctr ob) →
        (ob = i ∨ ob = (o.pick c).1 ∨ e = .obj ob ∨ Made (o.pick c).2 R.ctr ob) := by
      rintro ob (h | h | h | h)
      · exact .inl h
      · exact .inr (.inl h)
      · rcases heb with heb | heb
        · rw [h]; exact .inr (.inr (.inl heb))
        · rw [h]; exact .inr (.inr (.inr (heb.mono (by omega) (by omega))))
      · exact .inr (.inr (.inr (h.mono (by omega) (by omega))))
    constructor
    · intro x hx ob hob'
      apply fin
      rcases List.mem_append.1 hx with hx | hx
      · exact A x hx ob hob'
      · simp at hx; subst hx
        simp only [RItem.objs, List.mem_cons] at hob'
        rcases hob' with h | h | h | h
        · exact .inl h
        · exact .inr (.inl h)
        · exact .inr (.inr (.inl h))
        · exact .inr (.inr (.inr (B ob h)))
    · intro ob h; exact (C ob h).mono (by omega) (by omega)
  | func id =>
    simp only [refRun]
    refine ⟨?_, by simp⟩
    intro x hx ob hob'
    simp at hx; subst hx
    simp [RItem.objs] at hob'
    rcases hob' with h | h
    · exact .inl h
    · exact .inr (.inl h)
  | iter id =>
    simp only [refRun]
    refine ⟨?_, by simp⟩
    intro x hx ob hob'
    simp at hx; subst hx
    simp [RItem.objs] at hob'
    exact .inr (.inl hob')
  | pipe a b => simp [Pipeline.leafId] at hl
  | group a b => simp [Pipeline.leafId] at hl
  | redirect a b => simp [Pipeline.leafId] at hl

/-! ### leaks -/

theorem want_pipeOut (r : Redirect) : decide (r.source = .PIPE) = true ↔ r.want cwd = .pipeOut := by
  simp only [Redirect.want, decide_eq_true_eq]
  split
  · next h => simp [h]
  · next h => simp [h]
  · next h1 h2 => simp; exact h2

theorem outWant_pipeOut : (p : Pipeline) → (o : Want) → (b : Bool) → (b = true ↔ o = .pipeOut) →
    (p.outPiped b = true ↔ p.outWant cwd o = .pipeOut)
  | .pipe _ b, o, x, h => by simp only [Pipeline.outWant, Pipeline.outPiped]; exact outWant_pipeOut b o x h
  | .group _ b, o, x, h => by simp only [Pipeline.outWant, Pipeline.outPiped]; exact outWant_pipeOut b o x h
  | .redirect p crs, o, x, h => by
    simp only [Pipeline.outWant, Pipeline.outPiped]
    apply outWant_pipeOut p
    simp only [Redirects.over]
    split
    · next r hr => rw [hr]; exact want_pipeOut r
    · next hr => rw [hr]; exact h
  | .command _ _, o, x, h => by simpa only [Pipeline.outWant, Pipeline.outPiped] using h
  | .func _, o, x, h => by simpa only [Pipeline.outWant, Pipeline.outPiped] using h
  | .iter _, o, x, h => by simpa only [Pipeline.outWant, Pipeline.outPiped] using h

mutual
theorem refRun_leaks : (p : Pipeline) → (i : Obj) → (o e : Want) → (c : Ctr) → (x : Bool) → (x = true ↔ o = .pipeOut) →
    (refRun cwd p i o e c).leaks.length = p.lost x
  | .command id args, i, o, e, c, x, h => by
    simp only [refRun, Pipeline.lost]; exact refArgs_leaks args _ _ _ _
  | .func id, i, o, e, c, x, h => by simp [refRun, Pipeline.lost]
  | .iter id, i, o, e, c, x, h => by simp [refRun, Pipeline.lost]
  | .pipe a b, i, o, e, c, x, h => by
    simp only [refRun, Pipeline.lost, List.length_append]
    rw [refRun_leaks a _ _ _ _ true (by simp), refRun_leaks b _ _ _ _ x h]
    by_cases h : b.takes 0 = true <;> simp [h]
  | .group a b, i, o, e, c, x, h => by
    simp only [refRun, Pipeline.lost, List.length_append]
    rw [refRun_leaks a _ _ _ _ x h, refRun_leaks b _ _ _ _ x h]
    have hw := outWant_pipeOut (cwd := cwd) a o x h
    by_cases ho : a.outWant cwd o = .pipeOut
    · simp [ho, hw.2 ho]
    · have : a.outPiped x = false := by
        cases hh : a.outPiped x with
        | false => rfl
        | true => exact absurd (hw.1 hh) ho
      simp [ho, this]
  | .redirect p crs, i, o, e, c, x, h => by
    simp only [refRun, Pipeline.lost]
    apply refRun_leaks p
    simp only [Redirects.over]
    split
    · next r hr => rw [hr]; exact want_pipeOut r
    · next hr => rw [hr]; exact h
theorem refArgs_leaks : (a : Args) → (i o e : Obj) → (c : Ctr) →
    (refArgs cwd a i o e c).leaks.length = a.lost
  | .nil, i, o, e, c => by simp [refArgs, Args.lost]
  | .word ws rest, i, o, e, c => by simp only [refArgs, Args.lost]; exact refArgs_leaks rest _ _ _ _
  | .pipeArg pre p rest, i, o, e, c => by
    simp only [refArgs, Args.lost, List.length_append]
    rw [refRun_leaks p _ _ _ _ true (by simp), refArgs_leaks rest _ _ _ _]
  | .funcArg pre id rest, i, o, e, c => by simp only [refArgs, Args.lost]; exact refArgs_leaks rest _ _ _ _
end

/-! ### lists -/

theorem Pointwise.split_append {α β : Type} {R : α → β → Prop} {xs : List α} {a b : List β} (h : Pointwise R xs (a ++ b)) :
    ∃ u v, xs = u ++ v ∧ Pointwise R u a ∧ Pointwise R v b := by
  induction a generalizing xs with
  | nil => exact ⟨[], xs, rfl, .nil, h⟩
  | cons x a ih =>
    rw [List.cons_append] at h
    cases h with
    | cons h1 h2 =>
      obtain ⟨u, v, rfl, hu, hv⟩ := ih h2
      exact ⟨_ :: u, v, rfl, .cons h1 hu, hv⟩

theorem Pointwise.split_flatMap {α β γ : Type} {R : α → β → Prop} {f : γ → List β} {xs : List α} {l : List γ}
    (h : Pointwise R xs (l.flatMap f)) : ∃ segs, xs = segs.flatten ∧ Pointwise (fun s g => Pointwise R s (f g)) segs l := by
  induction l generalizing xs with
  | nil => simp at h; cases h; exact ⟨[], rfl, .nil⟩
  | cons g l ih =>
    rw [List.flatMap_cons] at h
    obtain ⟨u, v, rfl, hu, hv⟩ := h.split_append
    obtain ⟨segs, rfl, hs⟩ := ih hv
    exact ⟨u :: segs, rfl, .cons hu hs⟩

theorem Pointwise.length {α β : Type} {R : α → β → Prop} {a : List α} {b : List β} (h : Pointwise R a b) : a.length = b.length := by
  induction h with
  | nil => rfl
  | cons _ _ ih => simp [ih]

theorem Pointwise.get {α β : Type} {R : α → β → Prop} {a : List α} {b : List β} (h : Pointwise R a b) {k : Nat} {y : β}
    (hk : b[k]? = some y) : ∃ x, a[k]? = some x ∧ R x y := by
  induction h generalizing k with
  | nil => simp at hk
  | cons h1 _ ih =>
    cases k with
    | zero => simp at hk; subst hk; exact ⟨_, rfl, h1⟩
    | succ k => simp at hk; simpa using ih hk

theorem Pointwise.get' {α β : Type} {R : α → β → Prop} {a : List α} {b : List β} (h : Pointwise R a b) {k : Nat} {x : α}
    (hk : a[k]? = some x) : ∃ y, b[k]? = some y ∧ R x y := by
  induction h generalizing k with
  | nil => simp at hk
  | cons h1 _ ih =>
    cases k with
    | zero => simp at hk; subst hk; exact ⟨_, rfl, h1⟩
    | succ k => simp at hk; simpa using ih hk

theorem Pointwise.getLast {α β : Type} {R : α → β → Prop} {a : List α} {b : List β} (h : Pointwise R a b) {y : β}
    (hk : b.getLast? = some y) : ∃ x, a.getLast? = some x ∧ R x y := by
  have hl := h.length
  rw [List.getLast?_eq_getElem?] at hk ⊢
  rw [hl]
  exact h.get hk

theorem Pointwise.mem {α β : Type} {R : α → β → Prop} {a : List α} {b : List β} (h : Pointwise R a b) {x : α}
    (hx : x ∈ a) : ∃ y ∈ b, R x y := by
  obtain ⟨k, hk⟩ := List.mem_iff_getElem?.1 hx
  obtain ⟨y, hy, hr⟩ := h.get' hk
  exact ⟨y, List.mem_of_getElem? hy, hr⟩

end Pieshell
