import Verif.Spec.Prompt
import Verif.Props.Scope
import Verif.Props.Tree
/-!
# The prompt (C75, C108, C109, C110)
-/
namespace Pieshell.Prompt

open Path (Homes expanduser startsWith rstripSlash isAbs)
open Startup (compressUser)

/-! ## C108: the directory -/

theorem startsWith_iff {p s : Str} : startsWith p s = true ↔ p <+: s := List.isPrefixOf_iff_prefix

theorem compress_in {homes : Homes} {home rest : Str} (hh : expanduser homes c!"~" = home) : compressUser homes (home ++ rest) = '~' :: rest := by
  simp only [compressUser, hh]
  rw [if_pos (List.isPrefixOf_iff_prefix.2 (List.prefix_append _ _)), List.drop_left]

theorem compress_out {homes : Homes} {path : Str} (h : ¬ expanduser homes c!"~" <+: path) : compressUser homes path = path := by
  simp only [compressUser]
  rw [if_neg (fun hp => h (List.isPrefixOf_iff_prefix.1 hp))]

/-- **C108.** Different directories are shown differently. -/
theorem C108_different (homes : Homes) (p q : Str) (hp : isAbs p = true) (hq : isAbs q = true) (h : compressUser homes p = compressUser homes q) : p = q := by
  have abs : ∀ {p : Str} {r : Str}, isAbs p = true → p ≠ '~' :: r := by
    intro p r hp e
    subst e
    simp [isAbs] at hp
  by_cases h1 : expanduser homes c!"~" <+: p
  · obtain ⟨r, rfl⟩ := h1
    rw [compress_in rfl] at h
    by_cases h2 : expanduser homes c!"~" <+: q
    · obtain ⟨r', rfl⟩ := h2
      rw [compress_in rfl] at h
      rw [(List.cons.inj h).2]
    · rw [compress_out h2] at h
      exact absurd h.symm (abs hq)
  · rw [compress_out h1] at h
    by_cases h2 : expanduser homes c!"~" <+: q
    · obtain ⟨r', rfl⟩ := h2
      rw [compress_in rfl] at h
      exact absurd h (abs hp)
    · rwa [compress_out h2] at h

/-- **C108.** Of two prompts that differ in the directory only, the texts are different, too. -/
theorem C108_prompts_different (user host git : Str) (homes : Homes) (p q : Str) (hp : isAbs p = true) (hq : isAbs q = true)
    (h : promptText user host homes p git = promptText user host homes q git) : p = q := by
  simp only [promptText, List.append_assoc] at h
  have h := List.append_cancel_left (List.append_cancel_left (List.append_cancel_left (List.append_cancel_left h)))
  exact C108_different homes p q hp hq (List.append_cancel_right h)

example : isAbs c!"/home/al/src" = true ∧ isAbs c!"/home/al2" = true ∧ compressUser ⟨c!"/home/al", fun _ => none⟩ c!"/home/al/src" = c!"~/src" ∧
    compressUser ⟨c!"/home/al", fun _ => none⟩ c!"/home/al2" = c!"~2" ∧ compressUser ⟨c!"/home/al", fun _ => none⟩ c!"/tmp" = c!"/tmp" := by decide

/-- **C108.** The text of the prompt. -/
theorem C108_prompt (homes : Homes) (rest : Str) (user host git : Str) (hh : expanduser homes c!"~" = c!"/home/u") :
    promptText user host homes (c!"/home/u/" ++ rest) git = user ++ '@' :: host ++ ':' :: '~' :: '/' :: rest ++ git ++ c!" >>> " := by
  have : compressUser homes (c!"/home/u" ++ '/' :: rest) = '~' :: '/' :: rest := compress_in hh
  rw [promptText, show c!"/home/u/" ++ rest = c!"/home/u" ++ '/' :: rest from rfl, this]
  simp [List.append_assoc]

theorem expand_abs {homes : Homes} {p : Str} (h : isAbs p = true) : expanduser homes p = p := by
  unfold expanduser
  split
  · simp [isAbs] at h
  · rfl

/-- What is shown expands to a path that begins with the home directory of the user that the text after the tilde names. -/
theorem expand_tilde (homes : Homes) (rest : Str) : expanduser homes ('~' :: rest) =
    match (if rest.takeWhile (· ≠ '/') = [] then homes.own else homes.named (rest.takeWhile (· ≠ '/'))) with
    | none => '~' :: rest
    | some h => if rstripSlash h ++ rest.dropWhile (· ≠ '/') = [] then c!"/" else rstripSlash h ++ rest.dropWhile (· ≠ '/') := rfl

/-- **C75.** What is shown means the directory (`cd` to it leads back there): directories that are not below a directory whose name begins like that of the home directory, the home
directory, and those below it.  Missing: directories beside it (`C75_refuted_beside`); those with two leading slashes if the home directory is `/`. -/
theorem C75_expands_partial (homes : Homes) (path : Str) (ha : isAbs path = true)
    (h : (¬ expanduser homes c!"~" <+: path) ∨ path = expanduser homes c!"~" ∨
      (expanduser homes c!"~" ≠ c!"/" ∧ expanduser homes c!"~" ++ c!"/" <+: path)) :
    expanduser homes (compressUser homes path) = path := by
  rcases h with h | h | ⟨h0, r, h⟩
  · rw [compress_out h, expand_abs ha]
  · have : compressUser homes path = c!"~" := by
      have := compress_in (homes := homes) (rest := []) rfl
      rw [List.append_nil] at this
      rw [h]; exact this
    rw [this, ← h]
  · have hp : path = expanduser homes c!"~" ++ '/' :: r := by rw [← h]; simp
    rw [hp, compress_in rfl, expand_tilde]
    rw [hp] at ha
    have t1 : ('/' :: r).takeWhile (· ≠ '/') = [] := by simp
    have t2 : ('/' :: r).dropWhile (· ≠ '/') = '/' :: r := by simp
    rw [t1, t2, if_pos rfl]
    have hx : expanduser homes c!"~" = match homes.own with | none => c!"~" | some h => if rstripSlash h ++ [] = [] then c!"/" else rstripSlash h ++ [] := rfl
    cases ho : homes.own with
    | none =>
      rw [ho] at hx
      rw [hx] at ha; simp [isAbs] at ha
    | some hm =>
      rw [ho] at hx
      have hx : expanduser homes c!"~" = if rstripSlash hm = [] then c!"/" else rstripSlash hm := by
        simp only [List.append_nil] at hx; exact hx
      show (if rstripSlash hm ++ '/' :: r = [] then _ else _) = _
      rw [if_neg (by simp), hx]
      split
      · next e => rw [hx, if_pos e] at h0; exact absurd rfl h0
      · rfl

/-- **C75 is false for the directories beside the home directory**: if the name of the current directory only begins like the home directory's, what is shown
means the home directory of another user (or something in it), or nothing at all. -/
theorem C75_refuted_beside (homes : Homes) (c : Char) (rest : Str) (hc : c ≠ '/') (ha : isAbs (expanduser homes c!"~" ++ c :: rest) = true) :
    ∃ name tail, name ++ tail = c :: rest ∧ name ≠ [] ∧ '/' ∉ name ∧ (tail = [] ∨ tail.head? = some '/') ∧
      compressUser homes (expanduser homes c!"~" ++ c :: rest) = '~' :: name ++ tail ∧
      (∀ h, homes.named name = some h → h ≠ [] → h.getLast? ≠ some '/' → expanduser homes (compressUser homes (expanduser homes c!"~" ++ c :: rest)) = h ++ tail) ∧
      (homes.named name = none →
        expanduser homes (compressUser homes (expanduser homes c!"~" ++ c :: rest)) ≠ expanduser homes c!"~" ++ c :: rest) := by
  have hne : (c :: rest).takeWhile (· ≠ '/') ≠ [] := by simp [List.takeWhile_cons, hc]
  refine ⟨(c :: rest).takeWhile (· ≠ '/'), (c :: rest).dropWhile (· ≠ '/'), List.takeWhile_append_dropWhile, hne, ?_, ?_, ?_, ?_, ?_⟩
  · intro h
    have := List.all_eq_true.1 (List.all_takeWhile (l := c :: rest) (p := (· ≠ '/'))) _ h
    simp at this
  · cases e : (c :: rest).dropWhile (· ≠ '/') with
    | nil => exact .inl rfl
    | cons d l =>
      right
      have := List.head?_dropWhile_not (fun x : Char => decide (x ≠ '/')) (c :: rest)
      rw [e] at this
      simp at this
      simp [this]
  · rw [compress_in rfl, List.cons_append, List.takeWhile_append_dropWhile]
  · intro h hn h1 h2
    rw [compress_in rfl, expand_tilde, if_neg hne, hn]
    have : rstripSlash h = h := by
      unfold rstripSlash
      cases hr : h.reverse with
      | nil => simp at hr; exact absurd hr h1
      | cons d l =>
        have hl : h.getLast? = some d := by rw [List.getLast?_eq_head?_reverse, hr]; rfl
        rw [List.dropWhile_cons, if_neg (by
          simp only [decide_eq_true_eq]
          intro e; rw [hl, e] at h2; exact h2 rfl), ← hr, List.reverse_reverse]
    simp only [this]
    rw [if_neg (by simp [h1])]
  · intro hn
    rw [compress_in rfl, expand_tilde, if_neg hne, hn]
    intro e
    rw [← e] at ha
    simp [isAbs] at ha

namespace Ex
/-- `HOME=/home/al`; there is a user `ice` -/
def homes : Homes := ⟨some c!"/home/al", fun n => if n = c!"ice" then some c!"/home/ice" else none⟩
end Ex

example : compressUser Ex.homes c!"/home/al/src" = c!"~/src" ∧ isAbs c!"/home/al/src" = true ∧ expanduser Ex.homes c!"~" ≠ c!"/" ∧
    expanduser Ex.homes c!"~" ++ c!"/" <+: c!"/home/al/src" ∧ compressUser Ex.homes c!"/usr" = c!"/usr" := by
  refine ⟨by decide, by decide, by decide, ⟨c!"src", rfl⟩, by decide⟩

/-- in `/home/alice` the prompt shows `~ice`, which is `/home/ice` -/
example : isAbs (expanduser Ex.homes c!"~" ++ 'i' :: c!"ce") = true ∧ expanduser Ex.homes c!"~" ++ 'i' :: c!"ce" = c!"/home/alice" ∧
    compressUser Ex.homes c!"/home/alice" = c!"~ice" ∧ expanduser Ex.homes (compressUser Ex.homes c!"/home/alice") = c!"/home/ice" := by decide

/-! ## C109: the branch -/

theorem strip_line {b : Str} (hb : ∀ c ∈ b, isSpace c = false) : strip (b ++ c!"\n") = b := by
  unfold strip
  have h1 : (b ++ c!"\n").reverse = '\n' :: b.reverse := by simp
  have h3 : ∀ l : Str, (∀ c ∈ l, isSpace c = false) → l.dropWhile isSpace = l := by
    intro l hl
    cases l with
    | nil => rfl
    | cons c l => rw [List.dropWhile_cons, if_neg (by rw [hl c List.mem_cons_self]; simp)]
  cases b with
  | nil => rfl
  | cons c b =>
    have h2 : ((c :: b) ++ c!"\n").dropWhile isSpace = (c :: b) ++ c!"\n" := by
      rw [List.cons_append, List.dropWhile_cons, if_neg (by rw [hb c List.mem_cons_self]; simp)]
    rw [h2, h1, List.dropWhile_cons, if_pos (by decide), h3 _ (fun d hd => hb d (List.mem_reverse.1 hd)), List.reverse_reverse]

theorem digit_not_space {c : Char} (h : c.isDigit = true) : isSpace c = false := by
  simp only [Char.isDigit, Bool.and_eq_true, decide_eq_true_eq] at h
  obtain ⟨h1, h2⟩ := h
  have h1 : 48 ≤ c.val.toNat := UInt32.le_iff_toNat_le.1 h1
  have e : c.toNat = c.val.toNat := rfl
  have h3 : c ≠ ' ' := by
    intro e
    subst e
    exact absurd h1 (by decide)
  simp only [isSpace, Bool.or_eq_false_iff, Bool.and_eq_false_iff, decide_eq_false_iff_not, beq_eq_false_iff_ne]
  refine ⟨⟨h3, .inr (by omega)⟩, .inr (by omega)⟩

theorem int_line (n : Nat) : int? (Nat.toDigits 10 n ++ c!"\n") = some n := by
  have hd : ∀ c ∈ Nat.toDigits 10 n, c.isDigit = true := fun c hc => Nat.isDigit_of_mem_toDigits (by decide) (by decide) hc
  simp only [int?, strip_line (fun c hc => digit_not_space (hd c hc))]
  rw [if_pos ⟨Nat.toDigits_ne_nil, List.all_eq_true.2 hd⟩, Nat.ofDigitChars_ten_toDigits]

/-- **C109.** On branch `b`, with `n` changed files, the prompt shows `[b +n]`, or `[b]` if nothing has changed. -/
theorem C109_branch (b : Str) (n : Nat) (rev : Ans) (hb : ∀ c ∈ b, isSpace c = false) :
    parseGitBranch (.text (c!"refs/heads/" ++ b ++ c!"\n")) rev (.text (Nat.toDigits 10 n ++ c!"\n")) =
      .ok (c!"[" ++ b ++ (if n = 0 then [] else c!" +" ++ Nat.toDigits 10 n) ++ c!"]") := by
  have hs : strip (c!"refs/heads/" ++ b ++ c!"\n") = c!"refs/heads/" ++ b := by
    apply strip_line
    intro c hc
    rcases List.mem_append.1 hc with h | h
    · have : ∀ c ∈ c!"refs/heads/", isSpace c = false := by decide
      exact this c h
    · exact hb c h
  simp only [parseGitBranch, hs, int_line]
  rw [if_neg (by simp)]
  simp only [shown]
  rw [if_pos (startsWith_iff.2 (List.prefix_append _ _)), List.drop_left]
  by_cases h : n = 0
  · subst h; rfl
  · rw [if_neg h, if_pos (Nat.pos_of_ne_zero h)]

/-- **C109.** Different branches, and different numbers of changes, are shown differently (names of branches contain no space). -/
theorem C109_different (b b' : Str) (n n' : Nat) (rev rev' : Ans) (hb : ∀ c ∈ b, isSpace c = false) (hb' : ∀ c ∈ b', isSpace c = false)
    (h : parseGitBranch (.text (c!"refs/heads/" ++ b ++ c!"\n")) rev (.text (Nat.toDigits 10 n ++ c!"\n")) =
      parseGitBranch (.text (c!"refs/heads/" ++ b' ++ c!"\n")) rev' (.text (Nat.toDigits 10 n' ++ c!"\n"))) : b = b' ∧ n = n' := by
  rw [C109_branch b n rev hb, C109_branch b' n' rev' hb'] at h
  have h := Except.ok.inj h
  rw [List.append_assoc, List.append_assoc, List.append_assoc, List.append_assoc] at h
  have h := List.append_cancel_left h
  rw [← List.append_assoc, ← List.append_assoc] at h
  have h := List.append_cancel_right h
  -- split at the first space
  have sp : ∀ (b : Str) (n : Nat), (∀ c ∈ b, isSpace c = false) →
      (b ++ (if n = 0 then [] else c!" +" ++ Nat.toDigits 10 n)).takeWhile (· ≠ ' ') = b := by
    intro b n hb
    rw [List.takeWhile_append_of_pos]
    · split
      · simp
      · simp
    · intro c hc
      simp only [ne_eq, decide_not, Bool.not_eq_eq_eq_not, Bool.not_true, decide_eq_false_iff_not]
      intro e
      have := hb c hc
      rw [e] at this
      exact absurd this (by decide)
  have e : b = b' := by rw [← sp b n hb, h, sp b' n' hb']
  subst e
  have h := List.append_cancel_left h
  refine ⟨rfl, ?_⟩
  by_cases h1 : n = 0 <;> by_cases h2 : n' = 0
  · rw [h1, h2]
  · rw [if_pos h1, if_neg h2] at h; cases h
  · rw [if_neg h1, if_pos h2] at h; cases h
  · rw [if_neg h1, if_neg h2] at h
    exact Pieshell.Tree.digits_inj (List.append_cancel_left h)

/-- **C109.** Outside of a repository (`git symbolic-ref` fails), or if `git status` fails, nothing is shown, and no exception is raised. -/
theorem C109_nothing (symref rev status : Ans) (h : symref = .failed ∨ (∃ t, symref = .text t) ∧ (∀ e, rev ≠ .raises e) ∧ status = .failed) :
    parseGitBranch symref rev status = .ok [] := by
  rcases h with rfl | ⟨⟨t, rfl⟩, hr, rfl⟩
  · rfl
  · simp only [parseGitBranch]
    split
    · cases rev with
      | text _ => rfl
      | failed => rfl
      | raises e => exact absurd rfl (hr e)
    · rfl

/-- **C109 is false without a branch** (detached HEAD: `git symbolic-ref HEAD` fails, or prints nothing): the revision is not shown, whatever `git rev-parse HEAD` and
`git status` print. -/
theorem C109_refuted_detached (t r n : Str) (ht : strip t = []) (rev status : Ans) :
    parseGitBranch .failed rev status = .ok [] ∧ parseGitBranch (.text t) (.text r) (.text n) = .ok [] := by
  refine ⟨rfl, ?_⟩
  simp only [parseGitBranch]
  rw [if_pos ht]

example : (∀ c ∈ c!"main", isSpace c = false) ∧
    parseGitBranch (.text c!"refs/heads/main\n") (.text []) (.text c!"12\n") = .ok c!"[main +12]" := by
  refine ⟨by decide, ?_⟩
  have := C109_branch c!"main" 12 (.text []) (by decide)
  exact this

example : strip c!"\n" = [] ∧ ((.text c!"refs/heads/main\n" : Ans) = .failed ∨ (∃ t, (.text c!"refs/heads/main\n" : Ans) = .text t) ∧
    (∀ e, (.text [] : Ans) ≠ .raises e) ∧ Ans.failed = .failed) :=
  ⟨by decide, .inr ⟨⟨_, rfl⟩, (by intro e h; cases h), rfl⟩⟩

/-! ## C110: printing the prompt leaves no trace -/

open Shell (V EnvRec ScopeRec)

/-- The scope of environment `i`. -/
def scopeOf (σ : Shell.Shell) (i : Nat) : Option Nat := (σ.envs[i]?).bind EnvRec.scope

/-- `τ` is `σ`, except for the variable `env` of scope `k`, and some environments `A` that may belong to the scope now. -/
structure Near (k : Nat) (A : Nat → Prop) (σ τ : Shell.Shell) : Prop where
  dicts : τ.dicts = σ.dicts
  builtin : τ.isBuiltin = σ.isBuiltin
  vars : ∀ (m : Nat) (n : Str), n ≠ c!"env" ∨ m ≠ k → Dict.get? (τ.vars m) n = Dict.get? (σ.vars m) n
  parent : ∀ m : Nat, (τ.scopes[m]?).bind ScopeRec.parent = (σ.scopes[m]?).bind ScopeRec.parent
  exports : ∀ i : Nat, τ.rawRef i = σ.rawRef i
  scope : ∀ i : Nat, scopeOf τ i = scopeOf σ i ∨ (A i ∧ scopeOf τ i = some k)

theorem Near.refl (k : Nat) (A : Nat → Prop) (σ : Shell.Shell) : Near k A σ σ := ⟨rfl, rfl, fun _ _ _ => rfl, fun _ => rfl, fun _ => rfl, fun _ => .inl rfl⟩

theorem Near.trans {k : Nat} {A : Nat → Prop} {σ τ υ : Shell.Shell} (h1 : Near k A σ τ) (h2 : Near k A τ υ) : Near k A σ υ where
  dicts := h2.dicts.trans h1.dicts
  builtin := h2.builtin.trans h1.builtin
  vars m n h := (h2.vars m n h).trans (h1.vars m n h)
  parent m := (h2.parent m).trans (h1.parent m)
  exports i := (h2.exports i).trans (h1.exports i)
  scope i := by
    rcases h2.scope i with h | h
    · rw [h]; exact h1.scope i
    · exact .inr h

theorem Near.mono {k : Nat} {A B : Nat → Prop} {σ τ : Shell.Shell} (h : Near k A σ τ) (hAB : ∀ i, A i → B i) : Near k B σ τ :=
  ⟨h.dicts, h.builtin, h.vars, h.parent, h.exports, fun i => (h.scope i).imp id fun h => ⟨hAB i h.1, h.2⟩⟩

theorem Near.stays {k : Nat} {A : Nat → Prop} {σ τ : Shell.Shell} (h : Near k A σ τ) {i : Nat} (hi : scopeOf σ i = some k) : scopeOf τ i = some k := by
  rcases h.scope i with h | h
  · rw [h, hi]
  · exact h.2

theorem Near.free {k : Nat} {A : Nat → Prop} {σ τ : Shell.Shell} (h : Near k A σ τ) {n : Str} (hn : n ≠ c!"env") (hf : Free σ n) : Free τ n :=
  ⟨by rw [h.dicts]; exact hf.1, fun m => by rw [h.vars m n (.inl hn)]; exact hf.2.1 m, by rw [h.builtin]; exact hf.2.2⟩

theorem free_getItem {σ : Shell.Shell} {k i : Nat} {n : Str} (hc : σ.current k = some i) (hf : Free σ n) (he : n ≠ c!"exports") :
    σ.getItem k n = .ok (Shell.envGetattr i n) := by
  have hd : ∀ r, Dict.get? (σ.dict r) n = none := by
    intro r
    simp only [Shell.Shell.dict]
    cases hr : σ.dicts[r]? with
    | none => rfl
    | some d => exact hf.1 d (List.mem_of_getElem? hr)
  have hp : Dict.get? ((σ.parentVars k).getD []) n = none := by
    unfold Shell.Shell.parentVars
    cases (σ.scopes[k]?).bind ScopeRec.parent with
    | none => rfl
    | some m => exact hf.2.1 m
  unfold Shell.Shell.getItem
  rw [hf.2.1 k]
  simp only [hc, hd, hp, hf.2.2]
  split <;> first | rfl | simp_all

/-- `x._scope["env"] = y` -/
theorem rebind_near {σ : Shell.Shell} {k x : Nat} (h : σ.OneScope k) (hx : scopeOf σ x = some k) (y : Nat) {A : Nat → Prop}
    (hA : scopeOf σ y = some k ∨ A y) :
    (σ.rebind x (.env y)).2 = .ok () ∧ (σ.rebind x (.env y)).1.OneScope k ∧ (σ.rebind x (.env y)).1.current k = some y ∧
    Near k A σ (σ.rebind x (.env y)).1 ∧ (y < σ.envs.length → scopeOf (σ.rebind x (.env y)).1 y = some k) := by
  have e0 : σ.rebind x (.env y) = σ.setItem k c!"env" (.env y) := by
    unfold Shell.Shell.rebind
    rw [show (σ.envs[x]?).bind EnvRec.scope = some k from hx]
  rw [e0]
  obtain ⟨a1, a2, a3, a4, a5⟩ := Shell.oneScope_setEnv h y
  refine ⟨a1, a2, a3, ?_, fun hy => a5 _ (List.getElem?_eq_getElem hy)⟩
  obtain ⟨τ, ha, hd, hs, -⟩ := Shell.adopt_env σ k y
  have hτ : τ = { σ with envs := match σ.envs[y]? with | none => σ.envs | some e => σ.envs.set y { e with scope := some k } } := (Option.some.inj ha).symm
  have hv : ∀ m, τ.vars m = σ.vars m := fun m => by simp only [Shell.Shell.vars, hs]
  have hc : τ.current k = σ.current k := Shell.current_of (by rw [hv])
  obtain ⟨i, hi⟩ := Option.ne_none_iff_exists'.1 h.current
  have hno : Dict.mem (τ.dict (τ.exportsOf k)) c!"env" = false := by
    simp only [Dict.mem, Shell.dict_noEnv (σ := τ) (by rw [hd]; exact h.noEnv)]; rfl
  have e : σ.setItem k c!"env" (.env y) = (τ.setLocal k c!"env" (.env y), .ok ()) := by
    unfold Shell.Shell.setItem
    rw [show Shell.storedName c!"env" = c!"env" from rfl, if_pos rfl, ha]
    show τ.store k c!"env" (.env y) = _
    rw [Shell.store_eq (hc.trans hi), hno]; rfl
  rw [e]
  obtain ⟨s, hsc⟩ := Shell.current_lt (σ := τ) (k := k) (by rw [hc]; exact h.current)
  obtain ⟨d1, d2, d3⟩ := Shell.setLocal_dicts τ k c!"env" (.env y)
  have henv : ∀ j, (τ.envs[j]?).map EnvRec.exports = (σ.envs[j]?).map EnvRec.exports ∧
      (scopeOf τ j = scopeOf σ j ∨ (j = y ∧ scopeOf τ j = some k)) := by
    intro j
    rw [hτ]
    simp only [scopeOf]
    cases hy : σ.envs[y]? with
    | none => exact ⟨rfl, .inl rfl⟩
    | some e =>
      have hlt := (List.getElem?_eq_some_iff.1 hy).1
      simp only [List.getElem?_set]
      by_cases hj : y = j
      · subst hj
        simp only [if_true, hlt, hy]
        exact ⟨rfl, .inr ⟨trivial, rfl⟩⟩
      · rw [if_neg hj]; exact ⟨rfl, .inl rfl⟩
  refine ⟨d1.trans hd, d3.trans (by rw [hτ]), fun m n hmn => ?_, fun m => ?_, fun j => ?_, fun j => ?_⟩
  · show Dict.get? ((τ.setLocal k c!"env" (.env y)).vars m) n = _
    rw [Shell.vars_setLocal hsc]
    by_cases hm : m = k
    · rw [if_pos hm, Dict.get?_set, if_neg (fun h => (hmn.elim id (absurd hm)) h.symm), hm, hv]
    · rw [if_neg hm, hv]
  · show ((τ.setLocal k c!"env" (.env y)).scopes[m]?).bind _ = _
    rw [Shell.setLocal_parent, hs]
  · simp only [Shell.Shell.rawRef, d2, (henv j).1]
  · have hsc : scopeOf (τ.setLocal k c!"env" (.env y)) j = scopeOf τ j := by simp only [scopeOf, d2]
    simp only [hsc]
    rcases (henv j).2 with h | ⟨h, h'⟩
    · exact .inl h
    · subst h
      rcases hA with hA | hA
      · exact .inl (h'.trans hA.symm)
      · exact .inr ⟨hA, h'⟩

/-- The prompt keeps the shell's variables. -/
structure Kept (k : Nat) (A : Nat → Prop) (y : Nat) (s t : St) : Prop where
  near : Near k A s.sh t.sh
  one : t.sh.OneScope k
  cur : t.sh.current k = s.sh.current k
  flag : t.inPrompt = s.inPrompt
  last : ∀ j, j ≠ y → t.last j = s.last j

theorem Kept.trans {k : Nat} {A : Nat → Prop} {y : Nat} {s t u : St} (h1 : Kept k A y s t) (h2 : Kept k A y t u) : Kept k A y s u :=
  ⟨h1.near.trans h2.near, h2.one, h2.cur.trans h1.cur, h2.flag.trans h1.flag, fun j hj => (h2.last j hj).trans (h1.last j hj)⟩

section
variable {k : Nat} {old : Nat → Str} {evs : List Ev} {text : Str}

theorem temporary_env_current {σ : Shell.Shell} {i : Nat} (hc : σ.current k = some i) (hf : Free σ c!"temporary_env") :
    σ.getItem k c!"temporary_env" = .ok (.attribute i c!"temporary_env") := by
  rw [free_getItem hc hf (by decide)]
  rfl

/-- A nested call. -/
theorem nested_kept {s : St} {i : Nat} (d y : Nat) {A : Nat → Prop} (hA : A y) (h : s.sh.OneScope k) (hc : s.sh.current k = some i) (hf : Free s.sh c!"temporary_env")
    (hp : s.inPrompt = true) (z : Nat) : Kept k A z s (str k old evs text (d + 1) y s).1 := by
  have triv : Kept k A z s s := ⟨Near.refl _ _ _, h, rfl, rfl, fun _ _ => rfl⟩
  unfold str
  rw [temporary_env_current hc hf]
  simp only
  cases hx : scopeOf s.sh i with
  | none =>
    have e : s.sh.rebind i (.env y) = (s.sh, .error .typeError) := by
      unfold Shell.Shell.rebind
      rw [show (s.sh.envs[i]?).bind EnvRec.scope = none from hx]
    rw [e]
    exact triv
  | some k' =>
    have hk : k' = k := by
      unfold scopeOf at hx
      cases he : s.sh.envs[i]? with
      | none => rw [he] at hx; cases hx
      | some e =>
        rw [he] at hx
        rcases h.scopes i e he with h' | h'
        · rw [show e.scope = some k' from hx] at h'; cases h'
        · rw [show e.scope = some k' from hx] at h'; exact Option.some.inj h'
    subst hk
    obtain ⟨a1, a2, a3, a4, -⟩ := rebind_near h hx y (A := A) (.inr hA)
    generalize s.sh.rebind i (.env y) = r at a1 a2 a3 a4
    obtain ⟨σ, r2⟩ := r
    subst a1
    simp only at a2 a3 a4 ⊢
    have hb : body k' (str k' old evs text d) old evs text y { s with sh := σ } = ({ s with sh := σ }, .ok (old y)) := by
      unfold body
      rw [if_pos (by exact hp)]
    rw [hb]
    obtain ⟨b1, b2, b3, b4, -⟩ := rebind_near a2 (a4.stays hx) i (A := A) (.inl (a4.stays hx))
    simp only
    generalize σ.rebind i (.env i) = r at b1 b2 b3 b4
    obtain ⟨σ', r2⟩ := r
    subst b1
    exact ⟨a4.trans b4, b2, b3.trans hc.symm, rfl, fun _ _ => rfl⟩

theorem events_kept (d y : Nat) {A : Nat → Prop} (l : List Ev) (hl : ∀ z ∈ shownEnvs l, A z) : ∀ {s : St}, s.sh.OneScope k → s.sh.current k = some y →
    Free s.sh c!"temporary_env" → FreeCommands s.sh l → s.inPrompt = true → Kept k A y s (events k (str k old evs text (d + 1)) l s).1 := by
  induction l with
  | nil => intro s h _ _ _ _; exact ⟨Near.refl _ _ _, h, rfl, rfl, fun _ _ => rfl⟩
  | cons ev l ih =>
    intro s h hc hf hfc hp
    have step : Kept k A y s (event k (str k old evs text (d + 1)) s ev).1 := by
      cases ev with
      | raise e => exact ⟨Near.refl _ _ _, h, rfl, rfl, fun _ _ => rfl⟩
      | str z =>
        have := nested_kept (old := old) (evs := evs) (text := text) d z (A := A) (hl z List.mem_cons_self) h hc hf hp y
        simp only [event]
        generalize str k old evs text (d + 1) z s = r at this
        obtain ⟨r1, r2⟩ := r
        cases r2 <;> exact this
      | run name n =>
        obtain ⟨h1, h2, h3, h4, h5⟩ := hfc name n List.mem_cons_self
        simp only [event, free_getItem hc h1 h3, Shell.envGetattr, if_neg h2, h5]
        exact ⟨Near.refl _ _ _, h, rfl, rfl, fun j hj => if_neg hj⟩
    unfold events
    generalize event k (str k old evs text (d + 1)) s ev = r at step
    obtain ⟨t, r2⟩ := r
    cases r2 with
    | error e => exact step
    | ok u =>
      simp only at step ⊢
      refine step.trans (ih (fun z hz => hl z ?_) step.one (step.cur.trans hc) (step.near.free (by decide) hf) (fun name n hn => ?_) (step.flag.trans hp))
      · cases ev <;> simp only [shownEnvs, List.mem_cons] <;> first | exact .inr hz | exact hz
      · obtain ⟨h1, h2⟩ := hfc name n (List.mem_cons_of_mem _ hn)
        exact ⟨step.near.free h2.2.2.1 h1, h2⟩

/-- `str(y)` as a whole. -/
theorem str_kept {s : St} {i y : Nat} (d : Nat) (h : s.sh.OneScope k) (hc : s.sh.current k = some i) (hi : scopeOf s.sh i = some k)
    (hf : Free s.sh c!"temporary_env") (hfc : FreeCommands s.sh evs) (hp : s.inPrompt = false) :
    Near k (fun z => z = y ∨ z ∈ shownEnvs evs) s.sh (str k old evs text (d + 2) y s).1.sh ∧ (str k old evs text (d + 2) y s).1.sh.current k = some i ∧
    (str k old evs text (d + 2) y s).1.inPrompt = false ∧ (∀ j, (str k old evs text (d + 2) y s).1.lastPipeline j = s.lastPipeline j) ∧
    (y < s.sh.envs.length → scopeOf (str k old evs text (d + 2) y s).1.sh y = some k) := by
  let A : Nat → Prop := fun z => z = y ∨ z ∈ shownEnvs evs
  obtain ⟨a1, a2, a3, a4, a5⟩ := rebind_near h hi y (A := A) (.inr (.inl rfl))
  unfold str
  rw [temporary_env_current hc hf]
  simp only
  generalize s.sh.rebind i (.env y) = r at a1 a2 a3 a4 a5
  obtain ⟨σ, r2⟩ := r
  subst a1
  simp only at a2 a3 a4 a5 ⊢
  have hk := events_kept (old := old) (evs := evs) (text := text) (k := k) d y (A := A) evs (fun z hz => .inr hz)
    (s := { s with sh := σ, inPrompt := true }) a2 a3 (a4.free (by decide) hf)
    (fun name n hn => ⟨a4.free (hfc name n hn).2.2.2.1 (hfc name n hn).1, (hfc name n hn).2⟩) rfl
  have hb : (body k (str k old evs text (d + 1)) old evs text y { s with sh := σ }).1 =
      ({ (events k (str k old evs text (d + 1)) evs { s with sh := σ, inPrompt := true }).1 with inPrompt := false }).setLast y (s.lastPipeline y) := by
    unfold body
    rw [if_neg (by show ¬ s.inPrompt = true; rw [hp]; decide)]
    rfl
  generalize body k (str k old evs text (d + 1)) old evs text y { s with sh := σ } = b at hb
  obtain ⟨b1, b2⟩ := b
  simp only at hb
  generalize events k (str k old evs text (d + 1)) evs { s with sh := σ, inPrompt := true } = ev at hk hb
  obtain ⟨e1, e2⟩ := ev
  subst hb
  simp only at hk
  obtain ⟨c1, c2, c3, c4, -⟩ := rebind_near hk.one (hk.near.stays (a4.stays hi)) i (A := A) (.inl (hk.near.stays (a4.stays hi)))
  simp only [St.setLast]
  generalize e1.sh.rebind i (.env i) = r at c1 c2 c3 c4
  obtain ⟨σ', r2⟩ := r
  subst c1
  simp only at c2 c3 c4 ⊢
  refine ⟨(a4.trans hk.near).trans c4, c3, trivial, fun j => ?_, fun hy => c4.stays (hk.near.stays (a5 hy))⟩
  simp only [St.lastPipeline]
  by_cases hj : j = y
  · subst hj; simp
  · rw [if_neg hj, hk.last j hj]

theorem near_getItem {A : Nat → Prop} {σ τ : Shell.Shell} {i : Nat} (h : Near k A σ τ) (h1 : σ.current k = some i) (h2 : τ.current k = some i) (m : Nat) (n : Str) :
    τ.getItem m n = σ.getItem m n := by
  have hcur : ∀ {σ : Shell.Shell}, σ.current k = some i → Dict.get? (σ.vars k) c!"env" = some (.env i) := by
    intro σ h
    unfold Shell.Shell.current at h
    split at h
    · next e => rw [e, Option.some.inj h]
    · cases h
  have hv : ∀ m n, Dict.get? (τ.vars m) n = Dict.get? (σ.vars m) n := by
    intro m n
    by_cases e : n ≠ c!"env" ∨ m ≠ k
    · exact h.vars m n e
    · have e1 : n = c!"env" := Classical.byContradiction fun h => e (.inl h)
      have e2 : m = k := Classical.byContradiction fun h => e (.inr h)
      rw [e1, e2, hcur h1, hcur h2]
  have hd : ∀ r, τ.dict r = σ.dict r := fun r => by simp only [Shell.Shell.dict, h.dicts]
  have hx : ∀ j, τ.exportsRef j = σ.exportsRef j := fun j => by simp only [Shell.Shell.exportsRef, h.exports, hd]
  have hc : τ.current m = σ.current m := by simp only [Shell.Shell.current, hv]
  have hp : Dict.get? ((τ.parentVars m).getD []) n = Dict.get? ((σ.parentVars m).getD []) n := by
    simp only [Shell.Shell.parentVars, h.parent]
    cases (σ.scopes[m]?).bind ScopeRec.parent with
    | none => rfl
    | some m' => exact hv m' n
  unfold Shell.Shell.getItem
  simp only [hv, hc, hd, hx, hp, h.builtin]

theorem near_template {A : Nat → Prop} {σ τ : Shell.Shell} {i : Nat} (h : Near k A σ τ) (h1 : σ.current k = some i) (h2 : τ.current k = some i) {j : Nat}
    (hj : scopeOf σ j = some k ∨ ¬ A j) (n : Str) : τ.template j n = σ.template j n := by
  have hs : scopeOf τ j = scopeOf σ j := by
    rcases h.scope j with e | ⟨e1, e2⟩
    · exact e
    · rcases hj with hj | hj
      · rw [e2, hj]
      · exact absurd e1 hj
  have hd : ∀ r, τ.dict r = σ.dict r := fun r => by simp only [Shell.Shell.dict, h.dicts]
  unfold Shell.Shell.template
  rw [show (τ.envs[j]?).bind EnvRec.scope = (σ.envs[j]?).bind EnvRec.scope from hs]
  split
  · exact near_getItem h h1 h2 _ n
  · simp only [Shell.Shell.exportsRef, h.exports, hd]

end

/-- **C110.** Whatever happens while the prompt is made, pipelines being run, environments being shown, exceptions being raised: afterwards every variable has the
value it had before, in every scope, `env` is the same environment, `last_pipeline` of every environment is the same pipeline, the prompt can be shown again, and
`%(name)s` in the arguments of commands means what it meant before, for the environments of the shell, and for all others that have not been shown.
Missing: environments that do not belong to the shell (`C110_refuted`). -/
theorem C110_no_trace_partial (k i y : Nat) (old : Nat → Str) (evs : List Ev) (text : Str) (s : St) (h : s.sh.OneScope k) (hc : s.sh.current k = some i)
    (hi : (s.sh.envs[i]?).bind EnvRec.scope = some k) (hf : Free s.sh c!"temporary_env") (hfc : FreeCommands s.sh evs) (hp : s.inPrompt = false) :
    let t := (str k old evs text 2 y s).1
    (∀ m n, t.sh.getItem m n = s.sh.getItem m n) ∧ t.sh.current k = some i ∧ t.sh.dicts = s.sh.dicts ∧ (∀ j, t.lastPipeline j = s.lastPipeline j) ∧ t.inPrompt = false ∧
    ∀ j n, ((s.sh.envs[j]?).bind EnvRec.scope = some k ∨ (j ≠ y ∧ j ∉ shownEnvs evs)) → t.sh.template j n = s.sh.template j n := by
  obtain ⟨h1, h2, h3, h4, -⟩ := str_kept (old := old) (text := text) (y := y) 0 h hc hi hf hfc hp
  refine ⟨fun m n => near_getItem h1 hc h2 m n, h2, h1.dicts, h4, h3, fun j n hj => near_template h1 hc h2 ?_ n⟩
  rcases hj with hj | ⟨ha, hb⟩
  · exact .inl hj
  · exact .inr fun h => h.elim ha hb

/-- **C110.** The same for the prompt of the console, which shows an exception if making the text raises one. -/
theorem C110_prompt_partial (k i : Nat) (old : Nat → Str) (evs : List Ev) (text : Str) (shownExn : Exn → Str) (s : St) (h : s.sh.OneScope k) (hc : s.sh.current k = some i)
    (hi : (s.sh.envs[i]?).bind EnvRec.scope = some k) (hf : Free s.sh c!"temporary_env") (hfc : FreeCommands s.sh evs) (hp : s.inPrompt = false) :
    let t := (scopeStr k old evs text 2 shownExn s).1
    (∀ m n, t.sh.getItem m n = s.sh.getItem m n) ∧ t.sh.current k = some i ∧ t.sh.dicts = s.sh.dicts ∧ (∀ j, t.lastPipeline j = s.lastPipeline j) ∧ t.inPrompt = false ∧
    ∀ j n, ((s.sh.envs[j]?).bind EnvRec.scope = some k ∨ j ∉ shownEnvs evs) → t.sh.template j n = s.sh.template j n := by
  have e : (scopeStr k old evs text 2 shownExn s).1 = (str k old evs text 2 i s).1 := by
    simp only [scopeStr, hc]
    split
    · next heq => rw [heq]
    · next heq => rw [heq]
  simp only [e]
  obtain ⟨a1, a2, a3, a4, a5, a6⟩ := C110_no_trace_partial k i i old evs text s h hc hi hf hfc hp
  refine ⟨a1, a2, a3, a4, a5, fun j n hj => a6 j n ?_⟩
  rcases hj with hj | hj
  · exact .inl hj
  · by_cases e : j = i
    · exact .inl (by rw [e]; exact hi)
    · exact .inr ⟨e, hj⟩

/-- **C110.** Showing environments while the prompt is made does not lead to another one being made: calls are nested at most twice, in every state. -/
theorem C110_depth (k : Nat) (old : Nat → Str) (evs : List Ev) (text : Str) (d y : Nat) (s : St) :
    str k old evs text (d + 2) y s = str k old evs text 2 y s := by
  have nest : ∀ (d y : Nat) (s : St), s.inPrompt = true → str k old evs text (d + 1) y s = str k old evs text 1 y s ∧
      (str k old evs text (d + 1) y s).1.inPrompt = true := by
    intro d y s hp
    have hb : ∀ (f : Nat → St → St × Except Exn Str) σ, body k f old evs text y { s with sh := σ } = ({ s with sh := σ }, .ok (old y)) := by
      intro f σ
      unfold body
      rw [if_pos (by exact hp)]
    have : ∀ d, str k old evs text (d + 1) y s = (match s.sh.getItem k c!"temporary_env" with
        | .error e => (s, .error e)
        | .ok (.attribute x _) => match s.sh.rebind x (.env y) with
          | (σ, .error e) => ({ s with sh := σ }, .error e)
          | (σ, .ok _) => match σ.rebind x (.env x) with
            | (σ, .error e) => ({ s with sh := σ }, .error e)
            | (σ, .ok _) => ({ s with sh := σ }, .ok (old y))
        | .ok _ => (s, .error .typeError)) := by
      intro d
      unfold str
      simp only [hb]
      rfl
    refine ⟨(this d).trans (this 0).symm, ?_⟩
    rw [this d]
    split
    · exact hp
    · split
      · exact hp
      · split <;> exact hp
    · exact hp
  have evsame : ∀ (l : List Ev) (s : St), s.inPrompt = true → events k (str k old evs text (d + 1)) l s = events k (str k old evs text 1) l s := by
    intro l
    induction l with
    | nil => intro s _; rfl
    | cons ev l ih =>
      intro s hp
      have e1 : event k (str k old evs text (d + 1)) s ev = event k (str k old evs text 1) s ev := by
        cases ev with
        | str z => simp only [event, (nest d z s hp).1]
        | run _ _ => rfl
        | raise _ => rfl
      have e2 : (event k (str k old evs text 1) s ev).1.inPrompt = true := by
        cases ev with
        | str z =>
          have := (nest 0 z s hp).2
          simp only [event]
          generalize str k old evs text (0 + 1) z s = r at this ⊢
          obtain ⟨r1, r2⟩ := r
          cases r2 <;> exact this
        | run name n =>
          simp only [event]
          split <;> exact hp
        | raise _ => exact hp
      unfold events
      rw [e1]
      generalize event k (str k old evs text 1) s ev = r at e2
      obtain ⟨t, r2⟩ := r
      cases r2 with
      | error e => rfl
      | ok u => exact ih t e2
  have hbody : ∀ s : St, body k (str k old evs text (d + 1)) old evs text y s = body k (str k old evs text 1) old evs text y s := by
    intro s
    unfold body
    split
    · rfl
    · simp only [evsame evs { s with inPrompt := true } rfl]
  rw [show d + 2 = (d + 1) + 1 from rfl, show (2 : Nat) = 1 + 1 from rfl]
  unfold str
  simp only [hbody]

/-- **C110 is false for environments that do not belong to the shell** (such as `e = env(exports=...)`): showing one, with `print(e)` say, changes what the arguments of its commands
mean: before, `%(name)s` means its own exported variable, afterwards, what `name` means at the prompt. -/
theorem C110_refuted (k i y : Nat) (old : Nat → Str) (evs : List Ev) (text : Str) (s : St) (h : s.sh.OneScope k) (hc : s.sh.current k = some i)
    (hi : (s.sh.envs[i]?).bind EnvRec.scope = some k) (hf : Free s.sh c!"temporary_env") (hfc : FreeCommands s.sh evs) (hp : s.inPrompt = false)
    (e : EnvRec) (hy : s.sh.envs[y]? = some e) (he : e.scope = none) (n : Str) (v : V) (hv : Dict.get? (s.sh.dict (s.sh.exportsRef y)) n = some v) :
    s.sh.template y n = .ok v ∧ (str k old evs text 2 y s).1.sh.template y n = s.sh.getItem k n := by
  obtain ⟨h1, h2, h3, h4, h5⟩ := str_kept (old := old) (text := text) (y := y) 0 h hc hi hf hfc hp
  constructor
  · unfold Shell.Shell.template
    rw [hy]
    simp only [Option.bind_some, he, hv]
  · unfold Shell.Shell.template
    have : ((str k old evs text 2 y s).1.sh.envs[y]?).bind EnvRec.scope = some k := h5 (List.getElem?_eq_some_iff.1 hy).1
    rw [this]
    exact near_getItem h1 hc h2 k n

namespace Ex

/-- a shell with one scope; environment 1 does not belong to it -/
def st : St := ⟨Shell.demo, fun j => if j = 0 then some (.pipeline 7) else none, false⟩

/-- what the default prompt does, with a look at the environment in between -/
def evs : List Ev := [.run c!"git" 8, .str 0, .run c!"wc" 9, .raise .valueError]

theorem free (n : Str) (h : Dict.get? [(c!"HOME", V.str c!"/home/a")] n = none ∧ Dict.get? [(c!"LANG", V.str c!"C")] n = none ∧
    Dict.get? [(c!"env", V.env 0), (c!"x", .obj 1)] n = none ∧ (n == c!"len") = false) : Free st.sh n := by
  refine ⟨?_, ?_, h.2.2.2⟩
  · intro d hd
    simp only [st, Shell.demo, List.mem_cons, List.not_mem_nil, or_false] at hd
    rcases hd with rfl | rfl
    · exact h.1
    · exact h.2.1
  · intro k
    match k with
    | 0 => exact h.2.2.1
    | k + 1 => rfl

end Ex

/-- The hypotheses are met, and `C110_refuted` shows a difference: `%(LANG)s` is `C` before, and a command of the shell's environment afterwards. -/
example : Ex.st.sh.OneScope 0 ∧ Ex.st.sh.current 0 = some 0 ∧ (Ex.st.sh.envs[0]?).bind EnvRec.scope = some 0 ∧ Free Ex.st.sh c!"temporary_env" ∧
    FreeCommands Ex.st.sh Ex.evs ∧ Ex.st.inPrompt = false ∧ Ex.st.sh.envs[1]? = some ⟨1, none⟩ ∧
    Dict.get? (Ex.st.sh.dict (Ex.st.sh.exportsRef 1)) c!"LANG" = some (.str c!"C") ∧ Ex.st.sh.getItem 0 c!"LANG" = .ok (.command 0 (some c!"LANG")) ∧
    (str 0 (fun _ => []) Ex.evs [] 2 0 Ex.st).1.lastPipeline 0 = .pipeline 7 ∧ (str 0 (fun _ => []) Ex.evs [] 2 0 Ex.st).2 = .error .valueError := by
  refine ⟨Shell.demo_oneScope, rfl, rfl, Ex.free _ (by decide), ?_, rfl, rfl, rfl, rfl, by decide, rfl⟩
  intro name n hn
  simp only [Ex.evs, List.mem_cons, List.not_mem_nil, or_false, Ev.run.injEq, reduceCtorEq, false_or] at hn
  rcases hn with ⟨rfl, -⟩ | ⟨rfl, -⟩
  · exact ⟨Ex.free _ (by decide), by decide, by decide, by decide, by decide⟩
  · exact ⟨Ex.free _ (by decide), by decide, by decide, by decide, by decide⟩

end Pieshell.Prompt
