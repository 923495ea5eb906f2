import Verif.Spec.Exec
/-!
# C70-C72: which program a command runs, what its arguments are, and that the child does nothing else
-/
namespace Pieshell.Exec
open Pieshell.Path Pieshell.Envs

/-! ## Lemmas -/

theorem splitColon_ne (s : Str) : splitColon s ≠ [] := by
  cases s with
  | nil => simp [splitColon]
  | cons c s =>
    simp only [splitColon]
    split
    · simp
    · split <;> simp

theorem splitColon_parts : ∀ (s : Str), Spec.Parts s (splitColon s)
  | [] => ⟨by simp [splitColon], by simp [splitColon, List.intercalate], by simp [splitColon]⟩
  | c :: s => by
    obtain ⟨h1, h2, h3⟩ := splitColon_parts s
    refine ⟨splitColon_ne _, ?_, ?_⟩
    · simp only [splitColon]
      by_cases hc : c = ':'
      · rw [if_pos hc]
        cases hs : splitColon s with
        | nil => exact absurd hs h1
        | cons w ws =>
          rw [hs] at h2
          subst hc
          cases ws with
          | nil => simp_all [List.intercalate]
          | cons w' ws => simp_all [List.intercalate]
      · rw [if_neg hc]
        cases hs : splitColon s with
        | nil => exact absurd hs h1
        | cons w ws =>
          rw [hs] at h2
          cases ws with
          | nil => simp_all [List.intercalate]
          | cons w' ws => simp_all [List.intercalate]
    · simp only [splitColon]
      by_cases hc : c = ':'
      · rw [if_pos hc]
        intro d hd
        rcases List.mem_cons.1 hd with rfl | hd
        · simp
        · exact h3 d hd
      · rw [if_neg hc]
        cases hs : splitColon s with
        | nil => exact absurd hs h1
        | cons w ws =>
          rw [hs] at h3
          intro d hd
          simp only at hd
          rcases List.mem_cons.1 hd with rfl | hd
          · simp only [List.mem_cons, not_or]
            exact ⟨fun h => hc h.symm, h3 w List.mem_cons_self⟩
          · exact h3 d (List.mem_cons_of_mem _ hd)

/-- the parts of a path are unique -/
theorem parts_unique : ∀ (dirs : List Str) (path : Str), Spec.Parts path dirs → splitColon path = dirs
  | [], path, h => absurd rfl h.1
  | [d], path, h => by
    obtain ⟨_, h2, h3⟩ := h
    have hp : path = d := by simpa [List.intercalate] using h2.symm
    subst hp
    have hd := h3 path (by simp)
    clear h2 h3
    induction path with
    | nil => rfl
    | cons c s ih =>
      simp only [List.mem_cons, not_or] at hd
      simp only [splitColon, if_neg (fun h : c = ':' => hd.1 h.symm), ih (by simp) hd.2]
  | d :: d' :: ds, path, h => by
    obtain ⟨_, h2, h3⟩ := h
    have hd := h3 d (by simp)
    have ih := parts_unique (d' :: ds) (List.intercalate [':'] (d' :: ds))
      ⟨by simp, rfl, fun x hx => h3 x (List.mem_cons_of_mem _ hx)⟩
    have hp : path = d ++ ':' :: List.intercalate [':'] (d' :: ds) := by
      rw [← h2]; simp [List.intercalate]
    rw [hp]
    clear h2 hp h3
    induction d with
    | nil => simp only [List.nil_append, splitColon, if_true]; rw [ih]
    | cons c s ihs =>
      simp only [List.mem_cons, not_or] at hd
      simp only [List.cons_append, splitColon, if_neg (fun h : c = ':' => hd.1 h.symm), ihs (by simp) hd.2]

theorem join_entry (dir file : Str) (h : '/' ∉ file) : join dir file = Spec.entry dir file := by
  have : isAbs file = false := by
    cases file with
    | nil => rfl
    | cons c s =>
      simp only [List.mem_cons, not_or] at h
      have : c ≠ '/' := fun hc => h.1 hc.symm
      simp [isAbs, this]
  unfold join Spec.entry
  by_cases h1 : dir = []
  · simp [this, h1]
  · by_cases h2 : dir.getLast? = some '/'
    · simp [this, h2]
    · simp [this, h1, h2]

theorem search_first (execve : Str → Option Nat) (file : Str) (hf : '/' ∉ file) :
    ∀ (dirs : List Str) (d : Str) (saved last : Option Nat), Spec.First execve file dirs d →
      search execve file dirs saved last = .ok (Spec.entry d file)
  | [], d, _, _, h => by obtain ⟨b, a, h1, _⟩ := h; simp at h1
  | x :: xs, d, saved, last, h => by
    obtain ⟨before, after, h1, h2, h3⟩ := h
    unfold search
    rw [join_entry x file hf]
    cases before with
    | nil =>
      simp only [List.nil_append, List.cons.injEq] at h1
      rw [h1.1, h2]
    | cons b bs =>
      simp only [List.cons_append, List.cons.injEq] at h1
      obtain ⟨rfl, rfl⟩ := h1
      have hx := h3 x List.mem_cons_self
      have ih := fun saved last => search_first execve file hf (bs ++ d :: after) d saved last
        ⟨bs, after, rfl, h2, fun b hb => h3 b (List.mem_cons_of_mem _ hb)⟩
      cases he : execve (Spec.entry x file) with
      | none => exact absurd he hx
      | some e =>
        simp only
        split <;> exact ih _ _

theorem search_saved (execve : Str → Option Nat) (file : Str) (hf : '/' ∉ file) (e : Nat) :
    ∀ (dirs : List Str) (last : Option Nat), (∀ b ∈ dirs, execve (Spec.entry b file) ≠ none) →
      search execve file dirs (some e) last = .error (.os e)
  | [], _, _ => by simp [search]
  | x :: xs, last, h => by
    unfold search
    rw [join_entry x file hf]
    have ih := fun last => search_saved execve file hf e xs last (fun b hb => h b (List.mem_cons_of_mem _ hb))
    cases he : execve (Spec.entry x file) with
    | none => exact absurd he (h x List.mem_cons_self)
    | some e' =>
      simp only
      split
      · exact ih _
      · simp only [reduceCtorEq, if_false]; exact ih _

theorem search_nowhere (execve : Str → Option Nat) (file : Str) (hf : '/' ∉ file) (errno : Nat) :
    ∀ (dirs : List Str) (last : Option Nat), Spec.Nowhere execve file dirs errno →
      search execve file dirs none last = .error (.os errno)
  | [], _, h => by
    rcases h with ⟨b, d, a, h1, _⟩ | ⟨b, d, h1, _⟩ <;> simp at h1
  | x :: xs, last, h => by
    unfold search
    rw [join_entry x file hf]
    rcases h with ⟨before, d, after, h1, h2, h3, h4, h5⟩ | ⟨before, d, h1, h2, h3, h4⟩
    · cases before with
      | nil =>
        simp only [List.nil_append, List.cons.injEq] at h1
        obtain ⟨rfl, rfl⟩ := h1
        rw [h2]
        have : ¬ (errno = ENOENT ∨ errno = ENOTDIR) := h3
        simp only [if_neg this, if_true]
        exact search_saved execve file hf errno xs _ h5
      | cons b bs =>
        simp only [List.cons_append, List.cons.injEq] at h1
        obtain ⟨rfl, rfl⟩ := h1
        obtain ⟨e, he, hm⟩ := h4 x List.mem_cons_self
        rw [he]
        have : e = ENOENT ∨ e = ENOTDIR := hm
        simp only [if_pos this]
        exact search_nowhere execve file hf errno _ _
          (.inl ⟨bs, d, after, rfl, h2, h3, fun b hb => h4 b (List.mem_cons_of_mem _ hb), h5⟩)
    · cases before with
      | nil =>
        simp only [List.nil_append, List.cons.injEq] at h1
        obtain ⟨rfl, rfl⟩ := h1
        rw [h2]
        have : errno = ENOENT ∨ errno = ENOTDIR := h3
        simp [if_pos this, search]
      | cons b bs =>
        simp only [List.cons_append, List.cons.injEq] at h1
        obtain ⟨rfl, rfl⟩ := h1
        obtain ⟨e, he, hm⟩ := h4 x List.mem_cons_self
        rw [he]
        have : e = ENOENT ∨ e = ENOTDIR := hm
        simp only [if_pos this]
        exact search_nowhere execve file hf errno _ _
          (.inr ⟨bs, d, rfl, h2, h3, fun b hb => h4 b (List.mem_cons_of_mem _ hb)⟩)

theorem allSome_text : ∀ (l : List Str), (∀ s ∈ l, '\x00' ∉ s) → allSome ((l.map Word.text).map wordText) = some l
  | [], _ => rfl
  | s :: l, h => by
    have hs : s.contains '\x00' = false := by simpa using h s List.mem_cons_self
    simp [allSome, wordText, h s List.mem_cons_self]
    have := allSome_text l (fun x hx => h x (List.mem_cons_of_mem _ hx))
    rw [List.map_map] at this
    rw [this]

theorem allSome_values : ∀ (l : Dict Str Str), (∀ p ∈ l, '\x00' ∉ p.2) →
    allSome ((l.map (fun p => (p.1, Value.text p.2))).map (fun p => (valueText p.2).map (fun v => (p.1, v)))) = some l
  | [], _ => rfl
  | p :: l, h => by
    have ih := allSome_values l (fun x hx => h x (List.mem_cons_of_mem _ hx))
    have hp : valueText (.text p.2) = some p.2 := by
      have := h p List.mem_cons_self
      simp [valueText, this]
    simp only [List.map_cons, hp, Option.map_some]
    unfold allSome
    rw [ih]

theorem allSome_none : ∀ (l : List (Option α)), none ∈ l → allSome l = none
  | [], h => by simp at h
  | none :: l, _ => rfl
  | some a :: l, h => by
    simp only [List.mem_cons, reduceCtorEq, false_or] at h
    simp [allSome, allSome_none l h]

theorem get?_values (l : Dict Str Str) (k : Str) :
    Dict.get? (l.map (fun p => (p.1, Value.text p.2))) k = (Dict.get? l k).map Value.text := by
  induction l with
  | nil => rfl
  | cons p l ih =>
    simp only [List.map_cons, Dict.get?]
    split
    · rfl
    · exact ih

/-! ## The child of a command whose arguments and variables are text -/

/-- words and variables that are text -/
def textChild (file : Str) (args : List Str) (exports : Dict Str Str) (cwd : Str) : Child :=
  { args := (file :: args).map .text, exports := exports.map (fun p => (p.1, .text p.2)), cwd := cwd }

/-- no NUL characters, and a name -/
def Fine (file : Str) (args : List Str) (exports : Dict Str Str) : Prop :=
  file ≠ [] ∧ (∀ s ∈ file :: args, '\x00' ∉ s) ∧ ∀ p ∈ exports, '\x00' ∉ p.2

theorem convert_text {file : Str} {args : List Str} {exports : Dict Str Str} (cwd : Str) (h : Fine file args exports) :
    convert (textChild file args exports cwd) = some (file :: args, exports) := by
  obtain ⟨h1, h2, h3⟩ := h
  unfold convert textChild
  simp only
  rw [allSome_text _ h2]
  cases file with
  | nil => exact absurd rfl h1
  | cons c s => simp only; rw [allSome_values _ h3]

theorem execPath_text (exports : Dict Str Str) (path : Str) (h : (Dict.get? exports c!"PATH").getD c!"/bin:/usr/bin" = path) :
    execPath (exports.map (fun p => (p.1, Value.text p.2))) = some (splitColon path) := by
  unfold execPath
  rw [get?_values]
  cases hg : Dict.get? exports c!"PATH" with
  | none => rw [hg] at h; simp only [Option.getD_none] at h; subst h; rfl
  | some p => rw [hg] at h; simp only [Option.getD_some] at h; subst h; rfl

theorem child_text (k : Kernel) (file : Str) (args : List Str) (exports : Dict Str Str) (cwd : Str) (path : Str) (dirs : List Str)
    (hf : Fine file args exports) (hs : '/' ∉ file)
    (hp : (Dict.get? exports c!"PATH").getD c!"/bin:/usr/bin" = path) (hd : Spec.Parts path dirs) :
    execvpe k (textChild file args exports cwd) = (match search (k.execve cwd) file dirs none none with
      | .error e => .error e
      | .ok path => .ok (.runs path (file :: args) exports cwd)) := by
  have hh : hasDir file = false := by simpa [hasDir] using hs
  show execvpe.go k (textChild file args exports cwd) file = _
  unfold execvpe.go
  simp only [hh, Bool.false_eq_true, if_false, convert_text cwd hf]
  rw [show (textChild file args exports cwd).exports = exports.map (fun p => (p.1, Value.text p.2)) from rfl,
    execPath_text exports path hp, parts_unique dirs path hd]
  rfl

/-! ## C70 -/

/-- C70: a command whose name has no slash runs the first program of that name in the directories of its environment's
`PATH` that can be executed, with its arguments as they are, its environment's variables, and in its environment's
directory (from which relative parts of `PATH` count). Without `PATH` the path is `/bin:/usr/bin`. -/
theorem C70_first_in_path (k : Kernel) (file : Str) (args : List Str) (exports : Dict Str Str) (cwd : Str) (message : Option Raised)
    (path : Str) (dirs : List Str) (d : Str) (hf : Fine file args exports) (hs : '/' ∉ file) (hc : k.chdir cwd = none)
    (hp : (Dict.get? exports c!"PATH").getD c!"/bin:/usr/bin" = path) (hd : Spec.Parts path dirs)
    (h : Spec.First (k.execve cwd) file dirs d) :
    child k (textChild file args exports cwd) false message = .runs (Spec.entry d file) (file :: args) exports cwd := by
  unfold child
  rw [show (textChild file args exports cwd).cwd = cwd from rfl]
  simp only [Bool.false_eq_true, if_false, hc, child_text k file args exports cwd path dirs hf hs hp hd,
    search_first _ file hs dirs d none none h]

theorem exitStatus_nat (e : Nat) (h : e < 256) : exitStatus (e : Int) = e := by
  unfold exitStatus; omega

/-- C70: if no program of that name can be executed, the exit status is the error number of the first directory where it
is there but cannot be executed, or else (2, or 20) that it is missing. -/
theorem C70_status (k : Kernel) (file : Str) (args : List Str) (exports : Dict Str Str) (cwd : Str)
    (path : Str) (dirs : List Str) (errno : Nat) (hf : Fine file args exports) (hs : '/' ∉ file) (hc : k.chdir cwd = none)
    (hp : (Dict.get? exports c!"PATH").getD c!"/bin:/usr/bin" = path) (hd : Spec.Parts path dirs) (he : errno < 256)
    (h : Spec.Nowhere (k.execve cwd) file dirs errno) :
    child k (textChild file args exports cwd) false none = .exits errno := by
  unfold child
  rw [show (textChild file args exports cwd).cwd = cwd from rfl]
  simp only [Bool.false_eq_true, if_false, hc, child_text k file args exports cwd path dirs hf hs hp hd,
    search_nowhere _ file hs errno dirs none h, exitStatus_nat errno he]

/-- C70: an unknown command ends with status 2 (ENOENT), provided that the last directory of `PATH` is a directory. -/
theorem C70_unknown (k : Kernel) (file : Str) (args : List Str) (exports : Dict Str Str) (cwd : Str)
    (path : Str) (before : List Str) (d : Str) (hf : Fine file args exports) (hs : '/' ∉ file) (hc : k.chdir cwd = none)
    (hp : (Dict.get? exports c!"PATH").getD c!"/bin:/usr/bin" = path) (hd : Spec.Parts path (before ++ [d]))
    (hb : ∀ b ∈ before, ∃ e, k.execve cwd (Spec.entry b file) = some e ∧ Spec.Missing e)
    (hl : k.execve cwd (Spec.entry d file) = some 2) :
    child k (textChild file args exports cwd) false none = .exits 2 :=
  C70_status k file args exports cwd path _ 2 hf hs hc hp hd (by omega) (.inr ⟨before, d, rfl, hl, .inl rfl, hb⟩)

/-- C70: a name with a slash is the path of the program, from the environment's directory; `PATH` does not matter. -/
theorem C70_path (k : Kernel) (file : Str) (args : List Str) (exports : Dict Str Str) (cwd : Str)
    (hf : Fine file args exports) (hs : '/' ∈ file) (hc : k.chdir cwd = none) (he : ∀ e, k.execve cwd file = some e → e < 256) :
    child k (textChild file args exports cwd) false none = (match k.execve cwd file with
      | none => .runs file (file :: args) exports cwd
      | some e => .exits e) := by
  have hh : hasDir file = true := by simpa [hasDir] using hs
  unfold child
  rw [show (textChild file args exports cwd).cwd = cwd from rfl]
  simp only [Bool.false_eq_true, if_false, hc]
  rw [show execvpe k (textChild file args exports cwd) = execvpe.go k (textChild file args exports cwd) file from rfl]
  unfold execvpe.go
  simp only [hh, if_true, convert_text cwd hf]
  rw [show (textChild file args exports cwd).cwd = cwd from rfl]
  cases hx : k.execve cwd file with
  | none => rfl
  | some e => simp [exitStatus_nat e (he e hx)]

/-- C70: if the directory cannot be entered, the status says why and nothing is run. -/
theorem C70_directory (k : Kernel) (c : Child) (e : Nat) (h : k.chdir c.cwd = some e) (he : e < 256) :
    child k c false none = .exits e := by
  unfold child
  simp [h, exitStatus_nat e he]

/-- `ls` is not executable in `/a`, missing in `b`, and there in the working directory and in `/c`. -/
def demoKernel : Kernel where
  chdir := fun d => if d = c!"/gone" then some 2 else none
  execve := fun _ p => if p = c!"/a/ls" then some 13 else if p = c!"ls" ∨ p = c!"/c/ls" then none else some 2
def demoExports : Dict Str Str := [(c!"HOME", c!"/h"), (c!"PATH", c!"/a:b::/c")]

example : child demoKernel (textChild c!"ls" [c!"-l"] demoExports c!"/w") false none =
    .runs c!"ls" [c!"ls", c!"-l"] demoExports c!"/w" := by decide +kernel
example : child demoKernel (textChild c!"ls" [] [(c!"PATH", c!"/a:b")] c!"/w") false none = .exits 13 := by decide +kernel
example : child demoKernel (textChild c!"nosuch" [] [] c!"/w") false none = .exits 2 := by decide +kernel
example : Fine c!"ls" [c!"-l"] demoExports ∧ Spec.Parts c!"/a:b::/c" [c!"/a", c!"b", [], c!"/c"] ∧
    Spec.First (demoKernel.execve c!"/w") c!"ls" [c!"/a", c!"b", [], c!"/c"] [] ∧
    Spec.Nowhere (demoKernel.execve c!"/w") c!"ls" [c!"/a", c!"b"] 13 := by
  refine ⟨by unfold Fine; decide, ⟨by decide, by decide, by decide⟩, ⟨[c!"/a", c!"b"], [c!"/c"], rfl, by decide +kernel, by decide +kernel⟩,
    .inl ⟨[], c!"/a", [c!"b"], rfl, by decide +kernel, ?_, by simp, by decide +kernel⟩⟩
  unfold Spec.Missing; omega

/-! ## C71: arguments -/

/-- C71, part: arguments that are text reach the program as they are (`C70_first_in_path`); anything else that is given as a
positional argument - a number, a boolean - makes the command fail with status 255, whatever the program. -/
theorem C71_refuted (k : Kernel) (file : Str) (words : List Cmd.Val) (exports : Dict Str Value) (cwd : Str)
    (hc : k.chdir cwd = none) (v : Cmd.Val) (hv : (∃ t, v = .obj t) ∨ (∃ b, v = .bool b)) (h : v ∈ words) :
    child k { args := (Cmd.Val.str file :: words).map wordOf, exports := exports, cwd := cwd } false none = .exits 255 := by
  have hn : ∀ e c, convert { args := (Cmd.Val.str file :: words).map wordOf, exports := e, cwd := c } = none := by
    intro e c
    unfold convert
    simp only
    rw [allSome_none]
    simp only [List.map_map, List.mem_map, List.mem_cons]
    refine ⟨v, .inr h, ?_⟩
    rcases hv with ⟨t, rfl⟩ | ⟨b, rfl⟩ <;> rfl
  unfold child
  simp only [Bool.false_eq_true, if_false, hc]
  rw [show execvpe k { args := (Cmd.Val.str file :: words).map wordOf, exports := exports, cwd := cwd } =
    execvpe.go k { args := (Cmd.Val.str file :: words).map wordOf, exports := exports, cwd := cwd } file from rfl]
  have : execvpe.go k { args := (Cmd.Val.str file :: words).map wordOf, exports := exports, cwd := cwd } file =
      .error .exception := by
    unfold execvpe.go
    simp only [hn]
    split
    · rfl
    · split <;> rfl
  rw [this]
  rfl

/-- C71: the same if an exported variable is not text. -/
theorem C71_exports_refuted (k : Kernel) (c : Child) (hc : k.chdir c.cwd = none) (n : Str) (h : (n, .other) ∈ c.exports) :
    child k c false none = .exits 255 := by
  have hn : convert c = none := by
    unfold convert
    split
    · rfl
    · rfl
    · rfl
    · rw [allSome_none]
      simp only [List.mem_map]
      exact ⟨_, h, rfl⟩
  have key : ∀ file, execvpe.go k c file = .error .exception := by
    intro file
    unfold execvpe.go
    simp only [hn]
    split
    · rfl
    · split <;> rfl
  have : execvpe k c = .error .exception := by
    unfold execvpe
    split
    · rfl
    · rfl
    · exact key _
    · exact key _
  unfold child
  simp only [Bool.false_eq_true, if_false, hc, this]
  rfl

/-- C71, part: text, raw text and paths reach the program. -/
theorem C71_text_partial (k : Kernel) (file : Str) (words : List Cmd.Val) (texts : List Str) (exports : Dict Str Str) (cwd : Str)
    (message : Option Raised) (hw : words = texts.map .str) (hf : Fine file texts exports) (hs : '/' ∈ file)
    (hc : k.chdir cwd = none) (hx : k.execve cwd file = none) :
    child k { args := (Cmd.Val.str file :: words).map wordOf, exports := exports.map (fun p => (p.1, .text p.2)), cwd := cwd }
      false message = .runs file (file :: texts) exports cwd := by
  have hm : (Cmd.Val.str file :: words).map wordOf = (file :: texts).map Word.text := by
    subst hw; simp [wordOf]
  rw [hm]
  show child k (textChild file texts exports cwd) false message = _
  have hh : hasDir file = true := by simpa [hasDir] using hs
  unfold child
  rw [show (textChild file texts exports cwd).cwd = cwd from rfl]
  simp only [Bool.false_eq_true, if_false, hc]
  rw [show execvpe k (textChild file texts exports cwd) = execvpe.go k (textChild file texts exports cwd) file from rfl]
  unfold execvpe.go
  simp only [hh, if_true, convert_text cwd hf]
  rw [show (textChild file texts exports cwd).cwd = cwd from rfl, hx]

/-- An argument as text, if it is text or a path object. -/
def Word.asText : Word → Word
  | .path s => .text s
  | w => w

/-- **C71, part.** A path object (`pathlib.Path`) as an argument, or as the name of the program, is as good as its text:
what becomes of the command does not depend on which of the two is given, whatever the other arguments and variables are. -/
theorem C71_paths (k : Kernel) (c : Child) (interrupted : Bool) (message : Option Raised) :
    child k { c with args := c.args.map Word.asText } interrupted message = child k c interrupted message := by
  have h1 : ∀ w, wordText (Word.asText w) = wordText w := by intro w; cases w <;> rfl
  have h2 : convert { c with args := c.args.map Word.asText } = convert c := by
    unfold convert
    simp only [List.map_map]
    rw [show wordText ∘ Word.asText = wordText from funext h1]
  have h3 : ∀ file, execvpe.go k { c with args := c.args.map Word.asText } file = execvpe.go k c file := by
    intro file
    unfold execvpe.go
    simp only [h2]
  have h4 : execvpe k { c with args := c.args.map Word.asText } = execvpe k c := by
    obtain ⟨args, exports, cwd⟩ := c
    unfold execvpe
    cases args with
    | nil => rfl
    | cons w ws => cases w with
      | other => rfl
      | text s => exact h3 s
      | path s => exact h3 s
  unfold child
  simp only [h4]

/-- `ls(pathlib.Path("/a b"))`, and a path with a NUL inside -/
example : child demoKernel { args := [.text c!"/c/ls", .path c!"/a b"], exports := [], cwd := c!"/w" } false none =
      .runs c!"/c/ls" [c!"/c/ls", c!"/a b"] [] c!"/w" ∧
    child demoKernel { args := [.text c!"/c/ls", .path ['a', '\x00']], exports := [], cwd := c!"/w" } false none = .exits 255 := by
  decide +kernel

/-- `sleep(5)` -/
example : child demoKernel { args := [.str c!"/c/ls", .obj c!"5"].map wordOf, exports := [], cwd := c!"/w" } false none =
    .exits 255 := by decide +kernel
/-- with an option instead, `sleep(n=5)`, the number is part of a text -/
example : child demoKernel { args := [.str c!"/c/ls", .str c!"--n=5"].map wordOf, exports := [], cwd := c!"/w" } false none =
    .runs c!"/c/ls" [c!"/c/ls", c!"--n=5"] [] c!"/w" := by decide +kernel

/-! ## C72: the child does nothing else -/

/-- C72, part: unless CTRL-C is pressed before the program runs, or the message that it cannot be run cannot be written
to the command's standard error, the forked child becomes the program or ends; it never goes on with the code of the
shell. -/
theorem C72_child_partial (k : Kernel) (c : Child) : child k c false none ≠ .escapes := by
  unfold child
  simp only [Bool.false_eq_true, if_false]
  have hne : execvpe k c ≠ .ok .escapes ∧ execvpe k c ≠ .error .interrupt := by
    have hs : ∀ ex file dirs saved last, search ex file dirs saved last ≠ .error .interrupt := by
      intro ex file dirs
      induction dirs with
      | nil => intro saved last; cases saved <;> cases last <;> simp [search]
      | cons d ds ih =>
        intro saved last
        unfold search
        split
        · simp
        · split <;> exact ih _ _
    have key : ∀ file, execvpe.go k c file ≠ .ok .escapes ∧ execvpe.go k c file ≠ .error .interrupt := by
      intro file
      unfold execvpe.go
      simp only
      split
      · split
        · simp
        · split <;> simp
      · split
        · simp
        · split
          · simp
          · split
            · rename_i e he
              refine ⟨by simp, ?_⟩
              intro h
              simp only [Except.error.injEq] at h
              subst h
              exact hs _ _ _ _ _ he
            · simp
    unfold execvpe
    split
    · simp
    · simp
    · exact key _
    · exact key _
  cases hc : k.chdir c.cwd with
  | some e => simp
  | none =>
    simp only
    cases hx : execvpe k c with
    | ok f =>
      intro h
      simp only at h
      exact hne.1 (by rw [hx, h])
    | error r =>
      cases r with
      | interrupt => exact absurd hx hne.2
      | os e => simp
      | exception => simp

/-- C72, part: nor does anything in its way matter if the program can be run. -/
theorem C72_program_partial (k : Kernel) (c : Child) (message : Option Raised) (p : Str) (argv : List Str) (env : Dict Str Str)
    (cwd : Str) (h : child k c false none = .runs p argv env cwd) : child k c false message = .runs p argv env cwd := by
  unfold child at *
  simp only [Bool.false_eq_true, if_false] at *
  cases hc : k.chdir c.cwd with
  | some e => rw [hc] at h; simp at h
  | none =>
    rw [hc] at h
    simp only at h ⊢
    cases hx : execvpe k c with
    | ok f => rw [hx] at h; exact h
    | error r =>
      rw [hx] at h
      cases r <;> simp at h

example : ∃ p argv env cwd, child demoKernel (textChild c!"ls" [c!"-l"] demoExports c!"/w") false none = .runs p argv env cwd ∧
    child demoKernel (textChild c!"ls" [c!"-l"] demoExports c!"/w") false (some .exception) = .runs p argv env cwd :=
  ⟨_, _, _, _, rfl, C72_program_partial _ _ _ _ _ _ _ rfl⟩
example : ∃ n, child demoKernel (textChild c!"nosuch" [] [] c!"/w") false none = .exits n := ⟨_, rfl⟩

/-- C72 is false of the code: an unknown command whose standard error cannot be written to (closed, a full disk, a pipe
that nobody reads any more) leaves a second copy of the shell running; so does CTRL-C at the wrong moment. -/
theorem C72_refuted : (∀ errno, child demoKernel (textChild c!"nosuch" [] [] c!"/w") false (some (.os errno)) = .escapes) ∧
    ∀ k c message, child k c true message = .escapes := by
  refine ⟨fun errno => ?_, fun k c message => ?_⟩
  · have : execvpe demoKernel (textChild c!"nosuch" [] [] c!"/w") = .error (.os 2) := by rfl
    unfold child
    simp only [Bool.false_eq_true, if_false, this]
    rfl
  · simp [child]

end Pieshell.Exec
