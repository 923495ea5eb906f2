import Verif.Model.Remote
import Verif.Spec.Remote
import Verif.Props.Shell
import Verif.Lemmas.Expand
/-! # C57: transport of pipelines by `remote`; C58: the script of `bashsource` -/
namespace Pieshell.Remote
open Pieshell.Expand Pieshell.Io

theorem dec6_enc6 (n : Nat) (h : n < 64) : dec6 (enc6 n) = some n := by
  have : ∀ n : Fin 64, dec6 (enc6 n) = some n.val := by decide
  exact this ⟨n, h⟩

theorem enc6_ne_pad (n : Nat) (h : n < 64) : enc6 n ≠ '=' := by
  have : ∀ n : Fin 64, enc6 n ≠ '=' := by decide
  exact this ⟨n, h⟩

theorem ofNat_eq (a : UInt8) (n : Nat) (h : n = a.toNat) : UInt8.ofNat n = a := by
  subst h
  exact UInt8.ofNat_toNat

/-- base64 is undone by the decoder of the standard library. -/
theorem b64_roundtrip (b : Bytes) : b64decode (b64encode b) = some b := by
  unfold b64decode
  induction b using b64encode.induct with
  | case1 => rfl
  | case2 a =>
    have ha := a.toNat_lt
    have h1 : a.toNat / 4 < 64 := by omega
    have h2 : a.toNat % 4 * 16 < 64 := by omega
    simp [-UInt8.ofNat_add, -UInt8.ofNat_mul, -UInt8.ofNat_div, -UInt8.ofNat_mod, b64encode, a2b, enc6_ne_pad _ h1, enc6_ne_pad _ h2, dec6_enc6 _ h1, dec6_enc6 _ h2]
    exact ofNat_eq a _ (by omega)
  | case3 a b =>
    have ha := a.toNat_lt
    have hb := b.toNat_lt
    have h1 : a.toNat / 4 < 64 := by omega
    have h2 : a.toNat % 4 * 16 + b.toNat / 16 < 64 := by omega
    have h3 : b.toNat % 16 * 4 < 64 := by omega
    simp [-UInt8.ofNat_add, -UInt8.ofNat_mul, -UInt8.ofNat_div, -UInt8.ofNat_mod, b64encode, a2b, enc6_ne_pad _ h1, enc6_ne_pad _ h2, enc6_ne_pad _ h3, dec6_enc6 _ h1, dec6_enc6 _ h2, dec6_enc6 _ h3]
    exact ⟨ofNat_eq a _ (by omega), ofNat_eq b _ (by omega)⟩
  | case4 a b c r ih =>
    have ha := a.toNat_lt
    have hb := b.toNat_lt
    have hc := c.toNat_lt
    have h1 : a.toNat / 4 < 64 := by omega
    have h2 : a.toNat % 4 * 16 + b.toNat / 16 < 64 := by omega
    have h3 : b.toNat % 16 * 4 + c.toNat / 64 < 64 := by omega
    have h4 : c.toNat % 64 < 64 := by omega
    simp [-UInt8.ofNat_add, -UInt8.ofNat_mul, -UInt8.ofNat_div, -UInt8.ofNat_mod, b64encode, a2b, enc6_ne_pad _ h1, enc6_ne_pad _ h2, enc6_ne_pad _ h3, enc6_ne_pad _ h4,
      dec6_enc6 _ h1, dec6_enc6 _ h2, dec6_enc6 _ h3, dec6_enc6 _ h4, ih]
    exact ⟨ofNat_eq a _ (by omega), ofNat_eq b _ (by omega), ofNat_eq c _ (by omega)⟩

/-- Characters of base64 text. -/
def b64char (c : Char) : Bool := c.isAlphanum || c = '+' || c = '/' || c = '='

theorem enc6_char (n : Nat) (h : n < 64) : b64char (enc6 n) = true := by
  have : ∀ n : Fin 64, b64char (enc6 n) = true := by decide
  exact this ⟨n, h⟩

theorem b64_chars (b : Bytes) : ∀ c ∈ b64encode b, b64char c = true := by
  induction b using b64encode.induct with
  | case1 => simp [b64encode]
  | case2 a =>
    have ha := a.toNat_lt
    intro c hc
    simp only [b64encode, List.mem_cons, List.not_mem_nil, or_false] at hc
    rcases hc with rfl | rfl | rfl | rfl
    · exact enc6_char _ (by omega)
    · exact enc6_char _ (by omega)
    · decide
    · decide
  | case3 a b =>
    have ha := a.toNat_lt
    have hb := b.toNat_lt
    intro c hc
    simp only [b64encode, List.mem_cons, List.not_mem_nil, or_false] at hc
    rcases hc with rfl | rfl | rfl | rfl
    · exact enc6_char _ (by omega)
    · exact enc6_char _ (by omega)
    · exact enc6_char _ (by omega)
    · decide
  | case4 a b c r ih =>
    have ha := a.toNat_lt
    have hb := b.toNat_lt
    have hc := c.toNat_lt
    intro d hd
    simp only [b64encode, List.mem_cons] at hd
    rcases hd with rfl | rfl | rfl | rfl | hd
    · exact enc6_char _ (by omega)
    · exact enc6_char _ (by omega)
    · exact enc6_char _ (by omega)
    · exact enc6_char _ (by omega)
    · exact ih d hd

/-- A text without `%`, globbing characters or a leading `~` is not changed by argument expansion. -/
theorem expand_plain (x : Ctx) (s : Str) (h1 : '%' ∉ s) (h2 : s.head? ≠ some '~')
    (h3 : '*' ∉ s) (h4 : '?' ∉ s) (h5 : '[' ∉ s) : expandArgument x s = .ok [s] := by
  have hp : ∀ (s : Str) f, '%' ∉ s → s.length < f → pctFormat x.lookup x.scopeText f false s = .ok s := by
    intro s
    induction s with
    | nil => intro f _ hf; cases f with
      | zero => omega
      | succ f => rfl
    | cons c s ih =>
      intro f h hf
      cases f with
      | zero => omega
      | succ f =>
        simp only [List.mem_cons, not_or] at h
        simp only [List.length_cons] at hf
        simp [pctFormat, Ne.symm h.1, ih f h.2 (by omega), prepend]
  have he : Path.expanduser x.homes s = s := by
    cases s with
    | nil => rfl
    | cons c s =>
      unfold Path.expanduser
      split
      · rename_i e; simp at e; exact absurd (by simp [e.1]) h2
      · rfl
  simp [expandArgument, hp s _ h1 (by omega : s.length < s.length + 1), he, h3, h4, h5]

/-- Inside single quotes every character but the quote stands for itself. -/
theorem commands_quoted (w : Str) (hw : '\'' ∉ w) (cur : Option Str) (cmd : List Str) (s : Str) :
    Sh.commands true cur cmd (w ++ '\'' :: s) = Sh.commands false (if w = [] then cur else some (cur.getD [] ++ w)) cmd s := by
  induction w generalizing cur with
  | nil => simp [Sh.commands]
  | cons c w ih =>
    simp only [List.mem_cons, not_or] at hw
    simp only [List.cons_append, Sh.commands, Ne.symm hw.1, if_false]
    rw [ih hw.2]
    by_cases h : w = [] <;> simp [h]

/-- C57: for every byte string, the command line that `remote` builds passes unchanged through argument expansion, the
remote shell reads it as the two words `pieshell` and `--pcmd=...`, and a pieshell started with this argument hands exactly
these bytes to `pickle.loads`. -/
theorem C57_transport (x : Ctx) (pickled : Bytes) : ∃ word,
    expandArgument x (sshcmd pickled) = .ok [sshcmd pickled] ∧
    Sh.read (sshcmd pickled) = some [[c!"pieshell", word]] ∧
    received [word] = some pickled := by
  have hb := b64_chars pickled
  have hq : ∀ c : Char, b64char c = false → c ∉ b64encode pickled := by
    intro c hc hm; rw [hb c hm] at hc; cases hc
  refine ⟨c!"--pcmd=" ++ b64encode pickled, ?_, ?_, ?_⟩
  · apply expand_plain
    · have := hq '%' (by decide); simp [sshcmd, this]
    · simp [sshcmd]
    · have := hq '*' (by decide); simp [sshcmd, this]
    · have := hq '?' (by decide); simp [sshcmd, this]
    · have := hq '[' (by decide); simp [sshcmd, this]
  · have hc := commands_quoted (b64encode pickled) (hq '\'' (by decide)) (some c!"--pcmd=") [c!"pieshell"] []
    have e : Sh.read (sshcmd pickled) = Sh.commands true (some c!"--pcmd=") [c!"pieshell"] (b64encode pickled ++ ['\'']) := by
      simp [sshcmd, Sh.read, Sh.commands, Sh.plain, Sh.flush, Char.isAlphanum, Char.isAlpha, Char.isUpper, Char.isLower, Char.isDigit]
    rw [e, hc]
    by_cases h : b64encode pickled = [] <;> simp [h, Sh.commands, Sh.flush]
  · have ho : Shell.IsOption (c!"--pcmd=" ++ b64encode pickled) c!"pcmd" (.text (b64encode pickled)) := by
      have := Shell.IsOption.text (name := c!"pcmd") (value := b64encode pickled) (by decide)
      simpa using this
    have hp : Shell.parse [c!"--pcmd=" ++ b64encode pickled] = ([], [(c!"pcmd", .text (b64encode pickled))]) := by
      rw [show Shell.parse [c!"--pcmd=" ++ b64encode pickled] = Shell.addArg ([], []) (c!"--pcmd=" ++ b64encode pickled) from rfl,
        Shell.addArg_option ho]
      rfl
    have hm : Shell.main [c!"--pcmd=" ++ b64encode pickled] = .act true (.pcmd (b64encode pickled)) := by
      unfold Shell.main
      rw [hp]
      simp [Shell.given, Dict.get?]
    unfold received
    rw [hm]
    exact b64_roundtrip pickled

example : sshcmd [0xff, 0x00, 0x10, 0x83] = c!"pieshell --pcmd='/wAQgw=='" ∧
    received [c!"--pcmd=/wAQgw=="] = some [0xff, 0x00, 0x10, 0x83] := by decide

/-! ### C58 -/

theorem read_script (names : List Str) (hq : ∀ n ∈ names, '\'' ∉ n) :
    Sh.read (script names) = some (names.map (fun n => [c!"source", n]) ++
      [[c!"{", c!"declare", c!"-x"], [c!"declare", c!"-f"], [c!"}", c!">", c!"$0"]]) := by
  unfold Sh.read
  induction names with
  | nil => decide
  | cons n l ih =>
    have hn := hq n (by simp)
    have ih := ih (fun m hm => hq m (by simp [hm]))
    have e : Sh.commands false none [] (script (n :: l)) =
        Sh.commands true (some []) [c!"source"] (n ++ '\'' :: (';' :: ' ' :: script l)) := by
      simp [script, Sh.commands, Sh.plain, Sh.flush, Char.isAlphanum, Char.isAlpha, Char.isUpper, Char.isLower, Char.isDigit]
    rw [e, commands_quoted n hn]
    have e2 : (if n = [] then some [] else some ((some ([] : Str)).getD [] ++ n)) = some n := by
      by_cases h : n = [] <;> simp [h]
    rw [e2]
    simp [Sh.commands, Sh.flush, ih]

theorem mem_script (c : Char) (names : List Str) (h1 : c ∉ c!"source '; { declare -x; declare -f; } > $0")
    (h2 : ∀ n ∈ names, c ∉ n) : c ∉ script names := by
  induction names with
  | nil =>
    intro h
    apply h1
    simp only [script] at h
    revert h
    simp only [List.mem_cons, List.not_mem_nil, or_false]
    rintro h
    simp only [List.mem_cons, List.not_mem_nil, or_false, not_or] at h1
    rcases h with h | h | h | h | h | h | h | h | h | h | h | h | h | h | h | h | h | h | h | h | h | h | h | h | h | h | h | h | h | h | h | h <;> simp_all
  | cons n l ih =>
    simp only [script, List.mem_append, not_or]
    refine ⟨⟨⟨?_, h2 n (by simp)⟩, ?_⟩, ih (fun m hm => h2 m (by simp [hm]))⟩
    · intro h; apply h1; simp only [List.mem_cons, List.not_mem_nil, or_false] at h ⊢; rcases h with h | h | h | h | h | h | h | h <;> simp [h]
    · intro h; apply h1; simp only [List.mem_cons, List.not_mem_nil, or_false] at h ⊢; rcases h with h | h | h <;> simp [h]

/-- The expansions of an argument: text is expanded, `R(text)` stands for itself. -/
def ExpandsTo (x : Ctx) : Arg → List Str → Prop
  | .text s, names => expandArgument x s = .ok names
  | .raw s, names => names = [s]

theorem fileNames_flatten (x : Ctx) (args : List Arg) (names : List (List Str))
    (h : Pointwise (ExpandsTo x) args names) : fileNames x args = .ok names.flatten := by
  induction h with
  | nil => rfl
  | cons h _ ih =>
    rename_i a ns l l' _
    cases a with
    | text s => simp [fileNames, expandArg, show expandArgument x s = .ok ns from h, ih]
    | raw s => simp [fileNames, expandArg, show ns = [s] from h, ih]

/-- C58, for file names without quotes and percent signs, as long as no file happens to be matched by the whole script as a pattern: bash sources each
file that the arguments expand to, in order, as one word, and then prints its variables. -/
theorem C58_sources_partial (x : Ctx) (args : List Arg) (names : List (List Str))
    (hf : Pointwise (ExpandsTo x) args names)
    (h : ∀ n ∈ names.flatten, ∀ c ∈ c!"'%", c ∉ n)
    (hg : (∀ n ∈ names.flatten, ∀ c ∈ c!"*?[", c ∉ n) ∨ Path.glob x.fnm x.fs (expandPath x.cwd x.procCwd x.homes (script names.flatten)) = []) : ∃ script,
    bashArgument x args = .ok [script] ∧
    Sh.read script = some (names.flatten.map (fun n => [c!"source", n]) ++
      [[c!"{", c!"declare", c!"-x"], [c!"declare", c!"-f"], [c!"}", c!">", c!"$0"]]) := by
  refine ⟨script names.flatten, ?_, read_script names.flatten (fun n hn => h n hn '\'' (by simp))⟩
  unfold bashArgument
  rw [fileNames_flatten x args names hf]
  simp only
  have hpct := mem_script '%' names.flatten (by decide) (fun n hn => h n hn '%' (by simp))
  have htil : (script names.flatten).head? ≠ some '~' := by cases names.flatten <;> simp [script]
  rcases hg with h | hg
  · apply expand_plain
    · exact hpct
    · exact htil
    · exact mem_script '*' names.flatten (by decide) (fun n hn => h n hn '*' (by simp))
    · exact mem_script '?' names.flatten (by decide) (fun n hn => h n hn '?' (by simp))
    · exact mem_script '[' names.flatten (by decide) (fun n hn => h n hn '[' (by simp))
  · rw [expandArgument_eq (pctFormat_plain _ _ _ _ _ (by omega) hpct), expanduser_plain htil, hg]
    simp

/-- The names given with `R` are the names sourced. -/
theorem fileNames_raw (x : Ctx) (names : List Str) : fileNames x (names.map .raw) = .ok names := by
  induction names with
  | nil => rfl
  | cons n l ih => simp [fileNames, expandArg, ih]

example (x : Ctx) : Pointwise (ExpandsTo x) [.raw c!"a b.sh", .raw c!"$x;\ny.sh"] [[c!"a b.sh"], [c!"$x;\ny.sh"]] ∧
    (∀ n ∈ [[c!"a b.sh"], [c!"$x;\ny.sh"]].flatten, ∀ c ∈ c!"'%", c ∉ n) ∧ (∀ n ∈ [[c!"a b.sh"], [c!"$x;\ny.sh"]].flatten, ∀ c ∈ c!"*?[", c ∉ n) :=
  ⟨.cons rfl (.cons rfl .nil), by decide, by decide⟩

/-- a directory without files: the name `*` -/
example : ∃ x : Ctx, Path.glob x.fnm x.fs (expandPath x.cwd x.procCwd x.homes (script [c!"*"])) = [] :=
  ⟨{ cwd := c!"/d", procCwd := c!"/d", lookup := fun _ => .error .keyError, scopeText := [], homes := { own := none, named := fun _ => none },
     fs := { listdir := fun _ => [], lexists := fun _ => true, isdir := fun _ => true }, fnm := fun _ _ => false }, rfl⟩

/-- C58 is false: a file name with a quote ends the quoting, and the rest of the name is run as commands. -/
theorem C58_quote_refuted (x : Ctx) : ∃ script,
    bashArgument x [.raw c!"a'; rm '-rf"] = .ok [script] ∧
    Sh.read script = some [[c!"source", c!"a"], [c!"rm", c!"-rf"],
      [c!"{", c!"declare", c!"-x"], [c!"declare", c!"-f"], [c!"}", c!">", c!"$0"]] := by
  refine ⟨script [c!"a'; rm '-rf"], ?_, by decide⟩
  simp only [bashArgument, fileNames, expandArg, List.append_nil]
  exact expand_plain x _ (by decide) (by decide) (by decide) (by decide) (by decide)

/-- C58 is false: the script is subject to percent formatting once more, after the names have been put in; a name that ends
with a percent sign makes `bashsource` fail, whatever the environment is. -/
theorem C58_percent_refuted (x : Ctx) : fileNames x [.text c!"100%%"] = .ok [c!"100%"] ∧
    ∃ e, bashArgument x [.text c!"100%%"] = .error e := by
  have h1 : fileNames x [.text c!"100%%"] = .ok [c!"100%"] := by
    simp [fileNames, expandArg, expandArgument, pctFormat, prepend, Path.expanduser]
  refine ⟨h1, ?_⟩
  unfold bashArgument
  rw [h1]
  simp [script, expandArgument, pctFormat, prepend]

/-- A directory with one file, which has a strange name. -/
def strangeCtx (fnm : Str → Str → Bool) : Ctx where
  cwd := c!"/d"
  procCwd := c!"/d"
  lookup _ := .error .keyError
  scopeText := c!"{}"
  homes := { own := some c!"/root", named := fun _ => none }
  fs := { listdir := fun p => if p = c!"/d" then [(script [c!"b"], false)] else [], lexists := fun _ => true, isdir := fun _ => true }
  fnm := fnm

/-- C58 is false: the script is a pattern.  If a file is matched by it, bash gets the name of that file. -/
theorem C58_pattern_refuted (fnm : Str → Str → Bool) (h : fnm (script [c!"b"]) (script [c!"*"]) = true) :
    bashArgument (strangeCtx fnm) [.raw c!"*"] = .ok [c!"./" ++ script [c!"b"]] := by
  have e : Path.glob fnm (strangeCtx fnm).fs (c!"/d/" ++ script [c!"*"]) = (if fnm (script [c!"b"]) (script [c!"*"]) then [c!"/d/" ++ script [c!"b"]] else []) := by
    cases hb : fnm (script [c!"b"]) (script [c!"*"])
    · show (List.map _ (List.filter (fun x => fnm x (script [c!"*"])) [script [c!"b"]])) ++ [] = _
      simp [hb]
    · show (List.map _ (List.filter (fun x => fnm x (script [c!"*"])) [script [c!"b"]])) ++ [] = _
      simp [hb]
      rfl
  have hs : expandArgument (strangeCtx fnm) (script [c!"*"]) = .ok [c!"./" ++ script [c!"b"]] := by
    rw [expandArgument_eq (v := script [c!"*"]) rfl]
    have e2 : Path.glob (strangeCtx fnm).fnm (strangeCtx fnm).fs (expandPath (strangeCtx fnm).cwd (strangeCtx fnm).procCwd (strangeCtx fnm).homes (Path.expanduser (strangeCtx fnm).homes (script [c!"*"]))) = [c!"/d/" ++ script [c!"b"]] := by
      have : expandPath (strangeCtx fnm).cwd (strangeCtx fnm).procCwd (strangeCtx fnm).homes (Path.expanduser (strangeCtx fnm).homes (script [c!"*"])) = c!"/d/" ++ script [c!"*"] := rfl
      rw [this]
      show Path.glob fnm (strangeCtx fnm).fs (c!"/d/" ++ script [c!"*"]) = _
      rw [e, h]
      rfl
    rw [e2]
    rfl
  simp only [bashArgument, fileNames, expandArg, List.append_nil]
  exact hs

example : ∃ fnm : Str → Str → Bool, fnm (script [c!"b"]) (script [c!"*"]) = true := ⟨fun _ _ => true, rfl⟩

/-- incomplete text is not accepted -/
example : b64decode c!"QQ==" = some [65] ∧ b64decode c!"QQ=" = none ∧ b64decode c!"QQ" = none ∧ b64decode c!"Q" = none ∧ b64decode c!"QQE=" = some [65, 1] ∧ b64decode c!"QQE" = none := by
  decide +kernel

end Pieshell.Remote
