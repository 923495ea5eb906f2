import Verif.Model.Expand
/-!
# Model of `fnmatch.fnmatchcase` (Python's standard library), on which `glob.glob` (environ.py:88) rests

`fnmatch.translate` turns the pattern into a regular expression; here it is turned into a list of tokens, each of which
stands for a piece of that expression, and `matchT` is the match of the whole name (`(?s:...)\Z`). The treatment of
ranges in brackets follows CPython 3.9-3.13: cut into chunks at the `-` signs that make ranges, chunks joined again
over empty ranges.
-/
namespace Pieshell.Fnm

/-- pieces of the regular expression
[CPython Lib/fnmatch.py `translate`, Lib/re; used by glob at environ.py:88] -/
inductive Tok where
  /-- `.*` -/
  | star
  /-- `.` -/
  | one
  /-- a literal character -/
  | lit (c : Char)
  /-- `[...]`: characters between the bounds of one of the ranges -/
  | set (rs : List (Char × Char))
  /-- `[^...]` -/
  | nset (rs : List (Char × Char))
  /-- `(?!)`: never matches -/
  | never
deriving DecidableEq, Repr

/-- `pat.find('-', k, j)`: the text before and after the first `-` at index `min` or later
[CPython Lib/fnmatch.py `translate`; used by glob at environ.py:88] -/
def cutDash : Nat → Str → Option (Str × Str)
  | _, [] => none
  | 0, c :: s => if c = '-' then some ([], s) else match cutDash 0 s with
    | none => none
    | some (a, r) => some (c :: a, r)
  | n + 1, c :: s => match cutDash n s with
    | none => none
    | some (a, r) => some (c :: a, r)

/-- The chunks between the `-` signs that make ranges (the loop `while True: k = pat.find('-', k, j)`): the first is looked
for after `min` characters, the next ones after two (`k = k + 3`); a `-` at the end is added to the last chunk. The
fuel bounds their number. [CPython Lib/fnmatch.py `translate`; used by glob at environ.py:88] -/
def chunks : Nat → Nat → Str → List Str
  | 0, _, s => [s]
  | f + 1, min, s => match cutDash min s with
    | none => [s]
    | some (a, r) => if r = [] then [a ++ ['-']] else a :: chunks f 2 r

/-- `for k in range(len(chunks)-1, 0, -1)`: a chunk is joined with the next one if the range between them is empty.
[CPython Lib/fnmatch.py `translate`; used by glob at environ.py:88] -/
def joinEmpty : List Str → List Str
  | [] => []
  | a :: rest => match joinEmpty rest with
    | [] => [a]
    | b :: rest' => match a.getLast?, b.head? with
      | some x, some y => if x > y then (a.dropLast ++ b.drop 1) :: rest' else a :: b :: rest'
      | _, _ => a :: b :: rest'

/-- The characters of the chunks; the last one of each chunk but the last is marked: a range starts there.
[CPython Lib/fnmatch.py `translate`; used by glob at environ.py:88] -/
def mark : List Str → List (Char × Bool)
  | [] => []
  | [a] => a.map (fun c => (c, false))
  | a :: rest => a.dropLast.map (fun c => (c, false)) ++ (a.getLast?.toList.map (fun c => (c, true))) ++ mark rest

/-- The ranges: a marked character and the next one are bounds, all others stand for themselves.
[CPython Lib/re, character classes; used by glob at environ.py:88] -/
def pairs : List (Char × Bool) → List (Char × Char)
  | [] => []
  | [(x, _)] => [(x, x)]
  | (x, m) :: (y, n) :: rest => if m then (x, y) :: pairs rest else (x, x) :: pairs ((y, n) :: rest)

/-- the ranges of a bracket expression, from its chunks
[CPython Lib/fnmatch.py `translate`; used by glob at environ.py:88] -/
def ranges (l : List Str) : List (Char × Char) := pairs (mark l)

/-- From the chunks of `stuff` to the piece of the regular expression (from `stuff = '-'.join(...)` on). A `!` that has
come to the front (even if it was not there before) negates; a lone `!` in front of a range leaves `[^-...`, where the
`-` is literal. [CPython Lib/fnmatch.py `translate`; used by glob at environ.py:88] -/
def bracket : List Str → Tok
  | ('!' :: a) :: rest =>
    if a = [] then (if rest = [] then .one else .nset (('-', '-') :: ranges rest)) else .nset (ranges (a :: rest))
  | l => if l.flatten = [] then .never else .set (ranges l)

/-- text before and after the first `]` (`while j < n and pat[j] != ']'`)
[CPython Lib/fnmatch.py `translate`; used by glob at environ.py:88] -/
def closing : Str → Option (Str × Str)
  | [] => none
  | c :: s => if c = ']' then some ([], s) else match closing s with
    | none => none
    | some (a, r) => some (c :: a, r)

/-- The text inside of a bracket expression and what follows it: a `]` directly after `[` or `[!` does not end it.
[CPython Lib/fnmatch.py `translate`; used by glob at environ.py:88] -/
def inside (p : Str) : Option (Str × Str) :=
  let neg := if p.head? = some '!' then ['!'] else []
  let p1 := p.drop neg.length
  let fst := if p1.head? = some ']' then [']'] else []
  match closing (p1.drop fst.length) with
  | none => none
  | some (a, r) => some (neg ++ fst ++ a, r)

/-- `fnmatch.translate(pat)`; the fuel is the length of the pattern. (Consecutive stars are not compressed.)
[CPython Lib/fnmatch.py; used by glob at environ.py:88] -/
def translate : Nat → Str → List Tok
  | 0, _ => []
  | _, [] => []
  | f + 1, c :: p =>
    if c = '*' then .star :: translate f p
    else if c = '?' then .one :: translate f p
    else if c = '[' then match inside p with
      | none => .lit '[' :: translate f p
      | some (stuff, r) =>
        bracket (joinEmpty (chunks stuff.length (if stuff.head? = some '!' then 2 else 1) stuff)) :: translate f r
    else .lit c :: translate f p

/-- some end of the text satisfies `f` [CPython Lib/re (`.*`); used by glob at environ.py:88] -/
def anySuffix (f : Str → Bool) : Str → Bool
  | [] => f []
  | c :: s => f (c :: s) || anySuffix f s

/-- the regular expression matches the whole name [CPython Lib/re; used by glob at environ.py:88] -/
def matchT : List Tok → Str → Bool
  | [], s => s.isEmpty
  | t :: ts, s => match t, s with
    | .star, s => anySuffix (matchT ts) s
    | .one, _ :: s => matchT ts s
    | .lit x, c :: s => x = c && matchT ts s
    | .set rs, c :: s => rs.any (fun r => decide (r.1 ≤ c) && decide (c ≤ r.2)) && matchT ts s
    | .nset rs, c :: s => !rs.any (fun r => decide (r.1 ≤ c) && decide (c ≤ r.2)) && matchT ts s
    | _, _ => false

/-- `fnmatch.fnmatchcase(name, pat)`; `fnmatch.fnmatch` is the same on POSIX systems. -/
def fnmatch (name pat : Str) : Bool := matchT (translate pat.length pat) name

end Pieshell.Fnm
