import Verif.Model.Shell
/-! # Specification of the command line and of module search -/
namespace Pieshell.Shell

/-- The argument is the option `name` with this value. -/
inductive IsOption : Str → Str → Val → Prop
  | text {name value : Str} : '=' ∉ name → IsOption (c!"--" ++ name ++ c!"=" ++ value) name (.text value)
  | flag {name : Str} : '=' ∉ name → IsOption (c!"--" ++ name) name .flag

/-- The last occurrence of the option `name` in the command line has this value. -/
def Last (argv : List Str) (name : Str) (v : Val) : Prop :=
  ∃ l a r, argv = l ++ a :: r ∧ IsOption a name v ∧ ∀ b ∈ r, ∀ v', ¬ IsOption b name v'

/-- The option `name` does not occur. -/
def Absent (argv : List Str) (name : Str) : Prop := ∀ a ∈ argv, ∀ v, ¬ IsOption a name v

/-- The option is given, and not as `--name=`. -/
def On (argv : List Str) (name : Str) : Prop := ∃ v, Last argv name v ∧ v ≠ .text []

/-- The arguments that are not options, in order. -/
def operands (argv : List Str) : List Str := argv.filter (fun a => !(c!"--").isPrefixOf a)

/-- The documented choice of actions. -/
inductive Chooses (argv : List Str) : Outcome → Prop
  | help : On argv c!"help" → Chooses argv .help
  | version : ¬ On argv c!"help" → On argv c!"version" → Chooses argv .version
  | cmd {e : Str} {st : Bool} : ¬ On argv c!"help" → ¬ On argv c!"version" → Absent argv c!"log" →
      (st = true ↔ ¬ On argv c!"no-startup") → Last argv c!"cmd" (.text e) → Chooses argv (.act st (.cmd e))
  | pcmd {e : Str} {st : Bool} : ¬ On argv c!"help" → ¬ On argv c!"version" → Absent argv c!"log" →
      (st = true ↔ ¬ On argv c!"no-startup") → Absent argv c!"cmd" → Last argv c!"pcmd" (.text e) →
      Chooses argv (.act st (.pcmd e))
  | files {st : Bool} : ¬ On argv c!"help" → ¬ On argv c!"version" → Absent argv c!"log" →
      (st = true ↔ ¬ On argv c!"no-startup") → Absent argv c!"cmd" → Absent argv c!"pcmd" → operands argv ≠ [] →
      Chooses argv (.act st (.files (operands argv)))
  | prompt {st pt : Bool} : ¬ On argv c!"help" → ¬ On argv c!"version" → Absent argv c!"log" →
      (st = true ↔ ¬ On argv c!"no-startup") → Absent argv c!"cmd" → Absent argv c!"pcmd" → operands argv = [] →
      (pt = true ↔ On argv c!"ptpython") → Chooses argv (.act st (.prompt pt))

/-- The file looked for in a directory. -/
def fileIn (dir name : Str) : Str :=
  if dir = [] then c!"./" ++ name ++ c!".pysh"
  else if dir.getLast? = some '/' then dir ++ name ++ c!".pysh"
  else dir ++ c!"/" ++ name ++ c!".pysh"

/-- The directories searched: those of the package if it has any, else those of `sys.path`. -/
def Directories (sysPath : List Str) : Where → List Str
  | .none => sysPath
  | .list l => l
  | .one s => [s]

end Pieshell.Shell
