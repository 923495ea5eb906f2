import Verif.Model.Redir
/-!
# Model of `log.py`: the log descriptor

Not modelled: the levels of the categories, the format of messages.
-/
namespace Pieshell

/-- The highest number a process with soft limit `limit` on open files can use, `logfd`, log.py:32. (`limit` is also
what `os.sysconf("SC_OPEN_MAX")` gives, redir.py:15.) -/
def logFdOf (limit : Nat) : Nat := limit - 1

/-- Importing `log` (log.py:25-33) in a process with descriptors `t`: the log descriptor becomes a duplicate of
standard output (`sys.stdout.fileno()`, 1). Simplified: `sys.stdout` has a `fileno` (else stderr's is used, or 1). -/
def importLog (sys : Sys) (t : FdTable) : Except Exn Unit × FdTable := osDup2 sys 1 sys.logfd t

end Pieshell
