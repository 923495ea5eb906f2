import Verif.Props.Redir
import Verif.Props.RedirTable
import Verif.Props.RedirText
import Verif.Props.Child
import Verif.Lemmas.Run
import Verif.Lemmas.RefRun
import Verif.Lemmas.Chain
import Verif.Props.Run
import Verif.Props.Files
import Verif.Props.Copy
import Verif.Props.Coerce
import Verif.Props.Args
import Verif.Props.Expand
import Verif.Props.Env
import Verif.Props.Scope
import Verif.Props.Walk
import Verif.Props.Io
import Verif.Props.Writer
import Verif.Props.Func
import Verif.Props.Signal
import Verif.Props.Job
import Verif.Props.Shell
import Verif.Props.Tree
import Verif.Props.Remote
import Verif.Props.Bash
import Verif.Props.Repr
import Verif.Props.Exec
import Verif.Props.Startup
import Verif.Props.Iterate
import Verif.Props.Flow
import Verif.Props.Subst
import Verif.Props.Several
import Verif.Props.FlowFunc
import Verif.Props.SigIter
import Verif.Props.Module
import Verif.Props.Pickle
import Verif.Props.Cancel
import Verif.Props.Signature
import Verif.Props.ProcText
import Verif.Props.PsNav
import Verif.Props.IterUtils
import Verif.Props.Global
import Verif.Props.Pids
import Verif.Props.Message
import Verif.Props.Whole
import Verif.Props.Idle
import Verif.Props.Interrupt
import Verif.Props.Terminal
import Verif.Props.Capture
import Verif.Props.Log
import Verif.Props.Fnmatch
import Verif.Props.Glob
import Verif.Props.Suspend
import Verif.Props.Status
import Verif.Props.Prompt
import Verif.Props.BuiltinPipe
import Verif.Props.CdDir
import Verif.Props.Complete
import Verif.Props.ArgComplete
import Verif.Props.PyCall
import Verif.Props.Ops
import Verif.Props.Poll
import Verif.Props.FuncArg
import Verif.Props.Traffic
import Verif.Props.Jam
import Verif.Props.Ends
import Verif.Props.Same
import Verif.Props.Registry
import Verif.Props.TextOut
import Verif.Props.WithScope
import Verif.Props.History
