import Verif.Model.Writer

/-! Specification vocabulary for writers: properties of the sequence of observable events. -/
namespace Pieshell.Io.Writer

/-- Requests and answers seen so far: `some true` = a request is outstanding, `some false` = none is, `none` = the
iterator was asked while a request was outstanding, or answered unasked. -/
def pend : Option Bool → List Ev → Option Bool
  | o, [] => o
  | some false, .request :: t => pend (some true) t
  | some true, .response _ :: t => pend (some false) t
  | _, .request :: _ => none
  | _, .response _ :: _ => none
  | o, _ :: t => pend o t

/-- The answers of the iterator, in order. -/
def answers : List Ev → List Prod
  | [] => []
  | .response (some p) :: t => p :: answers t
  | _ :: t => answers t

/-- Everything handed to `os.write`, in order. -/
def attempted : List Ev → List Bytes
  | [] => []
  | .write b :: t => b :: attempted t
  | .epipe b :: t => b :: attempted t
  | .badWrite b :: t => b :: attempted t
  | _ :: t => attempted t

/-- Everything that was successfully written, in order. -/
def succeeded : List Ev → List Bytes
  | [] => []
  | .write b :: t => b :: succeeded t
  | _ :: t => succeeded t

/-- The values among the answers. -/
def values : List Prod → List Bytes
  | [] => []
  | .item b :: ps => b :: values ps
  | _ :: ps => values ps

/-- The answers that an iterator gives: all, or up to and including its first exception. -/
def upToFail : List Prod → List Prod
  | [] => []
  | .fail :: _ => [.fail]
  | p :: ps => p :: upToFail ps

/-- Asking the iterator, or writing. -/
def Ev.active : Ev → Bool
  | .request => true
  | .write _ => true
  | .epipe _ => true
  | .badWrite _ => true
  | _ => false

/-- After the descriptor is closed the iterator is not asked and nothing is written. -/
def quietAfterClose : List Ev → Bool
  | [] => true
  | .close :: t => t.all (fun e => !e.active)
  | _ :: t => quietAfterClose t

/-- What happens after the descriptor is closed. -/
def afterClose : List Ev → List Ev
  | [] => []
  | .close :: t => t
  | _ :: t => afterClose t

end Pieshell.Io.Writer
