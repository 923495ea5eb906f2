import Verif.Model.Text
/-!
# `str(pipeline)`, `bytes(pipeline)`, `list(pipeline)`
-/
namespace Pieshell.Io

/-- `bytes(p)`: the chunks that `iterbytes` has given, joined. [base.py:180-182] -/
def bytesOf (chunks : List Bytes) : Bytes := chunks.flatten

/-- `str(p)`; `none`: `UnicodeDecodeError`. [base.py:177-179] -/
def strOf (chunks : List Bytes) : Option Str := decode (bytesOf chunks)

/-- `list(p)`: each line is decoded as it is asked for; `none`: one of them raises `UnicodeDecodeError`. [iterio.py:216-217, base.py:174-175] -/
def listOf : List Bytes → Option (List Str)
  | [] => some []
  | l :: ls => match decode l, listOf ls with
    | some t, some ts => some (t :: ts)
    | _, _ => none

end Pieshell.Io
