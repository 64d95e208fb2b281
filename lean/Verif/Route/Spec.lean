import Verif.Route.Http
/-!
# Specification of header selection
-/
namespace Verif.Route
open Verif

/-- `line` is a complete line of `S` (terminated by `\n`), `a` everything before it, `rest` after. -/
def LineAt (S a line rest : Bytes) : Prop :=
  S = a ++ line ++ 10 :: rest ∧ (10 : UInt8) ∉ line ∧ (a = [] ∨ a.getLast? = some 10)

/-- `\r\n\r\n`. -/
def crlf2 : Bytes := [13, 10, 13, 10]

/-- Among the complete lines of `pre` none starts with the header name, and the header block has not
ended. -/
def Undecided (target pre : Bytes) : Prop :=
  (∀ a line rest, LineAt pre a line rest → ¬ target <+: line) ∧ ¬ crlf2 <:+: pre

/-- The first header line named `target` of request `S` has raw value `x`, and ends at byte `len`. -/
def FirstHeader (target S x : Bytes) (len : Nat) : Prop :=
  ∃ pre rest, LineAt S pre (target ++ x) rest ∧ Undecided target pre ∧
    len = (pre ++ (target ++ x)).length + 1

/-- The header block of `S` ends (first `\r\n\r\n`, at byte `len`) before any line named `target`. -/
def HeadersEndFirst (target S : Bytes) (len : Nat) : Prop :=
  ∃ pre line rest, LineAt S pre line rest ∧ Undecided target pre ∧ ¬ target <+: line ∧
    crlf2 <:+ pre ++ line ++ [10] ∧ len = (pre ++ line).length + 1

end Verif.Route
