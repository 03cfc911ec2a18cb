import Verif.Model.Decoder

/-!
# Specification vocabulary for double-ended iteration
-/

namespace Verif.Spec

open Verif Verif.Decode

/-- What taking items from a list gives: `true` takes from the front, `false` from the back. -/
def takes {α : Type} : List Bool → List α → List (Option α)
  | [], _ => []
  | true :: p, l => l.head? :: takes p l.tail
  | false :: p, l => l.getLast? :: takes p l.dropLast

/-- What is left after taking. -/
def leftover {α : Type} : List Bool → List α → List α
  | [], l => l
  | true :: p, l => leftover p l.tail
  | false :: p, l => leftover p l.dropLast

/-- The items taken from one end, in the order they were taken. -/
def takenFrom {α : Type} (side : Bool) (p : List Bool) (out : List (Option α)) : List α :=
  (p.zip out).filterMap (fun x => if x.1 = side then x.2 else none)

end Verif.Spec
