import Verif.Model.CaughtIteration
import Verif.Spec.Iter

/-! # Specification vocabulary for iterations that go on after a panic -/

namespace Verif.Spec

open Verif

/-- What a caller sees of an event that is taken: nothing left, the event, or the panic of its decoding. -/
def seenOf {α : Type} : Option (Except Fault α) → Except Fault (Option α)
  | none => .ok none
  | some (.ok x) => .ok (some x)
  | some (.error e) => .error e

/-- Taking from a list of results where a failure at the front stays where it is, and one at the back goes. -/
def takesStuck {α : Type} : List Bool → List (Except Fault α) → List (Option (Except Fault α))
  | [], _ => []
  | true :: p, .error e :: l => some (.error e) :: takesStuck p (.error e :: l)
  | true :: p, .ok x :: l => some (.ok x) :: takesStuck p l
  | true :: p, [] => none :: takesStuck p []
  | false :: p, l => l.getLast? :: takesStuck p l.dropLast

end Verif.Spec
