import Verif.Spec.Concurrent

/-! # Specification vocabulary for concurrent executions with I/O errors -/

namespace Verif.Spec

open Verif Verif.Mm Verif.Conc

/-- The outcomes of calls made one after the other on sinks over a store whose writes fail as `faults` says. -/
def faultyOutcomes (tagOf : Nat → PageTag) (h : History) (faults : List (Option Nat)) : List Res :=
  (World.exec tagOf h (World.init faults)).1

/-- `H` is a linearization of the observed log, with I/O errors: the calls in this order, made one after the other on a store that fails as
`faults` says, have the observed outcomes; every thread sees its calls in its own order; the order respects real time. -/
structure FaultyLinearization {n : Nat} (tagOf : Nat → PageTag) (log : List (Ev n)) (faults : List (Option Nat)) (H : List (LinEntry n)) : Prop where
  legal : faultyOutcomes tagOf (historyOf H) faults = H.map LinEntry.res
  threads : Between log H
  realTime : ∀ L, L <+: log → ∃ H', H' <+: H ∧ Between L H'

end Verif.Spec
