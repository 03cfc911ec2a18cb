import Verif.Spec.Crox

/-! # Specification vocabulary for crox on interleaved threads -/

namespace Verif.Spec

open Verif Verif.Mm Verif.Decode

/-- Two streams in which each thread records the same times and integers in the same order; the numbers of the events may differ. -/
def SameTimes (a b : List LightweightEvent) : Prop :=
  ∀ t : UInt32, (a.filter (fun e => decide (e.threadId = t))).map (·.payload) = (b.filter (fun e => decide (e.threadId = t))).map (·.payload)

/-- No two threads begin at one moment, and no two end at one moment. -/
def NoTies (es : List LightweightEvent) : Prop :=
  ∀ t u, Timed t es → Timed u es → t ≠ u → firstOf t es ≠ firstOf u es ∧ lastOf t es ≠ lastOf u es

end Verif.Spec
