import Verif.Spec.AnyStream
import Verif.Spec.Collapse

/-!
# Collapsed stacks of streams of any shape
-/

namespace Verif.Spec

open Verif Verif.Mm Verif.Decode

/-- The path of event `j` through the events it and they are counted in: `rustc`, then their labels from the outside in, then
its own, joined by `;`. -/
def heldPath : List Event → Nat → Bytes
  | [], _ => []
  | e :: es, 0 => (((List.range es.length).find? (holds e es)).map (fun k => heldPath es k)).getD (utf8 "rustc") ++ utf8 ";" ++ e.label
  | _ :: es, j + 1 => heldPath es j

/-- Event `j` is an interval with this path. -/
def onPath (es : List Event) (k : Bytes) (j : Nat) : Bool := at? isInterval es j && decide (heldPath es j = k)

/-- The lengths of the intervals with this path, added up. -/
def pathLength (es : List Event) (k : Bytes) : Nat :=
  ∑ j ∈ Finset.range es.length, if onPath es k j then lenAt es j else 0

/-- The lengths of the intervals counted in an interval with this path, added up. -/
def pathHeld (es : List Event) (k : Bytes) : Nat :=
  ∑ i ∈ Finset.range es.length, if (holderOf es i).any (onPath es k) then lenAt es i else 0

/-- The lengths of the intervals counted in no other, added up. -/
def unheld (es : List Event) : Nat :=
  ∑ i ∈ Finset.range es.length, if holderOf es i = none then lenAt es i else 0

/-- The lengths of the intervals of a thread counted in no other, added up. -/
def unheldOf (t : UInt32) (es : List Event) : Nat :=
  ∑ i ∈ Finset.range es.length, if holderOf es i = none ∧ at? (fun e => decide (e.threadId = t)) es i = true then lenAt es i else 0

/-- The time from the first start on a thread to the end of the interval of the thread that was recorded last. -/
def recordedSpan (t : UInt32) (es : List Event) : Nat := (endsOf t es).getLast?.getD 0 - (startsOf t es).min?.getD 0

/-- The sum over the threads. -/
def recordedTime (es : List Event) : Nat := ∑ t ∈ threadsOf es, recordedSpan t es

end Verif.Spec
