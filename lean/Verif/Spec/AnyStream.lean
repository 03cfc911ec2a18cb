import Verif.Spec.Analysis

/-!
# Streams of any shape

The intervals of a thread may overlap without nesting, or come in any order.  No reference is made to the loop or its stack.
-/

namespace Verif.Spec

open Verif Verif.Mm Verif.Decode

/-- The event at `j` after `e` encloses `e` and every interval of the thread of `e` recorded between the two. -/
def holds (e : Event) (es : List Event) (j : Nat) : Bool :=
  es[j]?.any fun p => encloses p e &&
    (es.take j).all fun x => !(isInterval x && decide (x.threadId = e.threadId)) || encloses p x

/-- The event that event `i` is counted in: the first later one that encloses it and every interval of its thread recorded
between the two. -/
def holderOf : List Event → Nat → Option Nat
  | [], _ => none
  | e :: es, 0 => ((List.range es.length).find? (holds e es)).map (· + 1)
  | _ :: es, i + 1 => (holderOf es i).map (· + 1)

/-- The lengths of the intervals counted in an event with a property, added up. -/
def heldTime (p : Event → Bool) (es : List Event) : Nat :=
  ∑ i ∈ Finset.range es.length, if (holderOf es i).any (at? p es) then lenAt es i else 0

/-- At no event has more time been counted inside the intervals with the property among it and the later events than the
intervals with the property recorded after it have. -/
def Covered (p : Event → Bool) (es : List Event) : Prop :=
  ∀ k, heldTime p (es.drop k) ≤ timeOf p (es.drop (k + 1))

end Verif.Spec
