import Verif.Model.Decoder
import Mathlib.Algebra.BigOperators.Group.Finset.Basic
import Mathlib.Algebra.BigOperators.Intervals
import Mathlib.Algebra.Order.BigOperators.Group.Finset

/-!
# Specification vocabulary for the analysis of event streams

A stream is the list of events in recording order: an interval is recorded when it ends, so an enclosing interval comes after
the intervals nested in it.
-/

namespace Verif.Spec

open Verif Verif.Mm Verif.Decode

/-- The times of an interval event. -/
def times (e : Event) : Option (Nat × Nat) :=
  match e.payload with
  | .timestamp (.interval s t) => some (s, t)
  | _ => none

/-- The length of an interval; zero for other events. -/
def len (e : Event) : Nat := match times e with
  | some (s, t) => t - s
  | none => 0

/-- Both are intervals on the same thread and `p` spans `e`. -/
def encloses (p e : Event) : Bool :=
  match times p, times e with
  | some (s, t), some (s', t') => decide (p.threadId = e.threadId) && (decide (s ≤ s') && decide (t' ≤ t))
  | _, _ => false

/-- No interval ends before it starts. -/
def Forward (e : Event) : Prop := ∀ s t, times e = some (s, t) → s ≤ t

/-- Two intervals of one thread, `a` recorded before `b`: `a` ended no later, and lies within `b` or before it. -/
def InOrder (a b : Event) : Prop :=
  ∀ s t s' t', times a = some (s, t) → times b = some (s', t') → a.threadId = b.threadId → t ≤ t' ∧ (s' ≤ s ∨ t ≤ s')

/-- What a profiler records when timings are scoped: on every thread intervals are nested or disjoint and come in the order
of their ends. -/
def ProperlyNested (es : List Event) : Prop := (∀ e ∈ es, Forward e) ∧ es.Pairwise InOrder

/-- The parent of event `i`: the first later event that encloses it. -/
def parentOf : List Event → Nat → Option Nat
  | [], _ => none
  | e :: es, 0 => (es.findIdx? (fun p => encloses p e)).map (· + 1)
  | _ :: es, i + 1 => (parentOf es i).map (· + 1)

/-- The length of event `i`. -/
def lenAt (es : List Event) (i : Nat) : Nat := (es[i]?.map len).getD 0

/-- The time spent in the direct children of event `j`. -/
def childTime (es : List Event) (j : Nat) : Nat :=
  ∑ i ∈ Finset.range es.length, if parentOf es i = some j then lenAt es i else 0

/-- The time spent in event `j` itself: its length minus that of its direct children. -/
def selfAt (es : List Event) (j : Nat) : Nat := lenAt es j - childTime es j

/-- The event at `j` has the property. -/
def at? (p : Event → Bool) (es : List Event) (j : Nat) : Bool := es[j]?.any p

/-- The self times of the intervals with a property, added up. -/
def selfTimeOf (p : Event → Bool) (es : List Event) : Nat :=
  ∑ j ∈ Finset.range es.length, if at? p es j then selfAt es j else 0

/-- The lengths of the intervals with a property, added up. -/
def timeOf (p : Event → Bool) (es : List Event) : Nat := ((es.filter p).map len).sum

/-- The number of events with a property. -/
def countOf (p : Event → Bool) (es : List Event) : Nat := (es.filter p).length

/-- The event is an interval. -/
def isInterval (e : Event) : Bool := (times e).isSome

/-- The event is an instant. -/
def isInstant (e : Event) : Bool := match e.payload with
  | .timestamp (.instant _) => true
  | _ => false

/-- The event has this label. -/
def hasLabel (l : Bytes) (e : Event) : Bool := decide (e.label = l)

/-- The event has this kind. -/
def hasKind (k : String) (e : Event) : Bool := decide (e.eventKind = utf8 k)

/-- The starts of the intervals of a thread. -/
def startsOf (t : UInt32) (es : List Event) : List Nat :=
  es.filterMap fun e => if e.threadId = t then (times e).map (·.1) else none

/-- The ends of the intervals of a thread. -/
def endsOf (t : UInt32) (es : List Event) : List Nat :=
  es.filterMap fun e => if e.threadId = t then (times e).map (·.2) else none

/-- The time from the first start to the last end on a thread. -/
def spanLength (t : UInt32) (es : List Event) : Nat := (endsOf t es).max?.getD 0 - (startsOf t es).min?.getD 0

/-- The threads with intervals. -/
def threadsOf (es : List Event) : Finset UInt32 := ((es.filter isInterval).map (·.threadId)).toFinset

/-- The lengths of the intervals that lie in no other, added up. -/
def rootTime (es : List Event) : Nat :=
  ∑ i ∈ Finset.range es.length, if parentOf es i = none then lenAt es i else 0

/-- The streams have the same events in the same order on every thread. -/
def SameThreads (a b : List Event) : Prop :=
  ∀ t : UInt32, a.filter (fun e => decide (e.threadId = t)) = b.filter (fun e => decide (e.threadId = t))

/-- The event is an artifact size of this label. -/
def isArtifact (l : Bytes) (e : Event) : Bool := match e.payload with
  | .integer _ => hasLabel l e && hasKind "ArtifactSize" e
  | _ => false

/-- The integer of an event. -/
def intOf (e : Event) : Nat := match e.payload with
  | .integer v => v
  | _ => 0

/-- The artifact sizes of a label, added up. -/
def artifactTotal (l : Bytes) (es : List Event) : Nat := ((es.filter (isArtifact l)).map intOf).sum

end Verif.Spec
