import Verif.Model.Aggregate
import Verif.Spec.Analysis
import Mathlib.Data.List.Dedup
import Mathlib.Data.List.Sort

/-! # Specification vocabulary for `summarize aggregate` -/

namespace Verif.Spec

open Verif Verif.Mm Verif.Decode Verif.Aggregate

/-! ## Extreme values -/

/-- The values of the smaller ranks: those more extreme than `k`. -/
def moreExtreme (w : Which) (k : Nat) (vs : List Nat) : List Nat :=
  match w with
  | .smallest => vs.filter fun v => decide (v < k)
  | .largest => vs.filter fun v => decide (v > k)

/-- `k` is among the `limit` most extreme of the distinct values. -/
def IsExtreme (w : Which) (limit : Nat) (vs : List Nat) (k : Nat) : Prop :=
  k ∈ vs ∧ (moreExtreme w k vs).dedup.length < limit

/-- The sources of the value `k`. -/
def sourcesOf {S : Type} (k : Nat) (xs : List (Nat × S)) : List S := (xs.filter fun x => decide (x.1 = k)).map (·.2)

/-- What is remembered of a list of sources: the source if there is one, their number otherwise. -/
def remember {S : Type} : List S → ExtremaSources S
  | [] => .empty
  | [s] => .one s
  | ss => .count ss.length

/-! ## Streams -/

/-- First and last moment of an event. -/
def span (e : Event) : Option (Nat × Nat) :=
  match e.payload with
  | .timestamp (.instant t) => some (t, t)
  | .timestamp (.interval s t) => some (s, t)
  | .integer _ => none

/-- What a single thread records when timings are scoped: events with a time come in the order of their ends, and an interval
spans each earlier event or begins no sooner than it ended. -/
def PostOrdered (es : List Event) : Prop :=
  (∀ e ∈ es, Forward e) ∧
  es.Pairwise fun a b => ∀ s t s' t', span a = some (s, t) → span b = some (s', t') → t ≤ t' ∧ (s' ≤ s ∨ t ≤ s')

/-- Events with a time are all of one thread. -/
def OneThread (es : List Event) : Prop :=
  ∀ a ∈ es, ∀ b ∈ es, (span a).isSome → (span b).isSome → a.threadId = b.threadId

/-- All moments at which something begins, ends or happens. -/
def endpoints (es : List Event) : List Nat :=
  es.flatMap fun e => match e.payload with
    | .timestamp (.instant t) => [t]
    | .timestamp (.interval s t) => [s, t]
    | .integer _ => []

/-- The differences between successive numbers. -/
def differences : List Nat → List Nat
  | a :: b :: l => (b - a) :: differences (b :: l)
  | _ => []

/-- The times between successive moments of a stream. -/
def gaps (es : List Event) : List Nat := differences ((endpoints es).insertionSort (· ≤ ·))

/-! ## Sample points -/

/-- The iterator gives these points, latest first, and ends. -/
inductive Emits : SamplePoints → List (SamplePoint (WithParent Event)) → Prop
  | done {st : SamplePoints} (h : st.nextBack = .ok none) : Emits st []
  | more {st st' : SamplePoints} {p : SamplePoint (WithParent Event)} {ps : List (SamplePoint (WithParent Event))}
      (h : st.nextBack = .ok (some (p, st'))) (t : Emits st' ps) : Emits st (p :: ps)

/-- Replay points in chronological order on a stack of open intervals: the parent of each is the innermost open interval, and
an end closes it. -/
def replay : List (SamplePoint (WithParent Event)) → List Event → Option (List Event)
  | [], st => some st
  | .start w :: ps, st => if w.parent = st.head? then replay ps (w.this :: st) else none
  | .instant w :: ps, st => if w.parent = st.head? then replay ps st else none
  | .stop _ :: _, [] => none
  | .stop w :: ps, e :: st => if e = w.this ∧ w.parent = st.head? then replay ps st else none

/-- The event completed at a point. -/
def completed : SamplePoint (WithParent Event) → Option Event
  | .start _ => none
  | .stop w => some w.this
  | .instant w => some w.this

/-- The moment of a point. -/
def momentOf : SamplePoint (WithParent Event) → Nat
  | .start w => ((span w.this).map (·.1)).getD 0
  | .stop w => ((span w.this).map (·.2)).getD 0
  | .instant w => ((span w.this).map (·.1)).getD 0

/-- Successive points, given latest first. -/
def successive : List (SamplePoint (WithParent Event)) → List (SampleInterval (WithParent Event))
  | p :: q :: ps => ⟨q, p⟩ :: successive (q :: ps)
  | _ => []

/-- The time between two points. -/
def timeBetween (i : SampleInterval (WithParent Event)) : Nat := momentOf i.stop - momentOf i.start

/-- What is compared between profiles: kinds, labels and arguments of the two points and their parents. -/
def shape (i : SampleInterval (WithParent Event)) : Source := i.mapEvent WithParent.describe

/-! ## Several profiles -/

/-- The values of all profiles at position `i`. -/
def columnAt (gs : List (List Nat)) (i : Nat) : List Nat := gs.map fun g => g.getD i 0

/-- The number of positions. -/
def width (gs : List (List Nat)) : Nat := (gs.head?.getD []).length

/-- The least value at each position. -/
def lows (gs : List (List Nat)) : List Nat := (List.range (width gs)).map fun i => (columnAt gs i).min?.getD 0

/-- The greatest value at each position. -/
def highs (gs : List (List Nat)) : List Nat := (List.range (width gs)).map fun i => (columnAt gs i).max?.getD 0

/-- The difference between greatest and least value at each position. -/
def spreads (gs : List (List Nat)) : List Nat :=
  (List.range (width gs)).map fun i => (columnAt gs i).max?.getD 0 - (columnAt gs i).min?.getD 0

/-! ## Sentences -/

/-- How an event is named: its kind, unless that is `Query` or `GenericActivity`, then its label and its arguments. -/
def named (e : Event) : Bytes :=
  (if e.eventKind ∈ [utf8 "Query", utf8 "GenericActivity"] then [] else e.eventKind ++ utf8 " ") ++
    (utf8 "`" ++ e.label ++ utf8 "(" ++ List.intercalate (utf8 ", ") e.additionalData ++ utf8 ")`")

/-- What happens between two points. After a begin: all of the event if it ends next, otherwise what is before the next event in
it. Before an end: what is after the last event in the ended one. Otherwise what is between two siblings. -/
def sentence (i : SampleInterval (WithParent Event)) : Bytes :=
  match i.start, i.stop with
  | .start a, .stop _ => named a.this
  | .start a, .start b | .start a, .instant b => utf8 "in " ++ named a.this ++ utf8 ", before " ++ named b.this
  | .stop a, .stop b | .instant a, .stop b => utf8 "in " ++ named b.this ++ utf8 ", after " ++ named a.this
  | .stop a, .start b | .stop a, .instant b | .instant a, .start b | .instant a, .instant b =>
    match a.parent with
    | none => utf8 "between " ++ named a.this ++ utf8 " and " ++ named b.this
    | some p => utf8 "in " ++ named p ++ utf8 ",\n    between " ++ named a.this ++ utf8 "\n        and " ++ named b.this ++ utf8 "\n"

/-- What happens between the points of a profile, in the order of time; the points are given latest first. -/
def sentences (tr : List (SamplePoint (WithParent Event))) : List Bytes := (successive tr).reverse.map sentence

/-- A printed section, given the values and the texts of all positions: the ten most extreme of the values, ascending; a value
that occurs at one position only is described by the text of that position, others by the number of their positions. -/
def IsSection (w : Which) (vs : List Nat) (ts : List Bytes) (lines : List (Nat × Described)) : Prop :=
  (lines.map (·.1)).Pairwise (· < ·) ∧ (∀ k, k ∈ lines.map (·.1) ↔ IsExtreme w 10 vs k) ∧
  ∀ k d, (k, d) ∈ lines → (vs.count k = 1 → ∃ b, (k, b) ∈ vs.zip ts ∧ d = .text b) ∧
    (vs.count k ≠ 1 → d = .share (vs.count k) vs.length)

end Verif.Spec
