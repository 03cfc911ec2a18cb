import Verif.Model.Analysis

/-!
# Model of `summarize/src/aggregate.rs`

Iterators are states with a `nextBack` step, exactly as in the code; the one unbounded loop (over the aggregated intervals)
takes fuel, and its callers pass twice the number of events plus one.  Durations are natural numbers of nanoseconds.  A
`BTreeMap` is a list of entries in increasing order of keys.  The percentage printed after a number of occurrences is not
modelled (floating point): the model keeps the two integers it is computed from.
-/

namespace Verif.Aggregate

open Verif Verif.Mm Verif.Decode Verif.Analyze

/-! ## Descriptions -/

/-- `summarize/src/aggregate.rs:40-45` `EventDescription`. -/
structure EventDescription where
  eventKind : Bytes
  label : Bytes
  additionalData : List Bytes
  deriving DecidableEq, Repr

/-- `summarize/src/aggregate.rs:47-55` `EventDescription::from`. -/
def EventDescription.ofEvent (e : Event) : EventDescription := ⟨e.eventKind, e.label, e.additionalData⟩

/-- `summarize/src/aggregate.rs:65-70`: the arguments separated by commas. -/
def commas : List Bytes → Bytes
  | [] => []
  | [a] => a
  | a :: as => a ++ utf8 ", " ++ commas as

/-- `summarize/src/aggregate.rs:57-73` `EventDescription::fmt`. -/
def EventDescription.text (d : EventDescription) : Bytes :=
  (if d.eventKind = queryKind ∨ d.eventKind = genericActivityKind then [] else d.eventKind ++ utf8 " ") ++
    utf8 "`" ++ d.label ++ utf8 "(" ++ commas d.additionalData ++ utf8 ")`"

/-- `summarize/src/aggregate.rs:75-79` `WithParent`. -/
structure WithParent (E : Type) where
  this : E
  parent : Option E
  deriving DecidableEq, Repr

/-- `summarize/src/aggregate.rs:81-88` `WithParent::<EventDescription>::from`. -/
def WithParent.describe (w : WithParent Event) : WithParent EventDescription :=
  ⟨EventDescription.ofEvent w.this, w.parent.map EventDescription.ofEvent⟩

/-! ## Sample points -/

/-- `summarize/src/aggregate.rs:91-96` `SamplePoint`. -/
inductive SamplePoint (E : Type) where
  | start (e : E)
  | stop (e : E)
  | instant (e : E)
  deriving DecidableEq, Repr

/-- `summarize/src/aggregate.rs:107-113` `SamplePoint::map_event`. -/
def SamplePoint.mapEvent {E F : Type} (f : E → F) : SamplePoint E → SamplePoint F
  | .start e => .start (f e)
  | .stop e => .stop (f e)
  | .instant e => .instant (f e)

/-- `summarize/src/aggregate.rs:116-134` `SamplePoint::timestamp`. -/
def SamplePoint.timestamp (p : SamplePoint (WithParent Event)) : Except Fault Nat :=
  match p with
  | .start w => match w.this.payload with
    | .timestamp (.interval s _) => .ok s
    | .timestamp (.instant _) => .error (.panic "SamplePoint::timestamp: event timestamp doesn't match")
    | .integer _ => .error (.panic "unreachable")
  | .stop w => match w.this.payload with
    | .timestamp (.interval _ t) => .ok t
    | .timestamp (.instant _) => .error (.panic "SamplePoint::timestamp: event timestamp doesn't match")
    | .integer _ => .error (.panic "unreachable")
  | .instant w => match w.this.payload with
    | .timestamp (.instant t) => .ok t
    | .timestamp (.interval _ _) => .error (.panic "SamplePoint::timestamp: event timestamp doesn't match")
    | .integer _ => .error (.panic "unreachable")

/-- `summarize/src/aggregate.rs:136-144` `SamplePoints`; the top of the stack is the head of the list. -/
structure SamplePoints where
  expectedThreadId : UInt32
  revEvents : List Event
  stack : List Event

/-- `decodeme/src/event_payload.rs:56-58` `is_integer`. -/
def isInteger : EventPayload → Bool
  | .integer _ => true
  | _ => false

/-- `summarize/src/aggregate.rs:147-158` `SamplePoints::new`. -/
def SamplePoints.new (events : List Event) : SamplePoints where
  expectedThreadId := (((events.reverse.filter fun e => !isInteger e.payload).head?).map (·.threadId)).getD 0
  revEvents := events.reverse.filter fun e => !isInteger e.payload
  stack := []

/-- `summarize/src/aggregate.rs:191-204`: take the peeked event; an interval is entered. -/
def SamplePoints.consume (st : SamplePoints) (e : Event) (rest : List Event) :
    Except Fault (Option (SamplePoint Event × SamplePoints)) :=
  match e.payload with
  | .timestamp (.interval _ _) => .ok (some (.stop e, { st with revEvents := rest, stack := e :: st.stack }))
  | .timestamp (.instant _) => .ok (some (.instant e, { st with revEvents := rest }))
  | .integer _ => .error (.panic "unreachable")

/-- `summarize/src/aggregate.rs:167-211`: the point, without its parent. -/
def SamplePoints.point (st : SamplePoints) : Except Fault (Option (SamplePoint Event × SamplePoints)) :=
  match st.revEvents with
  | e :: rest =>
    if isInteger e.payload then .error (.panic "Integer events accidentally included in `SamplePoints` events")
    else if e.threadId ≠ st.expectedThreadId then
      .error (.panic "more than one thread is not supported in `summarize aggregate`")
    else match st.stack with
      | top :: stack =>
        if !contains top.payload e.payload then .ok (some (.start top, { st with stack := stack }))
        else st.consume e rest
      | [] => st.consume e rest
  | [] => match st.stack with
    | top :: stack => .ok (some (.start top, { st with stack := stack }))
    | [] => .ok none

/-- `summarize/src/aggregate.rs:165-226` `SamplePoints::next_back`: the parent is the top of the stack, or the one below for an
interval just entered. -/
def SamplePoints.nextBack (st : SamplePoints) : Except Fault (Option (SamplePoint (WithParent Event) × SamplePoints)) := do
  match ← st.point with
  | none => .ok none
  | some (p, st') =>
    let parent := match p with
      | .stop _ => if st'.stack.length ≥ 2 then st'.stack[1]? else none
      | .start _ | .instant _ => st'.stack.head?
    .ok (some (p.mapEvent (fun e => ⟨e, parent⟩), st'))

/-! ## Sample intervals -/

/-- `summarize/src/aggregate.rs:229-233` `SampleInterval`. -/
structure SampleInterval (E : Type) where
  start : SamplePoint E
  stop : SamplePoint E
  deriving DecidableEq, Repr

/-- `summarize/src/aggregate.rs:235-242` `SampleInterval::map_event`. -/
def SampleInterval.mapEvent {E F : Type} (f : E → F) (i : SampleInterval E) : SampleInterval F :=
  ⟨i.start.mapEvent f, i.stop.mapEvent f⟩

/-- `summarize/src/aggregate.rs:244-251` `SampleInterval::duration`. -/
def SampleInterval.duration (i : SampleInterval (WithParent Event)) : Except Fault Nat := do
  let t ← i.stop.timestamp
  let s ← i.start.timestamp
  if s ≤ t then .ok (t - s) else .error (.panic "called `Result::unwrap()` on an `Err` value")

/-- `summarize/src/aggregate.rs:253-257` `SampleIntervals`. -/
structure SampleIntervals where
  lastSamplePoint : Option (SamplePoint (WithParent Event))
  samplePoints : SamplePoints

/-- `summarize/src/aggregate.rs:259-267` `SampleIntervals::new`. -/
def SampleIntervals.new (points : SamplePoints) : Except Fault SampleIntervals := do
  match ← points.nextBack with
  | some (p, points') => .ok ⟨some p, points'⟩
  | none => .ok ⟨none, points⟩

/-- `summarize/src/aggregate.rs:269-281` `SampleIntervals::next_back`. -/
def SampleIntervals.nextBack (st : SampleIntervals) : Except Fault (Option (SampleInterval (WithParent Event)) × SampleIntervals) := do
  match ← st.samplePoints.nextBack with
  | none => .ok (none, st)
  | some (start, points) =>
    match st.lastSamplePoint with
    | none => .ok (none, ⟨some start, points⟩)
    | some stop => .ok (some ⟨start, stop⟩, ⟨some start, points⟩)

/-! ## Aggregation across profiles -/

/-- `summarize/src/aggregate.rs:290-295` `AggregatedSampleInterval`; `rangeSize` is that of its `Variance` (`:283-288`). -/
structure AggregatedSampleInterval where
  descriptions : SampleInterval (WithParent EventDescription)
  minDuration : Nat
  rangeSize : Nat
  deriving DecidableEq, Repr

/-- `summarize/src/aggregate.rs:297-301` `max_duration`. -/
def AggregatedSampleInterval.maxDuration (a : AggregatedSampleInterval) : Nat := a.minDuration + a.rangeSize

/-- `summarize/src/aggregate.rs:332-356`: one step of every other profile; the durations, and the new states. -/
def stepOthers (d : SampleInterval (WithParent EventDescription)) :
    List SampleIntervals → Except Fault (List Nat × List SampleIntervals)
  | [] => .ok ([], [])
  | it :: its => do
    match ← it.nextBack with
    | (none, _) => .error (.panic "`summarize aggregate` requires identical sequences of events")
    | (some interval, it') =>
      let dur ← interval.duration
      if d ≠ interval.mapEvent WithParent.describe then
        .error (.panic "`summarize aggregate` requires identical sequences of events")
      else
        let (ds, its') ← stepOthers d its
        .ok (dur :: ds, it' :: its')

/-- `summarize/src/aggregate.rs:373-380`: at the end of the first profile all others must have ended too. -/
def checkLeftover : List SampleIntervals → Except Fault (List SampleIntervals)
  | [] => .ok []
  | it :: its => do
    match ← it.nextBack with
    | (some _, _) => .error (.panic "`summarize aggregate` requires identical sequences of events")
    | (none, it') =>
      let its' ← checkLeftover its
      .ok (it' :: its')

/-- `summarize/src/aggregate.rs:317-385` `AggregatedSampleIntervals::next_back`. -/
def aggregatedNextBack : List SampleIntervals → Except Fault (Option AggregatedSampleInterval × List SampleIntervals)
  | [] => .ok (none, [])
  | it :: its => do
    match ← it.nextBack with
    | (some interval, it') =>
      let first ← interval.duration
      let d := interval.mapEvent WithParent.describe
      let (ds, its') ← stepOthers d its
      let least := ds.foldl min first
      let most := ds.foldl max first
      .ok (some ⟨d, least, most - least⟩, it' :: its')
    | (none, it') => do
      let all ← checkLeftover (it' :: its)
      .ok (none, all)

/-! ## Extrema -/

/-- `summarize/src/aggregate.rs:397-401` `ExtremaSources`. -/
inductive ExtremaSources (S : Type) where
  | empty
  | one (s : S)
  | count (n : Nat)
  deriving DecidableEq, Repr

/-- `summarize/src/aggregate.rs:410-416` `ExtremaSources::count`. -/
def ExtremaSources.size {S : Type} : ExtremaSources S → Nat
  | .empty => 0
  | .one _ => 1
  | .count n => n

/-- `summarize/src/aggregate.rs:418-423` `ExtremaSources::add`. -/
def ExtremaSources.add {S : Type} (x : ExtremaSources S) (s : S) : ExtremaSources S :=
  match x with
  | .empty => .one s
  | _ => .count (x.size + 1)

/-- `BTreeMap::entry(value).or_default().add(source)` (`summarize/src/aggregate.rs:452,463`). -/
def addEntry {S : Type} (value : Nat) (s : S) : List (Nat × ExtremaSources S) → List (Nat × ExtremaSources S)
  | [] => [(value, ExtremaSources.empty.add s)]
  | (k, x) :: m =>
    if value < k then (value, ExtremaSources.empty.add s) :: (k, x) :: m
    else if value = k then (k, x.add s) :: m
    else (k, x) :: addEntry value s m

/-- `BTreeMap::remove` (`summarize/src/aggregate.rs:466`). -/
def removeEntry {S : Type} (value : Nat) (m : List (Nat × ExtremaSources S)) : List (Nat × ExtremaSources S) :=
  m.filter fun x => decide (x.1 ≠ value)

/-- `summarize/src/aggregate.rs:441-444` `Which`. -/
inductive Which where
  | smallest
  | largest
  deriving DecidableEq, Repr

/-- `summarize/src/aggregate.rs:454-457`: the least extreme key. -/
def leastExtreme {S : Type} (w : Which) (m : List (Nat × ExtremaSources S)) : Option Nat :=
  match w with
  | .smallest => (m.map (·.1)).getLast?
  | .largest => (m.map (·.1)).head?

/-- `summarize/src/aggregate.rs:458-461`: is the value less extreme? -/
def lessExtreme (w : Which) (value least : Nat) : Bool :=
  match w with
  | .smallest => decide (value > least)
  | .largest => decide (value < least)

/-- `summarize/src/aggregate.rs:446-472`: the body of the loop, for one of the two maps. -/
def addTo {S : Type} (w : Which) (limit : Nat) (m : List (Nat × ExtremaSources S)) (value : Nat) (s : S) :
    Except Fault (List (Nat × ExtremaSources S)) :=
  if m.length < limit then .ok (addEntry value s m)
  else match leastExtreme w m with
    | none => .error (.panic "called `Option::unwrap()` on a `None` value")
    | some least =>
      if !lessExtreme w value least then
        let m' := addEntry value s m
        let m'' := if m'.length > limit then removeEntry least m' else m'
        if m''.length = limit then .ok m'' else .error (.panic "assertion `left == right` failed")
      else .ok m

/-- `summarize/src/aggregate.rs:389-395` `Extrema`. -/
structure Extrema (S : Type) where
  limit : Nat
  smallest : List (Nat × ExtremaSources S) := []
  largest : List (Nat × ExtremaSources S) := []
  deriving DecidableEq, Repr

/-- `summarize/src/aggregate.rs:440-473` `Extrema::add_range`. -/
def Extrema.addRange {S : Type} (x : Extrema S) (lo hi : Nat) (s : S) : Except Fault (Extrema S) := do
  let smallest ← addTo .smallest x.limit x.smallest lo s
  let largest ← addTo .largest x.limit x.largest hi s
  .ok { x with smallest := smallest, largest := largest }

/-- `summarize/src/aggregate.rs:436-438` `Extrema::add`. -/
def Extrema.add {S : Type} (x : Extrema S) (value : Nat) (s : S) : Except Fault (Extrema S) := x.addRange value value s

/-! ## `aggregate_profiles` -/

/-- The source of an extreme value (`summarize/src/aggregate.rs:493-496`). -/
abbrev Source := SampleInterval (WithParent EventDescription)

/-- The variables of the loop at `summarize/src/aggregate.rs:483-497`. -/
structure Totals where
  intervalsCount : Nat := 0
  durations : Extrema Source := { limit := 10 }
  variances : Extrema Source := { limit := 10 }
  deriving DecidableEq, Repr

/-- `summarize/src/aggregate.rs:489-497`: one iteration. -/
def Totals.addInterval (t : Totals) (a : AggregatedSampleInterval) : Except Fault Totals := do
  let durations ← t.durations.addRange a.minDuration a.maxDuration a.descriptions
  let variances ← t.variances.add a.rangeSize a.descriptions
  .ok ⟨t.intervalsCount + 1, durations, variances⟩

/-- `summarize/src/aggregate.rs:489-497`: the loop. -/
def aggregateLoop : Nat → List SampleIntervals → Totals → Except Fault Totals
  | 0, _, _ => .error .outOfFuel
  | fuel + 1, its, t => do
    match ← aggregatedNextBack its with
    | (none, _) => .ok t
    | (some a, its') =>
      let t' ← t.addInterval a
      aggregateLoop fuel its' t'

/-- What is printed for an entry: a text, or a count out of a total. -/
inductive Described where
  | text (b : Bytes)
  | share (count total : Nat)
  deriving DecidableEq, Repr

/-- `summarize/src/aggregate.rs:499-543` `describe`. -/
def describe (total : Nat) (x : ExtremaSources Source) : Except Fault Described :=
  match x with
  | .one d =>
    match d.start, d.stop with
    | .start s, .stop e =>
      if s = e then .ok (.text s.this.text) else .error (.panic "assertion `left == right` failed")
    | .start outer, .start inner | .start outer, .instant inner =>
      if inner.parent = some outer.this then .ok (.text (utf8 "in " ++ outer.this.text ++ utf8 ", before " ++ inner.this.text))
      else .error (.panic "assertion `left == right` failed")
    | .stop inner, .stop outer | .instant inner, .stop outer =>
      if inner.parent = some outer.this then .ok (.text (utf8 "in " ++ outer.this.text ++ utf8 ", after " ++ inner.this.text))
      else .error (.panic "assertion `left == right` failed")
    | .stop first, .start second | .instant first, .start second | .stop first, .instant second | .instant first, .instant second =>
      if first.parent = second.parent then
        match first.parent with
        | some parent => .ok (.text (utf8 "in " ++ parent.text ++ utf8 ",\n    between " ++ first.this.text ++
            utf8 "\n        and " ++ second.this.text ++ utf8 "\n"))
        | none => .ok (.text (utf8 "between " ++ first.this.text ++ utf8 " and " ++ second.this.text))
      else .error (.panic "assertion `left == right` failed")
  | x => .ok (.share x.size total)

/-- `summarize/src/aggregate.rs:545-572`: the lines of one section. -/
def describeAll (total : Nat) : List (Nat × ExtremaSources Source) → Except Fault (List (Nat × Described))
  | [] => .ok []
  | (k, x) :: m => do
    let d ← describe total x
    let ds ← describeAll total m
    .ok ((k, d) :: ds)

/-- What `summarize/src/aggregate.rs:545-572` prints. -/
structure Report where
  smallestDurations : List (Nat × Described)
  largestDurations : List (Nat × Described)
  smallestVariances : List (Nat × Described)
  largestVariances : List (Nat × Described)
  deriving DecidableEq, Repr

/-- `summarize/src/aggregate.rs:477-481`: an iterator per profile. -/
def openAll : List (List Event) → Except Fault (List SampleIntervals)
  | [] => .ok []
  | p :: ps => do
    let it ← SampleIntervals.new (SamplePoints.new p)
    let its ← openAll ps
    .ok (it :: its)

/-- `summarize/src/aggregate.rs:476-572` `aggregate_profiles`. -/
def aggregateProfiles (profiles : List (List Event)) : Except Fault Report := do
  let its ← openAll profiles
  let t ← aggregateLoop ((profiles.head?.getD []).length * 2 + 1) its {}
  let a ← describeAll t.intervalsCount t.durations.smallest
  let b ← describeAll t.intervalsCount t.durations.largest
  let c ← describeAll t.intervalsCount t.variances.smallest
  let d ← describeAll t.intervalsCount t.variances.largest
  .ok ⟨a, b, c, d⟩

end Verif.Aggregate
