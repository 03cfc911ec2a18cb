import Verif.Model.Decoder

/-!
# Model of `analyzeme/src/analysis.rs` and of the event predicates in `decodeme/src/event_payload.rs`

Durations and points in time are natural numbers of nanoseconds; additions of durations and of counters are not bounded
(`Duration` holds 2⁶⁴ seconds, counters are `usize`).  Subtractions of durations panic on underflow in every build, as
`Duration`'s `-=` does.  Hash maps are association lists; their iteration order is not specified by Rust, so statements only
look entries up, or sum over all of them.
-/

namespace Verif.Analyze

open Verif Verif.Mm Verif.Decode

/-! ## Events -/

/-- `decodeme/src/event_payload.rs:21-38` `EventPayload::contains`. -/
def contains : EventPayload → EventPayload → Bool
  | .timestamp (.interval s e), .timestamp (.interval s' e') => decide (s ≤ s') && decide (e' ≤ e)
  | .timestamp (.interval s e), .timestamp (.instant t) => decide (s ≤ t) && decide (t ≤ e)
  | .timestamp (.interval _ _), .integer _ => false
  | .timestamp (.instant _), _ => false
  | .integer _, _ => false

/-- `decodeme/src/event_payload.rs:40-46,119-125` `duration`: `None` for instants, integers and intervals that end before they
start (`duration_since(..).ok()`). -/
def duration : EventPayload → Option Nat
  | .timestamp (.interval s e) => if s ≤ e then some (e - s) else none
  | _ => none

/-- `Option::unwrap` (used at `analyzeme/src/analysis.rs:167,270`). -/
def unwrap {α : Type} : Option α → Except Fault α
  | some a => .ok a
  | none => .error (.panic "called `Option::unwrap()` on a `None` value")

/-- `Duration -= Duration` (used at `analyzeme/src/analysis.rs:176-193`). -/
def subDuration (a b : Nat) : Except Fault Nat :=
  if b ≤ a then .ok (a - b) else .error (.panic "overflow when subtracting durations")

/-! ## Event kinds -/

/-- `measureme/src/rustc.rs:3` -/
def queryKind : Bytes := utf8 "Query"
/-- `measureme/src/rustc.rs:5` -/
def genericActivityKind : Bytes := utf8 "GenericActivity"
/-- `measureme/src/rustc.rs:7` -/
def loadResultKind : Bytes := utf8 "IncrementalLoadResult"
/-- `measureme/src/rustc.rs:9` -/
def resultHashingKind : Bytes := utf8 "IncrementalResultHashing"
/-- `measureme/src/rustc.rs:11` -/
def queryBlockedKind : Bytes := utf8 "QueryBlocked"
/-- `measureme/src/rustc.rs:13` -/
def queryCacheHitKind : Bytes := utf8 "QueryCacheHit"
/-- `measureme/src/rustc.rs:15` -/
def artifactSizeKind : Bytes := utf8 "ArtifactSize"

/-! ## Maps -/

/-- Look a key up (`HashMap::get`, used at `analyzeme/src/analysis.rs:127,150`). -/
def lookup {κ α : Type} [DecidableEq κ] (k : κ) : List (κ × α) → Option α
  | [] => none
  | (k', a) :: m => if k' = k then some a else lookup k m

/-- Insert or replace (`HashMap::insert`, `entry`, used at `analyzeme/src/analysis.rs:132,149-155`). -/
def insert {κ α : Type} [DecidableEq κ] (k : κ) (a : α) : List (κ × α) → List (κ × α)
  | [] => [(k, a)]
  | (k', a') :: m => if k' = k then (k, a) :: m else (k', a') :: insert k a m

/-- `analyzeme/src/analysis.rs:305-316` `QueryData` (the label is the key of the map). -/
structure QueryData where
  time : Nat := 0
  selfTime : Nat := 0
  numberOfCacheMisses : Nat := 0
  numberOfCacheHits : Nat := 0
  invocationCount : Nat := 0
  blockedTime : Nat := 0
  incrementalLoadTime : Nat := 0
  incrementalHashingTime : Nat := 0
  deriving DecidableEq, Repr

/-- `analyzeme/src/analysis.rs:126-134` `record_event_data`: update the entry of a label, created if absent. -/
def record (label : Bytes) (f : QueryData → Except Fault QueryData) (m : List (Bytes × QueryData)) :
    Except Fault (List (Bytes × QueryData)) := do
  let d ← f ((lookup label m).getD {})
  .ok (insert label d m)

/-! ## Artifact sizes -/

/-- Order of byte strings (`Ord for str`, used by the `BTreeMap` at `analyzeme/src/analysis.rs:123`). -/
def bytesLt : Bytes → Bytes → Bool
  | _, [] => false
  | [], _ :: _ => true
  | a :: as, b :: bs => if a < b then true else if b < a then false else bytesLt as bs

/-- `u64 +=` (`analyzeme/src/analysis.rs:338-340` `add_value`): with overflow checks it panics, without it wraps. -/
def addU64 (checks : Bool) (a b : Nat) : Except Fault Nat :=
  if a + b < 2 ^ 64 then .ok (a + b)
  else if checks then .error (.panic "attempt to add with overflow") else .ok ((a + b) % 2 ^ 64)

/-- `analyzeme/src/analysis.rs:259-262`: `entry(label).or_insert_with(..).add_value(value)` on the `BTreeMap`. -/
def addArtifact (checks : Bool) (label : Bytes) (v : Nat) : List (Bytes × Nat) → Except Fault (List (Bytes × Nat))
  | [] => do
    let s ← addU64 checks 0 v
    .ok [(label, s)]
  | (l, a) :: m =>
    if l = label then do
      let s ← addU64 checks a v
      .ok ((l, s) :: m)
    else if bytesLt label l then do
      let s ← addU64 checks 0 v
      .ok ((label, s) :: (l, a) :: m)
    else do
      let m ← addArtifact checks label v m
      .ok ((l, a) :: m)

/-! ## The analysis -/

/-- `analyzeme/src/analysis.rs:116-120` `PerThreadState`; the top of the stack is the head of the list. -/
structure PerThread where
  stack : List Event
  start : Nat
  stop : Nat

/-- The variables of `perform_analysis` (`analyzeme/src/analysis.rs:122-124`). -/
structure State where
  queryData : List (Bytes × QueryData) := []
  artifactSizes : List (Bytes × Nat) := []
  threads : List (UInt32 × PerThread) := []

/-- `analyzeme/src/analysis.rs:157-165`: pop events that do not contain the current one. -/
def popStack (current : EventPayload) : List Event → List Event
  | [] => []
  | top :: rest => if contains top.payload current then top :: rest else popStack current rest

/-- `analyzeme/src/analysis.rs:172-196`: subtract the duration of the current interval from its parent's label. -/
def subtractFrom (kind : Bytes) (d : Nat) (data : QueryData) : Except Fault QueryData :=
  if kind = queryKind ∨ kind = genericActivityKind then do
    let s ← subDuration data.selfTime d
    .ok { data with selfTime := s }
  else if kind = resultHashingKind then do
    let s ← subDuration data.selfTime d
    let h ← subDuration data.incrementalHashingTime d
    .ok { data with selfTime := s, incrementalHashingTime := h }
  else if kind = loadResultKind then do
    let s ← subDuration data.selfTime d
    let l ← subDuration data.incrementalLoadTime d
    .ok { data with selfTime := s, incrementalLoadTime := l }
  else do
    let s ← subDuration data.selfTime d
    .ok { data with selfTime := s }

/-- `analyzeme/src/analysis.rs:199-247`: add the current interval to its own label. -/
def addTo (kind : Bytes) (d : Nat) (data : QueryData) : QueryData :=
  if kind = queryKind ∨ kind = genericActivityKind then
    { data with selfTime := data.selfTime + d, time := data.time + d, numberOfCacheMisses := data.numberOfCacheMisses + 1,
                invocationCount := data.invocationCount + 1 }
  else if kind = queryBlockedKind then
    { data with selfTime := data.selfTime + d, time := data.time + d, blockedTime := data.blockedTime + d,
                invocationCount := data.invocationCount + 1 }
  else if kind = loadResultKind then
    { data with selfTime := data.selfTime + d, time := data.time + d, incrementalLoadTime := data.incrementalLoadTime + d }
  else if kind = resultHashingKind then
    { data with selfTime := data.selfTime + d, incrementalHashingTime := data.incrementalHashingTime + d }
  else
    { data with selfTime := data.selfTime + d, time := data.time + d, invocationCount := data.invocationCount + 1 }

/-- `analyzeme/src/analysis.rs:169-197`: if there is a parent, subtract from it. -/
def subtractParent (stack : List Event) (d : Nat) (m : List (Bytes × QueryData)) : Except Fault (List (Bytes × QueryData)) :=
  match stack with
  | [] => .ok m
  | top :: _ => record top.label (subtractFrom top.eventKind d) m

/-- `analyzeme/src/analysis.rs:136-266`, the body of the loop. -/
def step (checks : Bool) (st : State) (e : Event) : Except Fault State :=
  match e.payload with
  | .timestamp (.instant _) =>
    if e.eventKind = queryCacheHitKind then do
      let qd ← record e.label (fun data => .ok { data with numberOfCacheHits := data.numberOfCacheHits + 1,
                                                           invocationCount := data.invocationCount + 1 }) st.queryData
      .ok { st with queryData := qd }
    else .ok st
  | .timestamp (.interval start stop) => do
    let thread := (lookup e.threadId st.threads).getD ⟨[], start, stop⟩
    let stack := popStack e.payload thread.stack
    let d ← unwrap (duration e.payload)
    let qd ← subtractParent stack d st.queryData
    let qd ← record e.label (fun data => .ok (addTo e.eventKind d data)) qd
    .ok { st with queryData := qd,
                  threads := insert e.threadId ⟨e :: stack, min thread.start start, max thread.stop stop⟩ st.threads }
  | .integer v =>
    if e.eventKind = artifactSizeKind then do
      let a ← addArtifact checks e.label v st.artifactSizes
      .ok { st with artifactSizes := a }
    else .ok st

/-- Run the loop on events already in the order of the loop (newest first), `analyzeme/src/analysis.rs:136`. -/
def steps (checks : Bool) : State → List Event → Except Fault State
  | st, [] => .ok st
  | st, e :: es => do
    let st ← step checks st e
    steps checks st es

/-- `analyzeme/src/analysis.rs:268-271`: the sum over the threads of the time from first start to last end. -/
def totalTime : List (UInt32 × PerThread) → Except Fault Nat
  | [] => .ok 0
  | (_, t) :: ts => do
    let d ← if t.start ≤ t.stop then .ok (t.stop - t.start) else .error (.panic "called `Result::unwrap()` on an `Err` value")
    let rest ← totalTime ts
    .ok (d + rest)

/-- `analyzeme/src/analysis.rs:282-287` `AnalysisResults`. -/
structure Results where
  queryData : List (Bytes × QueryData)
  artifactSizes : List (Bytes × Nat)
  totalTime : Nat
  deriving DecidableEq

/-- `analyzeme/src/analysis.rs:115-278` `perform_analysis`, on the decoded events in recording order; the loop walks them in
reverse. -/
def analyze (checks : Bool) (events : List Event) : Except Fault Results := do
  let st ← steps checks {} events.reverse
  let total ← totalTime st.threads
  .ok { queryData := st.queryData, artifactSizes := st.artifactSizes, totalTime := total }

/-- `perform_analysis` on a profile (`analyzeme/src/analysis.rs:115,136`).  Simplification: all events are decoded before
the loop, the Rust iterator decodes them one by one. -/
def performAnalysis (checks : Bool) (p : ProfilingData) : Except Fault Results := do
  let events ← p.fullEvents
  analyze checks events

end Verif.Analyze
