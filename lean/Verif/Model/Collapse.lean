import Verif.Model.Analysis
import Verif.Model.Profiler

/-!
# Model of `analyzeme/src/stack_collapse.rs`

Counters are `u64`; `checks` says whether the build has overflow checks.  `collapseProfile` is the code: it walks
lightweight events and decodes their labels when it needs them (`to_full_event`).  `collapse` is the same on full events, which is easier to
reason about; `collapse_eq` (`Proofs/CollapseLight`) shows that they agree on every profile whose events can be decoded.
-/

namespace Verif.Analyze

open Verif Verif.Mm Verif.Decode

/-- `u64 -=` (`analyzeme/src/stack_collapse.rs:61,90-91`): with overflow checks it panics, without it wraps. -/
def subU64 (checks : Bool) (a b : Nat) : Except Fault Nat :=
  if b ≤ a then .ok (a - b)
  else if checks then .error (.panic "attempt to subtract with overflow") else .ok ((a + 2 ^ 64 - b) % 2 ^ 64)

/-- `duration().unwrap().as_nanos() as u64` (`analyzeme/src/stack_collapse.rs:61,66,77`). -/
def nanosU64 (p : EventPayload) : Except Fault Nat := do
  let d ← unwrap (duration p)
  .ok (d % 2 ^ 64)

/-- `analyzeme/src/stack_collapse.rs:8-14` `PerThreadState`, for stacks of any kind of events; the top of the stack is the head of the list. -/
structure ThreadState (E : Type) where
  stack : List E
  stackId : Bytes
  start : Nat
  stop : Nat
  total : Nat

/-- The variables of `collapse_stacks` (`analyzeme/src/stack_collapse.rs:21-22`). -/
structure CollapseVars (E : Type) where
  counters : List (Bytes × Nat) := []
  threads : List (UInt32 × ThreadState E) := []

/-- `analyzeme/src/stack_collapse.rs:8-14` with full events on the stack. -/
abbrev CollapseThread := ThreadState Event
/-- `analyzeme/src/stack_collapse.rs:21-22` with full events on the stacks. -/
abbrev CollapseState := CollapseVars Event

/-- `usize -` (`analyzeme/src/stack_collapse.rs:51`).  Simplification: without overflow checks an underflow would wrap and the
truncation after it do nothing; `C41_id_never_underflows` shows that there is never an underflow. -/
def subUsize (a b : Nat) : Except Fault Nat :=
  if b ≤ a then .ok (a - b) else .error (.panic "attempt to subtract with overflow")

/-- `analyzeme/src/stack_collapse.rs:44-53`: pop events that do not contain the current one, and their parts of the id. -/
def popBoth (current : EventPayload) : List Event → Bytes → Except Fault (List Event × Bytes)
  | [], sid => .ok ([], sid)
  | top :: rest, sid =>
    if contains top.payload current then .ok (top :: rest, sid)
    else do
      let n ← subUsize sid.length (top.label.length + 1)
      popBoth current rest (sid.take n)

/-- `analyzeme/src/stack_collapse.rs:55-68`: subtract from the parent's counter, if it has one, or add to the top-level
time. -/
def chargeParent {E : Type} (checks : Bool) (stack : List E) (sid : Bytes) (p : EventPayload) (counters : List (Bytes × Nat))
    (total : Nat) : Except Fault (List (Bytes × Nat) × Nat) :=
  match stack with
  | _ :: _ =>
    match lookup sid counters with
    | some c => do
      let d ← nanosU64 p
      let c ← subU64 checks c d
      .ok (insert sid c counters, total)
    | none => .ok (counters, total)
  | [] => do
    let d ← nanosU64 p
    let t ← addU64 checks total d
    .ok (counters, t)

/-- `analyzeme/src/stack_collapse.rs:24-81`, the body of the loop (`filter(is_interval)` skips the other events). -/
def collapseStep (checks : Bool) (st : CollapseState) (e : Event) : Except Fault CollapseState :=
  match e.payload with
  | .timestamp (.interval start stop) => do
    let thread := (lookup e.threadId st.threads).getD ⟨[], utf8 "rustc", start, stop, 0⟩
    let (stack, sid) ← popBoth e.payload thread.stack thread.stackId
    let (counters, total) ← chargeParent checks stack sid e.payload st.counters thread.total
    let sid := sid ++ utf8 ";" ++ e.label
    let d ← nanosU64 e.payload
    let c ← addU64 checks ((lookup sid counters).getD 0) d
    .ok { counters := insert sid c counters,
          threads := insert e.threadId ⟨e :: stack, sid, min thread.start start, thread.stop, total⟩ st.threads }
  | _ => .ok st

/-- The loop on events in the order of the loop (newest first), `analyzeme/src/stack_collapse.rs:24-28`. -/
def collapseSteps (checks : Bool) : CollapseState → List Event → Except Fault CollapseState
  | st, [] => .ok st
  | st, e :: es => do
    let st ← collapseStep checks st e
    collapseSteps checks st es

/-- `analyzeme/src/stack_collapse.rs:85-93`: the time between events, added up over the threads. -/
def gaps {E : Type} (checks : Bool) : Nat → List (UInt32 × ThreadState E) → Except Fault Nat
  | acc, [] => .ok acc
  | acc, (_, t) :: ts => do
    let d ← if t.start ≤ t.stop then .ok ((t.stop - t.start) % 2 ^ 64)
            else .error (.panic "called `Result::unwrap()` on an `Err` value")
    let g ← subU64 checks d t.total
    let acc ← addU64 checks acc g
    gaps checks acc ts

/-- `analyzeme/src/stack_collapse.rs:20-98` `collapse_stacks` on full events. -/
def collapse (checks : Bool) (events : List Event) : Except Fault (List (Bytes × Nat)) := do
  let st ← collapseSteps checks {} events.reverse
  let g ← gaps checks 0 st.threads
  .ok (insert (utf8 "rustc") g st.counters)

/-- `analyzeme/src/stack_collapse.rs:44-53`: pop light-weight events; the label of each is decoded when it is popped. -/
def popLight (p : ProfilingData) (current : EventPayload) : List LightweightEvent → Bytes → Except Fault (List LightweightEvent × Bytes)
  | [], sid => .ok ([], sid)
  | top :: rest, sid =>
    if contains top.payload current then .ok (top :: rest, sid)
    else do
      let popped ← p.decodeFull top.eventIndex
      let n ← subUsize sid.length (popped.label.length + 1)
      popLight p current rest (sid.take n)

/-- `analyzeme/src/stack_collapse.rs:24-81`, the body of the loop (`filter(is_interval)` skips the other events). -/
def lightStep (checks : Bool) (p : ProfilingData) (st : CollapseVars LightweightEvent) (l : LightweightEvent) : Except Fault (CollapseVars LightweightEvent) :=
  match l.payload with
  | .timestamp (.interval start stop) => do
    let thread := (lookup l.threadId st.threads).getD ⟨[], utf8 "rustc", start, stop, 0⟩
    let (stack, sid) ← popLight p l.payload thread.stack thread.stackId
    let (counters, total) ← chargeParent checks stack sid l.payload st.counters thread.total
    let e ← p.decodeFull l.eventIndex
    let sid := sid ++ utf8 ";" ++ e.label
    let d ← nanosU64 l.payload
    let c ← addU64 checks ((lookup sid counters).getD 0) d
    .ok { counters := insert sid c counters,
          threads := insert l.threadId ⟨l :: stack, sid, min thread.start start, thread.stop, total⟩ st.threads }
  | _ => .ok st

/-- `analyzeme/src/stack_collapse.rs:24-28`: the loop from the newest of `k` events to the oldest; each light-weight event is decoded when it is reached. -/
def lightSteps (checks : Bool) (p : ProfilingData) : Nat → CollapseVars LightweightEvent → Except Fault (CollapseVars LightweightEvent)
  | 0, st => .ok st
  | k + 1, st => do
    let l ← p.decodeLightweight k
    let st ← lightStep checks p st l
    lightSteps checks p k st

/-- `analyzeme/src/stack_collapse.rs:20-98` `collapse_stacks`. -/
def collapseProfile (checks : Bool) (p : ProfilingData) : Except Fault (List (Bytes × Nat)) := do
  let n ← p.numEvents
  let st ← lightSteps checks p n {}
  let g ← gaps checks 0 st.threads
  .ok (insert (utf8 "rustc") g st.counters)

/-- `stack_collapse/src/main.rs:23-25` (and `flamegraph/src/main.rs:19-22`): one line per stack, `{stack} {count}`. -/
def foldedText (m : List (Bytes × Nat)) : Bytes :=
  m.flatMap fun x => x.1 ++ utf8 " " ++ utf8 (decimal x.2) ++ utf8 "\n"

end Verif.Analyze
