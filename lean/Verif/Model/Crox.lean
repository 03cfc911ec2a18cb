import Verif.Model.Analysis
import Verif.Model.Profiler

/-!
# Model of `crox/src/main.rs`

The sorts are parameters: the Rust code collects the vectors from a hash map, in unspecified order, and sorts them with an
unstable sort, so all that is known about them is that they are sorted permutations of the entries.  Lane numbers are natural
numbers (`u32` in the code; there are at most as many lanes as distinct thread ids, so they fit).  The JSON printer (serde)
is not modelled: the model ends at the values handed to it.
-/

namespace Verif.Crox

open Verif Verif.Mm Verif.Decode Verif.Analyze

/-! ## Lanes -/

/-- `crox/src/main.rs:233-242` `timestamp_to_min_max`. -/
def minMax : Timestamp → Nat × Nat
  | .instant t => (t, t)
  | .interval start stop => (min start stop, max start stop)

/-- `e.timestamp()` (`decodeme/src/lightweight_event.rs:33-35`, `decodeme/src/event_payload.rs:48-53`). -/
def timestampOf (e : LightweightEvent) : Option Timestamp :=
  match e.payload with
  | .timestamp t => some t
  | .integer _ => none

/-- `crox/src/main.rs:73-82`, one event: widen the span of its thread or start it. -/
def widen (m : List (UInt32 × (Nat × Nat))) (e : LightweightEvent) : List (UInt32 × (Nat × Nat)) :=
  match timestampOf e with
  | none => m
  | some t =>
    match lookup e.threadId m with
    | some (a, b) => insert e.threadId (min a (minMax t).1, max b (minMax t).2) m
    | none => insert e.threadId (minMax t) m

/-- `crox/src/main.rs:68-82`: first and last time of every thread. -/
def threadSpans (es : List LightweightEvent) : List (UInt32 × (Nat × Nat)) := es.foldl widen []

/-- `crox/src/main.rs:102-117`: the loop over the threads by start; `ends` is what is left of the threads by end. -/
def laneLoop : List (Nat × UInt32) → List (Nat × UInt32) → List (UInt32 × Nat) → Nat → Except Fault (List (UInt32 × Nat))
  | _, [], m, _ => .ok m
  | [], _ :: _, _, _ => .error (.panic "called `Option::unwrap()` on a `None` value")
  | (nextEnd, nextThread) :: ends, (start, thread) :: starts, m, cur =>
    if start > nextEnd then
      laneLoop ends starts (insert thread ((lookup nextThread m).getD nextThread.toNat) m) cur
    else
      laneLoop ((nextEnd, nextThread) :: ends) starts (insert thread cur m) (cur + 1)

/-- `crox/src/main.rs:84-100`: what a pair of `collect` from a hash map and `sort_unstable_by_key` may do to the entries:
any permutation that ends up sorted by the time. -/
def SortsByTime (sort : List (Nat × UInt32) → List (Nat × UInt32)) : Prop :=
  ∀ l, (sort l).Perm l ∧ (sort l).Pairwise (fun a b => a.1 ≤ b.1)

/-- `crox/src/main.rs:61-120` `generate_thread_to_collapsed_thread_mapping`; the two sorts are parameters. -/
def laneMapping (collapse : Bool) (sortEnds sortStarts : List (Nat × UInt32) → List (Nat × UInt32))
    (es : List LightweightEvent) : Except Fault (List (UInt32 × Nat)) :=
  if collapse then
    laneLoop (sortEnds ((threadSpans es).map fun x => (x.2.2, x.1))) (sortStarts ((threadSpans es).map fun x => (x.2.1, x.1))) [] 0
  else .ok []

/-! ## Events -/

/-- `crox/src/main.rs:27-42` `Event`, after the conversions of its serializer; the type is always `X`. -/
structure CroxEvent where
  name : Bytes
  category : Bytes
  ts : Nat
  dur : Nat
  pid : Nat
  tid : Nat
  args : Option (List (Bytes × Bytes))
  deriving DecidableEq, Repr

/-- `crox/src/main.rs:16-19` `as_micros`: whole seconds times 10⁶ plus the microseconds of the rest. -/
def asMicros (nanos : Nat) : Nat := nanos / 1000000000 * 1000000 + nanos % 1000000000 / 1000

/-- `crox/src/main.rs:127-130`: number the arguments. -/
def numberArgs : Nat → List Bytes → List (Bytes × Bytes)
  | _, [] => []
  | i, a :: as => (utf8 ("arg" ++ decimal i), a) :: numberArgs (i + 1) as

/-- `crox/src/main.rs:122-135` `get_args`. -/
def getArgs (additional : List Bytes) : Option (List (Bytes × Bytes)) :=
  if additional ≠ [] then some (numberArgs 0 additional) else none

/-- `crox/src/main.rs:154-177`, one event: `none` if it is skipped.  The thread and the times are those of the lightweight event; the
texts are only decoded (`full`) when the event is not skipped. -/
def croxEvent (minimum : Option Nat) (pid : Nat) (lanes : List (UInt32 × Nat)) (thread : UInt32) (payload : EventPayload)
    (full : Except Fault Event) : Except Fault (Option CroxEvent) :=
  match payload with
  | .timestamp (.interval start _) => do
    let d ← unwrap (duration payload)
    let skip := match minimum with
      | some m => decide (d / 1000 < m)
      | none => false
    if skip then .ok none
    else do
      let e ← full
      .ok (some { name := e.label, category := e.eventKind, ts := asMicros start, dur := asMicros d, pid := pid,
                  tid := (lookup thread lanes).getD thread.toNat, args := getArgs e.additionalData })
  | _ => .ok none

/-- `crox/src/main.rs:154-178`: all events of a profile, if all of them can be decoded (`Model/Tools` has the loop as it is). -/
def croxEvents (minimum : Option Nat) (pid : Nat) (lanes : List (UInt32 × Nat)) : List Event → Except Fault (List CroxEvent)
  | [] => .ok []
  | e :: es => do
    let x ← croxEvent minimum pid lanes e.threadId e.payload (.ok e)
    let xs ← croxEvents minimum pid lanes es
    .ok (x.toList ++ xs)

/-! ## The crate name -/

/-- `str::find` with a text (`crox/src/main.rs:180-184`): the index of the first occurrence. -/
def findSub (pat : Bytes) : Bytes → Option Nat
  | [] => if pat = [] then some 0 else none
  | b :: bs => if (b :: bs).take pat.length = pat then some 0 else (findSub pat bs).map (· + 1)

/-- `crox/src/main.rs:180-187`: the text after the first ` --crate-name ` up to the next space. -/
def crateName (cmd : Bytes) : Option Bytes :=
  match (findSub (utf8 " --crate-name ") cmd).map (· + 14) with
  | some index =>
    let last := cmd.drop index
    some (last.take ((findSub (utf8 " ") last).getD last.length))
  | none => none

/-- `crox/src/main.rs:190-201`: the record that names the process, if there is a crate name. -/
def processName (pid : Nat) (cmd : Bytes) : Option (Nat × Bytes) := (crateName cmd).map fun n => (pid, n)

/-- `crox/src/main.rs:204-215`: the process is sorted by its start time in microseconds. -/
def sortIndex (startTime : Nat) : Nat := startTime / 1000 % 2 ^ 64

/-- `crox/src/main.rs:44-58`: the options that matter here. -/
structure Opt where
  collapseThreads : Bool
  minimumDuration : Option Nat

end Verif.Crox
