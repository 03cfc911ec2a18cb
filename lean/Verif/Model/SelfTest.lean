import Verif.Model.ConcProfiler
import Verif.Model.Tools

/-!
# Model of `analyzeme/src/testing_common.rs`: the project's own end-to-end test

The test lets `n` threads record events, reads the file back and compares what it reads with what the threads expect.  It runs
with 10 000 stacks; here the number of stacks, the number of threads, the schedule and the counter values are arbitrary.
`usize` numbers are natural numbers here; the theorems assume that the values recorded fit an event, which also keeps them in
64 bits.
-/

namespace Verif.SelfTest

open Verif Verif.Mm Verif.Decode Verif.Conc Verif.Paths Verif.Tools

/-- The ids the main thread gets from the profiler, in the order it asks for them
(`analyzeme/src/testing_common.rs:47-60,99-102`). -/
structure Ids where
  generic : StringId
  someGenericActivity : StringId
  query : StringId
  queryWithArg : StringId
  aQueryWithArg : StringId
  someArg : StringId
  withArg : EventId
  someQuery : StringId

/-- `analyzeme/src/testing_common.rs:44`: `StringId::new_virtual(42)`. -/
def virtualId : StringId := 42

/-- `analyzeme/src/testing_common.rs:47-60` `event_ids`. -/
def eventIds (ids : Ids) : List (StringId × EventId) :=
  [(ids.generic, fromLabel ids.someGenericActivity), (ids.query, fromLabel virtualId), (ids.queryWithArg, ids.withArg)]

/-- `analyzeme/src/testing_common.rs:20-34` `ExpectedEvent`. -/
structure Template where
  kind : String
  label : String
  args : List String

/-- `analyzeme/src/testing_common.rs:63-67` `expected_events_templates`. -/
def templates : List Template :=
  [⟨"Generic", "SomeGenericActivity", []⟩, ⟨"Query", "SomeQuery", []⟩, ⟨"QueryWithArg", "AQueryWithArg", ["some_arg"]⟩]

/-- `analyzeme/src/testing_common.rs:224-226,280-284,304-306`: the entry a random number selects. -/
def eventIdAt (ids : Ids) (random : Nat) : StringId × EventId := (eventIds ids).getD (random % (eventIds ids).length) (0, 0)

/-- `analyzeme/src/testing_common.rs:259-261,288-290,310-312`: the template the same number selects
(`event_ids` and the templates have the same length). -/
def templateAt (random : Nat) : Template := templates.getD (random % templates.length) ⟨"", "", []⟩

/-- `analyzeme/src/testing_common.rs:211-270` `pseudo_invocation`, the calls on the profiler: start an interval, record an integer
event (`272-294`), recurse, record an instant event (`296-318`), drop the guard.  `now j` is the `j`-th value of the counter read by
the thread, `g` names its guards; the counter is read three times for each level. -/
def invocation (ids : Ids) (now : Nat → UInt64) (g : Nat → Nat) (tid : UInt32) : Nat → Nat → Nat → List ProfCall
  | 0, _, _ => []
  | left + 1, random, j =>
    [.start (g (left + 1)) (eventIdAt ids random).1 (eventIdAt ids random).2 tid (now j),
     .integer (eventIdAt ids (random * 7)).1 (eventIdAt ids (random * 7)).2 tid (UInt64.ofNat (random * 7 * 33))] ++
    invocation ids now g tid left (random * 17) (j + 1) ++
    [.instant (eventIdAt ids (random * 23)).1 (eventIdAt ids (random * 23)).2 tid (now (j + 1 + 3 * left)),
     .finish (g (left + 1)) (now (j + 2 + 3 * left))]

/-- `analyzeme/src/testing_common.rs:258-269,287-293,309-317`: an event that is expected, from its template. -/
def expectedEvent (random : Nat) (tid : UInt32) (payload : EventPayload) : Event :=
  { eventKind := utf8 (templateAt random).kind, label := utf8 (templateAt random).label,
    additionalData := (templateAt random).args.map utf8, payload := payload, threadId := tid }

/-- `analyzeme/src/testing_common.rs:211-318`: the events `pseudo_invocation` expects; times are `UNIX_EPOCH`. -/
def expectedInvocation (tid : UInt32) : Nat → Nat → List Event
  | 0, _ => []
  | left + 1, random =>
    [expectedEvent (random * 7) tid (.integer (random * 7 * 33))] ++ expectedInvocation tid left (random * 17) ++
    [expectedEvent (random * 23) tid (.timestamp (.instant 0)), expectedEvent random tid (.timestamp (.interval 0 0))]

/-- `analyzeme/src/testing_common.rs:78-90`: what a spawned thread does. -/
def threadCalls (ids : Ids) (numStacks : Nat) (now : Nat → UInt64) (g : Nat → Nat) (tid : UInt32) : List ProfCall :=
  (List.range numStacks).flatMap fun i => invocation ids now g tid 4 i (12 * i)

/-- `analyzeme/src/testing_common.rs:76-92`: what a spawned thread expects. -/
def expectedThread (numStacks : Nat) (tid : UInt32) : List Event :=
  (List.range numStacks).flatMap fun i => expectedInvocation tid 4 i

/-- `analyzeme/src/testing_common.rs:47-60,99-102`: what the main thread does between creating and dropping the profiler. -/
def mainCalls (ids : Ids) : List ProfCall :=
  [.allocString (.str "Generic"), .allocString (.str "SomeGenericActivity"), .allocString (.str "Query"), .allocString (.str "QueryWithArg"),
   .allocString (.str "AQueryWithArg"), .allocString (.str "some_arg"), .allocString (labelAndArg ids.aQueryWithArg ids.someArg),
   .allocString (.str "SomeQuery"), .mapVirtual virtualId ids.someQuery]

/-- `analyzeme/src/testing_common.rs:37-112` `generate_profiling_data`: the main thread and the spawned threads, numbered from 1,
with thread ids from 0.  Simplification: any thread may be the last to drop its reference to the profiler; here the main thread
drops the profiler when all are done. -/
def program (n : Nat) (metadata : String) (ids : Ids) (numStacks : Nat) (clock : Fin (n + 1) → Nat → UInt64) : Program n where
  metadata := metadata
  calls := fun t => if t = 0 then mainCalls ids else threadCalls ids numStacks (clock t) (fun l => 5 * t.val + l) (UInt32.ofNat (t.val - 1))

/-- `analyzeme/src/testing_common.rs:106-109`: the events all threads expect. -/
def expectedEvents (n numStacks : Nat) : List Event := (List.range n).flatMap fun k => expectedThread numStacks (UInt32.ofNat k)

/-! ## Reading back -/

/-- Put an event at the end of its thread's list, at the end of the map if the thread is new
(`analyzeme/src/testing_common.rs:190-195`). -/
def pushEvent (m : List (UInt32 × List Event)) (e : Event) : List (UInt32 × List Event) :=
  match m with
  | [] => [(e.threadId, [e])]
  | (t, es) :: m => if t = e.threadId then (t, es ++ [e]) :: m else (t, es) :: pushEvent m e

/-- `analyzeme/src/testing_common.rs:185-198` `collect_events_per_thread`; the hash map as the list of its entries in the order
in which they were inserted. -/
def eventsPerThread (es : List Event) : List (UInt32 × List Event) := es.foldl pushEvent []

/-- Indexing the hash map (`analyzeme/src/testing_common.rs:156-157`). -/
def threadEvents (m : List (UInt32 × List Event)) (t : UInt32) : Except Fault (List Event) :=
  match m.lookup t with
  | some es => .ok es
  | none => .error (.panic "no entry found for key")

/-- `analyzeme/src/testing_common.rs:162-176`: the comparison of one event. -/
def sameEvent (actual expected : Event) : Bool :=
  decide (actual.eventKind = expected.eventKind) && decide (actual.label = expected.label) &&
  decide (actual.additionalData = expected.additionalData) &&
  decide (actual.payload.isInterval = expected.payload.isInterval) && decide (actual.payload.isInstant = expected.payload.isInstant) &&
  (!expected.payload.isInteger || decide (actual.payload = expected.payload))

/-- `analyzeme/src/testing_common.rs:161-179`: compare the events of one thread, counting them. -/
def checkZip : List Event → List Event → Nat → Except Fault Nat
  | a :: as, x :: xs, count =>
    if sameEvent a x then checkZip as xs (count + 1) else .error (.panic "assertion `left == right` failed")
  | _, _, count => .ok count

/-- `analyzeme/src/testing_common.rs:155-180`: the loop over the threads. -/
def checkThreads (a x : List (UInt32 × List Event)) : List UInt32 → Nat → Except Fault Nat
  | [], count => .ok count
  | t :: ts, count => do
    let as ← threadEvents a t
    let xs ← threadEvents x t
    if as.length ≠ xs.length then .error (.panic "assertion `left == right` failed")
    else do
      let count ← checkZip as xs count
      checkThreads a x ts count

/-- `analyzeme/src/testing_common.rs:133-183` `check_profiling_data`; `order` is the order in which a hash map yields its keys,
given the order in which they were inserted. -/
def checkProfilingData (order : List UInt32 → List UInt32) (sizeHint : Nat) (actual expected : List Event) (num : Nat) : Except Fault Unit :=
  if num ≠ sizeHint then .error (.panic "assertion `left == right` failed")
  else
    let a := eventsPerThread actual
    let x := eventsPerThread expected
    if order (a.map (·.1)) ≠ order (x.map (·.1)) then .error (.panic "assertion `left == right` failed")
    else do
      let count ← checkThreads a x (order (a.map (·.1))) 0
      if count ≠ num then .error (.panic "assertion `left == right` failed") else .ok ()

/-- A `for` loop over an iterator (`analyzeme/src/testing_common.rs:190`), by `next` or `next_back`; the fuel is the number of
events plus one. -/
def drain {α : Type} (step : Iter → Except Fault (Option α × Iter)) : Nat → Iter → Except Fault (List α)
  | 0, _ => .error .outOfFuel
  | fuel + 1, it => do
    let (x, it) ← step it
    match x with
    | none => .ok []
    | some e => do
      let es ← drain step fuel it
      .ok (e :: es)

/-- `analyzeme/src/testing_common.rs:116-131` `process_profiling_data`. -/
def processProfilingData (env : Env) (order : List UInt32 → List UInt32) (stem : Bytes) (expected : List Event) : Except Fault Unit := do
  let p ← openProfile env.v8New env.fuel env.files stem
  let n ← p.numEvents
  let hint ← (Iter.new n).sizeHint
  let actual ← drain (Iter.next p.itemFull) (n + 1) (Iter.new n)
  checkProfilingData order hint actual expected expected.length
  let actual ← drain (Iter.nextBack p.itemFull) (n + 1) (Iter.new n)
  checkProfilingData order hint actual expected.reverse expected.length

end Verif.SelfTest
