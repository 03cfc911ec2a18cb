import Verif.Model.Profiler

/-!
# Model of `analyzeme/src/profiling_data.rs:187-320` (`ProfilingDataBuilder`)
-/

namespace Verif.Mm

open Verif Verif.Decode

/-- A use of the builder: a closure passed to `interval` is the list of the calls it makes
(`analyzeme/src/profiling_data.rs:223-283`). -/
inductive Build where
  | interval (kind id : String) (tid : UInt32) (start stop : UInt64) (inner : List Build)
  | instant (kind id : String) (tid : UInt32) (t : UInt64)
  | integer (kind id : String) (tid : UInt32) (v : UInt64)

/-- The metadata text of every built profile (`analyzeme/src/profiling_data.rs:211-214`). -/
def builderMetadata : String := "{ \"start_time\": 0, \"process_id\": 0, \"cmd\": \"test cmd\" }"

/-- `analyzeme/src/profiling_data.rs:193-221` `ProfilingDataBuilder::new`: headers, string table builder, metadata. -/
def builderNew : Act World Unit := newProfiler builderMetadata

/-- `analyzeme/src/profiling_data.rs:314-319` `write_raw_event` (the same call as the profiler's). -/
def writeRawEvent (e : RawEvent) : Act World Unit := recordRawEvent e

mutual
/-- `analyzeme/src/profiling_data.rs:223-283` `interval`, `instant`, `integer`.  A panic inside a closure unwinds through
the enclosing calls. -/
def Build.run : Build → Act World Unit
  | .interval kind eid tid start stop inner => do
    let k ← alloc (.str kind)
    let i ← alloc (.str eid)
    Build.runAll inner
    let raw ← liftE (RawEvent.newInterval k (fromLabel i) tid start stop)
    writeRawEvent raw
  | .instant kind eid tid t => do
    let k ← alloc (.str kind)
    let i ← alloc (.str eid)
    let raw ← liftE (RawEvent.newInstant k (fromLabel i) tid t)
    writeRawEvent raw
  | .integer kind eid tid v => do
    let k ← alloc (.str kind)
    let i ← alloc (.str eid)
    let raw ← liftE (RawEvent.newInteger k (fromLabel i) tid v)
    writeRawEvent raw

/-- Calls in sequence (`analyzeme/src/profiling_data.rs:223-283`: each returns the builder). -/
def Build.runAll : List Build → Act World Unit
  | [] => pure ()
  | b :: bs => do
    Build.run b
    Build.runAll bs
end

/-- `into_bytes` of sink `i` (`measureme/src/serialization.rs:269-289`). -/
def World.intoBytes (i : Nat) : Act World Bytes := fun w =>
  let (r, s) := Mm.intoBytes (profTags i) ⟨w.sinks i, w.store⟩
  (r, { sinks := fun j => if j = i then s.inner else w.sinks j, store := s.store })

/-- `analyzeme/src/profiling_data.rs:286-312` `into_profiling_data`: the three streams, then the decoder. -/
def intoProfilingData (fuel : Nat) : Act World EventDecoder := do
  let eventData ← World.intoBytes 0
  let stringData ← World.intoBytes 1
  let indexData ← World.intoBytes 2
  liftE (EventDecoder.fromSeparateBuffers none fuel stringData indexData eventData)

/-- Build a profile and read it. -/
def buildProfile (fuel : Nat) (script : List Build) : Except Fault EventDecoder :=
  ((do builderNew; Build.runAll script; intoProfilingData fuel : Act World EventDecoder) World.init).1

end Verif.Mm
