import Verif.Model.Decoder

/-!
# Model of `measureme/src/profiler.rs`

The counter is modelled by the values it returns: every call that reads it takes the value read (`now`).
-/

namespace Verif.Mm

open Verif

/-! ## The metadata record -/

/-- One lower-case hexadecimal digit (`char::escape_unicode`, used at `measureme/src/profiler.rs:59`). -/
def hexDigit (n : Nat) : Char := if n < 10 then Char.ofNat (48 + n) else Char.ofNat (87 + n)

/-- Hexadecimal digits without leading zeros (`char::escape_unicode`, used at `measureme/src/profiler.rs:59`). -/
def hexAux : Nat → Nat → List Char
  | 0, _ => []
  | fuel + 1, n => if n < 16 then [hexDigit n] else hexAux fuel (n / 16) ++ [hexDigit (n % 16)]

/-- `char::escape_default` (used at `measureme/src/profiler.rs:59`). -/
def escapeDefault (c : Char) : List Char :=
  if c = '\t' then ['\\', 't']
  else if c = '\r' then ['\\', 'r']
  else if c = '\n' then ['\\', 'n']
  else if c = '\'' then ['\\', '\'']
  else if c = '"' then ['\\', '"']
  else if c = '\\' then ['\\', '\\']
  else if 0x20 ≤ c.toNat ∧ c.toNat ≤ 0x7E then [c]
  else ['\\', 'u', '{'] ++ hexAux 6 c.toNat ++ ['}']

/-- `measureme/src/profiler.rs:57-61`: the command line, escaped, every argument followed by a space. -/
def escapedArgs (args : List String) : String :=
  String.ofList (args.flatMap (fun a => a.toList.flatMap escapeDefault ++ [' ']))

/-- `measureme/src/counters.rs:127-132` `Counter`. -/
inductive CounterKind where
  | wallTime
  | instructions
  | instructionsMinusIrqs
  | instructionsMinusRaw0420
  deriving DecidableEq, Repr

/-- `NAME` of each counter: `measureme/src/counters.rs:184,208,236,268`. -/
def CounterKind.name : CounterKind → String
  | .wallTime => "wall-time"
  | .instructions => "instructions:u"
  | .instructionsMinusIrqs => "instructions-minus-irqs:u"
  | .instructionsMinusRaw0420 => "instructions-minus-r0420:u"

/-- `measureme/src/counters.rs:150-163`: the units of each counter, as JSON. -/
def CounterKind.units : CounterKind → String
  | .wallTime => "[[\"ns\", 1], [\"μs\", 1000], [\"ms\", 1000000], [\"s\", 1000000000]]"
  | _ => "[[\"instructions\", 1]]"

/-- `measureme/src/counters.rs:149-165` `describe_as_json`. -/
def CounterKind.json (k : CounterKind) : String :=
  "{ \"name\": \"" ++ k.name ++ "\", \"units\": " ++ k.units ++ " }"

/-- The text handed to `alloc_metadata` at `measureme/src/profiler.rs:63-72`. -/
def metadataText (startTime processId : Nat) (args : List String) (counter : CounterKind) : String :=
  "{ \"start_time\": " ++ decimal startTime ++ ", \"process_id\": " ++ decimal processId ++
    ", \"cmd\": \"" ++ escapedArgs args ++ "\", \"counter\": " ++ counter.json ++ " }"

/-- `measureme/src/profiler.rs:40-72`, from the creation of the sinks on: the stream headers, then the metadata record.
The top-level header goes to the file before any sink exists (`measureme/src/profiler.rs:36`), see `savedFile`. -/
def newProfiler (metadata : String) : Act World Unit := do
  writeAllTo 0 (fileHeaderWrites magicEventStream)
  newBuilder
  allocMetadata (.str metadata)

/-! ## Recording -/

/-- `measureme/src/profiler.rs:194-200` `TimingGuard` (without the reference to the profiler). -/
structure TimingGuard where
  eventKind : StringId
  eventId : EventId
  threadId : UInt32
  startCount : UInt64
  deriving DecidableEq, Repr

/-- `measureme/src/profiler.rs:183-189` `DetachedTiming`. -/
structure DetachedTiming where
  eventKind : StringId
  eventId : EventId
  threadId : UInt32
  startCount : UInt64
  deriving DecidableEq, Repr

/-- `RawEvent::serialize` as a `write_atomic` callback (`measureme/src/profiler.rs:175-178`). -/
def rawEventFill (e : RawEvent) : Fill := fun slot =>
  if slot.length = RawEvent.size then .ok e.serialize else .error (.panic "assertion failed: bytes.len() == size_of::<RawEvent>()", slot)

/-- `measureme/src/profiler.rs:174-179` `record_raw_event`. -/
def recordRawEvent (e : RawEvent) : Act World Unit := do
  let _ ← World.call profTags 0 (.writeAtomic RawEvent.size (rawEventFill e))
  pure ()

/-- `measureme/src/profiler.rs:100-105` `record_instant_event`. -/
def recordInstant (kind : StringId) (id : EventId) (tid : UInt32) (now : UInt64) : Act World Unit := do
  let raw ← liftE (RawEvent.newInstant kind id tid now)
  recordRawEvent raw

/-- `measureme/src/profiler.rs:109-118` `record_integer_event`. -/
def recordInteger (kind : StringId) (id : EventId) (tid : UInt32) (value : UInt64) : Act World Unit := do
  let raw ← liftE (RawEvent.newInteger kind id tid value)
  recordRawEvent raw

/-- `measureme/src/profiler.rs:123-136` `start_recording_interval_event`. -/
def startInterval (kind : StringId) (id : EventId) (tid : UInt32) (now : UInt64) : TimingGuard :=
  { eventKind := kind, eventId := id, threadId := tid, startCount := now }

/-- `measureme/src/profiler.rs:147-159` `start_recording_interval_event_detached`. -/
def startDetached (kind : StringId) (id : EventId) (tid : UInt32) (now : UInt64) : DetachedTiming :=
  { eventKind := kind, eventId := id, threadId := tid, startCount := now }

/-- `measureme/src/profiler.rs:204-216` `TimingGuard::drop`. -/
def TimingGuard.drop (g : TimingGuard) (now : UInt64) : Act World Unit := do
  let raw ← liftE (RawEvent.newInterval g.eventKind g.eventId g.threadId g.startCount now)
  recordRawEvent raw

/-- `measureme/src/profiler.rs:222-226` `finish_with_override_event_id`. -/
def TimingGuard.finishOverride (g : TimingGuard) (id : EventId) (now : UInt64) : Act World Unit :=
  TimingGuard.drop { g with eventId := id } now

/-- `measureme/src/profiler.rs:164-172` `finish_recording_interval_event`. -/
def finishDetached (t : DetachedTiming) (now : UInt64) : Act World Unit :=
  TimingGuard.drop { eventKind := t.eventKind, eventId := t.eventId, threadId := t.threadId, startCount := t.startCount } now

/-- The calls a program makes on a profiler.  Guards and detached timings are named by the program.  `allocForeign`: `alloc_string` of a value of one of the
program's own types (`measureme/src/profiler.rs:94-96`), whose `serialize` fills the zeroed slice it asked for with these bytes. -/
inductive ProfCall where
  | allocString (t : Text)
  | allocForeign (bytes : Bytes)
  | mapVirtual (v c : StringId)
  | bulkMapVirtual (vs : List StringId) (c : StringId)
  | instant (kind : StringId) (id : EventId) (tid : UInt32) (now : UInt64)
  | integer (kind : StringId) (id : EventId) (tid : UInt32) (value : UInt64)
  | start (g : Nat) (kind : StringId) (id : EventId) (tid : UInt32) (now : UInt64)
  | finish (g : Nat) (now : UInt64)
  | finishOverride (g : Nat) (id : EventId) (now : UInt64)
  | startDetached (g : Nat) (kind : StringId) (id : EventId) (tid : UInt32) (now : UInt64)
  | finishDetached (g : Nat) (now : UInt64)

/-- The program's state: the sinks, and the guards and detached timings it holds. -/
structure ProfState where
  world : World
  guards : Nat → Option TimingGuard
  detached : Nat → Option DetachedTiming

/-- Replace the value at one name. -/
def setAt {α : Type} (f : Nat → Option α) (g : Nat) (v : Option α) : Nat → Option α := fun i => if i = g then v else f i

/-- Run an action on the sinks, leaving the guards. -/
def onWorld (r : Except Fault (Option StringId) × World) (s : ProfState) : Except Fault (Option StringId) × ProfState :=
  (r.1, { s with world := r.2 })

/-- An action without a result. -/
def noId (a : Act World Unit) : Act World (Option StringId) := do a; pure none

/-- One call (`measureme/src/profiler.rs:78-172,204-226`).  Finishing a guard consumes it; a name that holds no guard is
not a Rust program and yields an error in the model. -/
def ProfCall.run (c : ProfCall) (s : ProfState) : Except Fault (Option StringId) × ProfState :=
  match c with
  | .allocString t => onWorld ((TableOp.alloc t).run s.world) s
  | .allocForeign b => onWorld ((SessionOp.custom b.length (fun _ => .ok b)).run s.world) s
  | .mapVirtual v c => onWorld ((TableOp.mapVirtual v c).run s.world) s
  | .bulkMapVirtual vs c => onWorld ((TableOp.bulkMapVirtual vs c).run s.world) s
  | .instant k id t now => onWorld (noId (recordInstant k id t now) s.world) s
  | .integer k id t v => onWorld (noId (recordInteger k id t v) s.world) s
  | .start g k id t now => (.ok none, { s with guards := setAt s.guards g (some (startInterval k id t now)) })
  | .finish g now =>
    match s.guards g with
    | none => (.error (.err "no such guard"), s)
    | some gd => onWorld (noId (gd.drop now) s.world) { s with guards := setAt s.guards g none }
  | .finishOverride g id now =>
    match s.guards g with
    | none => (.error (.err "no such guard"), s)
    | some gd => onWorld (noId (gd.finishOverride id now) s.world) { s with guards := setAt s.guards g none }
  | .startDetached g k id t now => (.ok none, { s with detached := setAt s.detached g (some (Mm.startDetached k id t now)) })
  | .finishDetached g now =>
    match s.detached g with
    | none => (.error (.err "no such timing"), s)
    | some d => onWorld (noId (Mm.finishDetached d now) s.world) { s with detached := setAt s.detached g none }

/-- Run calls in order; a panicking call unwinds to the program, which may carry on. -/
def runProf : List ProfCall → ProfState → List (Except Fault (Option StringId)) × ProfState
  | [], s => ([], s)
  | c :: cs, s =>
    let (r, s1) := c.run s
    let (rs, s2) := runProf cs s1
    (r :: rs, s2)

/-- The state right after `Profiler::with_counter` (`measureme/src/profiler.rs:26-75`). -/
def profInit (metadata : String) : ProfState :=
  { world := (newProfiler metadata World.init).2, guards := fun _ => none, detached := fun _ => none }

/-- The file once the profiler has been dropped: the top-level header (`measureme/src/profiler.rs:36`), then the pages. -/
def savedFile (metadata : String) (calls : List ProfCall) : Bytes :=
  fileHeader magicTopLevel ++
    (World.exec profTags [(0, .drop), (1, .drop), (2, .drop)] (runProf calls (profInit metadata)).2.world).2.store.data

/-- A call of a program that catches panics of its own: a call as above, or `alloc_string` (`measureme/src/profiler.rs:94-96`, `measureme/src/stringtable.rs:321-328`)
of a value of one of its own types whose `serialize` panics with `e`, the slice it asked for holding `part` at that moment. -/
inductive ProfAct where
  | call (c : ProfCall)
  | panics (e : Fault) (part : Bytes)

/-- One such call (`measureme/src/profiler.rs:78-172`); the panic of `serialize` unwinds through `alloc_string` (`measureme/src/stringtable.rs:321-328`) to the program. -/
def ProfAct.run (a : ProfAct) (s : ProfState) : Except Fault (Option StringId) × ProfState :=
  match a with
  | .call c => c.run s
  | .panics e part => onWorld ((SessionOp.custom part.length (fun _ => .error (e, part))).run s.world) s

/-- Run such calls in order. -/
def runActs : List ProfAct → ProfState → List (Except Fault (Option StringId)) × ProfState
  | [], s => ([], s)
  | a :: as, s =>
    let (r, s1) := a.run s
    let (rs, s2) := runActs as s1
    (r :: rs, s2)

/-- The file once the profiler has been dropped, as `savedFile` (`measureme/src/profiler.rs:36`, `measureme/src/serialization.rs:407-417`). -/
def savedActs (metadata : String) (acts : List ProfAct) : Bytes :=
  fileHeader magicTopLevel ++
    (World.exec profTags [(0, .drop), (1, .drop), (2, .drop)] (runActs acts (profInit metadata)).2.world).2.store.data

/-- The file when the process is killed after these calls: no destructor runs, so what is still in the buffers of the sinks
(`measureme/src/serialization.rs:103-112`) is lost; the pages were written straight to the file (`serialization.rs:241-257`, the storage is a
`std::fs::File` without a buffer of its own, `serialization.rs:91-95`, `117-128`). -/
def killedFile (metadata : String) (calls : List ProfCall) : Bytes :=
  fileHeader magicTopLevel ++ (runProf calls (profInit metadata)).2.world.store.data

end Verif.Mm
