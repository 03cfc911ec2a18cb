import Verif.Model.EventId
import Verif.Model.Json

/-!
# Model of `decodeme/src/lib.rs` (`EventDecoder`), `analyzeme/src/profiling_data.rs` (`ProfilingData` and its iterator) and
`analyzeme/src/file_formats/v8.rs`
-/

namespace Verif.Decode

open Verif Verif.Mm Verif.Json

/-- `decodeme/src/event.rs:6-13` `Event`; texts are their bytes. -/
structure Event where
  eventKind : Bytes
  label : Bytes
  additionalData : List Bytes
  payload : EventPayload
  threadId : UInt32
  deriving DecidableEq, Repr

/-- `decodeme/src/lightweight_event.rs:4-9` `LightweightEvent`. -/
structure LightweightEvent where
  eventIndex : Nat
  threadId : UInt32
  payload : EventPayload
  deriving DecidableEq, Repr

/-- `decodeme/src/lib.rs:95-100` `EventDecoder`. -/
structure EventDecoder where
  eventData : Bytes
  table : StringTable
  metadata : Metadata

/-- `decodeme/src/lib.rs:93` `RAW_EVENT_SIZE`. -/
def rawEventSize : Nat := RawEvent.size

/-- `decodeme/src/lib.rs:129-152` `EventDecoder::from_separate_buffers`; `fuel` is the stack available to the string
reader. -/
def EventDecoder.fromSeparateBuffers (diag : Option String) (fuel : Nat) (stringData indexData eventData : Bytes) : Except Fault EventDecoder := do
  verifyFileHeader diag "event" eventData magicEventStream
  let table ← StringTable.new diag stringData indexData
  let text ← table.toStr fuel StringTable.metadataId
  let metadata ← parseMetadata text
  .ok { eventData := eventData, table := table, metadata := metadata }

/-- `Option::ok_or` (`decodeme/src/lib.rs:116-124`). -/
def okOr {α : Type} (o : Option α) (why : String) : Except Fault α :=
  match o with
  | some a => .ok a
  | none => .error (.err why)

/-- `decodeme/src/lib.rs:103-127` `EventDecoder::new`. -/
def EventDecoder.new (diag : Option String) (fuel : Nat) (file : Bytes) : Except Fault EventDecoder := do
  verifyFileHeader diag "top-level" file magicTopLevel
  let m ← splitStreams (file.drop fileHeaderSize)
  let stringData ← okOr (m .stringData) "Invalid file: No string data found"
  let indexData ← okOr (m .stringIndex) "Invalid file: No string index data found"
  let eventData ← okOr (m .events) "Invalid file: No event data found"
  EventDecoder.fromSeparateBuffers diag fuel stringData indexData eventData

/-- `decodeme/src/lib.rs:154-158` `num_events`. -/
def EventDecoder.numEvents (d : EventDecoder) : Except Fault Nat :=
  if d.eventData.length < fileHeaderSize then .error (.panic "attempt to subtract with overflow")
  else if (d.eventData.length - fileHeaderSize) % rawEventSize ≠ 0 then
    .error (.panic "assertion failed: event_byte_count % RAW_EVENT_SIZE == 0")
  else .ok ((d.eventData.length - fileHeaderSize) / rawEventSize)

/-- `decodeme/src/lib.rs:208-210` `event_index_to_addr`. -/
def eventIndexToAddr (i : Nat) : Nat := fileHeaderSize + i * rawEventSize

/-- `decodeme/src/lib.rs:165-169` and `192-196`: the raw event at an index. -/
def EventDecoder.rawEvent (d : EventDecoder) (i : Nat) : Except Fault RawEvent :=
  let start := eventIndexToAddr i
  let stop := start + rawEventSize
  if d.eventData.length < stop then .error (.panic "range end index out of range for slice")
  else RawEvent.deserialize ((d.eventData.take stop).drop start)

/-- `decodeme/src/lib.rs:164-189` `decode_full_event`. -/
def EventDecoder.decodeFull (fuel : Nat) (d : EventDecoder) (i : Nat) : Except Fault Event := do
  let raw ← d.rawEvent i
  let payload := EventPayload.fromRawEvent raw d.metadata.startTime
  let eventId ← d.table.toStr fuel raw.eventId
  let (label, additionalData) ← parseEventId eventId
  let eventKind ← d.table.toStr fuel raw.eventKind
  .ok { eventKind := eventKind, label := label, additionalData := additionalData, payload := payload, threadId := raw.threadId }

/-- `decodeme/src/lib.rs:191-205` `decode_lightweight_event`. -/
def EventDecoder.decodeLightweight (d : EventDecoder) (i : Nat) : Except Fault LightweightEvent := do
  let raw ← d.rawEvent i
  .ok { eventIndex := i, threadId := raw.threadId, payload := EventPayload.fromRawEvent raw d.metadata.startTime }

/-! ## The event iterator -/

/-- `analyzeme/src/profiling_data.rs:126-130` `ProfilerEventIterator` (the indices). -/
structure Iter where
  forward : Nat
  backward : Nat
  deriving DecidableEq, Repr

/-- `analyzeme/src/profiling_data.rs:133-139` `ProfilerEventIterator::new`. -/
def Iter.new (numEvents : Nat) : Iter := ⟨0, numEvents⟩

/-- `analyzeme/src/profiling_data.rs:145-156` `next`, for any decoding function. -/
def Iter.next {α : Type} (decode : Nat → Except Fault α) (it : Iter) : Except Fault (Option α × Iter) :=
  if it.forward = it.backward then .ok (none, it)
  else match decode it.forward with
    | .error e => .error e
    | .ok ev => .ok (some ev, { it with forward := it.forward + 1 })

/-- `analyzeme/src/profiling_data.rs:158-164` `size_hint`. -/
def Iter.sizeHint (it : Iter) : Except Fault Nat :=
  if it.backward < it.forward then .error (.panic "called `Option::unwrap()` on a `None` value")
  else .ok (it.backward - it.forward)

/-- `analyzeme/src/profiling_data.rs:168-177` `next_back`, for any decoding function. -/
def Iter.nextBack {α : Type} (decode : Nat → Except Fault α) (it : Iter) : Except Fault (Option α × Iter) :=
  if it.forward = it.backward then .ok (none, it)
  else if it.backward = 0 then .error (.panic "called `Option::unwrap()` on a `None` value")
  else match decode (it.backward - 1) with
    | .error e => .error e
    | .ok ev => .ok (some ev, { it with backward := it.backward - 1 })

/-! ## Version dispatch -/

/-- `decodeme_10`'s `Timestamp` (external crate, used by `analyzeme/src/file_formats/v8.rs:15`). -/
inductive OldTimestamp where
  | interval (start stop : Nat)
  | instant (t : Nat)

/-- `decodeme_10`'s `EventPayload` (external crate, used by `analyzeme/src/file_formats/v8.rs:14`). -/
inductive OldEventPayload where
  | timestamp (t : OldTimestamp)
  | integer (v : Nat)

/-- `decodeme_10`'s `LightweightEvent` (external crate, used by `analyzeme/src/file_formats/v8.rs:16`). -/
structure OldLightweightEvent where
  eventIndex : Nat
  threadId : UInt32
  payload : OldEventPayload

/-- `decodeme_10`'s `Event` (external crate, used by `analyzeme/src/file_formats/v8.rs:67-76`). -/
structure OldEvent where
  eventKind : Bytes
  label : Bytes
  additionalData : List Bytes
  payload : OldEventPayload
  threadId : UInt32

/-- `decodeme_10`'s `Metadata` (external crate, used by `analyzeme/src/file_formats/v8.rs:18`). -/
structure OldMetadata where
  startTime : Nat
  processId : Nat
  cmd : Bytes

/-- `decodeme_10::EventDecoder`, an external crate whose source is not in the repository: any functions. -/
structure OldDecoder where
  numEvents : Except Fault Nat
  metadata : OldMetadata
  decodeFull : Nat → Except Fault OldEvent
  decodeLightweight : Nat → Except Fault OldLightweightEvent

/-- `analyzeme/src/file_formats/v8.rs:29-35`. -/
def v8Metadata (old : OldMetadata) : Metadata := ⟨old.startTime, old.processId, old.cmd⟩

/-- `analyzeme/src/file_formats/v8.rs:37-42`. -/
def v8Timestamp : OldTimestamp → Timestamp
  | .interval start stop => .interval start stop
  | .instant t => .instant t

/-- `analyzeme/src/file_formats/v8.rs:44-49`. -/
def v8Payload : OldEventPayload → EventPayload
  | .timestamp t => .timestamp (v8Timestamp t)
  | .integer t => .integer t

/-- `analyzeme/src/file_formats/v8.rs:51-57`. -/
def v8Lightweight (old : OldLightweightEvent) : LightweightEvent :=
  { eventIndex := old.eventIndex, threadId := old.threadId, payload := v8Payload old.payload }

/-- `analyzeme/src/file_formats/v8.rs:67-76`. -/
def v8Event (old : OldEvent) : Event :=
  { eventKind := old.eventKind, label := old.label, additionalData := old.additionalData,
    payload := v8Payload old.payload, threadId := old.threadId }

/-- `analyzeme/src/profiling_data.rs:16-20` `ProfilingData`, i.e. `Box<dyn EventDecoder>`: the functions of the trait
(`analyzeme/src/file_formats/mod.rs:10-15`). -/
structure ProfilingData where
  numEvents : Except Fault Nat
  metadata : Metadata
  decodeFull : Nat → Except Fault Event
  decodeLightweight : Nat → Except Fault LightweightEvent

/-- `analyzeme/src/file_formats/v9.rs:9-25`. -/
def v9Data (fuel : Nat) (d : EventDecoder) : ProfilingData :=
  { numEvents := d.numEvents, metadata := d.metadata, decodeFull := d.decodeFull fuel, decodeLightweight := d.decodeLightweight }

/-- `analyzeme/src/file_formats/v8.rs:59-81`. -/
def v8Data (d : OldDecoder) : ProfilingData :=
  { numEvents := d.numEvents
    metadata := v8Metadata d.metadata
    decodeFull := fun i => (d.decodeFull i).map v8Event
    decodeLightweight := fun i => (d.decodeLightweight i).map v8Lightweight }

/-- `analyzeme/src/file_formats/v8.rs:20`: the version of the pinned external crate. -/
def fileFormatV8 : Nat := 8
/-- `analyzeme/src/file_formats/v9.rs:7`. -/
def fileFormatV9 : Nat := currentFileFormatVersion

/-- `analyzeme/src/profiling_data.rs:51-92` `ProfilingData::from_paged_buffer`; `v8New` is the external crate's
`EventDecoder::new`. -/
def fromPagedBuffer (diag : Option String) (v8New : Bytes → Except Fault OldDecoder) (fuel : Nat) (data : Bytes) : Except Fault ProfilingData := do
  let version ← readFileHeader diag "top-level" data magicTopLevel
  if version = fileFormatV8 then
    let d ← v8New data
    .ok (v8Data d)
  else if version = fileFormatV9 then
    let d ← EventDecoder.new diag fuel data
    .ok (v9Data fuel d)
  else if version > fileFormatV9 then .error (.err s!"File version {version} is too new for this version of measureme. Try upgrading your tools to the latest version.")
  else .error (.err s!"File version {version} is too new for this version of the measureme tool suite. Try upgrading the tool suite to the latest version.")

/-- `analyzeme/src/profiling_data.rs:99-107` `iter` / `iter_full`, collected: decode the events `i`, `i+1`, …, `n-1`. -/
def collectFrom {α : Type} (decode : Nat → Except Fault α) : Nat → Nat → Except Fault (List α)
  | _, 0 => .ok []
  | i, k + 1 => do
    let e ← decode i
    let es ← collectFrom decode (i + 1) k
    .ok (e :: es)

/-- `analyzeme/src/profiling_data.rs:106,113-119`: one item of `iter_full`: the light-weight event at an index (`decode_lightweight_event`), then the full
event at the index it carries (`to_full_event`). -/
def ProfilingData.itemFull (p : ProfilingData) (i : Nat) : Except Fault Event := do
  let l ← p.decodeLightweight i
  p.decodeFull l.eventIndex

/-- `analyzeme/src/profiling_data.rs:103-107` `iter_full`, collected. -/
def ProfilingData.fullEvents (p : ProfilingData) : Except Fault (List Event) := do
  let n ← p.numEvents
  collectFrom p.itemFull 0 n

/-- For the current format decoding the light-weight event first changes nothing (`decodeme/src/lib.rs:164-205`). -/
theorem v9_itemFull (fuel : Nat) (d : EventDecoder) : (v9Data fuel d).itemFull = d.decodeFull fuel := by
  funext i
  simp only [ProfilingData.itemFull, v9Data, EventDecoder.decodeLightweight, EventDecoder.decodeFull, bind, Except.bind]
  cases h : d.rawEvent i with
  | error e => rfl
  | ok r => simp only [h]

theorem v9_fullEvents (fuel : Nat) (d : EventDecoder) :
    (v9Data fuel d).fullEvents = (do let n ← d.numEvents; collectFrom (d.decodeFull fuel) 0 n) := by
  unfold ProfilingData.fullEvents
  rw [v9_itemFull]
  rfl

/-- `analyzeme/src/profiling_data.rs:99-101` `iter`, collected. -/
def ProfilingData.lightEvents (p : ProfilingData) : Except Fault (List LightweightEvent) := do
  let n ← p.numEvents
  collectFrom p.decodeLightweight 0 n

end Verif.Decode
