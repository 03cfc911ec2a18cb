import Verif.Basic

/-!
# Model of `measureme/src/raw_event.rs` and `decodeme/src/event_payload.rs`

Bit-exact: fixed-width integers as in the code.
-/

namespace Verif.Mm

open Verif

/-- `measureme/src/stringtable.rs:76-78` `StringId(u64)` (the newtype is erased). -/
abbrev StringId := UInt64

/-- `measureme/src/event_id.rs:21-57` `EventId(StringId)` (the newtype is erased). -/
abbrev EventId := UInt64

/-- `measureme/src/raw_event.rs:8-32` `RawEvent`. -/
structure RawEvent where
  eventKind : StringId
  eventId : EventId
  threadId : UInt32
  payload1Lower : UInt32
  payload2Lower : UInt32
  payloadsUpper : UInt32
  deriving DecidableEq, Repr

/-- `measureme/src/raw_event.rs:35`. -/
def instantMarker : UInt64 := 0xFFFFFFFFFFFF
/-- `measureme/src/raw_event.rs:37`. -/
def integerMarker : UInt64 := instantMarker - 1
/-- `measureme/src/raw_event.rs:40`. -/
def maxSingleValue : UInt64 := 0xFFFFFFFFFFFF
/-- `measureme/src/raw_event.rs:44`. -/
def maxIntervalValue : UInt64 := integerMarker - 1

namespace RawEvent

/-- `measureme/src/raw_event.rs:84-107` `pack_values`. -/
def packValues (kind : StringId) (id : EventId) (tid : UInt32) (value1 value2 : UInt64) : RawEvent :=
  let value1Upper := (value1 >>> (16 : UInt64)).toUInt32 &&& (0xFFFF0000 : UInt32)
  let value2Upper := (value2 >>> (32 : UInt64)).toUInt32
  { eventKind := kind
    eventId := id
    threadId := tid
    payload1Lower := value1.toUInt32
    payload2Lower := value2.toUInt32
    payloadsUpper := value1Upper ||| value2Upper }

/-- `measureme/src/raw_event.rs:48-60` `new_interval`. -/
def newInterval (kind : StringId) (id : EventId) (tid : UInt32) (start stop : UInt64) : Except Fault RawEvent :=
  if ¬ start ≤ stop then .error (.panic "assertion failed: start <= end")
  else if ¬ stop ≤ maxIntervalValue then .error (.panic "assertion failed: end <= MAX_INTERVAL_VALUE")
  else .ok (packValues kind id tid start stop)

/-- `measureme/src/raw_event.rs:62-71` `new_instant`. -/
def newInstant (kind : StringId) (id : EventId) (tid : UInt32) (instant : UInt64) : Except Fault RawEvent :=
  if ¬ instant ≤ maxSingleValue then .error (.panic "assertion failed: instant <= MAX_SINGLE_VALUE")
  else .ok (packValues kind id tid instant instantMarker)

/-- `measureme/src/raw_event.rs:73-82` `new_integer`. -/
def newInteger (kind : StringId) (id : EventId) (tid : UInt32) (value : UInt64) : Except Fault RawEvent :=
  if ¬ value ≤ maxSingleValue then .error (.panic "assertion failed: value <= MAX_SINGLE_VALUE")
  else .ok (packValues kind id tid value integerMarker)

/-- `measureme/src/raw_event.rs:111-113` `start_value`. -/
def startValue (e : RawEvent) : UInt64 :=
  e.payload1Lower.toUInt64 ||| ((e.payloadsUpper &&& (0xFFFF0000 : UInt32)).toUInt64 <<< (16 : UInt64))

/-- `measureme/src/raw_event.rs:117-119` `end_value`. -/
def endValue (e : RawEvent) : UInt64 :=
  e.payload2Lower.toUInt64 ||| ((e.payloadsUpper &&& (0x0000FFFF : UInt32)).toUInt64 <<< (32 : UInt64))

/-- `measureme/src/raw_event.rs:123-125` `value`. -/
def value (e : RawEvent) : UInt64 :=
  e.payload1Lower.toUInt64 ||| ((e.payloadsUpper &&& (0xFFFF0000 : UInt32)).toUInt64 <<< (16 : UInt64))

/-- `measureme/src/raw_event.rs:128-130` `is_instant`. -/
def isInstant (e : RawEvent) : Bool := e.endValue == instantMarker

/-- `measureme/src/raw_event.rs:133-135` `is_integer`. -/
def isInteger (e : RawEvent) : Bool := e.endValue == integerMarker

/-- `std::mem::size_of::<RawEvent>()`: two 8-byte and four 4-byte fields, `#[repr(C)]`, no padding. -/
def size : Nat := 32

/-- `measureme/src/raw_event.rs:138-165` `serialize` (the bytes stored in the slice).  On little-endian targets the
code copies the memory of the `#[repr(C)]` struct, which is what the big-endian branch spells out; the model
follows the latter. -/
def serialize (e : RawEvent) : Bytes :=
  leBytes 8 e.eventKind.toNat ++ leBytes 8 e.eventId.toNat ++ leBytes 4 e.threadId.toNat ++
  leBytes 4 e.payload1Lower.toNat ++ leBytes 4 e.payload2Lower.toNat ++ leBytes 4 e.payloadsUpper.toNat

/-- The sub-slice `bytes[a..b]` of a slice already known to be long enough. -/
def slice (b : Bytes) (from_ to : Nat) : Bytes := (b.take to).drop from_

/-- `measureme/src/raw_event.rs:167-194` `deserialize` (panics unless given exactly 32 bytes). -/
def deserialize (b : Bytes) : Except Fault RawEvent :=
  if b.length ≠ size then .error (.panic "assertion failed: bytes.len() == size_of::<RawEvent>()")
  else .ok
    { eventKind := UInt64.ofNat (fromLe (slice b 0 8))
      eventId := UInt64.ofNat (fromLe (slice b 8 16))
      threadId := UInt32.ofNat (fromLe (slice b 16 20))
      payload1Lower := UInt32.ofNat (fromLe (slice b 20 24))
      payload2Lower := UInt32.ofNat (fromLe (slice b 24 28))
      payloadsUpper := UInt32.ofNat (fromLe (slice b 28 32)) }

end RawEvent

end Verif.Mm

namespace Verif.Decode

open Verif Verif.Mm

/-- `decodeme/src/event_payload.rs:75-79` `Timestamp`.  `SystemTime` is modelled as nanoseconds since the epoch. -/
inductive Timestamp where
  | interval (start stop : Nat)
  | instant (t : Nat)
  deriving DecidableEq, Repr

/-- `decodeme/src/event_payload.rs:4-8` `EventPayload`. -/
inductive EventPayload where
  | timestamp (t : Timestamp)
  | integer (v : Nat)
  deriving DecidableEq, Repr

namespace Timestamp

/-- `decodeme/src/event_payload.rs:82-92` `Timestamp::from_raw_event`. `SystemTime + Duration` cannot overflow here
(a 64-bit plus a 48-bit number of nanoseconds). -/
def fromRawEvent (e : RawEvent) (startTime : Nat) : Timestamp :=
  if e.isInstant then .instant (startTime + e.startValue.toNat)
  else .interval (startTime + e.startValue.toNat) (startTime + e.endValue.toNat)

/-- `decodeme/src/event_payload.rs:94-99` `Timestamp::contains` (half-open). -/
def contains : Timestamp → Nat → Bool
  | .interval start stop, t => decide (start ≤ t) && decide (t < stop)
  | .instant _, _ => false

/-- `decodeme/src/event_payload.rs:101-103` `is_instant`. -/
def isInstant : Timestamp → Bool
  | .instant _ => true
  | _ => false

/-- `decodeme/src/event_payload.rs:105-110` `start`. -/
def start : Timestamp → Nat
  | .interval s _ => s
  | .instant t => t

/-- `decodeme/src/event_payload.rs:112-117` `end`. -/
def stop : Timestamp → Nat
  | .interval _ e => e
  | .instant t => t

/-- `decodeme/src/event_payload.rs:119-125` `duration`: `None` for instants and for intervals ending before they
start. -/
def duration : Timestamp → Option Nat
  | .interval s e => if s ≤ e then some (e - s) else none
  | .instant _ => none

end Timestamp

namespace EventPayload

/-- `decodeme/src/event_payload.rs:11-17` `EventPayload::from_raw_event`. -/
def fromRawEvent (e : RawEvent) (startTime : Nat) : EventPayload :=
  if e.isInteger then .integer e.value.toNat
  else .timestamp (Timestamp.fromRawEvent e startTime)

/-- `decodeme/src/event_payload.rs:21-38` `EventPayload::contains` (closed). -/
def contains : EventPayload → EventPayload → Bool
  | .timestamp (.interval s e), .timestamp (.interval s' e') => decide (s ≤ s') && decide (e' ≤ e)
  | .timestamp (.interval s e), .timestamp (.instant t) => decide (s ≤ t) && decide (t ≤ e)
  | _, _ => false

/-- `decodeme/src/event_payload.rs:40-46` `duration`. -/
def duration : EventPayload → Option Nat
  | .timestamp t => t.duration
  | .integer _ => none

/-- `decodeme/src/event_payload.rs:48-50` `is_interval`. -/
def isInterval : EventPayload → Bool
  | .timestamp (.interval _ _) => true
  | _ => false

/-- `decodeme/src/event_payload.rs:52-54` `is_instant`. -/
def isInstant : EventPayload → Bool
  | .timestamp (.instant _) => true
  | _ => false

/-- `decodeme/src/event_payload.rs:56-58` `is_integer`. -/
def isInteger : EventPayload → Bool
  | .integer _ => true
  | _ => false

/-- `decodeme/src/event_payload.rs:60-65` `timestamp`. -/
def timestamp? : EventPayload → Option Timestamp
  | .timestamp t => some t
  | .integer _ => none

/-- `decodeme/src/event_payload.rs:67-72` `integer`. -/
def integer? : EventPayload → Option Nat
  | .timestamp _ => none
  | .integer v => some v

end EventPayload
end Verif.Decode
