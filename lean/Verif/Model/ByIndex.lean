import Verif.Model.Decoder

/-!
# Decoding one event by its number (`decodeme/src/lib.rs:164-210`), with the arithmetic of `usize`

`EventDecoder.decodeFull` and `decodeLightweight` in `Model/Decoder` use unbounded numbers; here a number is what fits into 64 bits, and the
address wraps around in builds without overflow checks.
-/

namespace Verif.Decode

open Verif Verif.Mm

/-- A `usize` result: panics on overflow in builds with overflow checks, wraps around in others (`decodeme/src/lib.rs:209`). -/
def inUsize (checks : Bool) (n : Nat) (what : String) : Except Fault Nat :=
  if n < 18446744073709551616 then .ok n
  else if checks then .error (.panic ("attempt to " ++ what ++ " with overflow"))
  else .ok (n % 18446744073709551616)

/-- `decodeme/src/lib.rs:208-210` `event_index_to_addr`. -/
def eventAddr (checks : Bool) (i : Nat) : Except Fault Nat := do
  let offset ← inUsize checks (i * rawEventSize) "multiply"
  inUsize checks (fileHeaderSize + offset) "add"

/-- `decodeme/src/lib.rs:165-169` and `192-196`: the raw event. -/
def EventDecoder.rawEventAt (checks : Bool) (d : EventDecoder) (i : Nat) : Except Fault RawEvent := do
  let start ← eventAddr checks i
  if 18446744073709551616 ≤ start + rawEventSize then .error (.panic "called `Option::unwrap()` on a `None` value")
  else if d.eventData.length < start + rawEventSize then .error (.panic "range end index out of range for slice")
  else RawEvent.deserialize ((d.eventData.take (start + rawEventSize)).drop start)

/-- `decodeme/src/lib.rs:164-189` `decode_full_event`. -/
def EventDecoder.decodeFullAt (checks : Bool) (fuel : Nat) (d : EventDecoder) (i : Nat) : Except Fault Event := do
  let raw ← d.rawEventAt checks i
  let payload := EventPayload.fromRawEvent raw d.metadata.startTime
  let eventId ← d.table.toStr fuel raw.eventId
  let (label, additionalData) ← parseEventId eventId
  let eventKind ← d.table.toStr fuel raw.eventKind
  .ok { eventKind := eventKind, label := label, additionalData := additionalData, payload := payload, threadId := raw.threadId }

/-- `decodeme/src/lib.rs:191-205` `decode_lightweight_event`. -/
def EventDecoder.decodeLightweightAt (checks : Bool) (d : EventDecoder) (i : Nat) : Except Fault LightweightEvent := do
  let raw ← d.rawEventAt checks i
  .ok { eventIndex := i, threadId := raw.threadId, payload := EventPayload.fromRawEvent raw d.metadata.startTime }

end Verif.Decode
