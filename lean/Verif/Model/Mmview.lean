import Verif.Model.Decoder
import Verif.Model.Profiler

/-!
# `mmview` (`mmview/src/main.rs`)

The outputs are the bytes mmview itself sends to standard output and standard error.  (The event-id parser's reports, C77, also go to
standard error; they are not included.)
-/

namespace Verif.Mmview

open Verif Verif.Mm Verif.Decode

/-- `decodeme/src/lightweight_event.rs:23-25` `LightweightEvent::start`. -/
def start (e : LightweightEvent) : Option Nat :=
  match e.payload with
  | .timestamp t => some t.start
  | .integer _ => none

/-- `mmview/src/main.rs:36-40` `system_time_to_micros_since` (`Duration::as_micros` counts whole microseconds). -/
def microsSince (t since : Nat) : Nat := (if since ≤ t then t - since else 0) / 1000

/-- `[String]::join(",")`, `mmview/src/main.rs:43`. -/
def joinCommas : List Bytes → Bytes
  | [] => []
  | [a] => a
  | a :: as => a ++ utf8 "," ++ joinCommas as

/-- `mmview/src/main.rs:45-55`: the text of the payload. -/
def payloadText (p : EventPayload) (globalStart : Nat) : Bytes :=
  match p with
  | .timestamp (.instant t) => utf8 (decimal (microsSince t globalStart)) ++ utf8 " μs"
  | .timestamp (.interval start stop) =>
    utf8 (decimal (microsSince start globalStart)) ++ utf8 " μs - " ++ utf8 (decimal (microsSince stop globalStart)) ++ utf8 " μs"
  | .integer i => utf8 (decimal i)

/-- `mmview/src/main.rs:42-67` `print_event`: what is printed. -/
def eventText (e : Event) (globalStart : Nat) : Bytes :=
  utf8 "{\n    kind: " ++ e.eventKind ++ utf8 ",\n    label: " ++ e.label ++ utf8 ",\n    additional_data: [" ++
    joinCommas e.additionalData ++ utf8 "],\n    payload: " ++ payloadText e.payload globalStart ++ utf8 ",\n    thread_id: " ++
    utf8 (decimal e.threadId.toNat) ++ utf8 ",\n}\n"

/-- What a run leaves behind: standard output, standard error, and how it ended. -/
structure Run where
  stdout : Bytes
  stderr : Bytes
  result : Except Fault Unit

/-- `mmview/src/main.rs:23-27`: whether an event is skipped. -/
def skipped (thread : Option UInt32) (l : LightweightEvent) : Bool :=
  match thread with
  | some t => decide (l.threadId ≠ t)
  | none => false

/-- `mmview/src/main.rs:22-29`: the loop over the events. Light-weight events are decoded one after the other by the iterator; if
one cannot be decoded the run ends there. -/
def printLoop (p : ProfilingData) (thread : Option UInt32) (globalStart : Nat) : Nat → Nat → Bytes → Run
  | _, 0, out => ⟨out, [], .ok ()⟩
  | i, k + 1, out =>
    match p.decodeLightweight i with
    | .error f => ⟨out, [], .error f⟩
    | .ok l =>
      if skipped thread l then printLoop p thread globalStart (i + 1) k out
      else match p.decodeFull l.eventIndex with
        | .error f => ⟨out, [], .error f⟩
        | .ok e => printLoop p thread globalStart (i + 1) k (out ++ eventText e globalStart)

/-- `mmview/src/main.rs:16-34` `main`, after opening the profile. -/
def mmview (p : ProfilingData) (thread : Option UInt32) : Run :=
  match p.lightEvents with
  | .error f => ⟨[], [], .error f⟩
  | .ok ls =>
    match (ls.filterMap start).min? with
    | some globalStart =>
      match p.numEvents with
      | .error f => ⟨[], [], .error f⟩
      | .ok n => printLoop p thread globalStart 0 n []
    | none => ⟨[], utf8 "No events.\n", .ok ()⟩

end Verif.Mmview
