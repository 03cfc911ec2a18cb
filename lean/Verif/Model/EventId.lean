import Verif.Model.StringTable

/-!
# Model of `measureme/src/event_id.rs` and of the event-id parser in `decodeme/src/event.rs`
-/

namespace Verif.Mm

open Verif

/-- `measureme/src/event_id.rs:19` `SEPARATOR_BYTE` (a one-character string). -/
def separator : String := "\x1e"

/-- `measureme/src/event_id.rs:67-71` `EventIdBuilder::from_label`: the label's own id, nothing is allocated. -/
def fromLabel (label : StringId) : EventId := label

/-- `measureme/src/event_id.rs:73-82` `EventIdBuilder::from_label_and_arg`: the string it allocates. -/
def labelAndArg (label arg : StringId) : Text := .comps [.ref label, .value separator, .ref arg]

/-- `measureme/src/event_id.rs:84-96` `EventIdBuilder::from_label_and_args`: the string it allocates. -/
def labelAndArgs (label : StringId) (args : List StringId) : Text :=
  .comps (.ref label :: args.flatMap (fun a => [.value separator, .ref a]))

end Verif.Mm

namespace Verif.Decode

open Verif Verif.Mm

/-- `decodeme/src/event.rs:67`: the first byte of `measureme::event_id::SEPARATOR_BYTE`. -/
def separatorByte : UInt8 := 0x1E

/-- `u8::is_ascii_whitespace` (used at `decodeme/src/event.rs:98`): space, tab, line feed, form feed, carriage return. -/
def isAsciiWhitespace (b : UInt8) : Bool := b = 0x20 || b = 0x09 || b = 0x0A || b = 0x0C || b = 0x0D

/-- `u8::is_ascii_control` (used at `decodeme/src/event.rs:99`). -/
def isAsciiControl (b : UInt8) : Bool := b < 0x20 || b = 0x7F

/-- `decodeme/src/event.rs:119-126` `Parser::err`: the parser's position and the message; building it panics unless the text is UTF-8. -/
def parserErr (text : Bytes) (pos : Nat) (message : String) : Except Fault (Nat × Except Bytes Bytes) :=
  if validUtf8 text then
    .ok (pos, .error (utf8 "Could not parse `event_id`. " ++ utf8 message ++ utf8 " at " ++ utf8 (decimal pos) ++ utf8 " in \"" ++ text ++ utf8 "\""))
  else .error (.panic "called `Result::unwrap()` on an `Err` value: Utf8Error")

/-- `decodeme/src/event.rs:128-136` `Parser::substring`. -/
def substring (text : Bytes) (start stop : Nat) : Except Fault Bytes :=
  if validUtf8 ((text.take stop).drop start) then .ok ((text.take stop).drop start)
  else .error (.panic "called `Result::unwrap()` on an `Err` value: Utf8Error")

/-- `decodeme/src/event.rs:86-88`: the position of the next separator, or the end of the text. -/
def textEnd (text : Bytes) (pos : Nat) : Nat :=
  match memchr (fun b => b = separatorByte) (text.drop pos) with
  | some p => p + pos
  | none => text.length

/-- `decodeme/src/event.rs:83-105` `parse_separator_terminated_text`; also `parse_label` (`78-81`) when `pos = 0`. -/
def parseText (text : Bytes) (pos : Nat) : Except Fault (Nat × Except Bytes Bytes) :=
  if text.length < pos then .error (.panic "range start index out of range for slice")
  else
    let stop := textEnd text pos
    if pos = stop then parserErr text pos "Zero-length <text>"
    else if (((text.take stop).drop pos).filter (fun x => !isAsciiWhitespace x)).any isAsciiControl then
      parserErr text stop "Found ASCII control character in <text>"
    else match substring text pos stop with
      | .ok s => .ok (stop, .ok s)
      | .error e => .error e

/-- `decodeme/src/event.rs:107-117` `parse_arg`. -/
def parseArg (text : Bytes) (pos : Nat) : Except Fault (Nat × Except Bytes Bytes) :=
  match text[pos]? with
  | none => .error (.panic "index out of bounds")
  | some b =>
    if b ≠ separatorByte then parserErr text pos "Expected '\\x1e' char at start of <argument>" else parseText text (pos + 1)

/-- `decodeme/src/event.rs:48-56`, the loop over arguments (fuel bounds the iterations): the arguments and the message that is
printed, if any. -/
def parseArgs (text : Bytes) : Nat → Nat → Except Fault (List Bytes × Option Bytes)
  | 0, _ => .error .outOfFuel
  | fuel + 1, pos =>
    if pos = text.length then .ok ([], none)
    else match parseArg text pos with
      | .error e => .error e
      | .ok (_, .error message) => .ok ([], some message)
      | .ok (pos', .ok arg) =>
        match parseArgs text fuel pos' with
        | .error e => .error e
        | .ok (args, message) => .ok (arg :: args, message)

/-- `decodeme/src/event.rs:30-59` `Event::parse_event_id`: label, arguments, and the message printed to standard error, if any
(without its newline).  The fuel handed to the loop is the length of the text plus one: every iteration but the last consumes a byte. -/
def parseReporting (text : Bytes) : Except Fault ((Bytes × List Bytes) × Option Bytes) :=
  match parseText text 0 with
  | .error e => .error e
  | .ok (_, .error message) => .ok ((utf8 "<parse error>", []), some message)
  | .ok (pos, .ok label) =>
    match parseArgs text (text.length + 1) pos with
    | .error e => .error e
    | .ok (args, message) => .ok ((label, args), message)

/-- `decodeme/src/event.rs:30-59` `Event::parse_event_id`: what it returns. -/
def parseEventId (text : Bytes) : Except Fault (Bytes × List Bytes) := (parseReporting text).map (·.1)

end Verif.Decode
