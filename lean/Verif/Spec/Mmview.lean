import Verif.Model.Decoder
import Verif.Model.Profiler

/-! # Specification vocabulary for mmview -/

namespace Verif.Spec

open Verif Verif.Mm Verif.Decode

/-- The moment an event starts, if it has a time. -/
def startMoment (e : Event) : Option Nat :=
  match e.payload with
  | .timestamp (.instant t) => some t
  | .timestamp (.interval s _) => some s
  | .integer _ => none

/-- The moment a light-weight event starts, if it has a time. -/
def lightStart (l : LightweightEvent) : Option Nat :=
  match l.payload with
  | .timestamp (.instant t) => some t
  | .timestamp (.interval s _) => some s
  | .integer _ => none

/-- `g` is the earliest start of any event. -/
def EarliestStart (es : List Event) (g : Nat) : Prop :=
  (∃ e ∈ es, startMoment e = some g) ∧ ∀ e ∈ es, ∀ t, startMoment e = some t → g ≤ t

/-- Whole microseconds from `g` to `t`, as text. -/
def microseconds (g t : Nat) : Bytes := utf8 (decimal ((t - g) / 1000))

/-- The payload shown for an event. -/
def shownPayload (g : Nat) (e : Event) : Bytes :=
  match e.payload with
  | .timestamp (.instant t) => microseconds g t ++ utf8 " μs"
  | .timestamp (.interval s t) => microseconds g s ++ utf8 " μs - " ++ microseconds g t ++ utf8 " μs"
  | .integer v => utf8 (decimal v)

/-- The lines shown for an event. -/
def shownLines (g : Nat) (e : Event) : List Bytes :=
  [utf8 "{",
   utf8 "    kind: " ++ e.eventKind ++ utf8 ",",
   utf8 "    label: " ++ e.label ++ utf8 ",",
   utf8 "    additional_data: [" ++ (utf8 ",").intercalate e.additionalData ++ utf8 "],",
   utf8 "    payload: " ++ shownPayload g e ++ utf8 ",",
   utf8 "    thread_id: " ++ utf8 (decimal e.threadId.toNat) ++ utf8 ",",
   utf8 "}"]

/-- Lines as bytes: every line ends with a newline. -/
def linesBytes (ls : List Bytes) : Bytes := ls.flatMap fun l => l ++ [0x0A]

end Verif.Spec
