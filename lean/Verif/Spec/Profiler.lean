import Verif.Model.Profiler
import Verif.Spec.StringTable
import Verif.Spec.EventId

/-!
# Specification vocabulary for profiles: what a program recorded, and what a reader should see
-/

namespace Verif.Spec

open Verif Verif.Mm Verif.Decode

/-- Characters that survive being written with Rust's `escape_default` and read back as JSON: printable ASCII other than
the apostrophe, tab, line feed and carriage return. -/
def PlainChar (c : Char) : Prop :=
  (32 ≤ c.toNat ∧ c.toNat ≤ 126 ∧ c.toNat ≠ 39) ∨ c.toNat = 9 ∨ c.toNat = 10 ∨ c.toNat = 13

instance (c : Char) : Decidable (PlainChar c) := by unfold PlainChar; infer_instance

/-- All arguments consist of plain characters. -/
def PlainArgs (args : List String) : Prop := ∀ a ∈ args, ∀ c ∈ a.toList, PlainChar c

instance (args : List String) : Decidable (PlainArgs args) := by unfold PlainArgs; infer_instance

/-- The command line as the reader should report it: every argument followed by a space. -/
def commandLine : List String → String
  | [] => ""
  | a :: as => a ++ " " ++ commandLine as

/-! ## What was recorded -/

/-- What an event carries; counter values are relative to the start of the profile. -/
inductive What where
  | interval (start stop : Nat)
  | instant (t : Nat)
  | integer (v : Nat)
  deriving DecidableEq, Repr

/-- An event as the program recorded it. -/
structure Recorded where
  kind : StringId
  id : EventId
  thread : UInt32
  what : What
  deriving DecidableEq, Repr

/-- An interval that was started and not finished. -/
structure Pending where
  kind : StringId
  id : EventId
  thread : UInt32
  start : Nat
  deriving DecidableEq, Repr

/-- What a program has recorded so far, and the intervals it has started. -/
structure Ledger where
  guards : Nat → Option Pending
  detached : Nat → Option Pending
  events : List Recorded

/-- Intervals must not end before they start and must end by counter value 2⁴⁸ − 3. -/
def finished (p : Pending) (id : EventId) (now : UInt64) : List Recorded :=
  if p.start ≤ now.toNat ∧ now.toNat ≤ 281474976710653 then [⟨p.kind, id, p.thread, .interval p.start now.toNat⟩] else []

/-- Single values must fit 48 bits. -/
def single (kind : StringId) (id : EventId) (thread : UInt32) (value : UInt64) (w : Nat → What) : List Recorded :=
  if value.toNat ≤ 281474976710655 then [⟨kind, id, thread, w value.toNat⟩] else []

/-- Replace the entry of one name. -/
def put {α : Type} (f : Nat → Option α) (g : Nat) (v : Option α) : Nat → Option α := fun i => if i = g then v else f i

/-- Account for one call. -/
def Ledger.step (l : Ledger) : ProfCall → Ledger
  | .instant k id t now => { l with events := l.events ++ single k id t now .instant }
  | .integer k id t v => { l with events := l.events ++ single k id t v .integer }
  | .start g k id t now => { l with guards := put l.guards g (some ⟨k, id, t, now.toNat⟩) }
  | .finish g now =>
    match l.guards g with
    | none => l
    | some p => { l with guards := put l.guards g none, events := l.events ++ finished p p.id now }
  | .finishOverride g id now =>
    match l.guards g with
    | none => l
    | some p => { l with guards := put l.guards g none, events := l.events ++ finished p id now }
  | .startDetached g k id t now => { l with detached := put l.detached g (some ⟨k, id, t, now.toNat⟩) }
  | .finishDetached g now =>
    match l.detached g with
    | none => l
    | some p => { l with detached := put l.detached g none, events := l.events ++ finished p p.id now }
  | _ => l

/-- Nothing recorded. -/
def Ledger.empty : Ledger := ⟨fun _ => none, fun _ => none, []⟩

/-- The ledger after some calls. -/
def ledger (calls : List ProfCall) : Ledger := calls.foldl Ledger.step .empty

/-- The events recorded by some calls, in order. -/
def recorded (calls : List ProfCall) : List Recorded := (ledger calls).events

/-! ## What the string calls did -/

/-- The outcomes of the calls a program makes on a fresh profiler. -/
def profOutcomes (metadata : String) (calls : List ProfCall) : List (Except Fault (Option StringId)) :=
  (runProf calls (profInit metadata)).1

/-- A profiler call seen as a call on the string table. -/
def asTable : ProfCall × Except Fault (Option StringId) → Option (SessionOp × Except Fault (Option StringId))
  | (.allocString t, r) => some (.table (.alloc t), r)
  | (.allocForeign b, r) => some (.custom b.length (fun _ => .ok b), r)
  | (.mapVirtual v c, r) => some (.table (.mapVirtual v c), r)
  | (.bulkMapVirtual vs c, r) => some (.table (.bulkMapVirtual vs c), r)
  | _ => none

/-- The string table calls of a program: first the metadata, then its own. -/
def stringLog (metadata : String) (calls : List ProfCall) : TableLog :=
  (.table (.allocMetadata (.str metadata)), .ok none) :: (calls.zip (profOutcomes metadata calls)).filterMap asTable

/-! ## What a reader should see -/

/-- The payload of an event, in absolute time. -/
def seen (startTime : Nat) : What → EventPayload
  | .interval s e => .timestamp (.interval (startTime + s) (startTime + e))
  | .instant t => .timestamp (.instant (startTime + t))
  | .integer v => .integer v

/-- What an event id's text decodes to, for a text made of separator-free fields: the label and the arguments up to the first
improper one; `<parse error>` and no arguments if the label is improper. -/
def decodedId (label : String) (args : List String) : String × List String :=
  if TextOk label then (label, args.takeWhile (fun a => decide (TextOk a))) else ("<parse error>", [])

end Verif.Spec
