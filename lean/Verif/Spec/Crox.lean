import Verif.Model.Crox
import Verif.Spec.Analysis

/-! # Specification vocabulary for crox -/

namespace Verif.Spec

open Verif Verif.Mm Verif.Decode

/-- The first and last moment of an event; integers have none. -/
def moments (e : LightweightEvent) : Option (Nat × Nat) :=
  match e.payload with
  | .timestamp (.instant t) => some (t, t)
  | .timestamp (.interval s t) => some (min s t, max s t)
  | .integer _ => none

/-- The first moment of a thread. -/
def firstOf (t : UInt32) (es : List LightweightEvent) : Nat :=
  ((es.filter (fun e => decide (e.threadId = t))).filterMap (fun e => (moments e).map (·.1))).min?.getD 0

/-- The last moment of a thread. -/
def lastOf (t : UInt32) (es : List LightweightEvent) : Nat :=
  ((es.filter (fun e => decide (e.threadId = t))).filterMap (fun e => (moments e).map (·.2))).max?.getD 0

/-- The thread has events with a time. -/
def Timed (t : UInt32) (es : List LightweightEvent) : Prop := ∃ e ∈ es, e.threadId = t ∧ (moments e).isSome

/-- The spans of two threads have no moment in common. -/
def Apart (es : List LightweightEvent) (a b : UInt32) : Prop := lastOf a es < firstOf b es ∨ lastOf b es < firstOf a es

/-- The thread has begun and not ended at moment `s`. -/
def ActiveAt (es : List LightweightEvent) (s : Nat) (t : UInt32) : Prop := Timed t es ∧ firstOf t es ≤ s ∧ s ≤ lastOf t es

/-- An assignment of lanes to threads that never puts two threads with a common moment on one lane. -/
def ValidLanes (es : List LightweightEvent) (lane : UInt32 → Nat) : Prop :=
  ∀ a b, Timed a es → Timed b es → a ≠ b → lane a = lane b → Apart es a b

/-- Interval events of at least the given number of microseconds, if one is given. -/
def longEnough (minimum : Option Nat) (e : Event) : Bool :=
  isInterval e && (match minimum with
    | some m => decide (m * 1000 ≤ len e)
    | none => true)

/-- What crox should emit for an interval event. -/
def croxRecord (pid : Nat) (lane : UInt32 → Nat) (e : Event) : Crox.CroxEvent where
  name := e.label
  category := e.eventKind
  ts := ((times e).map (·.1)).getD 0 / 1000
  dur := len e / 1000
  pid := pid
  tid := lane e.threadId
  args := if e.additionalData.length = 0 then none
    else some ((List.range e.additionalData.length).zip e.additionalData |>.map fun x => (utf8 ("arg" ++ Mm.decimal x.1), x.2))

/-- `name` is the text between the first occurrence of ` --crate-name ` and the next space or the end. -/
def NamesCrate (cmd name : Bytes) : Prop :=
  ∃ before rest, cmd = before ++ utf8 " --crate-name " ++ name ++ rest ∧
    (∀ b r, cmd = b ++ utf8 " --crate-name " ++ r → before.length ≤ b.length) ∧
    0x20 ∉ name ∧ (rest = [] ∨ rest.head? = some 0x20)

end Verif.Spec
