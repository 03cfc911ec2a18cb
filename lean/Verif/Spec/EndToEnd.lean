import Verif.Model.Tools
import Verif.Spec.Guards
import Verif.Spec.Analysis

/-!
# Specification vocabulary for whole sessions: from the calls of a program to the output of the tools
-/

namespace Verif.Spec

open Verif Verif.Mm Verif.Decode

/-- A program that profiles itself: when it was started, as which process, with which arguments, with which counter, and the
calls it makes until the profiler is dropped. -/
structure Session where
  start : Nat
  pid : Nat
  args : List String
  counter : CounterKind
  calls : List ProfCall

/-- The file the session leaves. -/
def Session.file (s : Session) : Bytes := savedFile (metadataText s.start s.pid s.args s.counter) s.calls

/-- The string table calls of the session. -/
def Session.log (s : Session) : TableLog := stringLog (metadataText s.start s.pid s.args s.counter) s.calls

/-- The start is a 64-bit number of nanoseconds, the process id a 32-bit number, the arguments are plain, and the kind and the id
of every recorded event denote texts. -/
structure Session.Readable (s : Session) : Prop where
  start : s.start < 18446744073709551616
  pid : s.pid < 4294967296
  args : PlainArgs s.args
  kinds : ∀ r ∈ recorded s.calls, ∃ m, Means s.log r.kind m
  ids : ∀ r ∈ recorded s.calls, ∃ m, Means s.log r.id m

/-- Event `e` is what a reader of the session's file should see of the recorded event `r`: the same thread, the same values in
absolute time, the kind the text its id is shown as, label and arguments the fields of the text its event id is shown as. -/
def Session.SeenAs (s : Session) (r : Recorded) (e : Event) : Prop :=
  e.threadId = r.thread ∧ e.payload = seen s.start r.what ∧
  ∃ (kind label : String) (args : List String), Shown s.log r.kind kind ∧ Shown s.log r.id (joined label args) ∧ SepFree label ∧
    (∀ a ∈ args, SepFree a) ∧ e.eventKind = utf8 kind ∧ e.label = utf8 (decodedId label args).1 ∧
    e.additionalData = (decodedId label args).2.map utf8

/-- The events `es` are what a reader should see of the session. -/
def Session.Seen (s : Session) (es : List Event) : Prop := List.Forall₂ s.SeenAs (recorded s.calls) es

/-- The number of integer events recorded. -/
def integerCount (rs : List Recorded) : Nat :=
  (rs.filter fun r => match r.what with
    | .integer _ => true
    | _ => false).length

/-- The number of threads that recorded something. -/
def threadCount (rs : List Recorded) : Nat := (rs.map (·.thread)).dedup.length

/-- The value of the counter a call reads. -/
def counterRead : ProfCall → Option Nat
  | .instant _ _ _ now => some now.toNat
  | .start _ _ _ _ now => some now.toNat
  | .finish _ now => some now.toNat
  | .finishOverride _ _ now => some now.toNat
  | .startDetached _ _ _ _ now => some now.toNat
  | .finishDetached _ now => some now.toNat
  | _ => none

/-- The counter never goes backwards. -/
def Steady (calls : List ProfCall) : Prop := (calls.filterMap counterRead).Pairwise (· ≤ ·)

/-- Everything with a time was recorded on one thread. -/
def SingleThreaded (rs : List Recorded) : Prop :=
  ∀ a ∈ rs, ∀ b ∈ rs, (∀ v, a.what ≠ .integer v) → (∀ v, b.what ≠ .integer v) → a.thread = b.thread

end Verif.Spec
