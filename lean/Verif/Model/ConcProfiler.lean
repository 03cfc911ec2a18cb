import Verif.Model.Concurrent
import Verif.Model.Profiler

/-!
# A profiler used by several threads

`Profiler` is shared by reference between threads; its methods take `&self` (`measureme/src/profiler.rs:78-179`).  All shared
state is in the three sinks, and every public method makes at most one call on a sink, so a thread is the sequence of its sink
calls, run by the machine of `Verif.Model.Concurrent`.  What happens between sink calls touches only what the thread owns: the
guards and detached timings it holds.

The calls of a thread are given as a list, with the ids it passes and the counter values it reads.  A real thread chooses its
next call depending on what earlier calls returned; the list it ends up with is one of the lists considered here, and the
execution is one of the executions considered here.  Simplification: guards are not passed between threads (starting a
timing touches nothing shared, so a timing started by one thread and finished by another is one that the latter started).
-/

namespace Verif.Conc

open Verif Verif.Mm

/-- The answer of a call on the profiler. -/
abbrev Answer := Except Fault (Option StringId)

/-- What a thread owns: its guards and its detached timings (`measureme/src/profiler.rs:183-200`). -/
structure Locals where
  guards : Nat → Option TimingGuard
  detached : Nat → Option DetachedTiming

/-- Nothing owned. -/
def Locals.empty : Locals := ⟨fun _ => none, fun _ => none⟩

/-- What a call asks of the shared state: nothing, or one call on a sink, whose result determines the answer. -/
inductive Request where
  | done (a : Answer)
  | sink (c : Call) (k : Res → Answer)

/-- `measureme/src/profiler.rs:174-179` `record_raw_event`, of an event whose construction may have panicked. -/
def record (e : Except Fault RawEvent) : Request :=
  match e with
  | .error f => .done (.error f)
  | .ok raw => .sink (0, .writeAtomic RawEvent.size (rawEventFill raw)) fun
    | .error f => .error f
    | .ok _ => .ok none

/-- The answer of a call that writes an index entry (`measureme/src/stringtable.rs:251-256,311`). -/
def entryAnswer : Res → Answer
  | .error f => .error f
  | .ok none => .error (.panic "unreachable")
  | .ok (some _) => .ok none

/-- The answer of a call that writes a string (`measureme/src/stringtable.rs:321-328`). -/
def idAnswer : Res → Answer
  | .error f => .error f
  | .ok none => .error (.panic "unreachable")
  | .ok (some a) => (fromAddr a).map some

/-- The part of a call up to the sink call it makes (`measureme/src/profiler.rs:78-172,204-226`,
`measureme/src/stringtable.rs:275-328`). -/
def request (l : Locals) : ProfCall → Request
  | .allocString t => .sink (1, .writeAtomic t.serializedSize t.serialize) idAnswer
  | .allocForeign b => .sink (1, .writeAtomic b.length (fun _ => .ok b)) idAnswer
  | .mapVirtual v c =>
    if v ≤ maxUserVirtualStringId then
      match toAddr c with
      | .error f => .done (.error f)
      | .ok a => .sink (2, .writeAtomic 16 (indexEntryFill v a)) entryAnswer
    else .done (.error (.panic "assertion failed: virtual_id.0 <= MAX_USER_VIRTUAL_STRING_ID"))
  | .bulkMapVirtual vs c =>
    match toAddr c with
    | .error f => .done (.error f)
    | .ok a =>
      match bulkEntries a vs with
      | .error f => .done (.error f)
      | .ok b => .sink (2, .writeBytes b) entryAnswer
  | .instant k id t now => record (RawEvent.newInstant k id t now)
  | .integer k id t v => record (RawEvent.newInteger k id t v)
  | .start _ _ _ _ _ => .done (.ok none)
  | .finish g now =>
    match l.guards g with
    | none => .done (.error (.err "no such guard"))
    | some gd => record (RawEvent.newInterval gd.eventKind gd.eventId gd.threadId gd.startCount now)
  | .finishOverride g id now =>
    match l.guards g with
    | none => .done (.error (.err "no such guard"))
    | some gd => record (RawEvent.newInterval gd.eventKind id gd.threadId gd.startCount now)
  | .startDetached _ _ _ _ _ => .done (.ok none)
  | .finishDetached g now =>
    match l.detached g with
    | none => .done (.error (.err "no such timing"))
    | some d => record (RawEvent.newInterval d.eventKind d.eventId d.threadId d.startCount now)

/-- What the thread owns after a call: starting creates, finishing consumes (`measureme/src/profiler.rs:123-172,222-226`). -/
def Locals.after (l : Locals) : ProfCall → Locals
  | .start g k id t now => { l with guards := setAt l.guards g (some (startInterval k id t now)) }
  | .finish g _ => { l with guards := setAt l.guards g none }
  | .finishOverride g _ _ => { l with guards := setAt l.guards g none }
  | .startDetached g k id t now => { l with detached := setAt l.detached g (some (Mm.startDetached k id t now)) }
  | .finishDetached g _ => { l with detached := setAt l.detached g none }
  | _ => l

/-- The sink calls of a thread (`measureme/src/profiler.rs:78-179`, one method after the other). -/
def sinkCalls (l : Locals) : List ProfCall → List Call
  | [] => []
  | c :: cs =>
    match request l c with
    | .done _ => sinkCalls (l.after c) cs
    | .sink q _ => q :: sinkCalls (l.after c) cs

/-- The answers a thread gets, given the results of its sink calls (`measureme/src/profiler.rs:78-179`); the thread has got no
further than they reach. -/
def answers (l : Locals) : List ProfCall → List Res → List Answer
  | [], _ => []
  | c :: cs, rs =>
    match request l c, rs with
    | .done a, rs => a :: answers (l.after c) cs rs
    | .sink _ _, [] => []
    | .sink _ k, r :: rs => k r :: answers (l.after c) cs rs

/-- The sink calls of `Profiler::with_counter` (`measureme/src/profiler.rs:40-72`): the headers of the three streams, the metadata
text, its index entry. The text is the first string of its stream, at the address after the header. -/
def creation (metadata : String) : List Call :=
  (fileHeaderWrites magicEventStream).map (fun b => (0, .stdWrite b)) ++
  (fileHeaderWrites magicStringData).map (fun b => (1, .stdWrite b)) ++
  (fileHeaderWrites magicStringIndex).map (fun b => (2, .stdWrite b)) ++
  [(1, .writeAtomic (Text.str metadata).serializedSize (Text.str metadata).serialize),
   (2, .writeAtomic 16 (indexEntryFill metadataStringId (fileHeader magicStringData).length))]

/-- Dropping the profiler drops its sinks (`measureme/src/serialization.rs:407-417`). -/
def dropping : List Call := [(0, .drop), (1, .drop), (2, .drop)]

/-- A program with a profiler and `n + 1` threads; thread 0 creates the profiler and drops it. -/
structure Program (n : Nat) where
  metadata : String
  calls : Fin (n + 1) → List ProfCall

/-- The sink calls of the threads. -/
def Program.threads {n : Nat} (p : Program n) : Fin (n + 1) → List Call := fun t =>
  if t = 0 then creation p.metadata ++ sinkCalls .empty (p.calls 0) ++ dropping else sinkCalls .empty (p.calls t)

/-- The file in a state: the header written before the sinks exist (`measureme/src/profiler.rs:36`), then the store. -/
def fileOf {n : Nat} (σ : Conc n) : Bytes := fileHeader magicTopLevel ++ σ.store

end Verif.Conc
