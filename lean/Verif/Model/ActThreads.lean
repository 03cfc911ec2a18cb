import Verif.Model.ConcProfiler

/-!
# A profiler used by several threads, given values whose `serialize` panics

As `Verif.Model.ConcProfiler`, for threads that catch the panics of their own `SerializableString`s. The lock of a sink is a `parking_lot::Mutex`: when the
callback panics, the guard is dropped while the panic unwinds and the lock is free again, not poisoned (`measureme/src/serialization.rs:175`, `196-221`).
-/

namespace Verif.Conc

open Verif Verif.Mm

/-- The part of a call up to the sink call it makes (`measureme/src/profiler.rs:78-172`); `alloc_string` of a value that panics asks the string data sink for the
space the value wants and panics with the value's panic, out of the callback (`measureme/src/stringtable.rs:321-328`). -/
def requestAct (l : Locals) : ProfAct → Request
  | .call c => request l c
  | .panics e part => .sink (1, .writeAtomic part.length (fun _ => .error (e, part))) idAnswer

/-- What the thread owns after a call (`measureme/src/profiler.rs:123-172,222-226`). -/
def Locals.afterAct (l : Locals) : ProfAct → Locals
  | .call c => l.after c
  | .panics _ _ => l

/-- The sink calls of a thread (`measureme/src/profiler.rs:78-179`, one method after the other). -/
def actSinkCalls (l : Locals) : List ProfAct → List Call
  | [] => []
  | c :: cs =>
    match requestAct l c with
    | .done _ => actSinkCalls (l.afterAct c) cs
    | .sink q _ => q :: actSinkCalls (l.afterAct c) cs

/-- The answers a thread gets, given the results of its sink calls (`measureme/src/profiler.rs:78-179`); the thread has got no
further than they reach. -/
def actAnswers (l : Locals) : List ProfAct → List Res → List Answer
  | [], _ => []
  | c :: cs, rs =>
    match requestAct l c, rs with
    | .done a, rs => a :: actAnswers (l.afterAct c) cs rs
    | .sink _ _, [] => []
    | .sink _ k, r :: rs => k r :: actAnswers (l.afterAct c) cs rs

/-- A program with a profiler and `n + 1` threads that catch the panics of their values; thread 0 creates the profiler and drops it
(`measureme/src/profiler.rs:26-75`). -/
structure ActProgram (n : Nat) where
  metadata : String
  acts : Fin (n + 1) → List ProfAct

/-- The sink calls of the threads (`measureme/src/profiler.rs:26-179`, `measureme/src/serialization.rs:407-417`). -/
def ActProgram.threads {n : Nat} (p : ActProgram n) : Fin (n + 1) → List Call := fun t =>
  if t = 0 then creation p.metadata ++ actSinkCalls .empty (p.acts 0) ++ dropping else actSinkCalls .empty (p.acts t)

end Verif.Conc
