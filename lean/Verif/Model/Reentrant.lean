import Verif.Model.Concurrent

/-!
# Callbacks that use sinks themselves (`measureme/src/serialization.rs:301-332`)

`Verif.Conc` models callbacks of `write_atomic` as functions of the slice.  Here a callback is a piece of code: it makes calls, on any sinks, whose callbacks may make
calls in turn, looks at what they return, and at the end fills its slice.  While it runs, its own sink is locked, unless it asked for more than a page.
The threads, too, are such pieces of code (what they "fill" at the end is ignored).
-/

namespace Verif.Reentrant

open Verif Verif.Mm Verif.Conc

/-- User code that uses sinks: calls, each decision depending on the answers so far, and at the end the contents of the slice. -/
inductive Script where
  /-- the end: fill the slice -/
  | fill (f : Fill)
  /-- any call on sink `i` whose callback, if it has one, uses no sinks -/
  | call (i : Nat) (c : SinkCall) (next : Res → Script)
  /-- `write_atomic` on sink `i`, with a callback that is itself such code -/
  | atomic (i num : Nat) (callback : Script) (next : Res → Script)

/-- What remains of a thread's execution, as seen by the scheduler: as `Conc.Prog`, but naming the sinks. -/
inductive Task where
  | done
  /-- `data.lock()` of sink `i` -/
  | lock (i : Nat) (k : Inner → Task)
  /-- drop the data guard of sink `i` -/
  | unlock (i : Nat) (s : Inner) (k : Task)
  | lockStore (k : Task)
  | write (b : Bytes) (k : Task)
  | unlockStore (k : Task)

/-- The program `p` on sink `i`, then `k`.  (No I/O errors: what follows a failed write is left out.) -/
def Task.ofProg (i : Nat) (k : Res → Task) : Prog → Task
  | .ret r => k r
  | .lockData p => .lock i fun s => Task.ofProg i k (p s)
  | .unlockData s p => .unlock i s (Task.ofProg i k p)
  | .lockStore p => .lockStore (Task.ofProg i k p)
  | .write b _ p => .write b (Task.ofProg i k p)
  | .unlockStore p => .unlockStore (Task.ofProg i k p)

/-- `measureme/src/serialization.rs:321-331`, the end of `write_atomic`, when the callback has made its calls and fills the slice with `f`; sink `i` is locked, its data
being `s`.  As `Conc.fillC`. -/
def Task.finish (i num : Nat) (s : Inner) (k : Res → Task) (f : Fill) : Task :=
  match f (List.replicate num 0) with
  | .error (e, part) => .unlock i { s with buffer := s.buffer ++ part } (k (.error e))
  | .ok out => .unlock i ⟨s.buffer ++ out, s.addr + num⟩ (k (.ok (some s.addr)))

/-- `measureme/src/serialization.rs:301-332` `write_atomic` (and, for the other calls, `Conc.code`) as the scheduler sees it.  For more than a page the callback runs
before any lock is taken (302-309); otherwise the sink is locked, the buffer is written out if the slice does not fit (314-320; the assertion that the
buffer is empty then holds and is left out), and the callback runs with the lock held. -/
def Script.compile (tagOf : Nat → PageTag) : Script → (Fill → Task) → Task
  | .fill f, k => k f
  | .call i c next, k => Task.ofProg i (fun r => (next r).compile tagOf k) (code (tagOf i) c)
  | .atomic i num cb next, k =>
    if num > maxPageSize then
      cb.compile tagOf fun f =>
        match f (List.replicate num 0) with
        | .error (e, _) => (next (.error e)).compile tagOf k
        | .ok bytes => Task.ofProg i (fun r => (next r).compile tagOf k) (writeBytesC (tagOf i) bytes some)
    else .lock i fun s =>
      if s.buffer.length + num > maxPageSize then
        Task.ofProg i (fun r =>
          match r with
          | .error e => (next (.error e)).compile tagOf k
          | .ok _ => cb.compile tagOf (Task.finish i num { s with buffer := [] } fun r => (next r).compile tagOf k))
          (flushC (tagOf i) s fun _ => .ret (.ok none))
      else cb.compile tagOf (Task.finish i num s fun r => (next r).compile tagOf k)

/-- The state of `n` threads, all sinks and the store, with both kinds of locks (`measureme/src/serialization.rs:86`, 178). -/
structure State (n : Nat) where
  threads : Fin n → Task
  data : Nat → Inner
  dataLock : Nat → Option (Fin n)
  store : Bytes
  storeLock : Option (Fin n)

/-- All threads are about to run their code on fresh sinks and an empty store (`measureme/src/serialization.rs:97-112`). -/
def State.init {n : Nat} (tagOf : Nat → PageTag) (progs : Fin n → Script) : State n where
  threads := fun t => (progs t).compile tagOf fun _ => .done
  data := fun _ => ⟨[], 0⟩
  dataLock := fun _ => none
  store := []
  storeLock := none

/-- One step of thread `t`; `none` if it has finished or waits for a lock.  `parking_lot` mutexes are not reentrant: it waits, too, if it holds the lock itself. -/
def State.step {n : Nat} (σ : State n) (t : Fin n) : Option (State n) :=
  match σ.threads t with
  | .done => none
  | .lock i k =>
    match σ.dataLock i with
    | some _ => none
    | none => some { σ with threads := upd σ.threads t (k (σ.data i)), dataLock := upd σ.dataLock i (some t) }
  | .unlock i s k => some { σ with threads := upd σ.threads t k, data := upd σ.data i s, dataLock := upd σ.dataLock i none }
  | .lockStore k =>
    match σ.storeLock with
    | some _ => none
    | none => some { σ with threads := upd σ.threads t k, storeLock := some t }
  | .write b k => some { σ with threads := upd σ.threads t k, store := σ.store ++ b }
  | .unlockStore k => some { σ with threads := upd σ.threads t k, storeLock := none }

/-- Executions: any interleaving of the threads' steps. -/
inductive State.Run {n : Nat} : State n → State n → Prop where
  | refl (σ : State n) : State.Run σ σ
  | step {σ σ' σ'' : State n} {t : Fin n} : State.Run σ σ' → σ'.step t = some σ'' → State.Run σ σ''

/-- All threads have run to the end. -/
def State.Finished {n : Nat} (σ : State n) : Prop := ∀ t, σ.threads t = .done

end Verif.Reentrant
