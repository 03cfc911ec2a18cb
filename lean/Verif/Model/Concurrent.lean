import Verif.Model.Serialization

/-!
# Concurrent use of the sinks (`measureme/src/serialization.rs`, the two mutexes)

A `SerializationSink` is shared between threads (`&self` methods).  Its buffer and address are protected by
`data: Mutex<SerializationSinkInner>` (line 86), the backing store of all sinks by
`SharedState(Arc<Mutex<BackingStorage>>)` (line 178).  A call is modelled as a little program whose steps are:
acquiring the data lock (blocking), releasing it, acquiring the store lock (blocking), one `write_all`, releasing the
store lock, returning.  Threads interleave between any two steps.

I/O errors are a second kind of step (`Conc.fails`): `Conc.Run` are the executions without, `Conc.FRun` those with I/O errors.

Simplifications: what happens while a
thread holds a lock but touches nothing shared (computing the new buffer) is one step with the next lock operation;
callbacks of `write_atomic` are functions of the slice (a callback that calls back into the same sink would deadlock on
the data lock, which is not reentrant).
-/

namespace Verif.Conc

open Verif Verif.Mm

/-- The outcome of a call. -/
abbrev Res := Except Fault (Option Nat)

/-- The rest of a call's execution, as seen by the scheduler. -/
inductive Prog where
  /-- return (or unwind with a panic) -/
  | ret (r : Res)
  /-- `self.data.lock()`; the rest depends on the protected data -/
  | lockData (k : Inner → Prog)
  /-- drop the data guard, the protected data being `s` by now -/
  | unlockData (s : Inner) (k : Prog)
  /-- `self.shared_state.0.lock()` -/
  | lockStore (k : Prog)
  /-- `file.write_all(b).unwrap()`; `onFail` is what follows if it fails: unwinding -/
  | write (b : Bytes) (onFail : Prog) (k : Prog)
  /-- drop the store guard -/
  | unlockStore (k : Prog)

/-- `serialization.rs:242-257` `write_page`: for a non-empty page the store lock is taken around three `write_all`s.
`onPanic` is what unwinding does (the caller's data guard is dropped); when a `write_all` fails the store guard is dropped first. -/
def writePageC (tag : PageTag) (bytes : Bytes) (onPanic : Fault → Prog) (k : Prog) : Prog :=
  if bytes.length > 0 then
    if bytes.length ≤ maxPageSize then
      let onFail := Prog.unlockStore (onPanic (.panic "write_all failed"))
      .lockStore (.write [tag.toByte] onFail (.write (leBytes 4 bytes.length) onFail (.write bytes onFail (.unlockStore k))))
    else onPanic (.panic "bytes.len() <= MAX_PAGE_SIZE")
  else k

/-- `serialization.rs:261-264` `flush` (private), with the data lock held and the protected data being `s`. -/
def flushC (tag : PageTag) (s : Inner) (k : Inner → Prog) : Prog :=
  writePageC tag s.buffer (fun e => .unlockData s (.ret (.error e))) (k { s with buffer := [] })

/-- `serialization.rs:321-331`, the end of `write_atomic`: grow the buffer, run the callback, advance the address.  If
the callback panics the guard is dropped while unwinding, the buffer staying resized. -/
def fillC (num : Nat) (fill : Fill) (mk : Nat → Option Nat) (s : Inner) : Prog :=
  match fill (List.replicate num 0) with
  | .error (e, part) => .unlockData { s with buffer := s.buffer ++ part } (.ret (.error e))
  | .ok out => .unlockData ⟨s.buffer ++ out, s.addr + num⟩ (.ret (.ok (mk s.addr)))

/-- `assert!(buffer.is_empty())` (`serialization.rs:319`, `393`) with the data lock held; a failure unwinds, dropping the guard. -/
def assertEmptyC (s : Inner) (k : Prog) : Prog :=
  if s.buffer = [] then k else .unlockData s (.ret (.error (.panic "assertion failed: buffer.is_empty()")))

/-- `serialization.rs:311-331`, `write_atomic` for at most one page. -/
def writeBufferedC (tag : PageTag) (num : Nat) (fill : Fill) (mk : Nat → Option Nat) : Prog :=
  .lockData fun s =>
    if s.buffer.length + num > maxPageSize then flushC tag s fun s' => assertEmptyC s' (fillC num fill mk s')
    else fillC num fill mk s

/-- `serialization.rs:377-397`, the loop over the chunks, with the data lock held. -/
def writeChunksC (tag : PageTag) (k : Inner → Prog) : List Bytes → Inner → Prog
  | [], s => k s
  | chunk :: rest, s =>
    if chunk.length = maxPageSize then
      writePageC tag chunk (fun e => .unlockData s (.ret (.error e))) (writeChunksC tag k rest s)
    else if chunk.length ≥ minPageSize then
      writePageC tag chunk (fun e => .unlockData s (.ret (.error e))) (writeChunksC tag k rest s)
    else assertEmptyC s (writeChunksC tag k rest { s with buffer := s.buffer ++ chunk })

/-- `serialization.rs:352-399`, `write_bytes_atomic` for more than 128 bytes. -/
def writeDirectC (tag : PageTag) (bytes : Bytes) (mk : Nat → Option Nat) : Prog :=
  .lockData fun s =>
    let take := if s.buffer.length < minPageSize then min (minPageSize - s.buffer.length) bytes.length else 0
    let s1 : Inner := ⟨s.buffer ++ bytes.take take, s.addr + bytes.length⟩
    let fin := fun s' : Inner => Prog.unlockData s' (.ret (.ok (mk s.addr)))
    if bytes.drop take = [] then fin s1
    else flushC tag s1 fun s2 => writeChunksC tag fin (chunks maxPageSize (bytes.drop take)) s2

/-- `serialization.rs:344-400` `write_bytes_atomic`. -/
def writeBytesC (tag : PageTag) (bytes : Bytes) (mk : Nat → Option Nat) : Prog :=
  if bytes.length ≤ 128 then writeBufferedC tag bytes.length (copyFill bytes) mk
  else writeDirectC tag bytes mk

/-- `serialization.rs:301-332` `write_atomic`; an oversized write runs the callback before taking any lock. -/
def writeAtomicC (tag : PageTag) (num : Nat) (fill : Fill) (mk : Nat → Option Nat) : Prog :=
  if num > maxPageSize then
    match fill (List.replicate num 0) with
    | .error (e, _) => .ret (.error e)
    | .ok bytes => writeBytesC tag bytes mk
  else writeBufferedC tag num fill mk

/-- The program of a public call: `write_atomic`, `write_bytes_atomic`, `StdWriteAdapter::{write, flush}`
(`serialization.rs:148-167`: `flush` takes the store lock a second time to flush the store) and `Drop`
(`serialization.rs:407-417`). -/
def code (tag : PageTag) : SinkCall → Prog
  | .writeAtomic num fill => writeAtomicC tag num fill some
  | .writeBytes b => writeBytesC tag b some
  | .stdWrite b => writeBytesC tag b (fun _ => none)
  | .stdFlush => .lockData fun s => flushC tag s fun s' => .lockStore (.unlockStore (.unlockData s' (.ret (.ok none))))
  | .drop => .lockData fun s => flushC tag s fun s' => .unlockData s' (.ret (.ok none))

/-- A call on a numbered sink. -/
abbrev Call := Nat × SinkCall

/-- What an observer of the threads sees: a call starts, a call returns. -/
inductive Ev (n : Nat) where
  | inv (t : Fin n) (c : Call)
  | res (t : Fin n) (c : Call) (r : Res)

/-- A thread: the calls it still has to make and the rest of its current call. -/
structure Thread where
  todo : List Call
  cur : Option (Call × Prog)

/-- The state of `n` threads, all sinks, the store, both kinds of locks, and what has been observed so far. -/
structure Conc (n : Nat) where
  threads : Fin n → Thread
  data : Nat → Inner
  dataLock : Nat → Option (Fin n)
  store : Bytes
  storeLock : Option (Fin n)
  log : List (Ev n)

/-- All threads are about to run their programs on fresh sinks and an empty store (`serialization.rs:97-112`). -/
def Conc.init {n : Nat} (progs : Fin n → List Call) : Conc n where
  threads := fun t => ⟨progs t, none⟩
  data := fun _ => ⟨[], 0⟩
  dataLock := fun _ => none
  store := []
  storeLock := none
  log := []

/-- Pointwise update. -/
def upd {α β : Type} [DecidableEq α] (f : α → β) (a : α) (b : β) : α → β := fun x => if x = a then b else f x

/-- Replace the current call's remaining program of thread `t`. -/
def Conc.goto {n : Nat} (σ : Conc n) (t : Fin n) (c : Call) (p : Prog) : Conc n :=
  { σ with threads := upd σ.threads t ⟨(σ.threads t).todo, some (c, p)⟩ }

/-- One step of thread `t`; `none` if it is blocked on a lock or has finished.  (`parking_lot::Mutex`: `lock` blocks
while another guard exists; dropping the guard releases it.) -/
def Conc.step {n : Nat} (tagOf : Nat → PageTag) (σ : Conc n) (t : Fin n) : Option (Conc n) :=
  match (σ.threads t).cur with
  | none =>
    match (σ.threads t).todo with
    | [] => none
    | c :: rest => some { σ with
        threads := upd σ.threads t ⟨rest, some (c, code (tagOf c.1) c.2)⟩
        log := σ.log ++ [.inv t c] }
  | some (c, .ret r) => some { σ with
      threads := upd σ.threads t ⟨(σ.threads t).todo, none⟩
      log := σ.log ++ [.res t c r] }
  | some (c, .lockData k) =>
    match σ.dataLock c.1 with
    | some _ => none
    | none => some { σ.goto t c (k (σ.data c.1)) with dataLock := upd σ.dataLock c.1 (some t) }
  | some (c, .unlockData s k) => some { σ.goto t c k with
      data := upd σ.data c.1 s
      dataLock := upd σ.dataLock c.1 none }
  | some (c, .lockStore k) =>
    match σ.storeLock with
    | some _ => none
    | none => some { σ.goto t c k with storeLock := some t }
  | some (c, .write b _ k) => some { σ.goto t c k with store := σ.store ++ b }
  | some (c, .unlockStore k) => some { σ.goto t c k with storeLock := none }

/-- Executions: any interleaving of thread steps; the number counts them. -/
inductive Conc.Run {n : Nat} (tagOf : Nat → PageTag) : Conc n → Nat → Conc n → Prop where
  | refl (σ) : Conc.Run tagOf σ 0 σ
  | step {σ k σ' t σ''} : Conc.Run tagOf σ k σ' → Conc.step tagOf σ' t = some σ'' → Conc.Run tagOf σ (k + 1) σ''

/-- The `write_all` thread `t` is about to make fails after `k` bytes, and `unwrap` panics (`serialization.rs:251-255`); the thread
unwinds, dropping its guards; `parking_lot` mutexes are not poisoned.  `none` if the thread is not about to write. -/
def Conc.fails {n : Nat} (σ : Conc n) (t : Fin n) (k : Nat) : Option (Conc n) :=
  match (σ.threads t).cur with
  | some (c, .write b onFail _) => some { σ.goto t c onFail with store := σ.store ++ b.take k }
  | _ => none

/-- Executions with I/O errors: any interleaving of thread steps, any of whose writes may fail; the numbers count the steps and, among
them, the failures. -/
inductive Conc.FRun {n : Nat} (tagOf : Nat → PageTag) : Conc n → Nat → Nat → Conc n → Prop where
  | refl (σ) : Conc.FRun tagOf σ 0 0 σ
  | step {σ k f σ' t σ''} : Conc.FRun tagOf σ k f σ' → Conc.step tagOf σ' t = some σ'' → Conc.FRun tagOf σ (k + 1) f σ''
  | fails {σ k f σ' t b σ''} : Conc.FRun tagOf σ k f σ' → Conc.fails σ' t b = some σ'' → Conc.FRun tagOf σ (k + 1) (f + 1) σ''

/-- All threads have run to the end. -/
def Conc.Finished {n : Nat} (σ : Conc n) : Prop := ∀ t, (σ.threads t).todo = [] ∧ (σ.threads t).cur = none

end Verif.Conc
