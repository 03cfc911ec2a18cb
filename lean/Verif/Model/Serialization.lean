import Verif.Basic

/-!
# Model of `measureme/src/serialization.rs`

The paged container: several sinks, each with a page tag and an in-memory buffer, write pages to one
shared backing store; `split_streams` recovers the streams.
-/

namespace Verif.Mm

open Verif

/-- `measureme/src/serialization.rs:37` `MAX_PAGE_SIZE = 256 * 1024`. -/
def maxPageSize : Nat := 256 * 1024

/-- `measureme/src/serialization.rs:42` `MIN_PAGE_SIZE = MAX_PAGE_SIZE / 2`. -/
def minPageSize : Nat := maxPageSize / 2

/-- `measureme/src/serialization.rs:44-50` `enum PageTag`. -/
inductive PageTag where
  | events
  | stringData
  | stringIndex
  deriving DecidableEq, Repr

/-- `measureme/src/serialization.rs:46-49`, the `#[repr(u8)]` discriminants (`self.page_tag as u8`). -/
def PageTag.toByte : PageTag → UInt8
  | .events => 0
  | .stringData => 1
  | .stringIndex => 2

/-- `measureme/src/serialization.rs:52-63` `impl TryFrom<u8> for PageTag`. -/
def PageTag.tryFrom (b : UInt8) : Except Fault PageTag :=
  if b = 0 then .ok .events
  else if b = 1 then .ok .stringData
  else if b = 2 then .ok .stringIndex
  else .error (.err "Could not convert byte to PageTag")

/-- `measureme/src/serialization.rs:116-122` `BackingStorage`.  `data` is the bytes that have reached the
file (or memory vector).  `faults` is the environment: one entry is consumed per `write_all` call,
`none` meaning it succeeds, `some k` meaning the call fails after `k` bytes have been written; an exhausted
list means success.  (Simplification: buffering inside the operating system is not modelled.) -/
structure Store where
  data : Bytes
  faults : List (Option Nat)
  deriving DecidableEq, Repr

/-- `std::io::Write::write_all` on `BackingStorage` (`serialization.rs:124-131`) followed by `.unwrap()`
(`serialization.rs:251,254,255`). -/
def Store.writeAll (b : Bytes) : Act Store Unit := fun s =>
  match s.faults with
  | some k :: fs => (.error (.panic "write_all failed"), ⟨s.data ++ b.take k, fs⟩)
  | none :: fs => (.ok (), ⟨s.data ++ b, fs⟩)
  | [] => (.ok (), ⟨s.data ++ b, []⟩)

/-- `measureme/src/serialization.rs:169-173` `SerializationSinkInner`. Simplification: `addr` is an unbounded
number rather than `u64`. -/
structure Inner where
  buffer : Bytes
  addr : Nat
  deriving DecidableEq, Repr

/-- What one sink call can touch: the sink's own (locked) data and the shared store. -/
structure SinkState where
  inner : Inner
  store : Store
  deriving DecidableEq, Repr

/-- Run a store action inside a sink call. -/
def onStore {α : Type} (a : Act Store α) : Act SinkState α := fun s =>
  let (r, st) := a s.store
  (r, { s with store := st })

/-- Replace the sink's buffer. -/
def setBuffer (b : Bytes) : Act SinkState Unit :=
  Act.modify fun s => { s with inner := { s.inner with buffer := b } }

/-- `*addr += n` -/
def addAddr (n : Nat) : Act SinkState Unit :=
  Act.modify fun s => { s with inner := { s.inner with addr := s.inner.addr + n } }

/-- `measureme/src/serialization.rs:242-257` `SerializationSink::write_page`. -/
def writePage (tag : PageTag) (bytes : Bytes) : Act SinkState Unit :=
  if bytes.length > 0 then do
    Act.assert (bytes.length ≤ maxPageSize) "bytes.len() <= MAX_PAGE_SIZE"
    onStore (Store.writeAll [tag.toByte])
    onStore (Store.writeAll (leBytes 4 bytes.length))
    onStore (Store.writeAll bytes)
  else pure ()

/-- `measureme/src/serialization.rs:261-264` `SerializationSink::flush` (private): write the buffer as a
page, then clear it. -/
def flushBuffer (tag : PageTag) : Act SinkState Unit := do
  let s ← Act.get
  writePage tag s.inner.buffer
  setBuffer []

/-- The callback passed to `write_atomic` (`FnOnce(&mut [u8])`, `measureme/src/serialization.rs:301-304`): it receives the zeroed slice and
fills it, or panics, leaving in the slice what it has written until then (the second component).  A slice cannot change its length, so `fill`
must preserve it (see `Fill.LengthOk`). -/
abbrev Fill := Bytes → Except (Fault × Bytes) Bytes

/-- A Rust callback on `&mut [u8]` cannot change the slice's length. -/
def Fill.LengthOk (f : Fill) (n : Nat) : Prop :=
  (∀ out, f (List.replicate n 0) = .ok out → out.length = n) ∧ ∀ e part, f (List.replicate n 0) = .error (e, part) → part.length = n

/-- The callback `|sink| sink.copy_from_slice(bytes)` (`serialization.rs:347-349`); `copy_from_slice` panics
on a length mismatch. -/
def copyFill (bytes : Bytes) : Fill := fun slot =>
  if slot.length = bytes.length then .ok bytes else .error (.panic "copy_from_slice: length mismatch", slot)

/-- `measureme/src/serialization.rs:311-331`, the buffered path of `write_atomic` (`num_bytes ≤ MAX_PAGE_SIZE`).
If the callback panics the buffer stays resized (with what the callback has written) while `addr` has not been advanced. -/
def writeBuffered (tag : PageTag) (num : Nat) (fill : Fill) : Act SinkState Nat := do
  let s ← Act.get
  if s.inner.buffer.length + num > maxPageSize then do
    flushBuffer tag
    let s ← Act.get
    Act.assert (s.inner.buffer = []) "assertion failed: buffer.is_empty()"
  let s ← Act.get
  let currAddr := s.inner.addr
  let buf := s.inner.buffer
  setBuffer (buf ++ List.replicate num 0)
  match fill (List.replicate num 0) with
  | .error (e, part) => do
    setBuffer (buf ++ part)
    Act.fail e
  | .ok out =>
    setBuffer (buf ++ out)
    addAddr num
    pure currAddr

/-- Rust's `slice::chunks(n)` (used at `serialization.rs:377`): successive pieces of length `n`, the last one
possibly shorter.  The first argument bounds the number of pieces (any bound ≥ the length will do). -/
def chunksAux : Nat → Nat → Bytes → List Bytes
  | 0, _, _ => []
  | fuel + 1, n, l => if l = [] then [] else l.take n :: chunksAux fuel n (l.drop n)

/-- Rust's `slice::chunks(n)`. -/
def chunks (n : Nat) (l : Bytes) : List Bytes := chunksAux l.length n l

/-- `measureme/src/serialization.rs:377-397`, the loop over chunks.  The `debug_assert!` (line 393) is modelled as if it were always
checked; the theorems show that it never fails, so that builds with and without it agree. -/
def writeChunks (tag : PageTag) : List Bytes → Act SinkState Unit
  | [] => pure ()
  | chunk :: rest => do
    if chunk.length = maxPageSize then
      writePage tag chunk
    else if chunk.length ≥ minPageSize then
      writePage tag chunk
    else do
      let s ← Act.get
      Act.assert (s.inner.buffer = []) "assertion failed: buffer.is_empty()"
      setBuffer (s.inner.buffer ++ chunk)
    writeChunks tag rest

/-- `measureme/src/serialization.rs:352-399`, the direct path of `write_bytes_atomic` (more than 128 bytes). -/
def writeDirect (tag : PageTag) (bytes : Bytes) : Act SinkState Nat := do
  let s ← Act.get
  let currAddr := s.inner.addr
  addAddr bytes.length
  let buf := s.inner.buffer
  let take := if buf.length < minPageSize then min (minPageSize - buf.length) bytes.length else 0
  setBuffer (buf ++ bytes.take take)
  let bytesLeft := bytes.drop take
  if bytesLeft = [] then
    pure currAddr
  else do
    flushBuffer tag
    writeChunks tag (chunks maxPageSize bytesLeft)
    pure currAddr

/-- `measureme/src/serialization.rs:344-400` `write_bytes_atomic`.  (The call to `write_atomic` for small data is
inlined to its buffered path: 128 ≤ `MAX_PAGE_SIZE`, so that call never takes the oversized branch.) -/
def writeBytesAtomic (tag : PageTag) (bytes : Bytes) : Act SinkState Nat :=
  if bytes.length ≤ 128 then writeBuffered tag bytes.length (copyFill bytes)
  else writeDirect tag bytes

/-- `measureme/src/serialization.rs:301-332` `write_atomic`. -/
def writeAtomic (tag : PageTag) (num : Nat) (fill : Fill) : Act SinkState Nat :=
  if num > maxPageSize then
    match fill (List.replicate num 0) with
    | .error (e, _) => Act.fail e
    | .ok bytes => writeBytesAtomic tag bytes
  else writeBuffered tag num fill

/-! ## Several sinks over one store -/

/-- All sinks created from one `SerializationSinkBuilder` (`serialization.rs:82-113`), numbered in order of
creation, and the shared store.  A sink that has not been used is in its initial state, so the moment of
creation (`new_sink`, lines 103-112) does not matter. -/
structure World where
  sinks : Nat → Inner
  store : Store

/-- `measureme/src/serialization.rs:97-112`: an empty in-memory store and fresh sinks. -/
def World.init (faults : List (Option Nat) := []) : World :=
  { sinks := fun _ => ⟨[], 0⟩, store := ⟨[], faults⟩ }

/-- A public call on a sink. -/
inductive SinkCall where
  /-- `write_atomic(num_bytes, |buf| ..)` -/
  | writeAtomic (num : Nat) (fill : Fill)
  /-- `write_bytes_atomic(bytes)` -/
  | writeBytes (bytes : Bytes)
  /-- `as_std_write().write(bytes)`, `serialization.rs:149-152` -/
  | stdWrite (bytes : Bytes)
  /-- `as_std_write().flush()`, `serialization.rs:154-167` -/
  | stdFlush
  /-- dropping the sink, `serialization.rs:407-417` -/
  | drop

/-- The address returned by a call (none for flush/drop; `stdWrite` returns the length, which is not an address). -/
def SinkCall.run (tag : PageTag) : SinkCall → Act SinkState (Option Nat)
  | .writeAtomic num fill => do let a ← Mm.writeAtomic tag num fill; pure (some a)
  | .writeBytes b => do let a ← writeBytesAtomic tag b; pure (some a)
  | .stdWrite b => do let _ ← writeBytesAtomic tag b; pure none
  | .stdFlush => do flushBuffer tag; pure none
  | .drop => do flushBuffer tag; pure none

/-- Apply a sink call to sink `i`. -/
def World.call (tagOf : Nat → PageTag) (i : Nat) (c : SinkCall) : Act World (Option Nat) := fun w =>
  let (r, s) := c.run (tagOf i) ⟨w.sinks i, w.store⟩
  (r, { sinks := fun j => if j = i then s.inner else w.sinks j, store := s.store })

/-- Run a history: calls on sinks in order.  A call that panics unwinds to its caller, who may go on using the
sinks (parking_lot mutexes are not poisoned), so the history continues.  Returns every call's outcome. -/
def World.exec (tagOf : Nat → PageTag) : List (Nat × SinkCall) → World → List (Except Fault (Option Nat)) × World
  | [], w => ([], w)
  | (i, c) :: rest, w =>
    let (r, w1) := World.call tagOf i c w
    let (rs, w2) := World.exec tagOf rest w1
    (r :: rs, w2)

/-! ## `split_streams` -/

/-- The result of `split_streams`: a map from tag to bytes. -/
abbrev Streams := PageTag → Option Bytes

/-- `result.entry(tag).or_default().extend_from_slice(bytes)` (`serialization.rs:226-229`). -/
def Streams.extend (m : Streams) (t : PageTag) (b : Bytes) : Streams := fun t' =>
  if t' = t then some ((m t).getD [] ++ b) else m t'

/-- `measureme/src/serialization.rs:218-232`, the loop of `split_streams`; `data` is `paged_data[pos..]`.  The
first argument bounds the number of iterations: each consumes at least six bytes. -/
def splitLoop : Nat → Bytes → Streams → Except Fault Streams
  | 0, data, acc => if data = [] then .ok acc else .error .outOfFuel
  | fuel + 1, data, acc =>
    match data with
    | [] => .ok acc
    | tagByte :: rest =>
      match PageTag.tryFrom tagByte with
      | .error _ => .error (.panic "called `Result::unwrap()` on an `Err` value")
      | .ok tag =>
        if rest.length < 4 then .error (.panic "range end index out of range for slice")
        else
          let pageSize := fromLe (rest.take 4)
          let body := rest.drop 4
          if pageSize = 0 then .error (.panic "assertion failed: page_size > 0")
          else if body.length < pageSize then .error (.panic "range end index out of range for slice")
          else splitLoop fuel (body.drop pageSize) (acc.extend tag (body.take pageSize))

/-- `measureme/src/serialization.rs:215-235` `split_streams`. -/
def splitStreams (data : Bytes) : Except Fault Streams :=
  splitLoop data.length data (fun _ => none)

/-- `measureme/src/serialization.rs:179-196` `SharedState::copy_bytes_with_page_tag` (in-memory store). -/
def copyBytesWithPageTag (tag : PageTag) (data : Bytes) : Except Fault Bytes :=
  match splitStreams data with
  | .error e => .error e
  | .ok m => .ok ((m tag).getD [])

/-- `measureme/src/serialization.rs:269-289` `SerializationSink::into_bytes`: flush, then read back this tag's
stream. -/
def intoBytes (tag : PageTag) : Act SinkState Bytes := do
  flushBuffer tag
  let s ← Act.get
  match copyBytesWithPageTag tag s.store.data with
  | .error e => Act.fail e
  | .ok b => pure b

end Verif.Mm
