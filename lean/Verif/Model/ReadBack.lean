import Verif.Model.Serialization

/-!
# `SerializationSink::into_bytes` in full (`measureme/src/serialization.rs:266-289`)

`Mm.intoBytes` (used by the profile builder) is what remains of this on an in-memory store that does not fail.
-/

namespace Verif.Mm

open Verif

/-- `measureme/src/serialization.rs:179-196` `SharedState::copy_bytes_with_page_tag` on either kind of `BackingStorage` (116-122). -/
def copyBytesOf (file : Bool) (tag : PageTag) (data : Bytes) : Except Fault Bytes :=
  if file then .error (.panic "explicit panic") else copyBytesWithPageTag tag data

/-- `measureme/src/serialization.rs:269-289` `SerializationSink::into_bytes`: the sink's data is swapped for an empty one, the old buffer is written as a page and the
stream is copied out of the store; `self` is dropped at the end, or when one of these panics (407-417). `file`: the store is a file. -/
def intoBytesOn (file : Bool) (tag : PageTag) : Act SinkState Bytes := fun s =>
  let buffer := s.inner.buffer
  let swapped : SinkState := { s with inner := ⟨[], 0⟩ }
  let (r, s1) := (do
    writePage tag buffer
    let s ← Act.get
    match copyBytesOf file tag s.store.data with
    | .error e => Act.fail e
    | .ok b => pure b : Act SinkState Bytes) swapped
  (r, (flushBuffer tag s1).2)

/-- `into_bytes` of sink `i` (`measureme/src/serialization.rs:269-289`). -/
def World.intoBytesOn (file : Bool) (tagOf : Nat → PageTag) (i : Nat) : Act World Bytes := fun w =>
  let (r, s) := Mm.intoBytesOn file (tagOf i) ⟨w.sinks i, w.store⟩
  (r, { sinks := fun j => if j = i then s.inner else w.sinks j, store := s.store })

end Verif.Mm
