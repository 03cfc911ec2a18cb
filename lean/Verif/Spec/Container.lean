import Verif.Model.Serialization

/-!
# Specification vocabulary for the paged container (independent of how sinks buffer)

A *page* is a tag and a body; the store format is documented in `measureme/src/serialization.rs:1-26`:
one tag byte, a 32-bit little-endian size, the body, no padding.
-/

namespace Verif.Spec

open Verif Verif.Mm

/-- A page as documented: a tag and its contents. -/
structure Page where
  tag : PageTag
  body : Bytes
  deriving DecidableEq, Repr

/-- The documented tag numbers. -/
def tagNumber : PageTag → UInt8
  | .events => 0
  | .stringData => 1
  | .stringIndex => 2

/-- The documented byte layout of a page: tag, size (4 bytes, least significant first), contents. -/
def Page.bytes (p : Page) : Bytes :=
  tagNumber p.tag ::
  UInt8.ofNat (p.body.length % 256) ::
  UInt8.ofNat (p.body.length / 256 % 256) ::
  UInt8.ofNat (p.body.length / 65536 % 256) ::
  UInt8.ofNat (p.body.length / 16777216 % 256) :: p.body

/-- A store consisting of these pages, one directly after the other. -/
def storeOf (pages : List Page) : Bytes := pages.flatMap Page.bytes

/-- The contents of the pages with tag `t`, in order. -/
def streamOf (t : PageTag) (pages : List Page) : Bytes :=
  (pages.filter (fun p => p.tag = t)).flatMap Page.body

/-- The bytes a call hands to the sink. -/
def payload : SinkCall → Bytes
  | .writeAtomic num fill => match fill (List.replicate num 0) with
    | .ok out => out
    | .error _ => []
  | .writeBytes b => b
  | .stdWrite b => b
  | .stdFlush => []
  | .drop => []

/-- The call's callback (if any) runs to completion and fills its slice (a slice cannot change length). -/
def Good : SinkCall → Prop
  | .writeAtomic num fill => ∃ out, fill (List.replicate num 0) = .ok out ∧ out.length = num
  | _ => True

/-- The call returns an address. -/
def ReturnsAddr : SinkCall → Prop
  | .writeAtomic _ _ => True
  | .writeBytes _ => True
  | _ => False

/-- The call flushes the sink's buffer. -/
def Flushes : SinkCall → Prop
  | .stdFlush => True
  | .drop => True
  | _ => False

/-- A history of calls on numbered sinks. -/
abbrev History := List (Nat × SinkCall)

/-- Everything written to sink `i` in a history, in order. -/
def written (i : Nat) (h : History) : Bytes :=
  (h.filter (fun x => x.1 = i)).flatMap (fun x => payload x.2)

/-- The last call on sink `i` (if there is any) flushed or dropped it. -/
def Flushed (i : Nat) (h : History) : Prop :=
  (∀ x ∈ h, x.1 ≠ i) ∨
  ∃ h1 c h2, h = h1 ++ (i, c) :: h2 ∧ Flushes c ∧ ∀ x ∈ h2, x.1 ≠ i

/-- No other sink used in the history has the same tag as sink `i`. -/
def TagUnshared (tagOf : Nat → PageTag) (i : Nat) (h : History) : Prop :=
  ∀ x ∈ h, tagOf x.1 = tagOf i → x.1 = i

/-- All callbacks in the history are well-behaved. -/
def AllGood (h : History) : Prop := ∀ x ∈ h, Good x.2

/-- Run a history from a fresh, fault-free in-memory store. -/
def run (tagOf : Nat → PageTag) (h : History) : List (Except Fault (Option Nat)) × World :=
  World.exec tagOf h (World.init)

/-- The bytes in the backing store after a history. -/
def storeAfter (tagOf : Nat → PageTag) (h : History) : Bytes := (run tagOf h).2.store.data

/-- The outcomes of the calls of a history, in order. -/
def outcomes (tagOf : Nat → PageTag) (h : History) : List (Except Fault (Option Nat)) := (run tagOf h).1

/-- An "atomic record" call: it hands at most one page worth of data to `write_atomic`, or at most 128 bytes
to `write_bytes_atomic`. -/
def AtomicRecord : SinkCall → Prop
  | .writeAtomic num _ => num ≤ 262144
  | .writeBytes b => b.length ≤ 128
  | .stdWrite b => b.length ≤ 128
  | _ => True

end Verif.Spec
