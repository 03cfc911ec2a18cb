import Verif.Spec.Container
import Verif.Model.Decoder

/-!
# Specification vocabulary for files of any content

The layout is documented at `measureme/src/serialization.rs:1-26`, `measureme/src/file_header.rs:1-20` and `measureme/src/stringtable.rs:12-66`.
-/

namespace Verif.Spec

open Verif Verif.Mm

/-- The bytes begin with the header of a file or stream of this kind (four letters, then version 9), and `body` follows. -/
def Headed (kind : String) (bytes body : Bytes) : Prop := bytes = utf8 kind ++ [9, 0, 0, 0] ++ body

/-- Pages as they can be in a file: not empty, with a size that fits 32 bits. -/
def ProperPages (pages : List Page) : Prop := ∀ p ∈ pages, 0 < p.body.length ∧ p.body.length < 4294967296

/-- The bytes of an entry of the string index: id and address, 64 bits each, least significant byte first. -/
def indexEntry (e : UInt64 × UInt64) : Bytes := leBytes 8 e.1.toNat ++ leBytes 8 e.2.toNat

/-- The address of the last entry for an id. -/
def lastEntry (entries : List (UInt64 × UInt64)) (v : UInt64) : Option Nat :=
  ((entries.filter fun e => e.1 = v).getLast?).map fun e => e.2.toNat

end Verif.Spec
