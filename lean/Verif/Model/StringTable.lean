import Verif.Model.Serialization
import Verif.Model.FileHeader
import Verif.Model.RawEvent
import Verif.Model.Utf8

/-!
# Model of `measureme/src/stringtable.rs` (writer) and `decodeme/src/stringtable.rs` (reader)
-/

namespace Verif.Mm

open Verif

/-! ## Ids -/

/-- `measureme/src/stringtable.rs:122`. -/
def maxUserVirtualStringId : UInt64 := 100000000
/-- `measureme/src/stringtable.rs:125`. -/
def metadataStringId : UInt64 := maxUserVirtualStringId + 1
/-- `measureme/src/stringtable.rs:128`. -/
def invalidStringId : UInt64 := metadataStringId + 1
/-- `measureme/src/stringtable.rs:130`. -/
def firstRegularStringId : UInt64 := invalidStringId + 1
/-- `measureme/src/stringtable.rs:117` `TERMINATOR`. -/
def terminator : UInt8 := 0xFF
/-- `measureme/src/stringtable.rs:118` `STRING_REF_TAG`. -/
def stringRefTag : UInt8 := 0xFE
/-- `measureme/src/stringtable.rs:119` `STRING_REF_ENCODED_SIZE`. -/
def stringRefEncodedSize : Nat := 9

/-- `measureme/src/stringtable.rs:88-93` `StringId::new_virtual`. -/
def newVirtual (id : UInt64) : Except Fault StringId :=
  if id ≤ maxUserVirtualStringId then .ok id else .error (.panic "assertion failed: id <= MAX_USER_VIRTUAL_STRING_ID")

/-- `measureme/src/stringtable.rs:95-98` `StringId::is_virtual`. -/
def isVirtual (id : StringId) : Bool := id ≤ metadataStringId

/-- `measureme/src/stringtable.rs:105-109` `StringId::from_addr` (`checked_add(..).unwrap()`).  Addresses are unbounded
numbers in the model; the sum must fit a `u64`. -/
def fromAddr (addr : Nat) : Except Fault StringId :=
  if addr + firstRegularStringId.toNat < 2 ^ 64 then .ok (UInt64.ofNat (addr + firstRegularStringId.toNat))
  else .error (.panic "called `Option::unwrap()` on a `None` value")

/-- `measureme/src/stringtable.rs:111-114` `StringId::to_addr` (`checked_sub(..).unwrap()`). -/
def toAddr (id : StringId) : Except Fault Nat :=
  if firstRegularStringId ≤ id then .ok (id.toNat - firstRegularStringId.toNat)
  else .error (.panic "called `Option::unwrap()` on a `None` value")

/-! ## Serialization of strings -/

/-- `measureme/src/stringtable.rs:162-166` `StringComponent`. -/
inductive StringComponent where
  | value (s : String)
  | ref (id : StringId)
  deriving DecidableEq, Repr

/-- `measureme/src/stringtable.rs:169-175` `StringComponent::serialized_size`. -/
def StringComponent.serializedSize : StringComponent → Nat
  | .value s => (utf8 s).length
  | .ref _ => stringRefEncodedSize

/-- `measureme/src/stringtable.rs:177-194` `StringComponent::serialize`: what is stored at the front of the slice, and
the rest of the slice.  Slicing panics when the slice is too short. -/
def StringComponent.serialize : StringComponent → Bytes → Except Fault (Bytes × Bytes)
  | .value s, slot =>
    if slot.length < (utf8 s).length then .error (.panic "range end index out of range for slice")
    else .ok (utf8 s, slot.drop (utf8 s).length)
  | .ref id, slot =>
    if slot.length < 9 then .error (.panic "range end index out of range for slice")
    else .ok (stringRefTag :: leBytes 8 id.toNat, slot.drop 9)

/-- Anything implementing `SerializableString` (`measureme/src/stringtable.rs:140-143`): a `str`, or a (fixed-size or
not) list of components. -/
inductive Text where
  | str (s : String)
  | comps (cs : List StringComponent)
  deriving DecidableEq, Repr

/-- `serialized_size`, `measureme/src/stringtable.rs:148-151` (str) and `198-202` (components). -/
def Text.serializedSize : Text → Nat
  | .str s => (utf8 s).length + 1
  | .comps cs => (cs.map StringComponent.serializedSize).sum + 1

/-- The loop at `measureme/src/stringtable.rs:207-209`. -/
def serializeComps : List StringComponent → Bytes → Except Fault (Bytes × Bytes)
  | [], slot => .ok ([], slot)
  | c :: cs, slot =>
    match c.serialize slot with
    | .error e => .error e
    | .ok (out, slot') =>
      match serializeComps cs slot' with
      | .error e => .error e
      | .ok (out', slot'') => .ok (out ++ out', slot'')

/-- `serialize`, `measureme/src/stringtable.rs:153-158` (str) and `204-214` (components). What a failing assertion
leaves in the slice is simplified to the untouched slice: it does not happen (C03, C11). -/
def Text.serialize (t : Text) : Fill := fun slot =>
  match t with
  | .str s =>
    if slot.length = 0 then .error (.panic "attempt to subtract with overflow", slot)
    else if slot.length - 1 ≠ (utf8 s).length then .error (.panic "copy_from_slice: length mismatch", slot)
    else .ok (utf8 s ++ [terminator])
  | .comps cs =>
    if slot.length ≠ (Text.comps cs).serializedSize then .error (.panic "assertion failed: bytes.len() == self.serialized_size()", slot)
    else
      match serializeComps cs slot with
      | .error e => .error (e, slot)
      | .ok (out, rest) =>
        if rest.length ≠ 1 then .error (.panic "assertion failed: bytes.len() == 1", slot)
        else .ok (out ++ [terminator])

/-! ## `StringTableBuilder` -/

/-- The sinks a profiler creates, in order of creation, and their tags (`measureme/src/profiler.rs:38-47`): 0 events,
1 string data, 2 string index. -/
def profTags : Nat → PageTag
  | 0 => .events
  | 1 => .stringData
  | _ => .stringIndex

/-- Number of the string data sink. -/
abbrev dataSink : Nat := 1
/-- Number of the string index sink. -/
abbrev indexSink : Nat := 2

/-- A sink call whose result is an address. -/
def addrCall (i : Nat) (c : SinkCall) : Act World Nat := do
  match ← World.call profTags i c with
  | some a => pure a
  | none => Act.fail (.panic "unreachable")

/-- The callback at `measureme/src/stringtable.rs:252-255`: id then address, both `u64` little-endian. -/
def indexEntryFill (id : StringId) (addr : Nat) : Fill := fun slot =>
  if slot.length = 16 then .ok (leBytes 8 id.toNat ++ leBytes 8 addr) else .error (.panic "range end index out of range for slice", slot)

/-- `measureme/src/stringtable.rs:251-256` `serialize_index_entry`. -/
def serializeIndexEntry (id : StringId) (addr : Nat) : Act World Unit := do
  let _ ← addrCall indexSink (.writeAtomic 16 (indexEntryFill id addr))
  pure ()

/-- Lift a pure computation that may panic. -/
def liftE {σ α : Type} : Except Fault α → Act σ α
  | .ok a => pure a
  | .error e => Act.fail e

/-- `write_all` of `fileHeaderWrites` through `as_std_write` (`measureme/src/file_header.rs:21-34`). -/
def writeAllTo (i : Nat) : List Bytes → Act World Unit
  | [] => pure ()
  | b :: bs => do
    let _ ← World.call profTags i (.stdWrite b)
    writeAllTo i bs

/-- `measureme/src/stringtable.rs:259-271` `StringTableBuilder::new`. -/
def newBuilder : Act World Unit := do
  writeAllTo dataSink (fileHeaderWrites magicStringData)
  writeAllTo indexSink (fileHeaderWrites magicStringIndex)

/-- `measureme/src/stringtable.rs:275-280` `map_virtual_to_concrete_string`. -/
def mapVirtual (virtualId concreteId : StringId) : Act World Unit := do
  Act.assert (virtualId ≤ maxUserVirtualStringId) "assertion failed: virtual_id.0 <= MAX_USER_VIRTUAL_STRING_ID"
  let addr ← liftE (toAddr concreteId)
  serializeIndexEntry virtualId addr

/-- The closure at `measureme/src/stringtable.rs:299-303`, over all ids. -/
def bulkEntries (addr : Nat) : List StringId → Except Fault Bytes
  | [] => .ok []
  | v :: vs =>
    if v ≤ maxUserVirtualStringId then
      match bulkEntries addr vs with
      | .error e => .error e
      | .ok rest => .ok (leBytes 8 v.toNat ++ leBytes 8 addr ++ rest)
    else .error (.panic "assertion failed: id <= MAX_USER_VIRTUAL_STRING_ID")

/-- `measureme/src/stringtable.rs:282-312` `bulk_map_virtual_to_single_concrete_string`. -/
def bulkMapVirtual (virtualIds : List StringId) (concreteId : StringId) : Act World Unit := do
  let addr ← liftE (toAddr concreteId)
  let bytes ← liftE (bulkEntries addr virtualIds)
  let _ ← addrCall indexSink (.writeBytes bytes)
  pure ()

/-- `measureme/src/stringtable.rs:321-328` `alloc`. -/
def alloc (t : Text) : Act World StringId := do
  let addr ← addrCall dataSink (.writeAtomic t.serializedSize t.serialize)
  liftE (fromAddr addr)

/-- `measureme/src/stringtable.rs:314-319` `alloc_metadata`. -/
def allocMetadata (t : Text) : Act World Unit := do
  let concreteId ← alloc t
  Act.assert (isVirtual metadataStringId = true) "assertion failed: virtual_id.is_virtual()"
  let addr ← liftE (toAddr concreteId)
  serializeIndexEntry metadataStringId addr

/-- The public calls on a string table builder. -/
inductive TableOp where
  | alloc (t : Text)
  | allocMetadata (t : Text)
  | mapVirtual (virtualId concreteId : StringId)
  | bulkMapVirtual (virtualIds : List StringId) (concreteId : StringId)
  deriving DecidableEq

/-- Run one builder call; `alloc` returns the new id. -/
def TableOp.run : TableOp → Act World (Option StringId)
  | .alloc t => do let id ← Mm.alloc t; pure (some id)
  | .allocMetadata t => do Mm.allocMetadata t; pure none
  | .mapVirtual v c => do Mm.mapVirtual v c; pure none
  | .bulkMapVirtual vs c => do Mm.bulkMapVirtual vs c; pure none

/-- What may happen between two builder calls: another builder call, a call on the events sink, or a flush of any sink; `custom size fill` is `alloc`
(`measureme/src/stringtable.rs:321-328`) of a value whose type implements `SerializableString` (`140-143`) outside the library: `size` is what its
`serialized_size` answers, `fill` what its `serialize` does to the slice it is given. -/
inductive SessionOp where
  | table (o : TableOp)
  | custom (size : Nat) (fill : Fill)
  | events (c : SinkCall)
  | flush (i : Nat)

/-- Run one session step. -/
def SessionOp.run : SessionOp → Act World (Option StringId)
  | .table o => o.run
  | .custom size fill => do
    let addr ← addrCall dataSink (.writeAtomic size fill)
    let id ← liftE (fromAddr addr)
    pure (some id)
  | .events c => do let _ ← World.call profTags 0 c; pure none
  | .flush i => do let _ ← World.call profTags i .stdFlush; pure none

/-- Run the steps of a session in order; a panicking step unwinds to the caller, who may carry on. -/
def runOps : List SessionOp → World → List (Except Fault (Option StringId)) × World
  | [], w => ([], w)
  | o :: os, w =>
    let (r, w1) := o.run w
    let (rs, w2) := runOps os w1
    (r :: rs, w2)

/-! ## `decodeme`'s reader -/

/-- `decodeme/src/stringtable.rs:165-169` `StringTable`; `string_data` includes the stream header.  The hash map is
modelled by its lookup function. -/
structure StringTable where
  stringData : Bytes
  index : StringId → Option Nat

/-- `decodeme/src/stringtable.rs:22-27` `deserialize_index_entry`. -/
def deserializeIndexEntry (b : Bytes) : StringId × Nat :=
  (UInt64.ofNat (fromLe ((b.take 8).drop 0)), fromLe ((b.take 16).drop 8))

/-- Collecting pairs into a hash map (`decodeme/src/stringtable.rs:196-199`): later entries replace earlier ones. -/
def collectMap (entries : List (StringId × Nat)) : StringId → Option Nat :=
  entries.foldl (fun m e id => if id = e.1 then some e.2 else m id) (fun _ => none)

/-- `decodeme/src/stringtable.rs:172-203` `StringTable::new`. -/
def StringTable.new (diag : Option String) (stringData indexData : Bytes) : Except Fault StringTable := do
  verifyFileHeader diag "StringTable Data" stringData magicStringData
  verifyFileHeader diag "StringTable Index" indexData magicStringIndex
  if (indexData.length - fileHeaderSize) % 16 ≠ 0 then .error (.panic "StringTable index size appears malformed")
  else
    let stripped ← stripFileHeader indexData
    .ok { stringData := stringData, index := collectMap ((chunks 16 stripped).map deserializeIndexEntry) }

/-- `decodeme/src/stringtable.rs:136-147` `StringRef::get_addr` (`none` is `Err(())`). -/
def StringTable.getAddr (t : StringTable) (id : StringId) : Except Fault (Option Nat) :=
  if isVirtual id then .ok (t.index id)
  else if id = invalidStringId then .ok none
  else match toAddr id with
    | .ok a => .ok (some a)
    | .error e => .error e

/-- `decodeme/src/stringtable.rs:37` `UNKNOWN_STRING`. -/
def unknownString : Bytes := utf8 "<unknown>"
/-- `decodeme/src/stringtable.rs:41` `INVALID_STRING`. -/
def invalidString : Bytes := utf8 "<invalid>"

/-- `decodeme/src/stringtable.rs:152-161` `decode_string_ref_from_data`. -/
def decodeStringRef (b : Bytes) : Except Fault StringId :=
  if b.length < 9 then .error (.panic "range end index out of range for slice")
  else .ok (UInt64.ofNat (fromLe ((b.take 9).drop 1)))

/-- `memchr`/`memchr2`: position of the first byte satisfying `p` (`decodeme/src/stringtable.rs:64,119`). -/
def memchr (p : UInt8 → Bool) (b : Bytes) : Option Nat := b.findIdx? p

mutual
/-- `decodeme/src/stringtable.rs:93-101` `write_to_string`, from the address lookup on; the text that is appended to
`output` is returned.  Fuel bounds the number of nested calls and loop iterations. -/
def StringTable.write (t : StringTable) : Nat → StringId → Except Fault Bytes
  | 0, _ => .error .outOfFuel
  | fuel + 1, id =>
    match t.getAddr id with
    | .error e => .error e
    | .ok none => .ok unknownString
    | .ok (some pos) => t.writeLoop fuel pos

/-- `decodeme/src/stringtable.rs:105-133`, the loop of `write_to_string`. -/
def StringTable.writeLoop (t : StringTable) : Nat → Nat → Except Fault Bytes
  | 0, _ => .error .outOfFuel
  | fuel + 1, pos =>
    match t.stringData[pos]? with
    | none => .error (.panic "index out of bounds")
    | some byte =>
      if byte = terminator then .ok []
      else if byte = stringRefTag then
        match decodeStringRef (t.stringData.drop pos) with
        | .error e => .error e
        | .ok id =>
          match t.write fuel id with
          | .error e => .error e
          | .ok s =>
            match t.writeLoop fuel (pos + stringRefEncodedSize) with
            | .error e => .error e
            | .ok rest => .ok (s ++ rest)
      else
        match memchr (fun b => b = 0xFF || b = 0xFE) (t.stringData.drop pos) with
        | some len =>
          match t.writeLoop fuel (pos + len) with
          | .error e => .error e
          | .ok rest => .ok (fromUtf8Lossy ((t.stringData.drop pos).take len) ++ rest)
        | none => .ok invalidString
end

/-- `decodeme/src/stringtable.rs:47-91` `to_string`. -/
def StringTable.toStr (t : StringTable) : Nat → StringId → Except Fault Bytes
  | 0, _ => .error .outOfFuel
  | fuel + 1, id =>
    match t.getAddr id with
    | .error e => .error e
    | .ok none => .ok unknownString
    | .ok (some pos) =>
      if t.stringData.length < pos then .error (.panic "range start index out of range for slice")
      else
        let slice := t.stringData.drop pos
        match memchr (fun b => b = terminator) slice with
        | none => .error (.panic "called `Option::unwrap()` on a `None` value")
        | some terminatorPos =>
          match t.stringData[pos]? with
          | none => .error (.panic "index out of bounds")
          | some firstByte =>
            if firstByte = stringRefTag ∧ terminatorPos = pos + stringRefEncodedSize then
              match decodeStringRef slice with
              | .error e => .error e
              | .ok id' => t.toStr fuel id'
            else if validUtf8 (slice.take terminatorPos) then .ok (slice.take terminatorPos)
            else t.write fuel id

/-- `decodeme/src/stringtable.rs:210-213` `get_metadata` (the id it reads). -/
def StringTable.metadataId : StringId := metadataStringId

end Verif.Mm
