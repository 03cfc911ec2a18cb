import Verif.Model.StringTable
import Verif.Spec.Container

/-!
# Specification vocabulary for string tables

A session is a list of calls on a string table builder (interleaved with calls on the events sink and flushes) together
with the results the caller saw.  What an id *means* is defined from that log alone, never from bytes.
-/

namespace Verif.Spec

open Verif Verif.Mm

/-- The components a text consists of: a `str` is a single value. -/
def components : Text → List StringComponent
  | .str s => [.value s]
  | .comps cs => cs

/-- The documented encoding of a component (`measureme/src/stringtable.rs:12-33`): text verbatim, references as the tag
0xFE and a 64-bit little-endian id. -/
def encComponent : StringComponent → Bytes
  | .value s => utf8 s
  | .ref id => 0xFE :: leBytes 8 id.toNat

/-- The documented encoding of an entry: the components, then 0xFF. -/
def encText (cs : List StringComponent) : Bytes := cs.flatMap encComponent ++ [0xFF]

/-- What the caller saw: each call with its outcome. -/
abbrev TableLog := List (SessionOp × Except Fault (Option StringId))

/-- The call stores an entry with the components `cs`: an `alloc` of a text with these components, or an `alloc` of a value of one of the program's own
types that writes the documented encoding of these components (and, if it likes, anything after the terminator). -/
def Stores (cs : List StringComponent) : SessionOp → Prop
  | .table (.alloc t) => components t = cs
  | .custom size fill => ∃ junk, fill (List.replicate size 0) = .ok (encText cs ++ junk)
  | _ => False

/-- `id` was returned by an `alloc` of the components `cs`. -/
def Allocated (log : TableLog) (id : StringId) (cs : List StringComponent) : Prop :=
  ∃ o, Stores cs o ∧ (o, .ok (some id)) ∈ log

/-- What a virtual id can be bound to: a concrete id, or directly a text (metadata). -/
inductive Binding where
  | concrete (id : StringId)
  | text (cs : List StringComponent)
  deriving DecidableEq

/-- Does this call (if it returned normally) bind `v`, and to what? -/
def binds (v : StringId) : SessionOp × Except Fault (Option StringId) → Option Binding
  | (.table (.mapVirtual v' c), .ok _) => if v = v' then some (.concrete c) else none
  | (.table (.bulkMapVirtual vs c), .ok _) => if v ∈ vs then some (.concrete c) else none
  | (.table (.allocMetadata t), .ok _) => if v = 100000001 then some (.text (components t)) else none
  | _ => none

/-- The most recent call binding `v` bound it to `b`. -/
def Bound (log : TableLog) (v : StringId) (b : Binding) : Prop :=
  ∃ l1 x l2, log = l1 ++ x :: l2 ∧ binds v x = some b ∧ ∀ y ∈ l2, binds v y = none

/-- No call binds `v`. -/
def Unbound (log : TableLog) (v : StringId) : Prop := ∀ x ∈ log, binds v x = none

/-- `id` stands for the entry with components `cs`. -/
def Entry (log : TableLog) (id : StringId) (cs : List StringComponent) : Prop :=
  Allocated log id cs ∨ (∃ c, Bound log id (.concrete c) ∧ Allocated log c cs) ∨ Bound log id (.text cs)

/-- `id` stands for nothing: an unmapped virtual id, or the invalid id. -/
def Unknown (log : TableLog) (id : StringId) : Prop :=
  (id.toNat ≤ 100000001 ∧ Unbound log id) ∨ id.toNat = 100000002

/-- The text of a component list: values verbatim, references replaced by the text of what they stand for,
"<unknown>" for references to nothing. -/
inductive Reads (log : TableLog) : List StringComponent → String → Prop
  | nil : Reads log [] ""
  | value {s t : String} {cs : List StringComponent} : Reads log cs t → Reads log (.value s :: cs) (s ++ t)
  | unknown {id : StringId} {t : String} {cs : List StringComponent} :
      Unknown log id → Reads log cs t → Reads log (.ref id :: cs) ("<unknown>" ++ t)
  | entry {id : StringId} {s t : String} {cs cs' : List StringComponent} :
      Entry log id cs' → Reads log cs' s → Reads log cs t → Reads log (.ref id :: cs) (s ++ t)

/-- The text an id stands for. -/
def Means (log : TableLog) (id : StringId) (s : String) : Prop := Reads log [.ref id] s

/-- Callbacks handed to the events sink and implementations of `serialize` behave (see `Good`: they return, having written whatever they like to the slice
they were given), and only the three sinks are flushed. -/
def GoodOp : SessionOp → Prop
  | .custom size fill => Good (.writeAtomic size fill)
  | .events c => Good c
  | .flush i => i ≤ 2
  | _ => True

/-- Create a builder on fresh sinks and perform the calls. -/
def session (ops : List SessionOp) : TableLog × World :=
  let r := runOps ops (newBuilder World.init).2
  (ops.zip r.1, r.2)

/-- The log of a session. -/
def logOf (ops : List SessionOp) : TableLog := (session ops).1

/-- The bytes of the store after the session, once all three sinks have been dropped. -/
def savedStore (ops : List SessionOp) : Bytes :=
  (World.exec profTags [(0, .drop), (1, .drop), (2, .drop)] (session ops).2).2.store.data

/-- Load the string table from saved bytes the way the decoder does: split into streams, take the two
string streams. -/
def loadTable (store : Bytes) : Except Fault StringTable := do
  let m ← splitStreams store
  StringTable.new none ((m .stringData).getD []) ((m .stringIndex).getD [])

/-- `write_to_string` returns `out` (given enough stack). -/
def Writes (t : StringTable) (id : StringId) (out : Bytes) : Prop := ∃ n, ∀ fuel, n ≤ fuel → t.write fuel id = .ok out

/-- `to_string` returns `out` (given enough stack). -/
def ToString (t : StringTable) (id : StringId) (out : Bytes) : Prop := ∃ n, ∀ fuel, n ≤ fuel → t.toStr fuel id = .ok out

/-- `write_to_string` recurses without end. -/
def Diverges (t : StringTable) (id : StringId) : Prop := ∀ fuel, t.write fuel id = .error .outOfFuel

/-- Every reference made in the session is to something: an allocated id, a virtual id, or the invalid id; and virtual
ids are mapped to allocated ids. -/
def ClosedLog (log : TableLog) : Prop :=
  (∀ id cs, Entry log id cs → ∀ r, .ref r ∈ cs → Unknown log r ∨ ∃ cs', Entry log r cs')

/-- `a`'s entry references `b`. -/
def RefersTo (log : TableLog) (a b : StringId) : Prop := ∃ cs, Entry log a cs ∧ .ref b ∈ cs

/-! ## What `to_string` shows

`to_string` has a fast path for entries that consist of a single reference.  It recognises them by their first byte and by
the offset of the first byte 0xFF, which it compares with the entry's address plus nine. -/

/-- Bytes a call adds to the string data. -/
def textSize : SessionOp × Except Fault (Option StringId) → Nat
  | (.table (.alloc t), _) => (encText (components t)).length
  | (.table (.allocMetadata t), _) => (encText (components t)).length
  | (.custom size _, _) => size
  | _ => 0

/-- The address of the next string: eight bytes of header and what was stored so far. -/
def nextAddr (log : TableLog) : Nat := 8 + (log.map textSize).sum

/-- `id` stands for the entry with components `cs`, which is stored at address `a`.  Concrete ids are addresses plus
100000003; the metadata is stored where the next string went when it was allocated. -/
inductive StoredAt (log : TableLog) : StringId → Nat → List StringComponent → Prop
  | allocated {id : StringId} {a : Nat} {cs : List StringComponent} :
      Allocated log id cs → id.toNat = a + 100000003 → StoredAt log id a cs
  | mapped {v c : StringId} {a : Nat} {cs : List StringComponent} :
      Bound log v (.concrete c) → Allocated log c cs → c.toNat = a + 100000003 → StoredAt log v a cs
  | metadata {l1 l2 : TableLog} {t : Text} {r : Option StringId} :
      log = l1 ++ (.table (.allocMetadata t), .ok r) :: l2 → (∀ y ∈ l2, binds 100000001 y = none) →
      StoredAt log 100000001 (nextAddr l1) (components t)

/-- The reference an entry begins with, if its first component (not counting empty texts) is one. -/
def leadingRef : List StringComponent → Option StringId
  | [] => none
  | .ref r :: _ => some r
  | .value s :: cs => if s = "" then leadingRef cs else none

/-- Stored at address `a`, the entry looks like a lone reference to `r` to the fast path: it begins with that reference
and the first byte 0xFF of its encoding is at offset `a + 9`. -/
def MistakenFor (a : Nat) (cs : List StringComponent) (r : StringId) : Prop :=
  leadingRef cs = some r ∧ (encText cs).findIdx? (fun b => b = 0xFF) = some (a + 9)

/-- The text `to_string` shows: the text of the entry, except that an entry mistaken for a lone reference is shown as
what that reference is shown as. -/
inductive Shown (log : TableLog) : StringId → String → Prop
  | unknown {id : StringId} : Unknown log id → Shown log id "<unknown>"
  | whole {id : StringId} {a : Nat} {cs : List StringComponent} {s : String} :
      StoredAt log id a cs → (∀ r, ¬ MistakenFor a cs r) → Reads log cs s → Shown log id s
  | leading {id r : StringId} {a : Nat} {cs : List StringComponent} {s : String} :
      StoredAt log id a cs → MistakenFor a cs r → Shown log r s → Shown log id s

end Verif.Spec
