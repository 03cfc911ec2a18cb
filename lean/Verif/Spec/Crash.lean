import Verif.Spec.Profiler
import Verif.Spec.Damaged

/-!
# Specification vocabulary for profiles cut short: what remains of a session

A file that is cut short contains an initial part of each of its three streams.  What is lost of the string table is the end of the list of
strings and the end of the list of mappings; the metadata is the first of both.
-/

namespace Verif.Spec

open Verif Verif.Mm Verif.Decode

/-- The strings a session stored, in order: their ids and their bytes. These are the documented encoding of a text, or whatever a value of one of the
program's own types wrote. -/
def strings (log : TableLog) : List (StringId × Bytes) :=
  log.filterMap fun
    | (.table (.alloc t), .ok (some id)) => some (id, encText (components t))
    | (.custom size fill, .ok (some id)) =>
      match fill (List.replicate size 0) with
      | .ok bytes => some (id, bytes)
      | .error _ => none
    | _ => none

/-- The mappings of virtual ids to strings a session made, in order, bulk mappings one by one. -/
def mappings (log : TableLog) : List (StringId × StringId) :=
  log.flatMap fun
    | (.table (.mapVirtual v c), .ok _) => [(v, c)]
    | (.table (.bulkMapVirtual vs c), .ok _) => vs.map fun v => (v, c)
    | _ => []

/-- A session that only stores the metadata, these strings, and these mappings. -/
def tableOf (metadata : String) (strs : List (StringId × Bytes)) (maps : List (StringId × StringId)) : TableLog :=
  (.table (.allocMetadata (.str metadata)), .ok none) ::
    (strs.map fun s => (.custom s.2.length fun _ => .ok s.2, .ok (some s.1))) ++ maps.map fun m => (.table (.mapVirtual m.1 m.2), .ok none)

/-- What is left of the string table of a session when only its first `i` strings and its first `j` mappings are there. -/
def remaining (metadata : String) (calls : List ProfCall) (i j : Nat) : TableLog :=
  tableOf metadata ((strings (stringLog metadata calls)).take i) ((mappings (stringLog metadata calls)).take j)

/-- The file opens and shows the metadata, exactly the first `k` recorded events, and of the string table what the first `i` strings and the first
`j` mappings give; the plain strings after the first `i` cannot be read. -/
def ShowsPart (start pid : Nat) (args : List String) (counter : CounterKind) (calls : List ProfCall) (file : Bytes) (i j k : Nat) : Prop :=
  ∃ d : EventDecoder, (∃ n, ∀ (diag : Option String) (fuel : Nat), n ≤ fuel → EventDecoder.new diag fuel file = .ok d) ∧
    d.metadata = ⟨start, pid, utf8 (commandLine args)⟩ ∧
    d.numEvents = .ok k ∧ k ≤ (recorded calls).length ∧
    (∀ x r, x < k → (recorded calls)[x]? = some r →
      d.decodeLightweight x = .ok ⟨x, r.thread, seen start r.what⟩ ∧
      ∀ kind label as, Shown (remaining (metadataText start pid args counter) calls i j) r.kind kind →
        Shown (remaining (metadataText start pid args counter) calls i j) r.id (joined label as) → SepFree label → (∀ a ∈ as, SepFree a) →
        ∃ n, ∀ fuel, n ≤ fuel → d.decodeFull fuel x =
          .ok ⟨utf8 kind, utf8 (decodedId label as).1, (decodedId label as).2.map utf8, seen start r.what, r.thread⟩) ∧
    (∀ id s, Shown (remaining (metadataText start pid args counter) calls i j) id s → ToString d.table id (utf8 s)) ∧
    (∀ id s, (id, encText [.value s]) ∈ (strings (stringLog (metadataText start pid args counter) calls)).drop i →
      ∀ fuel, IsPanic (d.table.toStr (fuel + 1) id))

end Verif.Spec
