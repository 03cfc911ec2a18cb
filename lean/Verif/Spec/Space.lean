import Verif.Spec.Crash

/-!
# Specification vocabulary for the size of a store and of a profile
-/

namespace Verif.Spec

open Verif Verif.Mm

/-- How often a sink was flushed or dropped. -/
def flushCount (i : Nat) (h : History) : Nat :=
  (h.filter fun x => decide (x.1 = i) && (match x.2 with | .stdFlush => true | .drop => true | _ => false)).length

/-- The number of pages with a tag. -/
def pageCount (t : PageTag) (pages : List Page) : Nat := (pages.filter fun p => p.tag = t).length

/-- The size a stored string should have: the UTF-8 bytes of its literal parts, nine bytes for a reference, one byte at the end. -/
def stringSize (t : Text) : Nat :=
  ((components t).map fun
    | .value s => (utf8 s).length
    | .ref _ => 9).sum + 1

/-- The size of the strings a program stored. -/
def stringsSize (calls : List ProfCall) : Nat :=
  (calls.map fun
    | .allocString t => stringSize t
    | .allocForeign b => b.length
    | _ => 0).sum

/-- What a session should take in a file, not counting the headers of pages: the header of the file and those of the three streams, the metadata
and its index entry, 32 bytes for each recorded event, the stored strings, and 16 bytes for each mapping made. -/
def contentSize (md : String) (calls : List ProfCall) : Nat :=
  8 + (8 + 32 * (recorded calls).length) + (8 + ((utf8 md).length + 1) + stringsSize calls) + (8 + 16 + 16 * (mappings (stringLog md calls)).length)

end Verif.Spec
