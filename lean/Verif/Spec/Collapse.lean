import Verif.Spec.Analysis

/-! # Specification vocabulary for collapsed stacks -/

namespace Verif.Spec

open Verif Verif.Mm Verif.Decode

/-- The path of event `j`: `rustc`, then the labels of the intervals around it from the outside in, then its own, joined by
`;`. -/
def pathOf : List Event → Nat → Bytes
  | [], _ => []
  | e :: es, 0 => ((es.findIdx? (fun p => encloses p e)).map (fun k => pathOf es k)).getD (utf8 "rustc") ++ utf8 ";" ++ e.label
  | _ :: es, j + 1 => pathOf es j

/-- Event `j` is an interval with this path. -/
def hasPath (es : List Event) (k : Bytes) (j : Nat) : Bool := at? isInterval es j && decide (pathOf es j = k)

/-- The self times of the intervals with this path, added up. -/
def pathTime (es : List Event) (k : Bytes) : Nat :=
  ∑ j ∈ Finset.range es.length, if hasPath es k j then selfAt es j else 0

/-- The time of all threads. -/
def allTime (es : List Event) : Nat := ∑ t ∈ threadsOf es, spanLength t es

/-- The last label of a path: what comes after the last `;`. -/
def leafOf (k : Bytes) : Bytes := (k.reverse.takeWhile (fun b => decide (b ≠ 0x3B))).reverse

/-- The lines of a text, each ended by a newline. -/
def linesFrom (cur : Bytes) : Bytes → List Bytes
  | [] => []
  | b :: bs => if b = 0x0A then cur :: linesFrom [] bs else linesFrom (cur ++ [b]) bs

/-- What follows the last space of a line. -/
def afterSpace (line : Bytes) : Bytes := (line.reverse.takeWhile (fun b => decide (b ≠ 0x20))).reverse

/-- What precedes the last space of a line. -/
def beforeSpace (line : Bytes) : Bytes := line.take (line.length - (afterSpace line).length - 1)

/-- The number some digits denote. -/
def numberOf (ds : Bytes) : Nat := ds.foldl (fun n d => 10 * n + (d.toNat - 48)) 0

/-- Read a folded-stacks file: per line a stack and, after the last space, a count. -/
def readFolded (text : Bytes) : List (Bytes × Nat) :=
  (linesFrom [] text).map fun line => (beforeSpace line, numberOf (afterSpace line))

end Verif.Spec
