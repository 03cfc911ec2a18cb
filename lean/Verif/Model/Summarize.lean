import Verif.Model.Analysis
import Mathlib.Data.List.Sort

/-!
# Model of `summarize summarize` (`summarize/src/main.rs:168-312`)

Percentages are floating-point numbers in the code.  Here they are values of a type `F`, with the operations the code uses:
`percent self total` is `self / total * 100`, `lt` and `eq` compare, `zero` and `hundred` are the bounds.  What is printed in a cell is the
value it is printed from.
-/

namespace Verif.Summarize

open Verif Verif.Mm Verif.Analyze

/-- The floating-point operations of `summarize/src/main.rs:181-187,249-258,291`. -/
structure Float64 (F : Type) where
  percent : Nat → Nat → F
  lt : F → F → Bool
  eq : F → F → Bool
  zero : F
  hundred : F
  add : F → F → F

/-- What a cell shows. -/
inductive Cell (F : Type) where
  | text (b : Bytes)
  | duration (n : Nat)
  | percent (x : F)
  | count (n : Nat)
  deriving DecidableEq, Repr

/-- The four flags of `summarize/src/main.rs:196-199`. -/
structure Flags where
  cacheHits : Bool := false
  blockedTime : Bool := false
  incrementalLoadTime : Bool := false
  incrementalHashingTime : Bool := false
  deriving DecidableEq, Repr

/-- `summarize/src/main.rs:203-216`: the body of the scan, without the exit. -/
def Flags.see (f : Flags) (d : QueryData) : Flags where
  cacheHits := if d.numberOfCacheHits > 0 then true else f.cacheHits
  blockedTime := if d.blockedTime > 0 then true else f.blockedTime
  incrementalLoadTime := if d.incrementalLoadTime > 0 then true else f.incrementalLoadTime
  incrementalHashingTime := if d.incrementalHashingTime > 0 then true else f.incrementalHashingTime

/-- `summarize/src/main.rs:202-221`: the scan, which stops once three of the flags are set. -/
def scan : List (Bytes × QueryData) → Flags → Flags
  | [], f => f
  | (_, d) :: rest, f =>
    let f' := f.see d
    if f'.cacheHits && f'.blockedTime && f'.incrementalLoadTime then f' else scan rest f'

/-- `summarize/src/main.rs:239-245` `filter_cells`. -/
def filterCells {α : Type} (cells : List (α × Bool)) : List α := (cells.filter (·.2)).map (·.1)

/-- `summarize/src/main.rs:225-238`: the titles. -/
def titles (f : Flags) : List Bytes :=
  filterCells [(utf8 "Item", true), (utf8 "Self time", true), (utf8 "% of total time", true), (utf8 "Time", true),
    (utf8 "Item count", true), (utf8 "Cache hits", f.cacheHits), (utf8 "Blocked time", f.blockedTime),
    (utf8 "Incremental load time", f.incrementalLoadTime), (utf8 "Incremental result hashing time", f.incrementalHashingTime)]

/-- `summarize/src/main.rs:260-285`: the cells of one row. -/
def rowCells {F : Type} (f : Flags) (label : Bytes) (d : QueryData) (p : F) : List (Cell F) :=
  filterCells [(.text label, true), (.duration d.selfTime, true), (.percent p, true), (.duration d.time, true),
    (.count d.invocationCount, true), (.count d.numberOfCacheHits, f.cacheHits), (.duration d.blockedTime, f.blockedTime),
    (.duration d.incrementalLoadTime, f.incrementalLoadTime), (.duration d.incrementalHashingTime, f.incrementalHashingTime)]

/-- `summarize/src/main.rs:249-286`: the rows, until the first one below the limit, and the sum of their percentages. -/
def rows {F : Type} (fl : Float64 F) (f : Flags) (total : Nat) (above : F) : List (Bytes × QueryData) → F → List (List (Cell F)) × F
  | [], sum => ([], sum)
  | (l, d) :: rest, sum =>
    let p := fl.percent d.selfTime total
    if fl.lt p above then ([], sum)
    else
      let (rs, s) := rows fl f total above rest (fl.add sum p)
      (rowCells f l d p :: rs, s)

/-- What is printed. -/
structure Output (F : Type) where
  titles : List Bytes
  rows : List (List (Cell F))
  total : Nat
  share : Option F
  artifacts : List (Bytes × Nat)

/-- `summarize/src/main.rs:190-192`: the results by descending self time. -/
def bySelfTime (data : List (Bytes × QueryData)) : List (Bytes × QueryData) :=
  data.insertionSort fun l r => r.2.selfTime ≤ l.2.selfTime

/-- `summarize/src/main.rs:179-311`: what is printed without `--json`; `none` is the exit with status 1.  `share` is printed if the
limit is not zero. -/
def summarize {F : Type} (fl : Float64 F) (above : F) (r : Results) : Option (Output F) :=
  if fl.lt fl.hundred above then none
  else if fl.lt above fl.zero then none
  else
    let data := bySelfTime r.queryData
    let f := scan data {}
    let (rs, s) := rows fl f r.totalTime above data fl.zero
    some { titles := titles f
           rows := rs
           total := r.totalTime
           share := if fl.eq above fl.zero then none else some s
           artifacts := r.artifactSizes }

end Verif.Summarize
