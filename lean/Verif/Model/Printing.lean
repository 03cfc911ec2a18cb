import Verif.Model.Summarize
import Verif.Model.Diff
import Verif.Model.Profiler

/-!
# What the tables of `summarize` show (`summarize/src/main.rs:108-161,260-310`)

The cells as texts.  How `prettytable` lays the cells out is not modelled, nor how floating-point numbers are printed (`pct`).  The text of a
`Duration` is produced by the standard library (`core::time`, `impl Debug for Duration` and its `fmt_decimal`), which is modelled below; integer parts
that overflow 64 bits, which need durations of 2^64 seconds, are left out.
-/

namespace Verif.Print

open Verif Verif.Mm Verif.Diff

/-- `core::time` `fmt_decimal`, the first loop (used at `summarize/src/main.rs:262`): at most as many digits as asked for, until nothing is left; the
digits, what is left, and the weight of the last digit. -/
def digitLoop : Nat → Nat → Nat → List Nat × Nat × Nat
  | 0, frac, div => ([], frac, div)
  | k + 1, frac, div =>
    if frac > 0 then
      let (ds, frac', div') := digitLoop k (frac % div) (div / 10)
      (frac / div :: ds, frac', div')
    else ([], frac, div)

/-- `core::time` `fmt_decimal`, the second loop (used at `summarize/src/main.rs:262`): add one to the last digit, with carry; whether the carry leaves the digits. -/
def roundUp : List Nat → List Nat × Bool
  | [] => ([], true)
  | d :: ds =>
    match roundUp ds with
    | (ds', false) => (d :: ds', false)
    | (ds', true) => if d < 9 then ((d + 1) :: ds', false) else (0 :: ds', true)

/-- `core::time` `fmt_decimal` (used at `summarize/src/main.rs:262`): `int` whole units and `frac / (10 * div)` of a unit; ties are rounded to even. -/
def fmtDecimal (precision : Option Nat) (int frac div : Nat) (unit : Bytes) : Bytes :=
  let r := digitLoop ((precision.map (min · 9)).getD 9) frac div
  let up : Bool := decide (r.2.1 > 0) && decide (r.2.1 ≥ r.2.2 * 5) &&
    !(decide (r.2.1 = r.2.2 * 5) && decide ((r.1.getLast?.getD int) % 2 = 0))
  let ds := if up then (roundUp r.1).1 else r.1
  let int' := if up && (roundUp r.1).2 then int + 1 else int
  let width := precision.getD r.1.length
  utf8 (decimal int') ++
    (if (precision.map (min · 9)).getD r.1.length > 0 then
      0x2E :: (ds ++ List.replicate (width - ds.length) 0).map fun d => UInt8.ofNat (48 + d)
     else []) ++ unit

/-- `core::time` `impl Debug for Duration` (`{:?}` and `{:.2?}`, used at `summarize/src/main.rs:262,265,271-281,290`); `n` is in nanoseconds. -/
def durationDebug (precision : Option Nat) (n : Nat) : Bytes :=
  if n ≥ 1000000000 then fmtDecimal precision (n / 1000000000) (n % 1000000000) 100000000 (utf8 "s")
  else if n ≥ 1000000 then fmtDecimal precision (n / 1000000) (n % 1000000) 100000 (utf8 "ms")
  else if n ≥ 1000 then fmtDecimal precision (n / 1000) (n % 1000) 100 (utf8 "µs")
  else fmtDecimal precision n 0 1 (utf8 "ns")

/-- `summarize/src/diff.rs:267-277` `impl Debug for SignedDuration`: the sign, then the duration, formatted with `{:?}` whatever precision was asked for. -/
def signedDebug (_precision : Option Nat) (d : SignedDuration) : Bytes :=
  (if d.isPositive then utf8 "+" else utf8 "-") ++ durationDebug none d.duration

/-- `format!("{}", n)` of an `i64` (`{:.2?}` of an integer is the same), as used at `summarize/src/main.rs:158`. -/
def intText (n : Int) : Bytes := if n < 0 then utf8 "-" ++ utf8 (decimal n.natAbs) else utf8 (decimal n.natAbs)

/-- `format!("{:+}", n)` of an `i64`, as used at `summarize/src/main.rs:135-136`. -/
def plusText (n : Int) : Bytes := if n < 0 then utf8 "-" ++ utf8 (decimal n.natAbs) else utf8 "+" ++ utf8 (decimal n.natAbs)

/-- `summarize/src/main.rs:110-121`: the titles of `summarize diff`. -/
def diffTitles : List Bytes :=
  [utf8 "Item", utf8 "Self Time", utf8 "Self Time Change", utf8 "Time", utf8 "Time Change", utf8 "Item count", utf8 "Cache hits", utf8 "Blocked time",
    utf8 "Incremental load time", utf8 "Incremental hashing time"]

/-- `summarize/src/main.rs:129-140`: one row of `summarize diff`; `pct` is `{:+.2}` of a relative change. -/
def diffRow (pct : Change → Bytes) (q : QueryDataDiff) : List Bytes :=
  [q.label, signedDebug (some 2) q.selfTime, pct q.selfTimeChange ++ utf8 "%", signedDebug (some 2) q.time, pct q.timeChange ++ utf8 "%",
    plusText q.invocationCount, plusText q.numberOfCacheHits, signedDebug (some 2) q.blockedTime, signedDebug (some 2) q.incrementalLoadTime,
    signedDebug (some 2) q.incrementalHashingTime]

/-- `summarize/src/main.rs:156-159`: one row of the artifacts of `summarize diff`. -/
def diffArtifactRow (a : ArtifactSizeDiff) : List Bytes := [a.label, intText a.sizeChange ++ utf8 " bytes"]

/-- `summarize/src/main.rs:108-163`: what `summarize diff` prints: a table, a line, a table. -/
def diffPrinted (pct : Change → Bytes) (exclude : List Bytes) (r : DiffResults) : List (List Bytes) × Bytes × List (List Bytes) :=
  (diffTitles :: (shownRows exclude r).1.map (diffRow pct), utf8 "Total cpu time: " ++ signedDebug none r.totalTime,
    [utf8 "Item", utf8 "Artifact Size Change"] :: (shownRows exclude r).2.map diffArtifactRow)

/-- `summarize/src/main.rs:260-285`: the text of a cell; `pct` is `{:.3}`. -/
def cellText {F : Type} (pct : F → Bytes) : Summarize.Cell F → Bytes
  | .text b => b
  | .duration n => durationDebug (some 2) n
  | .percent x => pct x
  | .count n => utf8 (decimal n)

/-- `summarize/src/main.rs:223-310`: what `summarize summarize` prints: a table, one or two lines, a table. -/
def summaryPrinted {F : Type} (pct : F → Bytes) (o : Summarize.Output F) : List (List Bytes) × List Bytes × List (List Bytes) :=
  (o.titles :: o.rows.map (·.map (cellText pct)),
    (utf8 "Total cpu time: " ++ durationDebug none o.total) ::
      (match o.share with
       | some s => [utf8 "Filtered results account for " ++ pct s ++ utf8 "% of total time."]
       | none => []),
    [utf8 "Item", utf8 "Artifact Size"] :: o.artifacts.map fun a => [a.1, utf8 (decimal a.2) ++ utf8 " bytes"])

end Verif.Print
