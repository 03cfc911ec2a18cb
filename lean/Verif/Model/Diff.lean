import Verif.Model.Analysis
import Mathlib.Data.List.Sort

/-!
# Model of `summarize/src/diff.rs` and of the selection of rows in `summarize diff`

Durations are natural numbers of nanoseconds.  The relative changes, floating-point numbers in the code, are kept as what they
are computed from (`Change`).  The order in which a hash set is enumerated is a parameter.
-/

namespace Verif.Diff

open Verif Verif.Mm Verif.Analyze

/-- `summarize/src/diff.rs:216-220` `SignedDuration`. -/
structure SignedDuration where
  duration : Nat
  isPositive : Bool
  deriving DecidableEq, Repr

/-- `summarize/src/diff.rs:223-227` `as_nanos`. -/
def SignedDuration.asNanos (d : SignedDuration) : Int := (if d.isPositive then 1 else -1) * (d.duration : Int)

/-- `summarize/src/diff.rs:229-236` `from_nanos`; the magnitude is cast to `u64`. -/
def SignedDuration.fromNanos (n : Int) : SignedDuration := ⟨n.natAbs % 2 ^ 64, decide (n ≥ 0)⟩

/-- `summarize/src/diff.rs:239-246` `From<Duration>`. -/
def SignedDuration.ofDuration (d : Nat) : SignedDuration := ⟨d, true⟩

/-- `summarize/src/diff.rs:248-252` `Ord::cmp`. -/
def SignedDuration.cmp (a b : SignedDuration) : Ordering := compare a.asNanos b.asNanos

/-- `summarize/src/diff.rs:260-266` `Sub::sub`. -/
def SignedDuration.sub (a b : SignedDuration) : SignedDuration := .fromNanos (a.asNanos - b.asNanos)

/-- `usize as i64`, `u64 as i64` (`summarize/src/diff.rs:122-125,197,204,210`). -/
def asI64 (n : Nat) : Int := if n % 2 ^ 64 < 2 ^ 63 then (n % 2 ^ 64 : Nat) else (n % 2 ^ 64 : Nat) - 2 ^ 64

/-- A result of `i64` arithmetic: with overflow checks it panics, without it wraps. -/
def fitI64 (checks : Bool) (n : Int) : Except Fault Int :=
  if -2 ^ 63 ≤ n ∧ n < 2 ^ 63 then .ok n
  else if checks then .error (.panic "attempt to subtract with overflow") else .ok (Int.bmod n (2 ^ 64))

/-- The relative changes (`summarize/src/diff.rs:127-130,157,171`): computed from a difference and a base, `-100%` for an item that
is gone, infinite for an item that is new. -/
inductive Change where
  | percent (delta : Int) (base : Nat)
  | gone
  | new
  deriving DecidableEq, Repr

/-- `summarize/src/diff.rs:101-113` `QueryDataDiff`. -/
structure QueryDataDiff where
  label : Bytes
  time : SignedDuration
  timeChange : Change
  selfTime : SignedDuration
  selfTimeChange : Change
  numberOfCacheMisses : Int
  numberOfCacheHits : Int
  invocationCount : Int
  blockedTime : SignedDuration
  incrementalLoadTime : SignedDuration
  incrementalHashingTime : SignedDuration
  deriving DecidableEq, Repr

/-- `summarize/src/diff.rs:116-145` `QueryDataDiff::sub`. -/
def QueryDataDiff.sub (checks : Bool) (label : Bytes) (lhs rhs : QueryData) : Except Fault QueryDataDiff := do
  let sd (a b : Nat) : SignedDuration := (SignedDuration.ofDuration a).sub (SignedDuration.ofDuration b)
  let misses ← fitI64 checks (asI64 lhs.numberOfCacheMisses - asI64 rhs.numberOfCacheMisses)
  let hits ← fitI64 checks (asI64 lhs.numberOfCacheHits - asI64 rhs.numberOfCacheHits)
  let count ← fitI64 checks (asI64 lhs.invocationCount - asI64 rhs.invocationCount)
  .ok { label := label
        time := sd lhs.time rhs.time
        timeChange := .percent ((lhs.time : Int) - rhs.time) rhs.time
        selfTime := sd lhs.selfTime rhs.selfTime
        selfTimeChange := .percent ((lhs.selfTime : Int) - rhs.selfTime) rhs.selfTime
        numberOfCacheMisses := misses
        numberOfCacheHits := hits
        invocationCount := count
        blockedTime := sd lhs.blockedTime rhs.blockedTime
        incrementalLoadTime := sd lhs.incrementalLoadTime rhs.incrementalLoadTime
        incrementalHashingTime := sd lhs.incrementalHashingTime rhs.incrementalHashingTime }

/-- `summarize/src/diff.rs:147-169` `invert_query_data`. -/
def QueryDataDiff.invert (checks : Bool) (label : Bytes) (d : QueryData) : Except Fault QueryDataDiff := do
  let invert (a : Nat) : SignedDuration := ⟨a, false⟩
  let misses ← fitI64 checks (-(asI64 d.numberOfCacheMisses))
  let hits ← fitI64 checks (-(asI64 d.numberOfCacheHits))
  let count ← fitI64 checks (-(asI64 d.invocationCount))
  .ok { label := label
        time := invert d.time
        timeChange := .gone
        selfTime := invert d.selfTime
        selfTimeChange := .gone
        numberOfCacheMisses := misses
        numberOfCacheHits := hits
        invocationCount := count
        blockedTime := invert d.blockedTime
        incrementalLoadTime := invert d.incrementalLoadTime
        incrementalHashingTime := invert d.incrementalHashingTime }

/-- `summarize/src/diff.rs:171-185` `query_data_as_diff`. -/
def QueryDataDiff.asDiff (label : Bytes) (d : QueryData) : QueryDataDiff where
  label := label
  time := .ofDuration d.time
  timeChange := .new
  selfTime := .ofDuration d.selfTime
  selfTimeChange := .new
  numberOfCacheMisses := asI64 d.numberOfCacheMisses
  numberOfCacheHits := asI64 d.numberOfCacheHits
  invocationCount := asI64 d.invocationCount
  blockedTime := .ofDuration d.blockedTime
  incrementalLoadTime := .ofDuration d.incrementalLoadTime
  incrementalHashingTime := .ofDuration d.incrementalHashingTime

/-- `summarize/src/diff.rs:188-192` `ArtifactSizeDiff`. -/
structure ArtifactSizeDiff where
  label : Bytes
  sizeChange : Int
  deriving DecidableEq, Repr

/-- `summarize/src/diff.rs:16-32` `build_query_lookup`, `build_artifact_lookup`: label to index; a later one replaces an earlier. -/
def buildLookupFrom {α : Type} : Nat → List (Bytes × α) → List (Bytes × Nat) → List (Bytes × Nat)
  | _, [], m => m
  | i, (l, _) :: rest, m => buildLookupFrom (i + 1) rest (Analyze.insert l i m)

/-- `summarize/src/diff.rs:16-32`. -/
def buildLookup {α : Type} (data : List (Bytes × α)) : List (Bytes × Nat) := buildLookupFrom 0 data []

/-- `summarize/src/diff.rs:54-55,78-79`: `lookup.get(l).map(|i| &data[*i])`. -/
def fetch {α : Type} (data : List (Bytes × α)) (m : List (Bytes × Nat)) (l : Bytes) : Except Fault (Option (Bytes × α)) :=
  match lookup l m with
  | none => .ok none
  | some i => match data[i]? with
    | some d => .ok (some d)
    | none => .error (.panic "index out of bounds")

/-- `summarize/src/diff.rs:43-49,69-74`: the distinct labels, in order of first occurrence; the set's own order is applied by the
caller. -/
def labelSet (labels : List Bytes) : List Bytes := labels.foldl (fun s l => if l ∈ s then s else s ++ [l]) []

/-- `summarize/src/diff.rs:53-63`: the entry for one label. -/
def queryDiff (checks : Bool) (base change : List (Bytes × QueryData)) (l : Bytes) : Except Fault QueryDataDiff := do
  let b ← fetch base (buildLookup base) l
  let c ← fetch change (buildLookup change) l
  match b, c with
  | some b, some c => QueryDataDiff.sub checks c.1 c.2 b.2
  | some b, none => QueryDataDiff.invert checks b.1 b.2
  | none, some c => .ok (QueryDataDiff.asDiff c.1 c.2)
  | none, none => .error (.panic "unreachable")

/-- `summarize/src/diff.rs:77-88,194-213`: the entry for one artifact. -/
def artifactDiff (checks : Bool) (base change : List (Bytes × Nat)) (l : Bytes) : Except Fault ArtifactSizeDiff := do
  let b ← fetch base (buildLookup base) l
  let c ← fetch change (buildLookup change) l
  match b, c with
  | some b, some c => do
    let n ← fitI64 checks (asI64 c.2 - asI64 b.2)
    .ok ⟨c.1, n⟩
  | some b, none => do
    let n ← fitI64 checks (-(asI64 b.2))
    .ok ⟨b.1, n⟩
  | none, some c => .ok ⟨c.1, asI64 c.2⟩
  | none, none => .error (.panic "unreachable")

/-- `Iterator::map` and `collect`. -/
def mapAll {α β : Type} (f : α → Except Fault β) : List α → Except Fault (List β)
  | [] => .ok []
  | a :: as => do
    let b ← f a
    let bs ← mapAll f as
    .ok (b :: bs)

/-- `summarize/src/diff.rs:9-14` `DiffResults`. -/
structure DiffResults where
  queryData : List QueryDataDiff
  artifactSizes : List ArtifactSizeDiff
  totalTime : SignedDuration
  deriving DecidableEq, Repr

/-- `summarize/src/diff.rs:34-97` `calculate_diff`. -/
def calculateDiff (checks : Bool) (order : List Bytes → List Bytes) (base change : Results) : Except Fault DiffResults := do
  let queryData ← mapAll (queryDiff checks base.queryData change.queryData)
    (order (labelSet ((base.queryData ++ change.queryData).map (·.1))))
  let artifactSizes ← mapAll (artifactDiff checks base.artifactSizes change.artifactSizes)
    (order (labelSet ((base.artifactSizes ++ change.artifactSizes).map (·.1))))
  .ok { queryData := queryData.insertionSort fun l r => r.selfTime.duration ≤ l.selfTime.duration
        artifactSizes := artifactSizes.insertionSort fun l r => r.sizeChange ≤ l.sizeChange
        totalTime := (SignedDuration.ofDuration change.totalTime).sub (SignedDuration.ofDuration base.totalTime) }

/-- `str::contains` (`summarize/src/main.rs:124,151`). -/
def containsText (pat : Bytes) : Bytes → Bool
  | [] => decide (pat = [])
  | b :: bs => decide ((b :: bs).take pat.length = pat) || containsText pat bs

/-- `summarize/src/main.rs:123-141,150-159`: the rows of the two tables that are not excluded. -/
def shownRows (exclude : List Bytes) (r : DiffResults) : List QueryDataDiff × List ArtifactSizeDiff :=
  (r.queryData.filter fun q => !exclude.any fun e => containsText e q.label,
   r.artifactSizes.filter fun a => !exclude.any fun e => containsText e a.label)

end Verif.Diff
