import Verif.Model.Diff

/-! # Specification vocabulary for `summarize diff` -/

namespace Verif.Spec

open Verif Verif.Mm Verif.Analyze Verif.Diff

/-- The number a signed duration stands for. -/
def signed (d : SignedDuration) : Int := if d.isPositive then (d.duration : Int) else -(d.duration : Int)

/-- The last entry with a label. -/
def latest {α : Type} (l : Bytes) (data : List (Bytes × α)) : Option α := ((data.filter fun x => decide (x.1 = l)).map (·.2)).getLast?

/-- A column of the entry with a label; zero if there is none. -/
def column {α : Type} (f : α → Nat) (l : Bytes) (data : List (Bytes × α)) : Int := (((latest l data).map f).getD 0 : Nat)

/-- The difference of a column. -/
def delta {α : Type} (f : α → Nat) (l : Bytes) (base change : List (Bytes × α)) : Int := column f l change - column f l base

/-- The relative change of a column: unless the item is gone or new, the difference and the base it is relative to. -/
def relative {α : Type} (f : α → Nat) (l : Bytes) (base change : List (Bytes × α)) : Change :=
  match latest l base, latest l change with
  | some b, some c => .percent ((f c : Int) - f b) (f b)
  | some _, none => .gone
  | none, _ => .new

/-- Times below 2⁶⁴ nanoseconds (584 years), counts and sizes below 2⁶³. -/
structure Modest (r : Results) : Prop where
  data : ∀ x ∈ r.queryData, x.2.time < 2 ^ 64 ∧ x.2.selfTime < 2 ^ 64 ∧ x.2.blockedTime < 2 ^ 64 ∧ x.2.incrementalLoadTime < 2 ^ 64 ∧
    x.2.incrementalHashingTime < 2 ^ 64 ∧ x.2.numberOfCacheMisses < 2 ^ 63 ∧ x.2.numberOfCacheHits < 2 ^ 63 ∧
    x.2.invocationCount < 2 ^ 63
  sizes : ∀ x ∈ r.artifactSizes, x.2 < 2 ^ 63
  total : r.totalTime < 2 ^ 64

/-- One row of the difference is right. -/
structure RowDiff (base change : List (Bytes × QueryData)) (q : QueryDataDiff) : Prop where
  time : signed q.time = delta (·.time) q.label base change
  timeChange : q.timeChange = relative (·.time) q.label base change
  selfTime : signed q.selfTime = delta (·.selfTime) q.label base change
  selfTimeChange : q.selfTimeChange = relative (·.selfTime) q.label base change
  misses : q.numberOfCacheMisses = delta (·.numberOfCacheMisses) q.label base change
  hits : q.numberOfCacheHits = delta (·.numberOfCacheHits) q.label base change
  count : q.invocationCount = delta (·.invocationCount) q.label base change
  blocked : signed q.blockedTime = delta (·.blockedTime) q.label base change
  load : signed q.incrementalLoadTime = delta (·.incrementalLoadTime) q.label base change
  hashing : signed q.incrementalHashingTime = delta (·.incrementalHashingTime) q.label base change

/-- The difference between two results: one row for every label of either, each column the change minus the base, rows by
decreasing size of the change in self time; likewise for artifacts, by decreasing change of size. -/
structure IsDiff (base change : Results) (r : DiffResults) : Prop where
  distinct : (r.queryData.map (·.label)).Nodup
  labels : ∀ l, l ∈ r.queryData.map (·.label) ↔ l ∈ base.queryData.map (·.1) ∨ l ∈ change.queryData.map (·.1)
  rows : ∀ q ∈ r.queryData, RowDiff base.queryData change.queryData q
  sorted : r.queryData.Pairwise fun a b => (signed b.selfTime).natAbs ≤ (signed a.selfTime).natAbs
  artifactsDistinct : (r.artifactSizes.map (·.label)).Nodup
  artifactLabels : ∀ l, l ∈ r.artifactSizes.map (·.label) ↔ l ∈ base.artifactSizes.map (·.1) ∨ l ∈ change.artifactSizes.map (·.1)
  artifacts : ∀ a ∈ r.artifactSizes, a.sizeChange = delta id a.label base.artifactSizes change.artifactSizes
  artifactsSorted : r.artifactSizes.Pairwise fun a b => b.sizeChange ≤ a.sizeChange
  total : signed r.totalTime = (change.totalTime : Int) - base.totalTime

end Verif.Spec
