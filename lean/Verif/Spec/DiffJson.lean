import Verif.Spec.JsonFiles
import Verif.Spec.Diff

/-! # What the file of `summarize diff --json` says about two results -/

namespace Verif.Spec

open Verif Verif.Mm Verif.Analyze Verif.Json

/-- An integer. -/
def SavedInt (n : Int) (v : Value) : Prop :=
  (∃ k : Nat, n = k ∧ v = .num k) ∨ (∃ k : Nat, 0 < k ∧ n = -(k : Int) ∧ v = .real (utf8 ("-" ++ toString k)))

/-- A signed number of nanoseconds; the sign of zero is not determined. -/
def SavedSigned (n : Int) (v : Value) : Prop :=
  ∃ d b, Field v "duration" d ∧ SavedDuration n.natAbs d ∧ Field v "is_positive" (.bool b) ∧ (0 < n → b = true) ∧ (n < 0 → b = false) ∧
    OnlyFields v ["duration", "is_positive"]

/-- A relative change of a column of the item `l`, in percent; `null` for a new item and when the base is zero, `-100.0` for an item that
is gone. -/
def SavedChange (percent : Int → Nat → Bytes) (f : QueryData → Nat) (l : Bytes) (base change : List (Bytes × QueryData)) (v : Value) : Prop :=
  match latest l base, latest l change with
  | none, _ => v = .null
  | some _, none => v = .real (utf8 "-100.0")
  | some b, some c => (f b = 0 ∧ v = .null) ∨ (f b ≠ 0 ∧ v = .real (percent ((f c : Int) - f b) (f b)))

/-- The row of the item `l`. -/
def SavedDiffRow (percent : Int → Nat → Bytes) (base change : List (Bytes × QueryData)) (l : Bytes) (v : Value) : Prop :=
  ∃ t tc s sc m h i b ld hs, Field v "label" (.str l) ∧ Field v "time" t ∧ SavedSigned (delta (·.time) l base change) t ∧
    Field v "time_change" tc ∧ SavedChange percent (·.time) l base change tc ∧
    Field v "self_time" s ∧ SavedSigned (delta (·.selfTime) l base change) s ∧
    Field v "self_time_change" sc ∧ SavedChange percent (·.selfTime) l base change sc ∧
    Field v "number_of_cache_misses" m ∧ SavedInt (delta (·.numberOfCacheMisses) l base change) m ∧
    Field v "number_of_cache_hits" h ∧ SavedInt (delta (·.numberOfCacheHits) l base change) h ∧
    Field v "invocation_count" i ∧ SavedInt (delta (·.invocationCount) l base change) i ∧
    Field v "blocked_time" b ∧ SavedSigned (delta (·.blockedTime) l base change) b ∧
    Field v "incremental_load_time" ld ∧ SavedSigned (delta (·.incrementalLoadTime) l base change) ld ∧
    Field v "incremental_hashing_time" hs ∧ SavedSigned (delta (·.incrementalHashingTime) l base change) hs ∧
    OnlyFields v ["label", "time", "time_change", "self_time", "self_time_change", "number_of_cache_misses", "number_of_cache_hits",
      "invocation_count", "blocked_time", "incremental_load_time", "incremental_hashing_time"]

/-- The row of the artifact `l`. -/
def SavedArtifactDiff (base change : List (Bytes × Nat)) (l : Bytes) (v : Value) : Prop :=
  ∃ n, Field v "label" (.str l) ∧ Field v "size_change" n ∧ SavedInt (delta id l base change) n ∧ OnlyFields v ["label", "size_change"]

/-- The difference of two results: a row for every label of either, by decreasing size of the change of self time; a row for every
artifact of either, by decreasing change of size; the difference of the total times. -/
def SavedDiff (percent : Int → Nat → Bytes) (base change : Results) (v : Value) : Prop :=
  ∃ rows arts total, ∃ labels artifacts : List Bytes,
    Field v "query_data" (.arr rows) ∧ List.Forall₂ (SavedDiffRow percent base.queryData change.queryData) labels rows ∧
    labels.Nodup ∧ (∀ l, l ∈ labels ↔ l ∈ base.queryData.map (·.1) ∨ l ∈ change.queryData.map (·.1)) ∧
    labels.Pairwise (fun a b => (delta (·.selfTime) b base.queryData change.queryData).natAbs ≤ (delta (·.selfTime) a base.queryData change.queryData).natAbs) ∧
    Field v "artifact_sizes" (.arr arts) ∧ List.Forall₂ (SavedArtifactDiff base.artifactSizes change.artifactSizes) artifacts arts ∧
    artifacts.Nodup ∧ (∀ l, l ∈ artifacts ↔ l ∈ base.artifactSizes.map (·.1) ∨ l ∈ change.artifactSizes.map (·.1)) ∧
    artifacts.Pairwise (fun a b => delta id b base.artifactSizes change.artifactSizes ≤ delta id a base.artifactSizes change.artifactSizes) ∧
    Field v "total_time" total ∧ SavedSigned ((change.totalTime : Int) - base.totalTime) total ∧
    OnlyFields v ["query_data", "artifact_sizes", "total_time"]

end Verif.Spec
