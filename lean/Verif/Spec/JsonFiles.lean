import Verif.Spec.JsonText
import Verif.Spec.Crox
import Verif.Spec.Path
import Verif.Model.Analysis

/-!
# What the JSON files of the tools say

The values of the documents, by the members of their objects: an object may have its members in any order.
-/

namespace Verif.Spec

open Verif Verif.Mm Verif.Decode Verif.Analyze Verif.Json

/-- The value is an object with exactly one member of this name, and this is its value. -/
def Field (v : Value) (name : String) (x : Value) : Prop := ∃ fs, v = .obj fs ∧ fs.filter (fun f => f.1 = utf8 name) = [(utf8 name, x)]

/-- The value is an object without members of other names. -/
def OnlyFields (v : Value) (names : List String) : Prop := ∃ fs, v = .obj fs ∧ ∀ f ∈ fs, ∃ n ∈ names, f.1 = utf8 n

/-! ## Trace events (Trace Event Format) -/

/-- Intervals of at least the given number of microseconds, if one is given. -/
def longSpan (minimum : Option Nat) : EventPayload → Bool
  | .timestamp (.interval s t) => match minimum with
    | some m => decide (m * 1000 ≤ t - s)
    | none => true
  | _ => false

/-- The arguments of an event: nothing, or an object with the members `arg0`, `arg1`, … -/
def TraceArgs (args : List Bytes) (v : Value) : Prop :=
  (args = [] ∧ v = .null) ∨ (args ≠ [] ∧ (∀ (i : Nat) (a : Bytes), args[i]? = some a → Field v ("arg" ++ toString i) (.str a)) ∧
    OnlyFields v ((List.range args.length).map fun i => "arg" ++ toString i))

/-- A complete event: the texts of the event, the whole microseconds of its start and length, the process, the lane of its thread. -/
def TraceEvent (pid : Nat) (lane : UInt32 → Nat) (l : LightweightEvent) (e : Event) (v : Value) : Prop :=
  ∃ s t a, l.payload = .timestamp (.interval s t) ∧ s ≤ t ∧
    Field v "name" (.str e.label) ∧ Field v "cat" (.str e.eventKind) ∧ Field v "ph" (.str (utf8 "X")) ∧
    Field v "ts" (.num (s / 1000)) ∧ Field v "dur" (.num ((t - s) / 1000)) ∧
    Field v "pid" (.num pid) ∧ Field v "tid" (.num (lane l.threadId)) ∧ Field v "args" a ∧ TraceArgs e.additionalData a ∧
    OnlyFields v ["name", "cat", "ph", "ts", "dur", "pid", "tid", "args"]

/-- A metadata record about a process, with one argument. -/
def TraceMeta (pid : Nat) (name arg : String) (x : Value) (v : Value) : Prop :=
  ∃ a, Field v "name" (.str (utf8 name)) ∧ Field v "cat" (.str []) ∧ Field v "ph" (.str (utf8 "M")) ∧ Field v "ts" (.num 0) ∧
    Field v "pid" (.num pid) ∧ Field v "tid" (.num 0) ∧ Field v "args" a ∧ Field a arg x ∧ OnlyFields a [arg] ∧
    OnlyFields v ["name", "cat", "ph", "ts", "pid", "tid", "args"]

/-- What a trace says about one profile: its intervals that are long enough, in order; the name of the crate, if the command line has
one; the start time. -/
def ProfileTrace (minimum : Option Nat) (collapse : Bool) (p : ProfilingData) (vs : List Value) : Prop :=
  ∃ les lane events names index, p.lightEvents = .ok les ∧ vs = events ++ names ++ [index] ∧
    (collapse = true → ValidLanes les lane) ∧ (collapse = false → ∀ t, lane t = t.toNat) ∧
    List.Forall₂ (fun l v => ∃ e, p.decodeFull l.eventIndex = .ok e ∧ TraceEvent p.metadata.processId lane l e v)
      (les.filter fun l => longSpan minimum l.payload) events ∧
    (∀ n, NamesCrate p.metadata.cmd n → ∃ v, names = [v] ∧ TraceMeta p.metadata.processId "process_name" "name" (.str n) v) ∧
    ((¬ ∃ n, NamesCrate p.metadata.cmd n) → names = []) ∧
    TraceMeta p.metadata.processId "process_sort_index" "sort_index" (.num (p.metadata.startTime / 1000 % 2 ^ 64)) index

/-- A file of a directory that has the extension `mm_profdata`. -/
def IsProfile (f : Bytes) : Prop := ∃ dir stem, Names f dir (stem ++ utf8 ".mm_profdata") ∧ stem ≠ []

/-! ## Saved results -/

/-- A duration: seconds and nanoseconds. -/
def SavedDuration (d : Nat) (v : Value) : Prop :=
  Field v "secs" (.num (d / 1000000000)) ∧ Field v "nanos" (.num (d % 1000000000)) ∧ OnlyFields v ["secs", "nanos"]

/-- One row of the results. -/
def SavedQuery (q : Bytes × QueryData) (v : Value) : Prop :=
  ∃ t s b l h, Field v "label" (.str q.1) ∧ Field v "time" t ∧ SavedDuration q.2.time t ∧ Field v "self_time" s ∧ SavedDuration q.2.selfTime s ∧
    Field v "number_of_cache_misses" (.num q.2.numberOfCacheMisses) ∧ Field v "number_of_cache_hits" (.num q.2.numberOfCacheHits) ∧
    Field v "invocation_count" (.num q.2.invocationCount) ∧ Field v "blocked_time" b ∧ SavedDuration q.2.blockedTime b ∧
    Field v "incremental_load_time" l ∧ SavedDuration q.2.incrementalLoadTime l ∧
    Field v "incremental_hashing_time" h ∧ SavedDuration q.2.incrementalHashingTime h

/-- One artifact. -/
def SavedArtifact (a : Bytes × Nat) (v : Value) : Prop := Field v "label" (.str a.1) ∧ Field v "value" (.num a.2)

/-- The results of an analysis. -/
def SavedResults (r : Results) (v : Value) : Prop :=
  ∃ qs as t, Field v "query_data" (.arr qs) ∧ List.Forall₂ SavedQuery r.queryData qs ∧ Field v "artifact_sizes" (.arr as) ∧
    List.Forall₂ SavedArtifact r.artifactSizes as ∧ Field v "total_time" t ∧ SavedDuration r.totalTime t

/-- The names of the members are UTF-8, everywhere in the value. -/
inductive ProperKeys : Value → Prop
  | null : ProperKeys .null
  | bool (b : Bool) : ProperKeys (.bool b)
  | num (n : Nat) : ProperKeys (.num n)
  | real (t : Bytes) : ProperKeys (.real t)
  | str (s : Bytes) : ProperKeys (.str s)
  | arr {vs : List Value} : (∀ v ∈ vs, ProperKeys v) → ProperKeys (.arr vs)
  | obj {fs : List (Bytes × Value)} : (∀ f ∈ fs, validUtf8 f.1 = true) → (∀ f ∈ fs, ProperKeys f.2) → ProperKeys (.obj fs)

/-- What the types of the results can hold: texts in UTF-8, counts and sizes of 64 bits, durations of 64 bits of seconds. -/
structure Fits (r : Results) : Prop where
  labels : ∀ q ∈ r.queryData, validUtf8 q.1 = true
  times : ∀ q ∈ r.queryData, q.2.time / 1000000000 < 2 ^ 64 ∧ q.2.selfTime / 1000000000 < 2 ^ 64 ∧ q.2.blockedTime / 1000000000 < 2 ^ 64 ∧
    q.2.incrementalLoadTime / 1000000000 < 2 ^ 64 ∧ q.2.incrementalHashingTime / 1000000000 < 2 ^ 64
  counts : ∀ q ∈ r.queryData, q.2.numberOfCacheMisses < 2 ^ 64 ∧ q.2.numberOfCacheHits < 2 ^ 64 ∧ q.2.invocationCount < 2 ^ 64
  artifacts : ∀ a ∈ r.artifactSizes, validUtf8 a.1 = true ∧ a.2 < 2 ^ 64
  total : r.totalTime / 1000000000 < 2 ^ 64

end Verif.Spec
