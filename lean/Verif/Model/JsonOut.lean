import Verif.Model.Json
import Verif.Model.Tools

/-!
# Model of the JSON files the tools write and read

`serde_json`'s compact writer, the `Serialize` and `Deserialize` implementations derived for the results of an analysis, crox's
output file.  As for the reader (`Model/Json`), the library is modelled, not its source.
-/

namespace Verif.Json

open Verif Verif.Mm Verif.Decode Verif.Analyze Verif.Paths Verif.Tools

/-! ## The writer -/

/-- A lower-case hexadecimal digit (`serde_json::to_writer`, `summarize/src/main.rs:80`). -/
def hexOut (n : Nat) : UInt8 := UInt8.ofNat (if n < 10 then 0x30 + n else 0x57 + n)

/-- How a byte of a string is written: quotes, backslashes and control characters are escaped
(`serde_json::to_writer`, `summarize/src/main.rs:80`, `crox/src/main.rs:177`). -/
def escapeByte (b : UInt8) : Bytes :=
  if b = 0x22 then [0x5C, 0x22]
  else if b = 0x5C then [0x5C, 0x5C]
  else if b = 0x08 then [0x5C, 0x62]
  else if b = 0x0C then [0x5C, 0x66]
  else if b = 0x0A then [0x5C, 0x6E]
  else if b = 0x0D then [0x5C, 0x72]
  else if b = 0x09 then [0x5C, 0x74]
  else if b < 0x20 then [0x5C, 0x75, 0x30, 0x30, hexOut (b.toNat / 16), hexOut (b.toNat % 16)]
  else [b]

/-- A string with its quotes (`summarize/src/main.rs:80`, `crox/src/main.rs:177`). -/
def quote (s : Bytes) : Bytes := 0x22 :: (s.flatMap escapeByte ++ [0x22])

mutual
/-- The text of a value, without white space (`serde_json::to_writer`, `summarize/src/main.rs:80`; `serialize_element`,
`crox/src/main.rs:177,202,215`). -/
def render : Value → Bytes
  | .null => [0x6E, 0x75, 0x6C, 0x6C]
  | .bool true => [0x74, 0x72, 0x75, 0x65]
  | .bool false => [0x66, 0x61, 0x6C, 0x73, 0x65]
  | .num n => utf8 (decimal n)
  | .real t => t
  | .str s => quote s
  | .arr vs => 0x5B :: (renderElems vs ++ [0x5D])
  | .obj fs => 0x7B :: (renderMembers fs ++ [0x7D])
/-- The elements of an array, separated by commas (`summarize/src/main.rs:80`, `crox/src/main.rs:141,177`). -/
def renderElems : List Value → Bytes
  | [] => []
  | [v] => render v
  | v :: w :: vs => render v ++ 0x2C :: renderElems (w :: vs)
/-- The members of an object, separated by commas (`summarize/src/main.rs:80`, `crox/src/main.rs:177`). -/
def renderMembers : List (Bytes × Value) → Bytes
  | [] => []
  | [(k, v)] => quote k ++ 0x3A :: render v
  | (k, v) :: g :: fs => quote k ++ 0x3A :: (render v ++ 0x2C :: renderMembers (g :: fs))
end

/-! ## Results of an analysis -/

/-- `impl Serialize for Duration` (`serde`, used at `analyzeme/src/analysis.rs:282,305`). -/
def durationValue (d : Nat) : Value := .obj [(utf8 "secs", .num (d / 1000000000)), (utf8 "nanos", .num (d % 1000000000))]

/-- `derive(Serialize)` for `QueryData` (`analyzeme/src/analysis.rs:305-316`). -/
def queryValue (q : Bytes × QueryData) : Value :=
  .obj [(utf8 "label", .str q.1), (utf8 "time", durationValue q.2.time), (utf8 "self_time", durationValue q.2.selfTime),
    (utf8 "number_of_cache_misses", .num q.2.numberOfCacheMisses), (utf8 "number_of_cache_hits", .num q.2.numberOfCacheHits),
    (utf8 "invocation_count", .num q.2.invocationCount), (utf8 "blocked_time", durationValue q.2.blockedTime),
    (utf8 "incremental_load_time", durationValue q.2.incrementalLoadTime),
    (utf8 "incremental_hashing_time", durationValue q.2.incrementalHashingTime)]

/-- `derive(Serialize)` for `ArtifactSize` (`analyzeme/src/analysis.rs:327-331`). -/
def artifactValue (a : Bytes × Nat) : Value := .obj [(utf8 "label", .str a.1), (utf8 "value", .num a.2)]

/-- `derive(Serialize)` for `AnalysisResults` (`analyzeme/src/analysis.rs:282-287`). -/
def resultsValue (r : Results) : Value :=
  .obj [(utf8 "query_data", .arr (r.queryData.map queryValue)), (utf8 "artifact_sizes", .arr (r.artifactSizes.map artifactValue)),
    (utf8 "total_time", durationValue r.totalTime)]

/-- `summarize/src/main.rs:75-82` `write_results_json`: the contents of the file. -/
def writeResults (r : Results) : Bytes := render (resultsValue r)

/-- A `u64` or `usize`. -/
def natOf : Value → Option Nat
  | .num n => if n < 2 ^ 64 then some n else none
  | _ => none

/-- A `String`; `from_reader` checks that it is UTF-8. -/
def textOf : Value → Option Bytes
  | .str s => if validUtf8 s then some s else none
  | _ => none

/-- The values of the named fields of a struct given as an object: each exactly once, in any order, other members ignored; or given
as an array of the values in order.  Names must be UTF-8. -/
def structOf (names : List Bytes) : Value → Option (List Value)
  | .obj fs =>
    if fs.all (fun f => validUtf8 f.1) then
      names.mapM fun n => match fieldValues n fs with
        | [v] => some v
        | _ => none
    else none
  | .arr vs => if vs.length = names.length then some vs else none
  | _ => none

/-- `impl Deserialize for Duration` (`serde`, used at `analyzeme/src/analysis.rs:282,305`): unknown members are refused, nanoseconds
beyond a second are carried, and the result must fit. -/
def durationOf (v : Value) : Option Nat :=
  match v with
  | .obj fs => if fs.any (fun f => f.1 ≠ utf8 "secs" && f.1 ≠ utf8 "nanos") then none else go v
  | _ => go v
where
  go (v : Value) : Option Nat :=
    match structOf [utf8 "secs", utf8 "nanos"] v with
    | some [.num s, .num n] =>
      if s < 2 ^ 64 ∧ n < 2 ^ 32 ∧ s + n / 1000000000 < 2 ^ 64 then some (s * 1000000000 + n) else none
    | _ => none

/-- `derive(Deserialize)` for `QueryData` (`analyzeme/src/analysis.rs:305-316`). -/
def queryOf (v : Value) : Option (Bytes × QueryData) :=
  match structOf [utf8 "label", utf8 "time", utf8 "self_time", utf8 "number_of_cache_misses", utf8 "number_of_cache_hits",
      utf8 "invocation_count", utf8 "blocked_time", utf8 "incremental_load_time", utf8 "incremental_hashing_time"] v with
  | some [l, t, s, m, h, i, b, il, ih] => do
    let l ← textOf l
    let t ← durationOf t
    let s ← durationOf s
    let m ← natOf m
    let h ← natOf h
    let i ← natOf i
    let b ← durationOf b
    let il ← durationOf il
    let ih ← durationOf ih
    some (l, { time := t, selfTime := s, numberOfCacheMisses := m, numberOfCacheHits := h, invocationCount := i, blockedTime := b,
               incrementalLoadTime := il, incrementalHashingTime := ih })
  | _ => none

/-- `derive(Deserialize)` for `ArtifactSize` (`analyzeme/src/analysis.rs:327-331`). -/
def artifactOf (v : Value) : Option (Bytes × Nat) :=
  match structOf [utf8 "label", utf8 "value"] v with
  | some [l, n] => do
    let l ← textOf l
    let n ← natOf n
    some (l, n)
  | _ => none

/-- A `Vec`. -/
def listOf {α : Type} (f : Value → Option α) : Value → Option (List α)
  | .arr vs => vs.mapM f
  | _ => none

/-- `derive(Deserialize)` for `AnalysisResults` (`analyzeme/src/analysis.rs:282-287`). -/
def resultsOf (v : Value) : Option Results :=
  match structOf [utf8 "query_data", utf8 "artifact_sizes", utf8 "total_time"] v with
  | some [q, a, t] => do
    let q ← listOf queryOf q
    let a ← listOf artifactOf a
    let t ← durationOf t
    some { queryData := q, artifactSizes := a, totalTime := t }
  | _ => none

/-- `summarize/src/main.rs:64-67`: `serde_json::from_reader::<AnalysisResults>`. -/
def readResults (b : Bytes) : Except Fault Results :=
  match parseDocument b with
  | none => .error (.err "serde_json error")
  | some v =>
    match resultsOf v with
    | some r => .ok r
    | none => .error (.err "serde_json error")

/-- `summarize/src/main.rs:167-176` `summarize --json`: the file that is written, and its contents. -/
def summarizeJsonTool (env : Env) (stem : Bytes) : Except Fault (Bytes × Bytes) := do
  let p ← openProfile env.v8New env.fuel env.files stem
  let r ← performAnalysis env.checks p
  .ok (resultsPath stem, writeResults r)

/-! ## Differences -/

/-- An `i64` (`summarize/src/diff.rs:107-109,191`). -/
def intValue (n : Int) : Value := if 0 ≤ n then .num n.natAbs else .real (0x2D :: utf8 (decimal n.natAbs))

/-- `derive(Serialize)` for `SignedDuration` (`summarize/src/diff.rs:216-220`). -/
def signedValue (d : Diff.SignedDuration) : Value :=
  .obj [(utf8 "duration", durationValue d.duration), (utf8 "is_positive", .bool d.isPositive)]

/-- An `f64` (`summarize/src/diff.rs:104,106`); `percent` is the text of `delta / base * 100`.  What is not finite is written as
`null`: new items, and changes of items that took no time. -/
def changeValue (percent : Int → Nat → Bytes) : Diff.Change → Value
  | .percent delta base => if base = 0 then .null else .real (percent delta base)
  | .gone => .real (utf8 "-100.0")
  | .new => .null

/-- `derive(Serialize)` for `QueryDataDiff` (`summarize/src/diff.rs:100-113`). -/
def queryDiffValue (percent : Int → Nat → Bytes) (q : Diff.QueryDataDiff) : Value :=
  .obj [(utf8 "label", .str q.label), (utf8 "time", signedValue q.time), (utf8 "time_change", changeValue percent q.timeChange),
    (utf8 "self_time", signedValue q.selfTime), (utf8 "self_time_change", changeValue percent q.selfTimeChange),
    (utf8 "number_of_cache_misses", intValue q.numberOfCacheMisses), (utf8 "number_of_cache_hits", intValue q.numberOfCacheHits),
    (utf8 "invocation_count", intValue q.invocationCount), (utf8 "blocked_time", signedValue q.blockedTime),
    (utf8 "incremental_load_time", signedValue q.incrementalLoadTime), (utf8 "incremental_hashing_time", signedValue q.incrementalHashingTime)]

/-- `derive(Serialize)` for `ArtifactSizeDiff` (`summarize/src/diff.rs:187-192`). -/
def artifactDiffValue (a : Diff.ArtifactSizeDiff) : Value := .obj [(utf8 "label", .str a.label), (utf8 "size_change", intValue a.sizeChange)]

/-- `derive(Serialize)` for `DiffResults` (`summarize/src/diff.rs:9-14`). -/
def diffValue (percent : Int → Nat → Bytes) (r : Diff.DiffResults) : Value :=
  .obj [(utf8 "query_data", .arr (r.queryData.map (queryDiffValue percent))), (utf8 "artifact_sizes", .arr (r.artifactSizes.map artifactDiffValue)),
    (utf8 "total_time", signedValue r.totalTime)]

/-- `summarize/src/main.rs:97-106` `diff --json`: the file that is written, and its contents. -/
def diffJsonTool (env : Env) (order : List Bytes → List Bytes) (percent : Int → Nat → Bytes) (base change : Bytes) :
    Except Fault (Bytes × Bytes) := do
  let d ← diffTool env readResults order base change
  .ok (resultsPath change, render (diffValue percent d))

/-! ## crox -/

/-- `derive(Serialize)` for crox's `Event` (`crox/src/main.rs:21-42`); `args` are written in the order of a hash map. -/
def eventValue (argOrder : List (Bytes × Bytes) → List (Bytes × Bytes)) (e : Crox.CroxEvent) : Value :=
  .obj [(utf8 "name", .str e.name), (utf8 "cat", .str e.category), (utf8 "ph", .str (utf8 "X")), (utf8 "ts", .num e.ts),
    (utf8 "dur", .num e.dur), (utf8 "pid", .num e.pid), (utf8 "tid", .num e.tid),
    (utf8 "args", match e.args with
      | none => .null
      | some as => .obj ((argOrder as).map fun a => (a.1, .str a.2)))]

/-- `crox/src/main.rs:190-200`: the record of the process name; `json!` sorts the members. -/
def processNameValue (n : Nat × Bytes) : Value :=
  .obj [(utf8 "args", .obj [(utf8 "name", .str n.2)]), (utf8 "cat", .str []), (utf8 "name", .str (utf8 "process_name")),
    (utf8 "ph", .str (utf8 "M")), (utf8 "pid", .num n.1), (utf8 "tid", .num 0), (utf8 "ts", .num 0)]

/-- `crox/src/main.rs:204-214`: the record of the sort index. -/
def sortIndexValue (pid index : Nat) : Value :=
  .obj [(utf8 "args", .obj [(utf8 "sort_index", .num index)]), (utf8 "cat", .str []), (utf8 "name", .str (utf8 "process_sort_index")),
    (utf8 "ph", .str (utf8 "M")), (utf8 "pid", .num pid), (utf8 "tid", .num 0), (utf8 "ts", .num 0)]

/-- `crox/src/main.rs:147-216`: the elements written for one profile, and how it ended. -/
def croxElements (env : Env) (opt : Crox.Opt) (sortEnds sortStarts : List (Nat × UInt32) → List (Nat × UInt32))
    (argOrder : List (Bytes × Bytes) → List (Bytes × Bytes)) (stem : Bytes) : List Value × Except Fault Unit :=
  match croxTool env opt sortEnds sortStarts stem with
  | (events, .error e) => (events.map (eventValue argOrder), .error e)
  | (events, .ok (pid, name, index)) =>
    (events.map (eventValue argOrder) ++ name.toList.map processNameValue ++ [sortIndexValue pid index], .ok ())

/-- `crox/src/main.rs:146-216`, the loop over the profiles: the elements written, and how it ended. -/
def croxRun (elements : Bytes → List Value × Except Fault Unit) : List Bytes → List Value × Except Fault Unit
  | [] => ([], .ok ())
  | stem :: rest =>
    match elements stem with
    | (vs, .error e) => (vs, .error e)
    | (vs, .ok _) => (vs ++ (croxRun elements rest).1, (croxRun elements rest).2)

/-- `crox/src/main.rs:219-230` `file_prefixes_in_dir`, on the entries of the directory. -/
def profilesInDir (entries : List Bytes) : List Bytes := entries.filter fun p => decide (extension p = some fileExtension)

/-- `crox/src/main.rs:137-217` `main`: the outcome and the contents of `chrome_profiler.json`; the closing bracket is only written at
the end (`seq.end()`), and what was written before an error stays in the file (the `BufWriter` is flushed when it is dropped).
`dirEntries` is the directory given by `--dir`, or `none` if there is no such option; `.error` if it cannot be read. -/
def croxMain (env : Env) (opt : Crox.Opt) (sortEnds sortStarts : List (Nat × UInt32) → List (Nat × UInt32))
    (argOrder : List (Bytes × Bytes) → List (Bytes × Bytes)) (filePrefix : List Bytes) (dirEntries : Option (Except Fault (List Bytes))) :
    Except Fault Unit × Bytes :=
  match (match dirEntries with
    | none => Except.ok []
    | some d => d.map profilesInDir) with
  | .error e => (.error e, [0x5B])
  | .ok dirPaths =>
    let run := croxRun (croxElements env opt sortEnds sortStarts argOrder) (filePrefix ++ dirPaths)
    (run.2, 0x5B :: (renderElems run.1 ++ match run.2 with
      | .ok _ => [0x5D]
      | .error _ => []))

end Verif.Json
