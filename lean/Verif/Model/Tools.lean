import Verif.Model.Summarize
import Verif.Model.Collapse
import Verif.Model.Crox
import Verif.Model.Aggregate
import Verif.Model.Diff
import Verif.Model.Path

/-!
# Model of the tools from the files they are given to what they output

Each tool opens the profiles it is given, reads their events and computes its output; printing (tables, SVG) is not modelled, JSON
files are in `Model/JsonOut`.  What is written to which file is in `Model/FileEffects`.
-/

namespace Verif.Tools

open Verif Verif.Mm Verif.Decode Verif.Analyze Verif.Paths

/-- What all tools share: the code of the external version 8 decoder, the stack available to the string reader, whether the
build checks for overflow, the files. -/
structure Env where
  v8New : Bytes → Except Fault OldDecoder
  fuel : Nat
  checks : Bool
  files : Files

/-- `summarize/src/main.rs:68-71` and the first lines of every tool's `main`: open a profile and read its events
(`ProfilingData::new`, then `iter_full`).  Simplification: the tools decode the events one by one. -/
def readEvents (env : Env) (stem : Bytes) : Except Fault (List Event) := do
  let p ← openProfile env.v8New env.fuel env.files stem
  p.fullEvents

/-- `summarize/src/main.rs:167-170,176-275` `summarize`, on the file the user names, without `--json`; `none` is the exit with a
message about the percentage. -/
def summarizeTool {F : Type} (env : Env) (fl : Summarize.Float64 F) (above : F) (stem : Bytes) : Except Fault (Option (Summarize.Output F)) := do
  let p ← openProfile env.v8New env.fuel env.files stem
  let r ← performAnalysis env.checks p
  .ok (Summarize.summarize fl above r)

/-- `summarize/src/main.rs:97-101` `diff`: both profiles are analysed (or read as JSON), then compared. -/
def diffTool (env : Env) (readJson : Bytes → Except Fault Results) (order : List Bytes → List Bytes) (base change : Bytes) :
    Except Fault Diff.DiffResults := do
  let b ← processResults readJson (performAnalysis env.checks) env.v8New env.fuel env.files base
  let c ← processResults readJson (performAnalysis env.checks) env.v8New env.fuel env.files change
  Diff.calculateDiff env.checks order b c

/-- Open and read several profiles, stopping at the first that fails (`summarize/src/main.rs:84-88`). -/
def readAll (env : Env) : List Bytes → Except Fault (List (List Event))
  | [] => .ok []
  | f :: fs => do
    let p ← readEvents env f
    let ps ← readAll env fs
    .ok (p :: ps)

/-- `summarize/src/main.rs:83-94` `aggregate`. -/
def aggregateTool (env : Env) (files : List Bytes) : Except Fault Aggregate.Report := do
  let ps ← readAll env files
  Aggregate.aggregateProfiles ps

/-- `stack_collapse/src/main.rs:18-20`, `flamegraph/src/main.rs:17-18`: open a profile and collapse its stacks. -/
def readCollapsed (env : Env) (stem : Bytes) : Except Fault (List (Bytes × Nat)) := do
  let p ← openProfile env.v8New env.fuel env.files stem
  collapseProfile env.checks p

/-- `stack_collapse/src/main.rs:14-29`: the contents of `out.stacks_folded`. -/
def stackCollapseTool (env : Env) (stem : Bytes) : Except Fault Bytes := do
  let m ← readCollapsed env stem
  .ok (foldedText m)

/-- `crox/src/main.rs:154-178`: the loop over the events, from the `i`-th on: the records written, and how it ended. -/
def croxLoop (p : ProfilingData) (opt : Crox.Opt) (lanes : List (UInt32 × Nat)) : Nat → Nat → List Crox.CroxEvent × Except Fault Unit
  | _, 0 => ([], .ok ())
  | i, k + 1 =>
    match (do let ev ← p.decodeLightweight i
              Crox.croxEvent opt.minimumDuration p.metadata.processId lanes ev.threadId ev.payload (p.decodeFull ev.eventIndex)) with
    | .error e => ([], .error e)
    | .ok x => (x.toList ++ (croxLoop p opt lanes (i + 1) k).1, (croxLoop p opt lanes (i + 1) k).2)

/-- `crox/src/main.rs:62-119,150`: the lanes of a profile; the events are only read when threads are to be collapsed. -/
def croxLanes (opt : Crox.Opt) (sortEnds sortStarts : List (Nat × UInt32) → List (Nat × UInt32)) (p : ProfilingData) :
    Except Fault (List (UInt32 × Nat)) :=
  if opt.collapseThreads then do
    let les ← p.lightEvents
    Crox.laneMapping true sortEnds sortStarts les
  else Crox.laneMapping false sortEnds sortStarts []

/-- `crox/src/main.rs:150-178`: the records written for the events of a profile, and how it ended. -/
def croxBody (opt : Crox.Opt) (sortEnds sortStarts : List (Nat × UInt32) → List (Nat × UInt32)) (p : ProfilingData) :
    List Crox.CroxEvent × Except Fault Unit :=
  match croxLanes opt sortEnds sortStarts p with
  | .error e => ([], .error e)
  | .ok lanes =>
    match p.numEvents with
    | .error e => ([], .error e)
    | .ok n => croxLoop p opt lanes 0 n

/-- `crox/src/main.rs:147-216`: what is emitted for one of the profiles: the records of its events, and, if nothing fails, the name of
the process and its sort index. -/
def croxTool (env : Env) (opt : Crox.Opt) (sortEnds sortStarts : List (Nat × UInt32) → List (Nat × UInt32)) (stem : Bytes) :
    List Crox.CroxEvent × Except Fault (Nat × Option (Nat × Bytes) × Nat) :=
  match openProfile env.v8New env.fuel env.files stem with
  | .error e => ([], .error e)
  | .ok p =>
    ((croxBody opt sortEnds sortStarts p).1, match (croxBody opt sortEnds sortStarts p).2 with
      | .error e => .error e
      | .ok _ => .ok (p.metadata.processId, Crox.processName p.metadata.processId p.metadata.cmd, Crox.sortIndex p.metadata.startTime))

end Verif.Tools
