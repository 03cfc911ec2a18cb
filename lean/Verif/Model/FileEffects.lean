import Verif.Model.JsonOut
import Verif.Model.Mmedit

/-!
# What the tools do to the file system

The output file of each tool, when it is created, and what is in it at the end.  `creates` says for which paths `File::create` succeeds.
Simplifications: once a file is created, writing to it does not fail; a path is its bytes, so two spellings of a path are two files.
-/

namespace Verif.Tools

open Verif Verif.Mm Verif.Decode Verif.Analyze Verif.Paths Verif.Json

/-- The files and the outcome after a run. -/
structure Ran where
  files : Files
  outcome : Except Fault Unit

/-- The file system with a file created or overwritten (`std::fs::write`, `mmedit/src/main.rs:71`; `File::create`,
`summarize/src/main.rs:79`). -/
def withFile (fs : Files) (path data : Bytes) : Files := fun p => if p = path then some data else fs p

/-- Create a file and write to it (`summarize/src/main.rs:79-80`). -/
def createFile (creates : Bytes → Bool) (fs : Files) (path data : Bytes) (outcome : Except Fault Unit) : Ran :=
  if creates path then ⟨withFile fs path data, outcome⟩ else ⟨fs, .error (.err "Permission denied")⟩

/-- `summarize/src/main.rs:167-176` `summarize --json`. -/
def summarizeJsonMain (env : Env) (creates : Bytes → Bool) (stem : Bytes) : Ran :=
  match summarizeJsonTool env stem with
  | .error e => ⟨env.files, .error e⟩
  | .ok (path, text) => createFile creates env.files path text (.ok ())

/-- `summarize/src/main.rs:97-106` `diff --json`. -/
def diffJsonMain (env : Env) (creates : Bytes → Bool) (order : List Bytes → List Bytes) (percent : Int → Nat → Bytes) (base change : Bytes) : Ran :=
  match diffJsonTool env order percent base change with
  | .error e => ⟨env.files, .error e⟩
  | .ok (path, text) => createFile creates env.files path text (.ok ())

/-- `stack_collapse/src/main.rs:14-29` `main`; `order` is the order of the hash map. -/
def stackCollapseMain (env : Env) (creates : Bytes → Bool) (order : List (Bytes × Nat) → List (Bytes × Nat)) (stem : Bytes) : Ran :=
  match readCollapsed env stem with
  | .error e => ⟨env.files, .error e⟩
  | .ok m => createFile creates env.files (utf8 "out.stacks_folded") (foldedText (order m)) (.ok ())

/-- `flamegraph/src/main.rs:19-22`: the lines handed to `inferno`. -/
def flamegraphLines (m : List (Bytes × Nat)) : List Bytes := m.map fun x => x.1 ++ utf8 " " ++ utf8 (decimal x.2)

/-- `flamegraph/src/main.rs:14-38` `main`; `fromLines` is the external `inferno::flamegraph::from_lines`: what it writes and whether it
succeeds (`expect` panics if not). -/
def flamegraphMain (env : Env) (creates : Bytes → Bool) (order : List (Bytes × Nat) → List (Bytes × Nat)) (fromLines : List Bytes → Bytes × Bool)
    (stem : Bytes) : Ran :=
  match readCollapsed env stem with
  | .error e => ⟨env.files, .error e⟩
  | .ok m => createFile creates env.files (utf8 "rustc.svg") (fromLines (flamegraphLines (order m))).1
      (if (fromLines (flamegraphLines (order m))).2 then .ok () else .error (.panic "unable to generate a flamegraph from the collapsed stack data"))

/-- `crox/src/main.rs:137-217` `main`: the output file is created before anything is read. -/
def croxFileMain (env : Env) (creates : Bytes → Bool) (opt : Crox.Opt) (sortEnds sortStarts : List (Nat × UInt32) → List (Nat × UInt32))
    (argOrder : List (Bytes × Bytes) → List (Bytes × Bytes)) (filePrefix : List Bytes) (dirEntries : Option (Except Fault (List Bytes))) : Ran :=
  if creates (utf8 "chrome_profiler.json") then
    let env' := { env with files := withFile env.files (utf8 "chrome_profiler.json") [] }
    let r := croxMain env' opt sortEnds sortStarts argOrder filePrefix dirEntries
    ⟨withFile env.files (utf8 "chrome_profiler.json") r.2, r.1⟩
  else ⟨env.files, .error (.err "Permission denied")⟩

/-- `mmedit/src/main.rs:63-76` `main`. -/
def mmeditMain (creates : Bytes → Bool) (fs : Files) (file : Bytes) : Ran :=
  match fs file with
  | none => ⟨fs, .error (.err "No such file or directory")⟩
  | some data =>
    match Mmedit.truncate data with
    | .error e => ⟨fs, .error e⟩
    | .ok out => createFile creates fs (truncatedPath file) out (.ok ())

end Verif.Tools
