import Verif.Model.FileEffects

/-!
# Creating a profile: directories and files (`measureme/src/profiler.rs:26-40`)

Simplifications: what the operating system answers is given by `Os`; a path is its bytes, so two spellings of a path are two files.
-/

namespace Verif.Paths

open Verif Verif.Mm Verif.Decode Verif.Tools

/-- `std::path::Path::parent` (`measureme/src/profiler.rs:32`): nothing for the empty path and the root; otherwise the path without its last
component and without the separators and `.` components then at its end (the root stays). -/
def parent (p : Bytes) : Option Bytes :=
  let r := skipBack p.reverse
  if r = [] then none
  else
    let dir := r.dropWhile fun b => decide (b ≠ slash)
    let d := (skipBack dir).reverse
    some (if d = [] ∧ dir ≠ [] then [slash] else d)

/-- The operating system's answers to the calls at `measureme/src/profiler.rs:32,33,36`: for which directories `create_dir_all` succeeds, for which
paths `File::create` succeeds, and how many bytes can be written to the new file before writing fails. -/
structure Os where
  makesDirs : Bytes → Bool
  creates : Bytes → Bool
  room : Nat

/-- The directory that was asked for, the files, and the outcome of `Profiler::with_counter` (`measureme/src/profiler.rs:26-75`). -/
structure Started where
  dir : Option Bytes
  files : Files
  outcome : Except Fault Unit

/-- `measureme/src/profiler.rs:30-36`: up to the top-level header.  `write_all` writes what can be written and then fails. -/
def startProfile (os : Os) (fs : Files) (stem : Bytes) : Started :=
  let path := withExtension stem fileExtension
  match parent path with
  | none => ⟨none, fs, .error (.panic "called `Option::unwrap()` on a `None` value")⟩
  | some dir =>
    if os.makesDirs dir then
      if os.creates path then
        let header := fileHeader magicTopLevel
        if header.length ≤ os.room then ⟨some dir, withFile fs path header, .ok ()⟩
        else ⟨some dir, withFile fs path (header.take os.room), .error (.err "write failed")⟩
      else ⟨some dir, fs, .error (.err "cannot create file")⟩
    else ⟨some dir, fs, .error (.err "cannot create directory")⟩

/-- A whole run: the profiler is created (`measureme/src/profiler.rs:26-75`), the calls are made, it is dropped.  After the header, writing does
not fail here (failures are C09 and C72). -/
def recordProfile (os : Os) (fs : Files) (stem : Bytes) (metadata : String) (calls : List ProfCall) : Started :=
  let s := startProfile os fs stem
  match s.outcome with
  | .error e => { s with outcome := .error e }
  | .ok () => { s with files := withFile s.files (withExtension stem fileExtension) (savedFile metadata calls) }

end Verif.Paths
