import Verif.Model.Decoder

/-!
# Model of the file names used by the tools

`std::path::Path` on Unix, as far as it is used: `file_name`, `with_extension`, `ends_with` of a single plain component.  A path
is its bytes.  The file system is a function from paths to contents.
-/

namespace Verif.Paths

open Verif Verif.Mm Verif.Decode

/-- `/`. -/
def slash : UInt8 := 0x2F
/-- `.`. -/
def dot : UInt8 := 0x2E

/-- `std::path::Components::next_back` (used through `Path::file_name` by every call cited below), on the reversed bytes: trailing
separators and `.` components after a separator are skipped. -/
def skipBack : Bytes → Bytes
  | [] => []
  | [b] => if b = slash then [] else [b]
  | b :: c :: r =>
    if b = slash then skipBack (c :: r)
    else if b = dot ∧ c = slash then skipBack r
    else b :: c :: r

/-- `std::path::Path::file_name`: what comes before the last component, and the last component if it is a plain name (not the
root, `.` or `..`). -/
def fileName (p : Bytes) : Option (Bytes × Bytes) :=
  let r := skipBack p.reverse
  let name := (r.takeWhile fun b => decide (b ≠ slash)).reverse
  if name = [] ∨ name = [dot] ∨ name = [dot, dot] then none
  else some ((r.dropWhile fun b => decide (b ≠ slash)).reverse, name)

/-- `std::path::Path::file_stem` of a file name: everything before the last dot; all of it if there is no dot or nothing before
it. -/
def fileStem (name : Bytes) : Bytes :=
  match name.reverse.dropWhile fun b => decide (b ≠ dot) with
  | [] => name
  | _ :: r => if r = [] then name else r.reverse

/-- `std::path::Path::extension` (`crox/src/main.rs:225`): what follows the last dot of the file name, if there is a dot and something
before it. -/
def extension (p : Bytes) : Option Bytes :=
  match fileName p with
  | none => none
  | some (_, name) =>
    match name.reverse.dropWhile fun b => decide (b ≠ dot) with
    | [] => none
    | _ :: r => if r = [] then none else some (name.reverse.takeWhile fun b => decide (b ≠ dot)).reverse

/-- `std::path::Path::with_extension` for a non-empty extension (`measureme/src/profiler.rs:30`,
`analyzeme/src/profiling_data.rs:24`, `summarize/src/main.rs:79`, `mmedit/src/main.rs:70`). -/
def withExtension (p ext : Bytes) : Bytes :=
  match fileName p with
  | none => p
  | some (dir, name) => dir ++ fileStem name ++ [dot] ++ ext

/-- `std::path::Path::ends_with` of a path that is one plain name (`summarize/src/main.rs:63`): the last component is it. -/
def endsWithName (p name : Bytes) : Bool := decide ((fileName p).map (·.2) = some name)

/-- `measureme/src/file_header.rs:15` `FILE_EXTENSION`. -/
def fileExtension : Bytes := utf8 "mm_profdata"

/-- `measureme/src/profiler.rs:30-33`: the file a profiler writes. -/
def profilerPath (stem : Bytes) : Bytes := withExtension stem fileExtension

/-- A file system: the contents of the files that exist. -/
abbrev Files := Bytes → Option Bytes

/-- `analyzeme/src/profiling_data.rs:333-341` `ProfilerFiles::new`: the files of the old format. -/
def oldFiles (stem : Bytes) : List Bytes :=
  [withExtension stem (utf8 "events"), withExtension stem (utf8 "string_data"), withExtension stem (utf8 "string_index")]

/-- `Path::display` (`analyzeme/src/profiling_data.rs:32`): the text of a path, with what is not UTF-8 replaced. -/
def display (p : Bytes) : String := (String.fromUTF8? ⟨(fromUtf8Lossy p).toArray⟩).getD ""

/-- `analyzeme/src/profiling_data.rs:23-48` `ProfilingData::new`. -/
def openProfile (v8New : Bytes → Except Fault OldDecoder) (fuel : Nat) (fs : Files) (stem : Bytes) : Except Fault ProfilingData :=
  match fs (withExtension stem fileExtension) with
  | some data => fromPagedBuffer (some (display (withExtension stem fileExtension))) v8New fuel data
  | none =>
    let msg := "Could not find profiling data file `" ++ display (withExtension stem fileExtension) ++ "`."
    if (oldFiles stem).any fun f => (fs f).isSome then
      .error (.err (msg ++ "It looks like your profiling data has been generated by an out-dated version of measureme (0.7 or older)."))
    else .error (.err msg)

/-- `summarize/src/main.rs:62-73` `process_results`; `readJson` and `analyse` are the two ways to get results. -/
def processResults {R : Type} (readJson : Bytes → Except Fault R) (analyse : ProfilingData → Except Fault R)
    (v8New : Bytes → Except Fault OldDecoder) (fuel : Nat) (fs : Files) (file : Bytes) : Except Fault R :=
  if endsWithName file (utf8 "json") then
    match fs file with
    | some data => readJson data
    | none => .error (.err "No such file or directory")
  else do
    let data ← openProfile v8New fuel fs file
    analyse data

/-- `summarize/src/main.rs:79`: the file that results are saved to. -/
def resultsPath (file : Bytes) : Bytes := withExtension file (utf8 "json")

/-- `mmedit/src/main.rs:70`: the file the truncated profile is written to. -/
def truncatedPath (file : Bytes) : Bytes := withExtension file (utf8 "truncated.mm_profdata")

end Verif.Paths
