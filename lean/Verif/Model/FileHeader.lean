import Verif.Basic

/-!
# Model of `measureme/src/file_header.rs` and `decodeme/src/lib.rs:50-91`
-/

namespace Verif.Mm

open Verif

/-- `measureme/src/file_header.rs:8`. -/
def currentFileFormatVersion : Nat := 9
/-- `measureme/src/file_header.rs:10`, `b"MMPD"`. -/
def magicTopLevel : Bytes := [0x4D, 0x4D, 0x50, 0x44]
/-- `measureme/src/file_header.rs:11`, `b"MMES"`. -/
def magicEventStream : Bytes := [0x4D, 0x4D, 0x45, 0x53]
/-- `measureme/src/file_header.rs:12`, `b"MMSD"`. -/
def magicStringData : Bytes := [0x4D, 0x4D, 0x53, 0x44]
/-- `measureme/src/file_header.rs:13`, `b"MMSI"`. -/
def magicStringIndex : Bytes := [0x4D, 0x4D, 0x53, 0x49]
/-- `measureme/src/file_header.rs:19`. -/
def fileHeaderSize : Nat := 8

/-- `measureme/src/file_header.rs:21-34` `write_file_header`: the successive `write_all` calls it makes. -/
def fileHeaderWrites (magic : Bytes) : List Bytes := [magic, leBytes 4 currentFileFormatVersion]

/-- The bytes `write_file_header` produces. -/
def fileHeader (magic : Bytes) : Bytes := (fileHeaderWrites magic).flatten

/-- `{:?}` of a slice of bytes (`measureme/src/file_header.rs:67-68`, `decodeme/src/lib.rs:81-82`): decimal numbers in brackets, separated by a comma and a space. -/
def debugBytes (b : Bytes) : String := "[" ++ ", ".intercalate (b.map fun x => toString x.toNat) ++ "]"

/-- `decodeme/src/lib.rs:50-91` `read_file_header`.  `diag` is the path as `Path::display` shows it. -/
def readFileHeader (diag : Option String) (stream : String) (bytes magic : Bytes) : Except Fault Nat :=
  let file := diag.getD "<in-memory>"
  if bytes.length < fileHeaderSize then .error (.err s!"Error reading {stream} stream in file `{file}`: Expected file to contain at least `{fileHeaderSize}` bytes but found `{bytes.length}` bytes")
  else if bytes.take 4 ≠ magic then .error (.err s!"Error reading {stream} stream in file `{file}`: Expected file magic `{debugBytes magic}` but found `{debugBytes (bytes.take 4)}`")
  else .ok (fromLe ((bytes.take 8).drop 4))

/-- `measureme/src/file_header.rs:37-90` `verify_file_header`. -/
def verifyFileHeader (diag : Option String) (stream : String) (bytes magic : Bytes) : Except Fault Unit :=
  let file := diag.getD "<in-memory>"
  if bytes.length < fileHeaderSize then .error (.err s!"Error reading {stream} stream in file `{file}`: Expected file to contain at least `{fileHeaderSize}` bytes but found `{bytes.length}` bytes")
  else if bytes.take 4 ≠ magic then .error (.err s!"Error reading {stream} stream in file `{file}`: Expected file magic `{debugBytes magic}` but found `{debugBytes (bytes.take 4)}`")
  else if fromLe ((bytes.take 8).drop 4) ≠ currentFileFormatVersion then
    .error (.err s!"Error reading {stream} stream in file `{file}`: Expected file format version {currentFileFormatVersion} but found `{fromLe ((bytes.take 8).drop 4)}`")
  else .ok ()

/-- `measureme/src/file_header.rs:92-94` `strip_file_header` (panics when there are fewer than 8 bytes). -/
def stripFileHeader (bytes : Bytes) : Except Fault Bytes :=
  if bytes.length < fileHeaderSize then .error (.panic "range start index out of range") else .ok (bytes.drop fileHeaderSize)

end Verif.Mm
