import Verif.Model.Serialization
import Verif.Model.FileHeader

/-!
# `mmedit truncate` (`mmedit/src/main.rs`)
-/

namespace Verif.Mmedit

open Verif Verif.Mm

/-- `mmedit/src/main.rs:30-58`, the loop of `truncate`; `data` is `paged_data[pos..]`, `out` is `truncated` and `emitted` is
`event_page_emitted`.  The first argument bounds the number of iterations: each consumes at least six bytes. -/
def truncateLoop : Nat → Bytes → Bytes → Bool → Except Fault Bytes
  | 0, data, out, _ => if data = [] then .ok out else .error .outOfFuel
  | fuel + 1, data, out, emitted =>
    match data with
    | [] => .ok out
    | tagByte :: rest =>
      match PageTag.tryFrom tagByte with
      | .error _ => .error (.panic "called `Result::unwrap()` on an `Err` value")
      | .ok tag =>
        if rest.length < 4 then .error (.panic "range end index out of range for slice")
        else
          let pageSize := fromLe (rest.take 4)
          if pageSize = 0 then .error (.panic "assertion failed: page_size > 0")
          else if data.length < 5 + pageSize then .error (.panic "range end index out of range for slice")
          else
            let pageBytes := data.take (5 + pageSize)
            let remaining := data.drop (5 + pageSize)
            match tag with
            | .events =>
              if emitted then truncateLoop fuel remaining out true
              else truncateLoop fuel remaining (out ++ pageBytes) true
            | .stringData | .stringIndex => truncateLoop fuel remaining (out ++ pageBytes) emitted

/-- `mmedit/src/main.rs:19-61` `truncate`. -/
def truncate (fileContents : Bytes) : Except Fault Bytes :=
  match readFileHeader none "top-level" fileContents magicTopLevel with
  | .error e => .error e
  | .ok fileVersion =>
    if fileVersion < 7 ∨ fileVersion > 8 then .error (.err s!"File version {fileVersion} is not support")
    else
      let pagedData := fileContents.drop fileHeaderSize
      truncateLoop pagedData.length pagedData (fileContents.take fileHeaderSize) false

end Verif.Mmedit
