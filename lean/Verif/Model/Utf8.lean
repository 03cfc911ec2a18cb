import Verif.Basic

/-!
# UTF-8: the text encoding of `str` and the standard library's validator and lossy decoder

measureme stores `str` bytes (`measureme/src/stringtable.rs:153-158`, `s.as_bytes()`) and reads them back with
`std::str::from_utf8` and `String::from_utf8_lossy` (`decodeme/src/stringtable.rs:79,120`).  The two library
functions are modelled after `core::str::lossy::Utf8Chunks` / `core::str::validations`.
-/

namespace Verif.Mm

open Verif

/-- `str::as_bytes`: the UTF-8 encoding of a string, character by character (`measureme/src/stringtable.rs:156`). -/
def utf8 (s : String) : Bytes := s.toList.flatMap String.utf8EncodeChar

/-- `byte & 0xC0 == 0x80` in `Utf8Chunks::next`, used by `decodeme/src/stringtable.rs:120`. -/
def isCont (b : UInt8) : Bool := 0x80 ≤ b && b ≤ 0xBF

/-- One step of the standard library's UTF-8 scanner (used by `decodeme/src/stringtable.rs:79,120`): is there a
well-formed character at the head, and how many bytes does it (or the ill-formed chunk) take?  A byte
beyond the end reads as 0 (`safe_get`). -/
def nextChar (l : Bytes) : Bool × Nat :=
  let b0 := l.getD 0 0
  let b1 := l.getD 1 0
  let b2 := l.getD 2 0
  let b3 := l.getD 3 0
  if b0 < 0x80 then (true, 1)
  else if 0xC2 ≤ b0 && b0 ≤ 0xDF then
    if isCont b1 then (true, 2) else (false, 1)
  else if 0xE0 ≤ b0 && b0 ≤ 0xEF then
    if (b0 = 0xE0 && 0xA0 ≤ b1 && b1 ≤ 0xBF) || (0xE1 ≤ b0 && b0 ≤ 0xEC && 0x80 ≤ b1 && b1 ≤ 0xBF) ||
       (b0 = 0xED && 0x80 ≤ b1 && b1 ≤ 0x9F) || (0xEE ≤ b0 && b0 ≤ 0xEF && 0x80 ≤ b1 && b1 ≤ 0xBF) then
      if isCont b2 then (true, 3) else (false, 2)
    else (false, 1)
  else if 0xF0 ≤ b0 && b0 ≤ 0xF4 then
    if (b0 = 0xF0 && 0x90 ≤ b1 && b1 ≤ 0xBF) || (0xF1 ≤ b0 && b0 ≤ 0xF3 && 0x80 ≤ b1 && b1 ≤ 0xBF) ||
       (b0 = 0xF4 && 0x80 ≤ b1 && b1 ≤ 0x8F) then
      if isCont b2 then
        if isCont b3 then (true, 4) else (false, 3)
      else (false, 2)
    else (false, 1)
  else (false, 1)

/-- The loop of `std::str::from_utf8` (used at `decodeme/src/stringtable.rs:79`). -/
def validUtf8Aux : Nat → Bytes → Bool
  | _, [] => true
  | 0, _ :: _ => false
  | n + 1, b :: l => (nextChar (b :: l)).1 && validUtf8Aux n ((b :: l).drop (nextChar (b :: l)).2)

/-- `std::str::from_utf8(bytes).is_ok()` (used at `decodeme/src/stringtable.rs:79`). -/
def validUtf8 (l : Bytes) : Bool := validUtf8Aux l.length l

/-- The loop of `String::from_utf8_lossy` (used at `decodeme/src/stringtable.rs:120`): each ill-formed chunk becomes
U+FFFD. -/
def lossyAux : Nat → Bytes → Bytes
  | _, [] => []
  | 0, _ :: _ => []
  | n + 1, b :: l =>
    (if (nextChar (b :: l)).1 then (b :: l).take (nextChar (b :: l)).2 else [0xEF, 0xBF, 0xBD]) ++
      lossyAux n ((b :: l).drop (nextChar (b :: l)).2)

/-- `String::from_utf8_lossy(bytes)` (used at `decodeme/src/stringtable.rs:120`). -/
def fromUtf8Lossy (l : Bytes) : Bytes := lossyAux l.length l

/-- Decimal digits of a number, most significant first (`format!("{}")`, used at `measureme/src/profiler.rs:64`, `decodeme/src/event.rs:122`); the fuel
is the number plus one. -/
def decimalAux : Nat → Nat → List Char
  | 0, _ => []
  | fuel + 1, n => if n < 10 then [Char.ofNat (48 + n)] else decimalAux fuel (n / 10) ++ [Char.ofNat (48 + n % 10)]

/-- `format!("{}", n)` (used at `measureme/src/profiler.rs:64`, `decodeme/src/event.rs:122`). -/
def decimal (n : Nat) : String := String.ofList (decimalAux (n + 1) n)

end Verif.Mm
