import Verif.Model.Utf8

/-!
# Model of the JSON reader used for the metadata record

`decodeme/src/lib.rs:145-146` calls `serde_json::from_str::<Metadata>`.  The library is modelled, not the crate's
source: RFC 8259 JSON, on bytes, as `serde_json` reads it (`parseDocument_iff` in `Proofs/JsonText` proves that it accepts exactly that grammar).
Simplification: an unpaired surrogate escape is refused everywhere (the real library does not look at it in a value that is
ignored).  There is no recursion limit: the only values nested deeper than the library's limit that it reads here are ignored
ones, for which it has none.
-/

namespace Verif.Json

open Verif Verif.Mm

/-- A JSON value (`serde_json::from_str`, `decodeme/src/lib.rs:146`). -/
inductive Value where
  | null
  | bool (b : Bool)
  /-- a number written as digits only -/
  | num (n : Nat)
  /-- any other number (negative, with a fraction or an exponent), as it is written -/
  | real (text : Bytes)
  | str (s : Bytes)
  | arr (vs : List Value)
  | obj (fields : List (Bytes × Value))

/-- JSON white space (`decodeme/src/lib.rs:146`). -/
def isWs (b : UInt8) : Bool := b = 0x20 || b = 0x0A || b = 0x0D || b = 0x09

/-- Skip white space (`decodeme/src/lib.rs:146`). -/
def skipWs : Bytes → Bytes
  | [] => []
  | b :: bs => if isWs b then skipWs bs else b :: bs

/-- ASCII digits (`decodeme/src/lib.rs:146`). -/
def isDigit (b : UInt8) : Bool := 0x30 ≤ b && b ≤ 0x39

/-- The value of a digit string, most significant first (`decodeme/src/lib.rs:146`). -/
def digitsValue (ds : Bytes) : Nat := ds.foldl (fun n d => 10 * n + (d.toNat - 48)) 0

/-- A point and at least one digit, if there is a point: what was read and the rest (`decodeme/src/lib.rs:146`). -/
def parseFrac : Bytes → Option (Bytes × Bytes)
  | [] => some ([], [])
  | c :: r =>
    if c = 0x2E then
      if r.takeWhile isDigit = [] then none else some (c :: r.takeWhile isDigit, r.dropWhile isDigit)
    else some ([], c :: r)

/-- An optional sign (`decodeme/src/lib.rs:146`). -/
def parseSign : Bytes → Bytes × Bytes
  | [] => ([], [])
  | c :: r => if c = 0x2B ∨ c = 0x2D then ([c], r) else ([], c :: r)

/-- `e` or `E`, an optional sign and at least one digit, if there is an `e` or `E` (`decodeme/src/lib.rs:146`). -/
def parseExp : Bytes → Option (Bytes × Bytes)
  | [] => some ([], [])
  | c :: r =>
    if c = 0x65 ∨ c = 0x45 then
      if (parseSign r).2.takeWhile isDigit = [] then none
      else some (c :: ((parseSign r).1 ++ (parseSign r).2.takeWhile isDigit), (parseSign r).2.dropWhile isDigit)
    else some ([], c :: r)

/-- An optional minus (`decodeme/src/lib.rs:146`). -/
def parseMinus : Bytes → Bytes × Bytes
  | [] => ([], [])
  | c :: r => if c = 0x2D then ([c], r) else ([], c :: r)

/-- A number: an optional minus, an integer without leading zeros, an optional fraction, an optional exponent
(`decodeme/src/lib.rs:146`). -/
def parseNum (b : Bytes) : Option (Value × Bytes) :=
  let minus := (parseMinus b).1
  let ds := (parseMinus b).2.takeWhile isDigit
  let rest := (parseMinus b).2.dropWhile isDigit
  if ds = [] then none
  else if ds.head? = some 0x30 ∧ ds.length ≠ 1 then none
  else match parseFrac rest with
    | none => none
    | some (frac, rest) =>
      match parseExp rest with
      | none => none
      | some (exp, rest) =>
        if minus = [] ∧ frac = [] ∧ exp = [] then some (.num (digitsValue ds), rest)
        else some (.real (minus ++ ds ++ frac ++ exp), rest)

/-- The value of a hexadecimal digit (`decodeme/src/lib.rs:146`). -/
def hexVal (b : UInt8) : Option Nat :=
  if 0x30 ≤ b && b ≤ 0x39 then some (b.toNat - 48)
  else if 0x61 ≤ b && b ≤ 0x66 then some (b.toNat - 87)
  else if 0x41 ≤ b && b ≤ 0x46 then some (b.toNat - 55)
  else none

/-- The number given by the four hexadecimal digits of a `\uXXXX` escape (`decodeme/src/lib.rs:146`). -/
def hexNum (a b c d : UInt8) : Option Nat :=
  match hexVal a, hexVal b, hexVal c, hexVal d with
  | some a, some b, some c, some d => some (((a * 16 + b) * 16 + c) * 16 + d)
  | _, _, _, _ => none

/-- The UTF-8 bytes of a code point (`decodeme/src/lib.rs:146`). -/
def codePoint (n : Nat) : Bytes := String.utf8EncodeChar (Char.ofNat n)

/-- The one-character escapes of JSON (`decodeme/src/lib.rs:146`). -/
def simpleEscape (b : UInt8) : Option UInt8 :=
  if b = 0x22 then some 0x22
  else if b = 0x5C then some 0x5C
  else if b = 0x2F then some 0x2F
  else if b = 0x62 then some 0x08
  else if b = 0x66 then some 0x0C
  else if b = 0x6E then some 0x0A
  else if b = 0x72 then some 0x0D
  else if b = 0x74 then some 0x09
  else none

/-- Put bytes in front of a parsed string. -/
def push (p : Bytes) : Option (Bytes × Bytes) → Option (Bytes × Bytes)
  | some (s, r) => some (p ++ s, r)
  | none => none

/-- The rest of a string literal, after the opening quote: its contents and what follows the closing quote
(`decodeme/src/lib.rs:146`). -/
def parseStr : Bytes → Option (Bytes × Bytes)
  | [] => none
  | b :: rest =>
    if b = 0x22 then some ([], rest)
    else if b = 0x5C then
      match rest with
      | [] => none
      | e :: rest' =>
        if e = 0x75 then
          match rest' with
          | a :: b :: c :: d :: rest'' =>
            match hexNum a b c d with
            | none => none
            | some n =>
              if 0xD800 ≤ n ∧ n ≤ 0xDBFF then
                match rest'' with
                | x :: y :: a :: b :: c :: d :: tail =>
                  if x = 0x5C ∧ y = 0x75 then
                    match hexNum a b c d with
                    | none => none
                    | some m =>
                      if 0xDC00 ≤ m ∧ m ≤ 0xDFFF then push (codePoint (0x10000 + (n - 0xD800) * 0x400 + (m - 0xDC00))) (parseStr tail)
                      else none
                  else none
                | _ => none
              else if 0xDC00 ≤ n ∧ n ≤ 0xDFFF then none
              else push (codePoint n) (parseStr rest'')
          | _ => none
        else match simpleEscape e with
          | some x => push [x] (parseStr rest')
          | none => none
    else if b < 0x20 then none
    else push [b] (parseStr rest)

/-- Strip a literal prefix. -/
def stripPrefix : Bytes → Bytes → Option Bytes
  | [], b => some b
  | _ :: _, [] => none
  | p :: ps, b :: bs => if p = b then stripPrefix ps bs else none

mutual
/-- A value (`decodeme/src/lib.rs:146`); fuel bounds the nesting and the number of members. -/
def parseValue : Nat → Bytes → Option (Value × Bytes)
  | 0, _ => none
  | fuel + 1, b =>
    match skipWs b with
    | [] => none
    | c :: rest =>
      if c = 0x22 then
        match parseStr rest with
        | some (s, r) => some (.str s, r)
        | none => none
      else if c = 0x7B then
        match skipWs rest with
        | [] => none
        | d :: r => if d = 0x7D then some (.obj [], r) else
          match parseMembers fuel (d :: r) with
          | some (fs, r) => some (.obj fs, r)
          | none => none
      else if c = 0x5B then
        match skipWs rest with
        | [] => none
        | d :: r => if d = 0x5D then some (.arr [], r) else
          match parseElems fuel (d :: r) with
          | some (vs, r) => some (.arr vs, r)
          | none => none
      else if c = 0x74 then (stripPrefix [0x72, 0x75, 0x65] rest).map (fun r => (.bool true, r))
      else if c = 0x66 then (stripPrefix [0x61, 0x6C, 0x73, 0x65] rest).map (fun r => (.bool false, r))
      else if c = 0x6E then (stripPrefix [0x75, 0x6C, 0x6C] rest).map (fun r => (.null, r))
      else parseNum (c :: rest)

/-- The members of an object, after the opening brace (`decodeme/src/lib.rs:146`). -/
def parseMembers : Nat → Bytes → Option (List (Bytes × Value) × Bytes)
  | 0, _ => none
  | fuel + 1, b =>
    match skipWs b with
    | [] => none
    | c :: rest =>
      if c ≠ 0x22 then none else
      match parseStr rest with
      | none => none
      | some (key, r) =>
        match skipWs r with
        | [] => none
        | c :: r =>
          if c ≠ 0x3A then none else
          match parseValue fuel r with
          | none => none
          | some (v, r) =>
            match skipWs r with
            | [] => none
            | c :: r =>
              if c = 0x7D then some ([(key, v)], r)
              else if c = 0x2C then
                match parseMembers fuel r with
                | some (fs, r) => some ((key, v) :: fs, r)
                | none => none
              else none

/-- The elements of an array, after the opening bracket (`decodeme/src/lib.rs:146`). -/
def parseElems : Nat → Bytes → Option (List Value × Bytes)
  | 0, _ => none
  | fuel + 1, b =>
    match parseValue fuel b with
    | none => none
    | some (v, r) =>
      match skipWs r with
      | [] => none
      | c :: r =>
        if c = 0x5D then some ([v], r)
        else if c = 0x2C then
          match parseElems fuel r with
          | some (vs, r) => some (v :: vs, r)
          | none => none
        else none
end

/-- A whole JSON document (`decodeme/src/lib.rs:146`). -/
def parseDocument (b : Bytes) : Option Value :=
  match parseValue (b.length + 1) b with
  | some (v, r) => if skipWs r = [] then some v else none
  | none => none

/-- `decodeme/src/lib.rs:41-47` `Metadata`; `SystemTime` as nanoseconds since the epoch. -/
structure Metadata where
  startTime : Nat
  processId : Nat
  cmd : Bytes
  deriving DecidableEq, Repr

/-- The values given for a field. -/
def fieldValues (name : Bytes) (fs : List (Bytes × Value)) : List Value := (fs.filter (fun f => f.1 = name)).map (·.2)

/-- `derive(Deserialize)` for `Metadata` (`decodeme/src/lib.rs:31-47`): each field exactly once, a `u64`, a `u32` and a
string; unknown fields are ignored; an array of the three values in this order is accepted as well.  `UNIX_EPOCH + u64`
nanoseconds is always representable. -/
def metadataOf : Value → Option Metadata
  | .obj fs =>
    match fieldValues (utf8 "start_time") fs, fieldValues (utf8 "process_id") fs, fieldValues (utf8 "cmd") fs with
    | [.num s], [.num p], [.str c] => if s < 2 ^ 64 ∧ p < 2 ^ 32 then some ⟨s, p, c⟩ else none
    | _, _, _ => none
  | .arr [.num s, .num p, .str c] => if s < 2 ^ 64 ∧ p < 2 ^ 32 then some ⟨s, p, c⟩ else none
  | _ => none

/-- `serde_json::from_str::<Metadata>` (`decodeme/src/lib.rs:146`). -/
def parseMetadata (b : Bytes) : Except Fault Metadata :=
  match parseDocument b with
  | none => .error (.err "serde_json error")
  | some v =>
    match metadataOf v with
    | some m => .ok m
    | none => .error (.err "serde_json error")

end Verif.Json
