import Verif.Model.Utf8
import Mathlib.Algebra.Order.Field.Rat
import Mathlib.Data.Rat.Defs

/-! # Reading printed numbers: an independent specification

How a person reads what is printed. -/

namespace Verif.Spec

open Verif Verif.Mm

/-- Is it one of the characters 0 to 9? -/
def isNumeral (b : UInt8) : Bool := decide (0x30 ≤ b.toNat ∧ b.toNat ≤ 0x39)

/-- The number that numerals denote. -/
def numeralsValue (t : Bytes) : Nat := t.foldl (fun v b => 10 * v + (b.toNat - 0x30)) 0

/-- How many nanoseconds a unit is. -/
def unitSize (u : Bytes) : Option Nat :=
  if u = utf8 "ns" then some 1
  else if u = utf8 "µs" then some 1000
  else if u = utf8 "ms" then some 1000000
  else if u = utf8 "s" then some 1000000000
  else none

/-- The numerals after a point, if there is one, and what follows. -/
def afterPoint : Bytes → Bytes × Bytes
  | 0x2E :: r => (r.takeWhile isNumeral, r.dropWhile isNumeral)
  | r => ([], r)

/-- A duration as it is read: numerals, perhaps a point and more numerals, a unit; in nanoseconds. -/
def readDuration (t : Bytes) : Option ℚ :=
  let i := t.takeWhile isNumeral
  let f := (afterPoint (t.dropWhile isNumeral)).1
  let u := (afterPoint (t.dropWhile isNumeral)).2
  if i = [] then none
  else (unitSize u).map fun (size : Nat) => (numeralsValue (i ++ f) : ℚ) / 10 ^ f.length * (size : ℚ)

/-- A duration with a sign. -/
def readSigned : Bytes → Option ℚ
  | 0x2B :: t => readDuration t
  | 0x2D :: t => (readDuration t).map (- ·)
  | _ => none

/-- A whole number, perhaps with a sign. -/
def readInt (t : Bytes) : Option Int :=
  let n := match t with
    | 0x2B :: r => r
    | 0x2D :: r => r
    | r => r
  if n = [] ∨ n.all isNumeral = false then none
  else some (match t with
    | 0x2D :: _ => -(numeralsValue n : Int)
    | _ => numeralsValue n)

/-- The unit a duration is shown in: the largest that is not longer than it. -/
def shownUnit (n : Nat) : Nat :=
  if n < 1000 then 1 else if n < 1000000 then 1000 else if n < 1000000000 then 1000000 else 1000000000

end Verif.Spec
