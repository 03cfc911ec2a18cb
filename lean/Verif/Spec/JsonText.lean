import Verif.Model.Json
import Mathlib.Data.Nat.Digits.Defs

/-!
# JSON (RFC 8259), as a grammar

Which texts are JSON and what they say, as inductive predicates, independently of any reader or writer.  Contents of strings are
UTF-8 bytes.  Numbers written with digits only have their value; other numbers are kept as they are written.  Escapes of unpaired
surrogates say nothing.
-/

namespace Verif.Spec

open Verif Verif.Json

/-- White space between the parts of a text: blank, tab, line feed, carriage return (RFC 8259, 2). -/
def JsonWs (b : Bytes) : Prop := ∀ c ∈ b, c = 0x20 ∨ c = 0x09 ∨ c = 0x0A ∨ c = 0x0D

/-- One or more digits. -/
def Digits (b : Bytes) : Prop := b ≠ [] ∧ ∀ c ∈ b, 0x30 ≤ c ∧ c ≤ 0x39

/-- The number a numeral stands for. -/
def numeral (ds : Bytes) : Nat := Nat.ofDigits 10 (ds.reverse.map fun d => d.toNat - 48)

/-- An integer: digits without a leading zero (RFC 8259, 6: `int`). -/
def JsonInt (ds : Bytes) : Prop := Digits ds ∧ (ds = [0x30] ∨ ds.head? ≠ some 0x30)

/-- An optional fraction (RFC 8259, 6: `frac`). -/
def JsonFrac (b : Bytes) : Prop := b = [] ∨ ∃ ds, Digits ds ∧ b = 0x2E :: ds

/-- An optional exponent (RFC 8259, 6: `exp`). -/
def JsonExp (b : Bytes) : Prop :=
  b = [] ∨ ∃ e sign ds, (e = 0x65 ∨ e = 0x45) ∧ (sign = [] ∨ sign = [0x2B] ∨ sign = [0x2D]) ∧ Digits ds ∧ b = e :: (sign ++ ds)

/-- A number (RFC 8259, 6). -/
inductive JsonNumber : Bytes → Value → Prop
  | plain {ds} : JsonInt ds → JsonNumber ds (.num (numeral ds))
  | other {minus ds frac exp} : (minus = [] ∨ minus = [0x2D]) → JsonInt ds → JsonFrac frac → JsonExp exp → minus ++ frac ++ exp ≠ [] →
      JsonNumber (minus ++ ds ++ frac ++ exp) (.real (minus ++ ds ++ frac ++ exp))

/-- A hexadecimal digit and its value. -/
inductive Hex : UInt8 → Nat → Prop
  | digit (k : Nat) : k < 10 → Hex (UInt8.ofNat (0x30 + k)) k
  | lower (k : Nat) : k < 6 → Hex (UInt8.ofNat (0x61 + k)) (10 + k)
  | upper (k : Nat) : k < 6 → Hex (UInt8.ofNat (0x41 + k)) (10 + k)

/-- Four hexadecimal digits and their value. -/
def Hex4 (h : Bytes) (n : Nat) : Prop :=
  ∃ a b c d k l m o, h = [a, b, c, d] ∧ Hex a k ∧ Hex b l ∧ Hex c m ∧ Hex d o ∧ n = k * 16 ^ 3 + l * 16 ^ 2 + m * 16 + o

/-- What is between the quotes of a string, and the contents it stands for (RFC 8259, 7). -/
inductive JsonChars : Bytes → Bytes → Prop
  | done : JsonChars [] []
  | plain {b t s} : b ≠ 0x22 → b ≠ 0x5C → 0x20 ≤ b → JsonChars t s → JsonChars (b :: t) (b :: s)
  | escape {e x t s} : (e, x) ∈ ([(0x22, 0x22), (0x5C, 0x5C), (0x2F, 0x2F), (0x62, 0x08), (0x66, 0x0C), (0x6E, 0x0A), (0x72, 0x0D), (0x74, 0x09)] : List (UInt8 × UInt8)) →
      JsonChars t s → JsonChars (0x5C :: e :: t) (x :: s)
  | unicode {h n t s} : Hex4 h n → (n < 0xD800 ∨ 0xDFFF < n) → JsonChars t s →
      JsonChars (0x5C :: 0x75 :: (h ++ t)) (String.utf8EncodeChar (Char.ofNat n) ++ s)
  | pair {h h' n m t s} : Hex4 h (0xD800 + n) → n < 0x400 → Hex4 h' (0xDC00 + m) → m < 0x400 → JsonChars t s →
      JsonChars (0x5C :: 0x75 :: (h ++ 0x5C :: 0x75 :: (h' ++ t))) (String.utf8EncodeChar (Char.ofNat (0x10000 + n * 0x400 + m)) ++ s)

mutual
/-- A value without surrounding white space, and what it says (RFC 8259, 3). -/
inductive JsonText : Bytes → Value → Prop
  | null : JsonText [0x6E, 0x75, 0x6C, 0x6C] .null
  | true : JsonText [0x74, 0x72, 0x75, 0x65] (.bool true)
  | false : JsonText [0x66, 0x61, 0x6C, 0x73, 0x65] (.bool false)
  | number {t v} : JsonNumber t v → JsonText t v
  | string {t s} : JsonChars t s → JsonText (0x22 :: (t ++ [0x22])) (.str s)
  | emptyArr {w} : JsonWs w → JsonText (0x5B :: (w ++ [0x5D])) (.arr [])
  | arr {e vs} : JsonElems e vs → JsonText (0x5B :: (e ++ [0x5D])) (.arr vs)
  | emptyObj {w} : JsonWs w → JsonText (0x7B :: (w ++ [0x7D])) (.obj [])
  | obj {e fs} : JsonMembers e fs → JsonText (0x7B :: (e ++ [0x7D])) (.obj fs)
/-- What is between the brackets of an array that is not empty (RFC 8259, 5). -/
inductive JsonElems : Bytes → List Value → Prop
  | one {w t w' v} : JsonWs w → JsonText t v → JsonWs w' → JsonElems (w ++ t ++ w') [v]
  | more {w t w' v e vs} : JsonWs w → JsonText t v → JsonWs w' → JsonElems e vs → JsonElems (w ++ t ++ w' ++ 0x2C :: e) (v :: vs)
/-- What is between the braces of an object that is not empty (RFC 8259, 4). -/
inductive JsonMembers : Bytes → List (Bytes × Value) → Prop
  | one {w k key w1 w2 t v w'} : JsonWs w → JsonChars k key → JsonWs w1 → JsonWs w2 → JsonText t v → JsonWs w' →
      JsonMembers (w ++ 0x22 :: (k ++ 0x22 :: (w1 ++ 0x3A :: (w2 ++ t ++ w')))) [(key, v)]
  | more {w k key w1 w2 t v w' e fs} : JsonWs w → JsonChars k key → JsonWs w1 → JsonWs w2 → JsonText t v → JsonWs w' → JsonMembers e fs →
      JsonMembers (w ++ 0x22 :: (k ++ 0x22 :: (w1 ++ 0x3A :: (w2 ++ t ++ w' ++ 0x2C :: e)))) ((key, v) :: fs)
end

/-- A JSON document: one value, with white space around it (RFC 8259, 2). -/
def JsonDocument (b : Bytes) (v : Value) : Prop := ∃ w t w', b = w ++ t ++ w' ∧ JsonWs w ∧ JsonWs w' ∧ JsonText t v

end Verif.Spec
