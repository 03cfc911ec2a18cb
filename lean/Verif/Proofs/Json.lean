import Verif.Spec.Profiler
import Verif.Proofs.EventId

namespace Verif.Json

open Verif Verif.Mm Verif.Spec Verif.Decode

/-! ## Numbers -/

/-- The decimal digits as bytes. -/
def dig : Nat → Nat → Bytes
  | 0, _ => []
  | f + 1, n => if n < 10 then [UInt8.ofNat (48 + n)] else dig f (n / 10) ++ [UInt8.ofNat (48 + n % 10)]

theorem utf8_ofList (l : List Char) : utf8 (String.ofList l) = l.flatMap String.utf8EncodeChar := by
  simp [utf8]

theorem encode_digit {d : Nat} (h : d < 10) : String.utf8EncodeChar (Char.ofNat (48 + d)) = [UInt8.ofNat (48 + d)] := by
  have : d = 0 ∨ d = 1 ∨ d = 2 ∨ d = 3 ∨ d = 4 ∨ d = 5 ∨ d = 6 ∨ d = 7 ∨ d = 8 ∨ d = 9 := by omega
  rcases this with rfl | rfl | rfl | rfl | rfl | rfl | rfl | rfl | rfl | rfl <;> decide

theorem utf8_decimal (n : Nat) : utf8 (decimal n) = dig (n + 1) n := by
  rw [decimal, utf8_ofList]
  have : ∀ f n, (decimalAux f n).flatMap String.utf8EncodeChar = dig f n := by
    intro f
    induction f with
    | zero => intro n; rfl
    | succ f ih =>
      intro n
      rw [decimalAux, dig]
      split
      · rename_i h
        rw [List.flatMap_cons, List.flatMap_nil, List.append_nil, encode_digit h]
      · rw [List.flatMap_append, ih, List.flatMap_cons, List.flatMap_nil, List.append_nil, encode_digit (Nat.mod_lt _ (by omega))]
  exact this _ _

theorem isDigit_dig : ∀ f n, ∀ b ∈ dig f n, isDigit b = true := by
  have key : ∀ d, d < 10 → isDigit (UInt8.ofNat (48 + d)) = true := by decide
  intro f
  induction f with
  | zero => intro n b hb; simp [dig] at hb
  | succ f ih =>
    intro n b hb
    rw [dig] at hb
    split at hb
    · rename_i h
      rw [List.mem_singleton] at hb
      subst hb
      exact key n h
    · rw [List.mem_append, List.mem_singleton] at hb
      rcases hb with hb | rfl
      · exact ih _ _ hb
      · exact key _ (Nat.mod_lt _ (by omega))

theorem digitsValue_append (a : Bytes) (d : UInt8) : digitsValue (a ++ [d]) = 10 * digitsValue a + (d.toNat - 48) := by
  simp [digitsValue]

theorem digitsValue_dig : ∀ f n, n < f → digitsValue (dig f n) = n := by
  have key : ∀ d, d < 10 → (UInt8.ofNat (48 + d)).toNat - 48 = d := by decide
  intro f
  induction f with
  | zero => intro n h; omega
  | succ f ih =>
    intro n h
    rw [dig]
    split
    · rename_i h
      have := digitsValue_append [] (UInt8.ofNat (48 + n))
      rw [List.nil_append] at this
      rw [this, key n h]
      simp [digitsValue]
    · rw [digitsValue_append, ih _ (by omega), key _ (Nat.mod_lt _ (by omega))]
      omega

theorem dig_ne : ∀ f n, dig (f + 1) n ≠ [] := by
  intro f n
  rw [dig]
  split <;> simp

theorem dig_head : ∀ f n, n < f → (dig f n).head? = some 0x30 → n = 0 := by
  have key : ∀ d, d < 10 → UInt8.ofNat (48 + d) = 0x30 → d = 0 := by decide
  intro f
  induction f with
  | zero => intro n h; omega
  | succ f ih =>
    intro n h hh
    rw [dig] at hh
    split at hh
    · rename_i h
      simp at hh
      exact key n h (by simpa using hh)
    · rename_i h10
      obtain ⟨f, rfl⟩ : ∃ g, f = g + 1 := ⟨f - 1, by omega⟩
      rw [List.head?_append] at hh
      cases hd : (dig (f + 1) (n / 10)).head? with
      | none => exact absurd (List.head?_eq_none_iff.mp hd) (dig_ne _ _)
      | some b =>
        rw [hd] at hh
        simp at hh
        subst hh
        have := ih (n / 10) (by omega) hd
        omega

theorem takeWhile_append {p : UInt8 → Bool} {A : Bytes} {b : UInt8} {B : Bytes} (h : ∀ a ∈ A, p a = true) (hb : p b = false) :
    (A ++ b :: B).takeWhile p = A ∧ (A ++ b :: B).dropWhile p = b :: B := by
  induction A with
  | nil => simp [hb]
  | cons a A ih =>
    have h1 := h a (by simp)
    have := ih (fun x hx => h x (by simp [hx]))
    simp [h1, this]

theorem takeWhile_all {p : UInt8 → Bool} {A : Bytes} (h : ∀ a ∈ A, p a = true) : A.takeWhile p = A ∧ A.dropWhile p = [] := by
  induction A with
  | nil => exact ⟨rfl, rfl⟩
  | cons a A ih =>
    have h1 := h a (by simp)
    have := ih (fun x hx => h x (by simp [hx]))
    simp [h1, this]

theorem parseMinus_dig (f n : Nat) (R : Bytes) : parseMinus (dig (f + 1) n ++ R) = ([], dig (f + 1) n ++ R) := by
  cases h : dig (f + 1) n with
  | nil => exact absurd h (dig_ne _ _)
  | cons c r =>
    have hc := isDigit_dig (f + 1) n c (by rw [h]; simp)
    rw [List.cons_append, parseMinus, if_neg]
    rintro rfl
    exact absurd hc (by decide)

/-- A decimal number followed by a byte that does not go on with it. -/
theorem parseNum_dec (n : Nat) (R : Bytes) (h : ∀ c ∈ R.head?, isDigit c = false ∧ c ≠ 0x2E ∧ c ≠ 0x65 ∧ c ≠ 0x45) :
    parseNum (utf8 (decimal n) ++ R) = some (.num n, R) := by
  rw [utf8_decimal]
  have hd : (dig (n + 1) n ++ R).takeWhile isDigit = dig (n + 1) n ∧ (dig (n + 1) n ++ R).dropWhile isDigit = R := by
    cases R with
    | nil =>
      rw [List.append_nil]
      exact takeWhile_all (isDigit_dig (n + 1) n)
    | cons c R => exact takeWhile_append (p := isDigit) (B := R) (isDigit_dig (n + 1) n) (h c rfl).1
  unfold parseNum
  simp only [parseMinus_dig, hd.1, hd.2]
  have hz : ¬ ((dig (n + 1) n).head? = some 0x30 ∧ (dig (n + 1) n).length ≠ 1) := by
    rintro ⟨h1, h2⟩
    have h0 := dig_head _ _ (by omega) h1
    subst h0
    simp [dig] at h2
  rw [if_neg (dig_ne n n), if_neg hz, digitsValue_dig _ _ (by omega)]
  have hf : parseFrac R = some ([], R) := by
    cases R with
    | nil => rfl
    | cons c R => rw [parseFrac, if_neg (h c rfl).2.1]
  have he : parseExp R = some ([], R) := by
    cases R with
    | nil => rfl
    | cons c R => rw [parseExp, if_neg (by have := h c rfl; rintro (h' | h') <;> simp_all)]
  simp only [hf, he, and_self, if_true]

theorem parseNum_decimal (n : Nat) (R : Bytes) : parseNum (utf8 (decimal n) ++ 0x2C :: R) = some (.num n, 0x2C :: R) :=
  parseNum_dec n _ (by intro c hc; cases hc; decide)

theorem parseValue_decimal (f n : Nat) (R : Bytes) :
    parseValue (f + 1) (0x20 :: (utf8 (decimal n) ++ 0x2C :: R)) = some (.num n, 0x2C :: R) := by
  have hp := parseNum_decimal n R
  have hd := isDigit_dig (n + 1) n
  rw [utf8_decimal] at hp ⊢
  cases hh : dig (n + 1) n with
  | nil => exact absurd hh (dig_ne _ _)
  | cons c ds =>
    rw [hh] at hp hd
    have hc := hd c (by simp)
    have hws : isWs c = false ∧ c ≠ 0x22 ∧ c ≠ 0x7B ∧ c ≠ 0x5B ∧ c ≠ 0x74 ∧ c ≠ 0x66 ∧ c ≠ 0x6E := by
      revert hc
      generalize c = c
      intro hc
      simp only [isDigit, Bool.and_eq_true, decide_eq_true_eq, UInt8.le_iff_toNat_le] at hc
      have h1 : (0x30 : UInt8).toNat = 48 := rfl
      have h2 : (0x39 : UInt8).toNat = 57 := rfl
      refine ⟨?_, ?_, ?_, ?_, ?_, ?_, ?_⟩
      · simp only [isWs, Bool.or_eq_false_iff, decide_eq_false_iff_not]
        refine ⟨⟨⟨?_, ?_⟩, ?_⟩, ?_⟩ <;> (rintro rfl; revert hc; decide)
      all_goals (rintro rfl; revert hc; decide)
    obtain ⟨w0, w1, w2, w3, w4, w5, w6⟩ := hws
    rw [parseValue]
    have hskip : skipWs (0x20 :: (c :: ds ++ 0x2C :: R)) = c :: (ds ++ 0x2C :: R) := by
      rw [skipWs, if_pos (by decide), List.cons_append, skipWs, if_neg (by simp [w0])]
    rw [hskip]
    simp only [if_neg w1, if_neg w2, if_neg w3, if_neg w4, if_neg w5, if_neg w6]
    rw [← List.cons_append, hp]

/-! ## Strings -/

theorem utf8_single {c : Char} (h : c.toNat < 128) : String.utf8EncodeChar c = [UInt8.ofNat c.toNat] := by
  rcases encode_ascii c with h' | h'
  · exact h'.2
  · omega

theorem char_of_toNat {c d : Char} (h : c.toNat = d.toNat) : c = d := Char.ext (UInt32.toNat_inj.mp h)

theorem parseStr_quote (R : Bytes) : parseStr (0x22 :: R) = some ([], R) := by
  rw [parseStr.eq_def]; rfl

theorem parseStr_char {b : UInt8} (R : Bytes) (h1 : b ≠ 0x22) (h2 : b ≠ 0x5C) (h3 : ¬ b < 0x20) :
    parseStr (b :: R) = push [b] (parseStr R) := by
  rw [parseStr.eq_def]
  simp only [if_neg h1, if_neg h2, if_neg h3]

theorem parseStr_esc {e x : UInt8} (R : Bytes) (h1 : e ≠ 0x75) (h2 : simpleEscape e = some x) :
    parseStr (0x5C :: e :: R) = push [x] (parseStr R) := by
  rw [parseStr.eq_def]
  simp only [if_neg h1, h2]
  rw [if_neg (by decide), if_pos trivial]

/-- A literal without quotes, backslashes and control characters. -/
theorem parseStr_lit (A R : Bytes) (h : A.all (fun b => b ≠ 0x22 && b ≠ 0x5C && 0x20 ≤ b) = true) :
    parseStr (A ++ 0x22 :: R) = some (A, R) := by
  induction A with
  | nil => exact parseStr_quote R
  | cons a A ih =>
    simp only [List.all_cons, Bool.and_eq_true, decide_eq_true_eq] at h
    obtain ⟨⟨⟨h1, h2⟩, h3⟩, h4⟩ := h
    rw [List.cons_append, parseStr_char _ h1 h2 (by simpa using h3), ih h4]
    rfl

/-- One escaped character: read back if plain, refused otherwise. -/
theorem parseStr_escape (c : Char) (X : Bytes) :
    parseStr ((escapeDefault c).flatMap String.utf8EncodeChar ++ X) =
      if PlainChar c then push (String.utf8EncodeChar c) (parseStr X) else none := by
  by_cases h1 : c = '\t'
  · subst h1; rw [if_pos (by decide)]; exact parseStr_esc (e := 0x74) X (by decide) rfl
  by_cases h2 : c = '\r'
  · subst h2; rw [if_pos (by decide)]; exact parseStr_esc (e := 0x72) X (by decide) rfl
  by_cases h3 : c = '\n'
  · subst h3; rw [if_pos (by decide)]; exact parseStr_esc (e := 0x6E) X (by decide) rfl
  by_cases h4 : c = '\''
  · subst h4; rw [if_neg (by decide)]; show parseStr (0x5C :: 0x27 :: X) = none; rw [parseStr.eq_def]; rfl
  by_cases h5 : c = '"'
  · subst h5; rw [if_pos (by decide)]; exact parseStr_esc (e := 0x22) X (by decide) rfl
  by_cases h6 : c = '\\'
  · subst h6; rw [if_pos (by decide)]; exact parseStr_esc (e := 0x5C) X (by decide) rfl
  have n1 : c.toNat ≠ 9 := fun h => h1 (char_of_toNat h)
  have n2 : c.toNat ≠ 13 := fun h => h2 (char_of_toNat h)
  have n3 : c.toNat ≠ 10 := fun h => h3 (char_of_toNat h)
  have n4 : c.toNat ≠ 39 := fun h => h4 (char_of_toNat h)
  have n5 : c.toNat ≠ 34 := fun h => h5 (char_of_toNat h)
  have n6 : c.toNat ≠ 92 := fun h => h6 (char_of_toNat h)
  rw [escapeDefault, if_neg h1, if_neg h2, if_neg h3, if_neg h4, if_neg h5, if_neg h6]
  by_cases hp : 0x20 ≤ c.toNat ∧ c.toNat ≤ 0x7E
  · rw [if_pos hp, if_pos (show PlainChar c from .inl ⟨hp.1, hp.2, n4⟩), List.flatMap_cons, List.flatMap_nil, List.append_nil, utf8_single (by omega)]
    have hb : (UInt8.ofNat c.toNat).toNat = c.toNat := u8_ofNat_toNat_lt (by omega)
    have m1 : UInt8.ofNat c.toNat ≠ 0x22 := fun h => n5 (by rw [← hb, h]; rfl)
    have m2 : UInt8.ofNat c.toNat ≠ 0x5C := fun h => n6 (by rw [← hb, h]; rfl)
    have m3 : ¬ UInt8.ofNat c.toNat < 0x20 := by
      rw [UInt8.lt_iff_toNat_lt, hb]
      show ¬ c.toNat < 32
      omega
    exact parseStr_char X m1 m2 m3
  · rw [if_neg hp, if_neg (show ¬ PlainChar c by unfold PlainChar; omega)]
    have e : (['\\', 'u', '{'] ++ hexAux 6 c.toNat ++ ['}']).flatMap String.utf8EncodeChar ++ X =
        0x5C :: 0x75 :: 0x7B :: ((hexAux 6 c.toNat).flatMap String.utf8EncodeChar ++ [0x7D] ++ X) := by
      simp only [List.flatMap_append]
      rfl
    rw [e, parseStr.eq_def]
    simp only []
    rw [if_neg (by decide), if_pos trivial, if_pos trivial]
    split
    · rename_i heq
      simp only [List.cons.injEq] at heq
      obtain ⟨rfl, _⟩ := heq
      rfl
    · rfl

theorem parseStr_escaped (cs : List Char) (R : Bytes) :
    parseStr ((cs.flatMap escapeDefault).flatMap String.utf8EncodeChar ++ 0x22 :: R) =
      if ∀ c ∈ cs, PlainChar c then some (cs.flatMap String.utf8EncodeChar, R) else none := by
  induction cs with
  | nil => rw [if_pos (by simp)]; exact parseStr_quote R
  | cons c cs ih =>
    rw [List.flatMap_cons, List.flatMap_append, List.append_assoc, parseStr_escape, ih]
    by_cases hc : PlainChar c <;> by_cases hcs : ∀ c ∈ cs, PlainChar c
    · rw [if_pos hc, if_pos hcs, if_pos (by simp [hc]; exact hcs)]
      simp [push]
    · rw [if_pos hc, if_neg hcs, if_neg (by simp [hc]; simpa using hcs)]
      rfl
    · rw [if_neg hc, if_neg (by simp [hc])]
    · rw [if_neg hc, if_neg (by simp [hc])]

theorem escapedArgs_eq (args : List String) :
    escapedArgs args = String.ofList ((args.flatMap (fun a => a.toList ++ [' '])).flatMap escapeDefault) := by
  rw [escapedArgs]
  congr 1
  induction args with
  | nil => rfl
  | cons a as ih =>
    rw [List.flatMap_cons, List.flatMap_cons, List.flatMap_append, List.flatMap_append, ih]
    rfl

theorem commandLine_eq (args : List String) : commandLine args = String.ofList (args.flatMap (fun a => a.toList ++ [' '])) := by
  induction args with
  | nil => rfl
  | cons a as ih =>
    rw [commandLine, ih]
    apply String.toList_inj.mp
    simp

theorem parseStr_args (args : List String) (R : Bytes) :
    parseStr (utf8 (escapedArgs args) ++ 0x22 :: R) =
      if PlainArgs args then some (utf8 (commandLine args), R) else none := by
  rw [escapedArgs_eq, utf8_ofList, parseStr_escaped, commandLine_eq, utf8_ofList]
  have : (∀ c ∈ args.flatMap (fun a => a.toList ++ [' ']), PlainChar c) ↔ PlainArgs args := by
    constructor
    · intro h a ha c hc
      exact h c (List.mem_flatMap.mpr ⟨a, ha, by simp [hc]⟩)
    · intro h c hc
      obtain ⟨a, ha, hc⟩ := List.mem_flatMap.mp hc
      simp only [List.mem_append, List.mem_singleton] at hc
      rcases hc with hc | rfl
      · exact h a ha c hc
      · decide
  simp only [this]

/-! ## The record -/

/-- What follows the value of a member. -/
def afterValue (f : Nat) (key : Bytes) : Option (Value × Bytes) → Option (List (Bytes × Value) × Bytes)
  | none => none
  | some (v, r) =>
    match skipWs r with
    | [] => none
    | c :: r =>
      if c = 0x7D then some ([(key, v)], r)
      else if c = 0x2C then
        match parseMembers f r with
        | some (fs, r) => some ((key, v) :: fs, r)
        | none => none
      else none

def consField (key : Bytes) (v : Value) : Option (List (Bytes × Value) × Bytes) → Option (List (Bytes × Value) × Bytes)
  | some (fs, r) => some ((key, v) :: fs, r)
  | none => none

def mkObj : Option (List (Bytes × Value) × Bytes) → Option (Value × Bytes)
  | some (fs, r) => some (.obj fs, r)
  | none => none

theorem afterValue_comma (f : Nat) (key : Bytes) (v : Value) (R : Bytes) :
    afterValue f key (some (v, 0x2C :: R)) = consField key v (parseMembers f R) := rfl

theorem open_obj (f : Nat) (R : Bytes) : parseValue (f + 1) (0x7B :: 0x20 :: 0x22 :: R) = mkObj (parseMembers f (0x22 :: R)) := rfl

theorem lit_open : utf8 "{ \"start_time\": " = 0x7B :: 0x20 :: 0x22 :: (utf8 "start_time" ++ [0x22, 0x3A, 0x20]) := by decide
theorem lit_pid : utf8 ", \"process_id\": " = 0x2C :: 0x20 :: 0x22 :: (utf8 "process_id" ++ [0x22, 0x3A, 0x20]) := by decide
theorem lit_cmd : utf8 ", \"cmd\": \"" = 0x2C :: 0x20 :: 0x22 :: (utf8 "cmd" ++ [0x22, 0x3A, 0x20, 0x22]) := by decide
theorem lit_counter : utf8 "\", \"counter\": " = 0x22 :: 0x2C :: 0x20 :: 0x22 :: (utf8 "counter" ++ [0x22, 0x3A, 0x20]) := by decide
theorem lit_close : utf8 " }" = [0x20, 0x7D] := by decide

theorem member (f : Nat) (key R : Bytes) (h : key.all (fun b => b ≠ 0x22 && b ≠ 0x5C && 0x20 ≤ b) = true) :
    parseMembers (f + 1) (0x22 :: (key ++ 0x22 :: 0x3A :: R)) = afterValue f key (parseValue f R) := by
  rw [parseMembers]
  have : skipWs (0x22 :: (key ++ 0x22 :: 0x3A :: R)) = 0x22 :: (key ++ 0x22 :: 0x3A :: R) := rfl
  rw [this]
  simp only []
  rw [if_neg (by simp), parseStr_lit key _ h]
  rfl

theorem member_ws (f : Nat) (R : Bytes) : parseMembers (f + 1) (0x20 :: 0x22 :: R) = parseMembers (f + 1) (0x22 :: R) := rfl

def mkStr : Option (Bytes × Bytes) → Option (Value × Bytes)
  | some (s, r) => some (.str s, r)
  | none => none

theorem parseValue_str (f : Nat) (R : Bytes) : parseValue (f + 1) (0x20 :: 0x22 :: R) = mkStr (parseStr R) := rfl

set_option maxRecDepth 10000 in
theorem parse_counter (k : CounterKind) : ∃ v, ∀ (f : Nat) (R : Bytes),
    parseValue (f + 14) (0x20 :: (utf8 k.json ++ R)) = some (v, R) := by
  cases k with
  | wallTime =>
    refine ⟨.obj [([0x6e, 0x61, 0x6d, 0x65], .str [119, 97, 108, 108, 45, 116, 105, 109, 101]), ([117, 110, 105, 116, 115],
      .arr [.arr [.str [0x6e, 0x73], .num 1], .arr [.str [206, 188, 115], .num 1000], .arr [.str [109, 115], .num 1000000],
        .arr [.str [115], .num 1000000000]])], fun f R => ?_⟩
    rw [show utf8 (CounterKind.json .wallTime) = [123, 32, 34, 110, 97, 109, 101, 34, 58, 32, 34, 119, 97, 108, 108, 45, 116, 105, 109, 101, 34, 44, 32, 34, 117, 110,
 105, 116, 115, 34, 58, 32, 91, 91, 34, 110, 115, 34, 44, 32, 49, 93, 44, 32, 91, 34, 206, 188, 115, 34, 44, 32, 49, 48,
 48, 48, 93, 44, 32, 91, 34, 109, 115, 34, 44, 32, 49, 48, 48, 48, 48, 48, 48, 93, 44, 32, 91, 34, 115, 34, 44, 32, 49,
 48, 48, 48, 48, 48, 48, 48, 48, 48, 93, 93, 32, 125] by decide]
    rfl
  | instructions =>
    refine ⟨.obj [(utf8 "name", .str (utf8 "instructions:u")), (utf8 "units", .arr [.arr [.str (utf8 "instructions"), .num 1]])], fun f R => ?_⟩
    rw [show utf8 (CounterKind.json .instructions) = [123, 32, 34, 110, 97, 109, 101, 34, 58, 32, 34, 105, 110, 115, 116, 114, 117, 99, 116, 105, 111, 110, 115, 58, 117, 34, 44, 32, 34, 117, 110, 105, 116, 115, 34, 58, 32, 91, 91, 34, 105, 110, 115, 116, 114, 117, 99, 116, 105, 111, 110, 115, 34, 44, 32, 49, 93, 93, 32, 125] by decide]
    rfl
  | instructionsMinusIrqs =>
    refine ⟨.obj [(utf8 "name", .str (utf8 "instructions-minus-irqs:u")), (utf8 "units", .arr [.arr [.str (utf8 "instructions"), .num 1]])], fun f R => ?_⟩
    rw [show utf8 (CounterKind.json .instructionsMinusIrqs) = [123, 32, 34, 110, 97, 109, 101, 34, 58, 32, 34, 105, 110, 115, 116, 114, 117, 99, 116, 105, 111, 110, 115, 45, 109, 105, 110, 117, 115, 45, 105, 114, 113, 115, 58, 117, 34, 44, 32, 34, 117, 110, 105, 116, 115, 34, 58, 32, 91, 91, 34, 105, 110, 115, 116, 114, 117, 99, 116, 105, 111, 110, 115, 34, 44, 32, 49, 93, 93, 32, 125] by decide]
    rfl
  | instructionsMinusRaw0420 =>
    refine ⟨.obj [(utf8 "name", .str (utf8 "instructions-minus-r0420:u")), (utf8 "units", .arr [.arr [.str (utf8 "instructions"), .num 1]])], fun f R => ?_⟩
    rw [show utf8 (CounterKind.json .instructionsMinusRaw0420) = [123, 32, 34, 110, 97, 109, 101, 34, 58, 32, 34, 105, 110, 115, 116, 114, 117, 99, 116, 105, 111, 110, 115, 45, 109, 105, 110, 117, 115, 45, 114, 48, 52, 50, 48, 58, 117, 34, 44, 32, 34, 117, 110, 105, 116, 115, 34, 58, 32, 91, 91, 34, 105, 110, 115, 116, 114, 117, 99, 116, 105, 111, 110, 115, 34, 44, 32, 49, 93, 93, 32, 125] by decide]
    rfl

theorem last_member (f : Nat) (key : Bytes) (v : Value) : afterValue f key (some (v, utf8 " }")) = some ([(key, v)], []) := by
  rw [lit_close]; rfl

theorem utf8_nine (a b c d e f g h i : String) : utf8 (a ++ b ++ c ++ d ++ e ++ f ++ g ++ h ++ i) =
    utf8 a ++ (utf8 b ++ (utf8 c ++ (utf8 d ++ (utf8 e ++ (utf8 f ++ (utf8 g ++ (utf8 h ++ utf8 i))))))) := by
  simp only [utf8_append, List.append_assoc]

theorem utf8_metadata (s p : Nat) (args : List String) (k : CounterKind) : utf8 (metadataText s p args k) =
    utf8 "{ \"start_time\": " ++ (utf8 (decimal s) ++ (utf8 ", \"process_id\": " ++ (utf8 (decimal p) ++ (utf8 ", \"cmd\": \"" ++
      (utf8 (escapedArgs args) ++ (utf8 "\", \"counter\": " ++ (utf8 k.json ++ utf8 " }"))))))) := utf8_nine _ _ _ _ _ _ _ _ _

/-- Parsing the metadata record. -/
theorem parse_record (s p : Nat) (args : List String) (k : CounterKind) : ∃ v : Value, ∀ f : Nat,
    parseValue (f + 20) (utf8 (metadataText s p args k)) =
      if PlainArgs args then some (.obj [(utf8 "start_time", .num s), (utf8 "process_id", .num p),
        (utf8 "cmd", .str (utf8 (commandLine args))), (utf8 "counter", v)], []) else none := by
  obtain ⟨v, hv⟩ := parse_counter k
  refine ⟨v, fun f => ?_⟩
  rw [utf8_metadata, lit_open, lit_pid, lit_cmd, lit_counter]
  generalize hD1 : utf8 (decimal s) = D1
  generalize hD2 : utf8 (decimal p) = D2
  generalize hE : utf8 (escapedArgs args) = E
  generalize hJ : utf8 k.json ++ utf8 " }" = J
  simp only [List.append_assoc, List.cons_append, List.nil_append]
  subst hD1 hD2 hE hJ
  rw [open_obj, member _ _ _ (by decide), parseValue_decimal, afterValue_comma, member_ws, member _ _ _ (by decide), parseValue_decimal,
    afterValue_comma, member_ws, member _ _ _ (by decide), parseValue_str, parseStr_args]
  by_cases h : PlainArgs args
  · rw [if_pos h, if_pos h, mkStr, afterValue_comma, member_ws, member _ _ _ (by decide), hv (f + 1), last_member]
    rfl
  · rw [if_neg h, if_neg h]
    rfl

theorem metadata_length (s p : Nat) (args : List String) (k : CounterKind) : 101 ≤ (utf8 (metadataText s p args k)).length := by
  rw [utf8_metadata]
  simp only [List.length_append]
  have h1 : (utf8 "{ \"start_time\": ").length = 16 := by decide
  have h2 : (utf8 ", \"process_id\": ").length = 16 := by decide
  have h3 : (utf8 ", \"cmd\": \"").length = 10 := by decide
  have h4 : (utf8 "\", \"counter\": ").length = 14 := by decide
  have h5 : (utf8 " }").length = 2 := by decide
  have h6 : 60 ≤ (utf8 k.json).length := by cases k <;> decide
  omega

/-- The metadata record is read back exactly when every argument consists of plain characters. -/
theorem parseMetadata_record (s p : Nat) (args : List String) (k : CounterKind) (hs : s < 2 ^ 64) (hp : p < 2 ^ 32) :
    parseMetadata (utf8 (metadataText s p args k)) =
      if PlainArgs args then .ok ⟨s, p, utf8 (commandLine args)⟩ else .error (.err "serde_json error") := by
  obtain ⟨v, hv⟩ := parse_record s p args k
  have hl := metadata_length s p args k
  obtain ⟨f, hf⟩ : ∃ f, (utf8 (metadataText s p args k)).length + 1 = f + 20 := ⟨(utf8 (metadataText s p args k)).length - 19, by omega⟩
  unfold parseMetadata parseDocument
  rw [hf, hv f]
  by_cases h : PlainArgs args
  · rw [if_pos h, if_pos h]
    simp only [skipWs, if_true]
    have e1 : utf8 "start_time" ≠ utf8 "process_id" := by decide
    have e2 : utf8 "start_time" ≠ utf8 "cmd" := by decide
    have e3 : utf8 "start_time" ≠ utf8 "counter" := by decide
    have e4 : utf8 "process_id" ≠ utf8 "cmd" := by decide
    have e5 : utf8 "process_id" ≠ utf8 "counter" := by decide
    have e6 : utf8 "cmd" ≠ utf8 "counter" := by decide
    simp only [metadataOf, fieldValues, List.filter, e1, e2, e3, e4, e5, e6, e1.symm, e2.symm, e3.symm, e4.symm, e5.symm, e6.symm,
      decide_true, decide_false, List.map, hs, hp, and_self, if_true]
  · rw [if_neg h, if_neg h]

end Verif.Json
