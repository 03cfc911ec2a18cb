import Verif.Model.Printing
import Verif.Spec.Printing
import Verif.Proofs.Json
import Mathlib.Tactic.Ring
import Mathlib.Tactic.FieldSimp
import Mathlib.Tactic.Linarith
import Mathlib.Tactic.NormNum
import Mathlib.Algebra.Order.Field.Basic
import Mathlib.Algebra.Order.Group.Unbundled.Abs

/-! # Printed numbers: proofs -/

namespace Verif.Print
open Verif Verif.Mm Verif.Spec Verif.Diff

/-- The number that digits denote. -/
def val (ds : List Nat) : Nat := ds.foldl (fun v d => 10 * v + d) 0

theorem val_acc (ds : List Nat) : ∀ v, ds.foldl (fun v d => 10 * v + d) v = v * 10 ^ ds.length + val ds := by
  induction ds with
  | nil => intro v; simp [val]
  | cons d ds ih =>
    intro v
    unfold val
    rw [List.foldl_cons, List.foldl_cons, ih, ih (10 * 0 + d), List.length_cons]
    ring

theorem val_cons (d : Nat) (ds : List Nat) : val (d :: ds) = d * 10 ^ ds.length + val ds := by
  unfold val
  rw [List.foldl_cons, val_acc, Nat.mul_zero, Nat.zero_add]
  rfl

theorem val_append (a b : List Nat) : val (a ++ b) = val a * 10 ^ b.length + val b := by
  unfold val
  rw [List.foldl_append, val_acc]
  rfl

theorem val_zeros (n : Nat) : val (List.replicate n 0) = 0 := by
  induction n with
  | zero => rfl
  | succ n ih => rw [List.replicate_succ, val_cons, ih]; simp

theorem digitLoop_spec : ∀ (k J frac div : Nat), frac < 10 ^ J → (J = 0 ∨ div = 10 ^ (J - 1)) →
    ∃ ds rest div', digitLoop k frac div = (ds, rest, div') ∧ ds.length ≤ k ∧ ds.length ≤ J ∧ frac = val ds * 10 ^ (J - ds.length) + rest ∧
      rest < 10 ^ (J - ds.length) ∧ (rest > 0 → ds.length = k) ∧ (J - ds.length = 0 ∨ div' = 10 ^ (J - ds.length - 1)) ∧ ∀ d ∈ ds, d < 10 := by
  intro k
  induction k with
  | zero =>
    intro J frac div hf hd
    exact ⟨[], frac, div, rfl, by simp, by simp, by simp [val], by simpa using hf, fun _ => rfl, by simpa using hd, by simp⟩
  | succ k ih =>
    intro J frac div hf hd
    unfold digitLoop
    split
    · rename_i hpos
      obtain ⟨J, rfl⟩ : ∃ J', J = J' + 1 := by
        cases J with
        | zero => simp at hf; omega
        | succ J => exact ⟨J, rfl⟩
      have hdiv : div = 10 ^ J := by simpa using hd
      have hp : 0 < 10 ^ J := Nat.pow_pos (by decide)
      obtain ⟨ds, rest, div', h1, h2, h3, h4, h5, h6, h7, h8⟩ := ih J (frac % div) (div / 10) (by rw [hdiv]; exact Nat.mod_lt _ hp) (by
        cases J with
        | zero => exact .inl rfl
        | succ J => right; rw [hdiv, pow_succ]; simp)
      refine ⟨frac / div :: ds, rest, div', by rw [h1], by simpa using h2, by simpa using h3, ?_, ?_, ?_, ?_, ?_⟩
      · have hdm := Nat.div_add_mod frac div
        rw [List.length_cons, Nat.add_sub_add_right, val_cons, Nat.add_mul, Nat.mul_assoc, ← Nat.pow_add, Nat.add_sub_cancel' h3, ← hdiv, Nat.add_assoc, ← h4, Nat.mul_comm]
        omega
      · rw [List.length_cons, Nat.add_sub_add_right]; exact h5
      · intro hr; rw [List.length_cons, h6 hr]
      · rw [List.length_cons, Nat.add_sub_add_right]; exact h7
      · intro d hd'
        rw [List.mem_cons] at hd'
        rcases hd' with rfl | hd'
        · rw [Nat.div_lt_iff_lt_mul (by omega), hdiv, Nat.mul_comm, ← pow_succ]; exact hf
        · exact h8 d hd'
    · rename_i hpos
      have h0 : frac = 0 := by omega
      subst h0
      exact ⟨[], 0, div, rfl, by simp, by simp, by simp [val], by simpa using hf, by simp, by simpa using hd, by simp⟩

theorem roundUp_spec (ds : List Nat) (h : ∀ d ∈ ds, d < 10) : ∃ ds' c, roundUp ds = (ds', c) ∧ ds'.length = ds.length ∧ (∀ d ∈ ds', d < 10) ∧
    val ds' + (if c then 10 ^ ds.length else 0) = val ds + 1 := by
  induction ds with
  | nil => exact ⟨[], true, rfl, rfl, by simp, by simp [val]⟩
  | cons d ds ih =>
    obtain ⟨ds', c, h1, h2, h3, h4⟩ := ih fun d hd => h d (List.mem_cons_of_mem _ hd)
    have hd := h d List.mem_cons_self
    unfold roundUp
    rw [h1]
    cases c with
    | false =>
      refine ⟨d :: ds', false, rfl, by simp [h2], ?_, ?_⟩
      · intro x hx; rw [List.mem_cons] at hx; rcases hx with rfl | hx
        · exact hd
        · exact h3 x hx
      · simp only [Bool.false_eq_true, if_false, Nat.add_zero] at h4 ⊢
        rw [val_cons, val_cons, h2, h4, Nat.add_assoc]
    | true =>
      simp only [if_true] at h4
      by_cases h9 : d < 9
      · simp only [h9, if_true]
        refine ⟨_, _, rfl, by simp [h2], ?_, ?_⟩
        · intro x hx; rw [List.mem_cons] at hx; rcases hx with rfl | hx
          · omega
          · exact h3 x hx
        · simp only [Bool.false_eq_true, if_false, Nat.add_zero]
          rw [val_cons, val_cons, h2, Nat.add_mul]
          omega
      · simp only [h9, if_false]
        refine ⟨_, _, rfl, by simp [h2], ?_, ?_⟩
        · intro x hx; rw [List.mem_cons] at hx; rcases hx with rfl | hx
          · omega
          · exact h3 x hx
        · simp only [if_true]
          have : d = 9 := by omega
          subst this
          rw [val_cons, val_cons, h2, List.length_cons, pow_succ]
          omega

/-! ## Reading back -/

theorem numeral_ofNat : ∀ d, d < 10 → isNumeral (UInt8.ofNat (48 + d)) = true ∧ (UInt8.ofNat (48 + d)).toNat - 0x30 = d := by decide

theorem numeralsValue_append (a b : Bytes) : numeralsValue (a ++ b) = b.foldl (fun v b => 10 * v + (b.toNat - 0x30)) (numeralsValue a) := by
  unfold numeralsValue
  rw [List.foldl_append]

theorem numeralsValue_digits (ds : List Nat) (h : ∀ d ∈ ds, d < 10) (a : Bytes) :
    numeralsValue (a ++ ds.map fun d => UInt8.ofNat (48 + d)) = numeralsValue a * 10 ^ ds.length + val ds := by
  rw [numeralsValue_append, ← val_acc]
  generalize numeralsValue a = v
  induction ds generalizing v with
  | nil => rfl
  | cons d ds ih =>
    rw [List.map_cons, List.foldl_cons, List.foldl_cons, (numeral_ofNat d (h d List.mem_cons_self)).2]
    exact ih (fun d hd => h d (List.mem_cons_of_mem _ hd)) _

theorem isNumeral_dig : ∀ f n, ∀ b ∈ Json.dig f n, isNumeral b = true := by
  intro f
  induction f with
  | zero => intro n b hb; simp [Json.dig] at hb
  | succ f ih =>
    intro n b hb
    rw [Json.dig] at hb
    split at hb
    · rename_i h
      rw [List.mem_singleton] at hb
      subst hb
      exact (numeral_ofNat n h).1
    · rw [List.mem_append, List.mem_singleton] at hb
      rcases hb with hb | rfl
      · exact ih _ _ hb
      · exact (numeral_ofNat _ (Nat.mod_lt _ (by omega))).1

theorem numeralsValue_dig : ∀ f n, n < f → numeralsValue (Json.dig f n) = n := by
  intro f
  induction f with
  | zero => intro n h; omega
  | succ f ih =>
    intro n hn
    rw [Json.dig]
    split
    · rename_i h
      simpa [numeralsValue] using (numeral_ofNat n h).2
    · rw [numeralsValue_append]
      simp only [List.foldl_cons, List.foldl_nil]
      rw [(numeral_ofNat _ (Nat.mod_lt _ (by omega))).2, ih _ (by omega)]
      omega

theorem decimal_numerals (n : Nat) : (∀ b ∈ utf8 (decimal n), isNumeral b = true) ∧ numeralsValue (utf8 (decimal n)) = n ∧ utf8 (decimal n) ≠ [] := by
  rw [Json.utf8_decimal]
  refine ⟨isNumeral_dig _ _, numeralsValue_dig _ _ (by omega), ?_⟩
  rw [Json.dig]
  split <;> simp

theorem takeWhile_stop {p : UInt8 → Bool} {a : Bytes} {b : UInt8} {r : Bytes} (h : ∀ x ∈ a, p x = true) (hb : p b = false) :
    (a ++ b :: r).takeWhile p = a ∧ (a ++ b :: r).dropWhile p = b :: r := by
  induction a with
  | nil => simp [hb]
  | cons x a ih =>
    have hx := h x List.mem_cons_self
    obtain ⟨i1, i2⟩ := ih fun x hx => h x (List.mem_cons_of_mem _ hx)
    simp [hx, i1, i2]

/-- A text of the form printed is read as what it says. -/
theorem readDuration_form (int : Nat) (ds : List Nat) (hds : ∀ d ∈ ds, d < 10) (unit : Bytes) (size : Nat)
    (hu : (unit = utf8 "ns" ∧ size = 1) ∨ (unit = utf8 "µs" ∧ size = 1000) ∨ (unit = utf8 "ms" ∧ size = 1000000) ∨ (unit = utf8 "s" ∧ size = 1000000000)) :
    readDuration (utf8 (decimal int) ++ (if ds.length > 0 then 0x2E :: ds.map (fun d => UInt8.ofNat (48 + d)) else []) ++ unit) =
      some (((int * 10 ^ ds.length + val ds : Nat) : ℚ) / 10 ^ ds.length * size) := by
  obtain ⟨n1, n2, n3⟩ := decimal_numerals int
  have hus : unitSize unit = some size ∧ ∃ b u, unit = b :: u ∧ isNumeral b = false ∧ b ≠ 0x2E := by
    rcases hu with ⟨rfl, rfl⟩ | ⟨rfl, rfl⟩ | ⟨rfl, rfl⟩ | ⟨rfl, rfl⟩
    · exact ⟨by decide, 0x6E, [0x73], by decide, by decide, by decide⟩
    · exact ⟨by decide, 0xC2, [0xB5, 0x73], by decide, by decide, by decide⟩
    · exact ⟨by decide, 0x6D, [0x73], by decide, by decide, by decide⟩
    · exact ⟨by decide, 0x73, [], by decide, by decide, by decide⟩
  obtain ⟨h1, b, u, h2, h3, h4⟩ := hus
  subst h2
  by_cases hl : ds.length > 0
  · rw [if_pos hl]
    have hd : ∀ x ∈ ds.map (fun d => UInt8.ofNat (48 + d)), isNumeral x = true := by
      intro x hx
      obtain ⟨d, hd, rfl⟩ := List.mem_map.mp hx
      exact (numeral_ofNat d (hds d hd)).1
    obtain ⟨t1, t2⟩ := takeWhile_stop (r := ds.map (fun d => UInt8.ofNat (48 + d)) ++ b :: u) n1 (show isNumeral 0x2E = false by decide)
    obtain ⟨t3, t4⟩ := takeWhile_stop (r := u) hd h3
    unfold readDuration
    rw [List.append_assoc, List.cons_append]
    simp only [t1, t2, afterPoint, t3, t4, h1, Option.map_some, if_neg n3, List.length_map]
    rw [numeralsValue_digits ds hds, n2]
  · rw [if_neg hl, List.append_nil]
    have h0 : ds = [] := List.length_eq_zero_iff.mp (by omega)
    subst h0
    obtain ⟨t1, t2⟩ := takeWhile_stop (r := u) n1 h3
    unfold readDuration
    have e : afterPoint (b :: u) = ([], b :: u) := by
      unfold afterPoint
      split
      · rename_i h; injection h with h _; exact absurd h h4
      · rfl
    simp only [t1, t2, if_neg n3, e, h1, Option.map_some, List.append_nil, n2]
    simp [val]

/-- The pairs of unit and power of ten. -/
def UnitPower (unit : Bytes) (J : Nat) : Prop :=
  (unit = utf8 "ns" ∧ J = 0) ∨ (unit = utf8 "µs" ∧ J = 3) ∨ (unit = utf8 "ms" ∧ J = 6) ∨ (unit = utf8 "s" ∧ J = 9)

theorem readDuration_power {unit : Bytes} {J : Nat} (hu : UnitPower unit J) (int : Nat) (ds : List Nat) (hds : ∀ d ∈ ds, d < 10) :
    readDuration (utf8 (decimal int) ++ (if ds.length > 0 then 0x2E :: ds.map (fun d => UInt8.ofNat (48 + d)) else []) ++ unit) =
      some (((int * 10 ^ ds.length + val ds : Nat) : ℚ) / 10 ^ ds.length * 10 ^ J) := by
  have := readDuration_form int ds hds unit (10 ^ J) (by
    rcases hu with ⟨rfl, rfl⟩ | ⟨rfl, rfl⟩ | ⟨rfl, rfl⟩ | ⟨rfl, rfl⟩ <;> simp)
  rw [this]
  push_cast
  rfl

theorem parity (int : Nat) (ds : List Nat) : (int * 10 ^ ds.length + val ds) % 2 = (ds.getLast?.getD int) % 2 := by
  rcases List.eq_nil_or_concat ds with rfl | ⟨l, d, rfl⟩
  · simp [val]
  · rw [List.concat_eq_append, val_append]
    simp only [List.length_append, List.length_singleton, pow_succ, pow_zero, one_mul, List.getLast?_append_of_ne_nil, ne_eq, List.cons_ne_nil, not_false_eq_true, List.getLast?_singleton, Option.getD_some]
    have : val [d] = d := by simp [val]
    rw [this, ← Nat.mul_assoc]
    omega

/-- Rounding to `p` decimals. -/
theorem fmt_rounded {unit : Bytes} {J : Nat} (hu : UnitPower unit J) (p : Nat) (hp : p ≤ 9) (int frac div : Nat) (hf : frac < 10 ^ J)
    (hd : J = 0 ∨ div = 10 ^ (J - 1)) :
    ∃ N : Nat, readDuration (fmtDecimal (some p) int frac div unit) = some ((N : ℚ) / 10 ^ p * 10 ^ J) ∧
      2 * (N * 10 ^ J) ≤ 2 * ((int * 10 ^ J + frac) * 10 ^ p) + 10 ^ J ∧ 2 * ((int * 10 ^ J + frac) * 10 ^ p) ≤ 2 * (N * 10 ^ J) + 10 ^ J ∧
      (2 * (N * 10 ^ J) = 2 * ((int * 10 ^ J + frac) * 10 ^ p) + 10 ^ J ∨ 2 * ((int * 10 ^ J + frac) * 10 ^ p) = 2 * (N * 10 ^ J) + 10 ^ J → N % 2 = 0) := by
  obtain ⟨ds, rest, div', h1, h2, h3, h4, h5, h6, h7, h8⟩ := digitLoop_spec p J frac div hf hd
  obtain ⟨us, c, u1, u2, u3, u4⟩ := roundUp_spec ds h8
  have hpar := parity int ds
  -- the digits so far
  obtain ⟨A, hA⟩ : ∃ A, A = int * 10 ^ ds.length + val ds := ⟨_, rfl⟩
  have hJ : 10 ^ J = 10 ^ ds.length * 10 ^ (J - ds.length) := by rw [← Nat.pow_add, Nat.add_sub_cancel' h3]
  have hn : int * 10 ^ J + frac = A * 10 ^ (J - ds.length) + rest := by
    rw [hA, h4, hJ, Nat.add_mul]
    ring
  -- what is shown
  have key : ∀ (int' : Nat) (es : List Nat), es.length = ds.length → (∀ d ∈ es, d < 10) →
      readDuration (utf8 (decimal int') ++ (if min p 9 > 0 then 0x2E :: (es ++ List.replicate (p - es.length) 0).map (fun d => UInt8.ofNat (48 + d)) else []) ++ unit) =
        some ((((int' * 10 ^ ds.length + val es) * 10 ^ (p - ds.length) : Nat) : ℚ) / 10 ^ p * 10 ^ J) := by
    intro int' es he hes
    have hlen : (es ++ List.replicate (p - es.length) 0).length = p := by simp [he]; omega
    have := readDuration_power hu int' (es ++ List.replicate (p - es.length) 0) (by
      intro d hd
      rw [List.mem_append] at hd
      rcases hd with hd | hd
      · exact hes d hd
      · rw [List.eq_of_mem_replicate hd]; decide)
    rw [hlen, val_append, val_zeros, List.length_replicate, he] at this
    rw [Nat.min_eq_left hp, he, this]
    have e : int' * 10 ^ p + (val es * 10 ^ (p - ds.length) + 0) = (int' * 10 ^ ds.length + val es) * 10 ^ (p - ds.length) := by
      have : 10 ^ p = 10 ^ ds.length * 10 ^ (p - ds.length) := by rw [← Nat.pow_add, Nat.add_sub_cancel' h2]
      rw [this]
      ring
    rw [e]
  have hform : fmtDecimal (some p) int frac div unit =
      (if (decide (rest > 0) && decide (rest ≥ div' * 5) && !(decide (rest = div' * 5) && decide ((ds.getLast?.getD int) % 2 = 0))) = true then
        utf8 (decimal (if c then int + 1 else int)) ++ (if min p 9 > 0 then 0x2E :: (us ++ List.replicate (p - us.length) 0).map (fun d => UInt8.ofNat (48 + d)) else []) ++ unit
       else utf8 (decimal int) ++ (if min p 9 > 0 then 0x2E :: (ds ++ List.replicate (p - ds.length) 0).map (fun d => UInt8.ofNat (48 + d)) else []) ++ unit) := by
    unfold fmtDecimal
    simp only [Option.map_some, Option.getD_some, Nat.min_eq_left hp, h1, u1]
    generalize (decide (rest > 0) && decide (rest ≥ div' * 5) && !(decide (rest = div' * 5) && decide ((ds.getLast?.getD int) % 2 = 0))) = up
    cases up <;> cases c <;> simp
  rw [hform, hn]
  by_cases hr : rest > 0
  · have hL : ds.length = p := h6 hr
    have hR : J - ds.length ≠ 0 := by intro h; rw [h] at h5; simp at h5; omega
    have hdiv : div' = 10 ^ (J - ds.length - 1) := h7.resolve_left hR
    have h10 : 10 ^ (J - ds.length) = 10 * 10 ^ (J - ds.length - 1) := by
      obtain ⟨m, hm⟩ : ∃ m, J - ds.length = m + 1 := ⟨J - ds.length - 1, by omega⟩
      rw [hm, Nat.add_sub_cancel, pow_succ, Nat.mul_comm]
    rw [hL] at hJ
    have hpp : 0 < 10 ^ p := Nat.pow_pos (by decide)
    have conv : ∀ N : Nat, (N * 10 ^ J = (N * 10 ^ (J - ds.length)) * 10 ^ p) := by
      intro N; rw [hJ, hL]; ring
    have cJ : 10 ^ J = 10 ^ (J - ds.length) * 10 ^ p := by rw [hJ, hL]; ring
    have fin : ∀ N : Nat, 2 * (N * 10 ^ (J - ds.length)) ≤ 2 * (A * 10 ^ (J - ds.length) + rest) + 10 ^ (J - ds.length) →
        2 * (A * 10 ^ (J - ds.length) + rest) ≤ 2 * (N * 10 ^ (J - ds.length)) + 10 ^ (J - ds.length) →
        (2 * (N * 10 ^ (J - ds.length)) = 2 * (A * 10 ^ (J - ds.length) + rest) + 10 ^ (J - ds.length) ∨
          2 * (A * 10 ^ (J - ds.length) + rest) = 2 * (N * 10 ^ (J - ds.length)) + 10 ^ (J - ds.length) → N % 2 = 0) →
        2 * (N * 10 ^ J) ≤ 2 * ((A * 10 ^ (J - ds.length) + rest) * 10 ^ p) + 10 ^ J ∧ 2 * ((A * 10 ^ (J - ds.length) + rest) * 10 ^ p) ≤ 2 * (N * 10 ^ J) + 10 ^ J ∧
        (2 * (N * 10 ^ J) = 2 * ((A * 10 ^ (J - ds.length) + rest) * 10 ^ p) + 10 ^ J ∨ 2 * ((A * 10 ^ (J - ds.length) + rest) * 10 ^ p) = 2 * (N * 10 ^ J) + 10 ^ J → N % 2 = 0) := by
      intro N f1 f2 f3
      rw [conv N, cJ]
      have a1 : ∀ x y z : Nat, 2 * (x * 10 ^ p) ≤ 2 * (y * 10 ^ p) + z * 10 ^ p ↔ 2 * x ≤ 2 * y + z := by
        intro x y z
        rw [← Nat.mul_assoc, ← Nat.mul_assoc, ← Nat.add_mul]
        exact Nat.mul_le_mul_right_iff hpp
      have a2 : ∀ x y z : Nat, 2 * (x * 10 ^ p) = 2 * (y * 10 ^ p) + z * 10 ^ p ↔ 2 * x = 2 * y + z := by
        intro x y z
        rw [← Nat.mul_assoc, ← Nat.mul_assoc, ← Nat.add_mul]
        exact Nat.mul_right_cancel_iff hpp
      rw [a1, a1, a2, a2]
      exact ⟨f1, f2, f3⟩
    have hpow0 : p - ds.length = 0 := by omega
    split
    · rename_i hup
      simp only [Bool.and_eq_true, decide_eq_true_eq, Bool.not_eq_true', Bool.and_eq_false_iff, decide_eq_false_iff_not] at hup
      obtain ⟨⟨_, g1⟩, g2⟩ := hup
      refine ⟨A + 1, ?_, fin (A + 1) ?_ ?_ ?_⟩
      · rw [key _ us u2 u3]
        have e : (if c then int + 1 else int) * 10 ^ ds.length + val us = A + 1 := by
          rw [hA]
          cases c with
          | false => simp only [Bool.false_eq_true, if_false] at u4 ⊢; omega
          | true => simp only [if_true] at u4 ⊢; rw [Nat.add_mul]; omega
        rw [e, hpow0, Nat.pow_zero, Nat.mul_one]
      · rw [Nat.add_mul, hdiv] at *; omega
      · rw [Nat.add_mul, hdiv] at *; omega
      · intro h
        rw [← hpar, ← hA] at g2
        rw [Nat.add_mul] at h
        have : rest = div' * 5 := by rw [hdiv] at *; omega
        rcases g2 with g2 | g2
        · exact absurd this g2
        · omega
    · rename_i hup
      have hup' : ¬ (rest ≥ div' * 5 ∧ ¬ (rest = div' * 5 ∧ A % 2 = 0)) := by
        intro ⟨g1, g2⟩
        apply hup
        rw [hA, hpar] at g2
        simp only [Bool.and_eq_true, decide_eq_true_eq, Bool.not_eq_true', Bool.and_eq_false_iff, decide_eq_false_iff_not]
        exact ⟨⟨hr, g1⟩, by by_cases g : rest = div' * 5 <;> [right; left] <;> [exact fun h => g2 ⟨g, h⟩; exact g]⟩
      refine ⟨A, ?_, fin A ?_ ?_ ?_⟩
      · rw [key int ds rfl h8, ← hA, hpow0, Nat.pow_zero, Nat.mul_one]
      · omega
      · rw [hdiv] at hup'; omega
      · intro h; rw [hdiv] at hup'; omega
  · have h0 : rest = 0 := by omega
    subst h0
    rw [if_neg (by simp)]
    refine ⟨A * 10 ^ (p - ds.length), ?_, ?_⟩
    · rw [key int ds rfl h8, ← hA]
    · have e : A * 10 ^ (p - ds.length) * 10 ^ J = (A * 10 ^ (J - ds.length) + 0) * 10 ^ p := by
        have hpw : 10 ^ p = 10 ^ ds.length * 10 ^ (p - ds.length) := by rw [← Nat.pow_add, Nat.add_sub_cancel' h2]
        rw [hpw, hJ]
        ring
      rw [e]
      have : 0 < 10 ^ J := Nat.pow_pos (by decide)
      refine ⟨by omega, by omega, fun h => ?_⟩
      omega

/-- Without a precision nothing is lost. -/
theorem fmt_exact {unit : Bytes} {J : Nat} (hu : UnitPower unit J) (int frac div : Nat) (hf : frac < 10 ^ J)
    (hd : J = 0 ∨ div = 10 ^ (J - 1)) :
    readDuration (fmtDecimal none int frac div unit) = some ((int * 10 ^ J + frac : Nat) : ℚ) := by
  obtain ⟨ds, rest, div', h1, h2, h3, h4, h5, h6, h7, h8⟩ := digitLoop_spec 9 J frac div hf hd
  have hJ9 : J ≤ 9 := by rcases hu with ⟨_, rfl⟩ | ⟨_, rfl⟩ | ⟨_, rfl⟩ | ⟨_, rfl⟩ <;> decide
  have h0 : rest = 0 := by
    by_contra hne
    have hL := h6 (by omega)
    have : J - ds.length = 0 := by omega
    rw [this] at h5
    simp at h5
    omega
  subst h0
  have hform : fmtDecimal none int frac div unit =
      utf8 (decimal int) ++ (if ds.length > 0 then 0x2E :: ds.map (fun d => UInt8.ofNat (48 + d)) else []) ++ unit := by
    unfold fmtDecimal
    simp only [Option.map_none, Option.getD_none, h1]
    simp
  rw [hform, readDuration_power hu int ds h8]
  congr 1
  have hJ : (10 : ℚ) ^ J = 10 ^ ds.length * 10 ^ (J - ds.length) := by rw [← pow_add, Nat.add_sub_cancel' h3]
  rw [h4]
  push_cast
  rw [hJ]
  field_simp
  ring

end Verif.Print
