import Verif.Model.Utf8

/-! # Decimal numbers -/

namespace Verif.Mm
open Verif

theorem decimalAux_digits (f n : Nat) (h : n < f) : decimalAux f n = Nat.toDigits 10 n := by
  induction f generalizing n with
  | zero => omega
  | succ f ih =>
    have hd : ∀ n, n < 10 → [Char.ofNat (48 + n)] = [n.digitChar] := by decide
    rw [decimalAux]
    split
    · rename_i hn
      rw [Nat.toDigits_of_lt_base hn]
      exact hd n hn
    · rename_i hn
      rw [Nat.toDigits_of_base_le (by decide) (by omega), ih _ (by omega), hd _ (Nat.mod_lt _ (by decide))]

theorem decimal_eq_toString (n : Nat) : decimal n = toString n := by
  rw [decimal, decimalAux_digits _ _ (by omega)]
  rfl

end Verif.Mm
