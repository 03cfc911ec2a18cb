import Verif.Model.RawEvent

namespace Verif.Mm
open Verif

theorem testBit_mask_hi (i : Nat) : Nat.testBit 4294901760 i = (decide (16 ≤ i) && decide (i < 32)) := by
  have : (4294901760 : Nat) = (2^16-1) <<< 16 := by decide
  rw [this, Nat.testBit_shiftLeft, Nat.testBit_two_pow_sub_one]
  by_cases h : 16 ≤ i <;> simp [h]; omega

theorem testBit_mask_lo (i : Nat) : Nat.testBit 65535 i = decide (i < 16) := by
  have : (65535 : Nat) = 2^16-1 := by decide
  rw [this, Nat.testBit_two_pow_sub_one]

theorem hi_bits {x n : Nat} (hx : x < 2^n) {i : Nat} (h : n ≤ i) : Nat.testBit x i = false :=
  Nat.testBit_lt_two_pow (Nat.lt_of_lt_of_le hx (Nat.pow_le_pow_right (by decide) h))

theorem startValue_pack (k : StringId) (id : EventId) (t : UInt32) (x y : UInt64) (hx : x.toNat < 2^48)
    (hy : y.toNat < 2^48) : (RawEvent.packValues k id t x y).startValue = x := by
  simp only [RawEvent.startValue, RawEvent.packValues]
  apply UInt64.toNat_inj.mp
  simp only [UInt64.toNat_or, UInt64.toNat_shiftLeft, UInt32.toNat_toUInt64, UInt32.toNat_and, UInt32.toNat_or,
    UInt64.toNat_toUInt32, UInt64.toNat_shiftRight, UInt64.reduceToNat, UInt32.reduceToNat]
  apply Nat.eq_of_testBit_eq
  intro i
  simp only [Nat.testBit_or, Nat.testBit_and, Nat.testBit_mod_two_pow, Nat.testBit_shiftLeft,
    Nat.testBit_shiftRight, testBit_mask_hi]
  by_cases h48 : 48 ≤ i
  · have : ¬ i < 32 := by omega
    simp [hi_bits hx h48, this]; omega
  · by_cases h32 : i < 32
    · simp [h32]; intros; omega
    · have e : 16 % 64 + (i - 16 % 64) = i := by omega
      have e2 : 32 % 64 + (i - 16 % 64) ≥ 48 := by omega
      rw [e, hi_bits hy e2]
      simp [h32]
      have a1 : i - 16 < 32 := by omega
      have a2 : 16 ≤ i - 16 := by omega
      have a3 : i < 64 := by omega
      have a4 : 16 ≤ i := by omega
      simp [a1, a2, a3, a4]

theorem endValue_pack (k : StringId) (id : EventId) (t : UInt32) (x y : UInt64)
    (hy : y.toNat < 2^48) : (RawEvent.packValues k id t x y).endValue = y := by
  simp only [RawEvent.endValue, RawEvent.packValues]
  apply UInt64.toNat_inj.mp
  simp only [UInt64.toNat_or, UInt64.toNat_shiftLeft, UInt32.toNat_toUInt64, UInt32.toNat_and, UInt32.toNat_or,
    UInt64.toNat_toUInt32, UInt64.toNat_shiftRight, UInt64.reduceToNat, UInt32.reduceToNat]
  apply Nat.eq_of_testBit_eq
  intro i
  simp only [Nat.testBit_or, Nat.testBit_and, Nat.testBit_mod_two_pow, Nat.testBit_shiftLeft,
    Nat.testBit_shiftRight, testBit_mask_hi, testBit_mask_lo]
  by_cases h48 : 48 ≤ i
  · have : ¬ i < 32 := by omega
    have h3 : ¬ i - 32 < 16 := by omega
    simp [hi_bits hy h48, this, h3]
  · by_cases h32 : i < 32
    · simp [h32]; intros; omega
    · have e : 32 % 64 + (i - 32 % 64) = i := by omega
      rw [e]
      simp [h32]
      have a0 : ¬ 16 ≤ i - 32 := by omega
      have a1 : i - 32 < 32 := by omega
      have a2 : i - 32 < 16 := by omega
      have a3 : i < 64 := by omega
      have a4 : 32 ≤ i := by omega
      simp [a0, a1, a2, a3, a4]

theorem value_eq_start (e : RawEvent) : e.value = e.startValue := rfl

theorem startValue_lt (e : RawEvent) : e.startValue.toNat < 2^48 := by
  simp only [RawEvent.startValue]
  simp only [UInt64.toNat_or, UInt64.toNat_shiftLeft, UInt32.toNat_toUInt64, UInt32.toNat_and,
    UInt64.reduceToNat, UInt32.reduceToNat]
  apply Nat.or_lt_two_pow
  · have := e.payload1Lower.toNat_lt; omega
  · refine Nat.lt_of_le_of_lt (Nat.mod_le _ _) ?_
    have h := e.payloadsUpper.toNat_lt
    have : e.payloadsUpper.toNat &&& 4294901760 < 2^32 := Nat.and_lt_two_pow _ (by decide)
    rw [Nat.shiftLeft_eq]
    simp only [Nat.reduceMod, Nat.reducePow]
    omega

theorem endValue_lt (e : RawEvent) : e.endValue.toNat < 2^48 := by
  simp only [RawEvent.endValue]
  simp only [UInt64.toNat_or, UInt64.toNat_shiftLeft, UInt32.toNat_toUInt64, UInt32.toNat_and,
    UInt64.reduceToNat, UInt32.reduceToNat]
  apply Nat.or_lt_two_pow
  · have := e.payload2Lower.toNat_lt; omega
  · refine Nat.lt_of_le_of_lt (Nat.mod_le _ _) ?_
    have : e.payloadsUpper.toNat &&& 65535 < 2^16 := Nat.and_lt_two_pow _ (by decide)
    rw [Nat.shiftLeft_eq]
    simp only [Nat.reduceMod, Nat.reducePow]
    omega

/-- Every raw event is the packing of its two 48-bit payloads. -/
theorem pack_unpack (e : RawEvent) :
    RawEvent.packValues e.eventKind e.eventId e.threadId e.startValue e.endValue = e := by
  obtain ⟨k, id, t, p1, p2, pu⟩ := e
  simp only [RawEvent.packValues, RawEvent.startValue, RawEvent.endValue, RawEvent.mk.injEq, true_and]
  have hp1 := p1.toNat_lt
  have hp2 := p2.toNat_lt
  have hpu := pu.toNat_lt
  refine ⟨?_, ?_, ?_⟩
  · apply UInt32.toNat_inj.mp
    simp only [UInt64.toNat_or, UInt64.toNat_shiftLeft, UInt32.toNat_toUInt64, UInt32.toNat_and,
      UInt64.toNat_toUInt32, UInt64.reduceToNat, UInt32.reduceToNat]
    apply Nat.eq_of_testBit_eq
    intro i
    simp only [Nat.testBit_or, Nat.testBit_and, Nat.testBit_mod_two_pow, Nat.testBit_shiftLeft, testBit_mask_hi]
    by_cases h32 : i < 32
    · simp [h32]; intros; omega
    · simp [h32, hi_bits hp1 (Nat.not_lt.mp h32)]
  · apply UInt32.toNat_inj.mp
    simp only [UInt64.toNat_or, UInt64.toNat_shiftLeft, UInt32.toNat_toUInt64, UInt32.toNat_and,
      UInt64.toNat_toUInt32, UInt64.reduceToNat, UInt32.reduceToNat]
    apply Nat.eq_of_testBit_eq
    intro i
    simp only [Nat.testBit_or, Nat.testBit_and, Nat.testBit_mod_two_pow, Nat.testBit_shiftLeft, testBit_mask_lo]
    by_cases h32 : i < 32
    · simp [h32]; intros; omega
    · simp [h32, hi_bits hp2 (Nat.not_lt.mp h32)]
  · apply UInt32.toNat_inj.mp
    simp only [UInt64.toNat_or, UInt64.toNat_shiftLeft, UInt32.toNat_toUInt64, UInt32.toNat_and, UInt32.toNat_or,
      UInt64.toNat_toUInt32, UInt64.toNat_shiftRight, UInt64.reduceToNat, UInt32.reduceToNat]
    apply Nat.eq_of_testBit_eq
    intro i
    simp only [Nat.testBit_or, Nat.testBit_and, Nat.testBit_mod_two_pow, Nat.testBit_shiftLeft,
      Nat.testBit_shiftRight, testBit_mask_hi, testBit_mask_lo]
    by_cases h32 : i < 32
    · have e1 : 16 % 64 + i - 16 % 64 = i := by omega
      have e2 : 32 % 64 + i - 32 % 64 = i := by omega
      have b2 : p2.toNat.testBit (32 % 64 + i) = false := hi_bits hp2 (by omega)
      have hlt : 32 % 64 + i < 64 := by omega
      have hlt1 : 16 % 64 + i < 64 := by omega
      by_cases h16 : i < 16
      · have n16 : ¬ 16 ≤ i := by omega
        simp only [h32, h16, n16, e1, e2, b2, hlt, hlt1]
        simp
      · have n16 : 16 ≤ i := by omega
        have b1 : p1.toNat.testBit (16 % 64 + i) = false := hi_bits hp1 (by omega)
        simp only [h32, h16, n16, e1, e2, b2, b1, hlt, hlt1]
        simp
    · simp [h32, hi_bits hpu (Nat.not_lt.mp h32)]

/-! ## Serialization -/

theorem slice_mid (a m b : Bytes) (i j : Nat) (hi : a.length = i) (hj : (a ++ m).length = j) :
    RawEvent.slice (a ++ m ++ b) i j = m := by
  subst hi hj
  simp only [RawEvent.slice]
  rw [List.take_left, List.drop_left]

theorem serialize_length (e : RawEvent) : e.serialize.length = 32 := by
  simp [RawEvent.serialize]

theorem u64_le (x : UInt64) : UInt64.ofNat (fromLe (leBytes 8 x.toNat)) = x := by
  rw [fromLe_leBytes_of_lt (by have := x.toNat_lt; simpa using this)]
  simp

theorem u32_le (x : UInt32) : UInt32.ofNat (fromLe (leBytes 4 x.toNat)) = x := by
  rw [fromLe_leBytes_of_lt (by have := x.toNat_lt; simpa using this)]
  simp

theorem deserialize_serialize (e : RawEvent) : RawEvent.deserialize e.serialize = .ok e := by
  obtain ⟨k, id, t, p1, p2, pu⟩ := e
  simp only [RawEvent.deserialize, serialize_length, RawEvent.size, ne_eq, not_true_eq_false, if_false,
    Except.ok.injEq, RawEvent.mk.injEq]
  simp only [RawEvent.serialize]
  generalize hk : leBytes 8 k.toNat = bk
  generalize hid : leBytes 8 id.toNat = bid
  generalize ht : leBytes 4 t.toNat = bt
  generalize h1 : leBytes 4 p1.toNat = b1
  generalize h2 : leBytes 4 p2.toNat = b2
  generalize hu : leBytes 4 pu.toNat = bu
  have lk : bk.length = 8 := by rw [← hk]; simp
  have lid : bid.length = 8 := by rw [← hid]; simp
  have lt : bt.length = 4 := by rw [← ht]; simp
  have l1 : b1.length = 4 := by rw [← h1]; simp
  have l2 : b2.length = 4 := by rw [← h2]; simp
  have lu : bu.length = 4 := by rw [← hu]; simp
  have s1 : RawEvent.slice (bk ++ bid ++ bt ++ b1 ++ b2 ++ bu) 0 8 = bk := by
    have := slice_mid [] bk (bid ++ bt ++ b1 ++ b2 ++ bu) 0 8 rfl (by simp [lk])
    simpa using this
  have s2 : RawEvent.slice (bk ++ bid ++ bt ++ b1 ++ b2 ++ bu) 8 16 = bid := by
    have := slice_mid bk bid (bt ++ b1 ++ b2 ++ bu) 8 16 lk (by simp [lk, lid])
    simpa using this
  have s3 : RawEvent.slice (bk ++ bid ++ bt ++ b1 ++ b2 ++ bu) 16 20 = bt := by
    have := slice_mid (bk ++ bid) bt (b1 ++ b2 ++ bu) 16 20 (by simp [lk, lid]) (by simp [lk, lid, lt])
    simpa using this
  have s4 : RawEvent.slice (bk ++ bid ++ bt ++ b1 ++ b2 ++ bu) 20 24 = b1 := by
    have := slice_mid (bk ++ bid ++ bt) b1 (b2 ++ bu) 20 24 (by simp [lk, lid, lt]) (by simp [lk, lid, lt, l1])
    simpa using this
  have s5 : RawEvent.slice (bk ++ bid ++ bt ++ b1 ++ b2 ++ bu) 24 28 = b2 := by
    have := slice_mid (bk ++ bid ++ bt ++ b1) b2 bu 24 28 (by simp [lk, lid, lt, l1])
      (by simp [lk, lid, lt, l1, l2])
    simpa using this
  have s6 : RawEvent.slice (bk ++ bid ++ bt ++ b1 ++ b2 ++ bu) 28 32 = bu := by
    have := slice_mid (bk ++ bid ++ bt ++ b1 ++ b2) bu [] 28 32 (by simp [lk, lid, lt, l1, l2])
      (by simp [lk, lid, lt, l1, l2, lu])
    simpa using this
  rw [s1, s2, s3, s4, s5, s6, ← hk, ← hid, ← ht, ← h1, ← h2, ← hu]
  simp only [u64_le, u32_le, and_self]

theorem serialize_deserialize (b : Bytes) (e : RawEvent) (h : RawEvent.deserialize b = .ok e) :
    b.length = 32 ∧ e.serialize = b := by
  unfold RawEvent.deserialize at h
  split at h
  · simp at h
  · rename_i hl
    simp only [RawEvent.size, ne_eq, Decidable.not_not] at hl
    simp only [Except.ok.injEq] at h
    refine ⟨hl, ?_⟩
    subst h
    have go8 : ∀ s : Bytes, s.length = 8 → leBytes 8 (UInt64.ofNat (fromLe s)).toNat = s := by
      intro s hs
      have hlt := fromLe_lt s
      rw [hs] at hlt
      rw [UInt64.toNat_ofNat_of_lt' (by simpa [UInt64.size] using hlt), ← hs, leBytes_fromLe]
    have go4 : ∀ s : Bytes, s.length = 4 → leBytes 4 (UInt32.ofNat (fromLe s)).toNat = s := by
      intro s hs
      have hlt := fromLe_lt s
      rw [hs] at hlt
      rw [UInt32.toNat_ofNat_of_lt' (by simpa [UInt32.size] using hlt), ← hs, leBytes_fromLe]
    simp only [RawEvent.serialize]
    rw [go8 _ (by simp [RawEvent.slice, hl]), go8 _ (by simp [RawEvent.slice, hl]),
      go4 _ (by simp [RawEvent.slice, hl]), go4 _ (by simp [RawEvent.slice, hl]),
      go4 _ (by simp [RawEvent.slice, hl]), go4 _ (by simp [RawEvent.slice, hl])]
    have step : ∀ i j, i ≤ j → b.take i ++ RawEvent.slice b i j = b.take j := by
      intro i j hij
      simp only [RawEvent.slice]
      have : b.take i = (b.take j).take i := by rw [List.take_take, Nat.min_eq_left hij]
      rw [this, List.take_append_drop]
    have h0 : RawEvent.slice b 0 8 = b.take 8 := by simp [RawEvent.slice]
    rw [h0, step 8 16 (by decide), step 16 20 (by decide), step 20 24 (by decide), step 24 28 (by decide),
      step 28 32 (by decide), ← hl, List.take_length]

end Verif.Mm
