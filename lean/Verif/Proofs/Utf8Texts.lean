import Verif.Proofs.Utf8

/-! # The validator accepts exactly the encodings of strings, and lossy decoding always gives such an encoding -/

namespace Verif.Mm

open Verif

theorem encode_of_val (v : Nat) (hv : v < 0xd800 ∨ (0xdfff < v ∧ v < 0x110000)) :
    ∃ c : Char, String.utf8EncodeChar c =
      if v ≤ 0x7f then [UInt8.ofNat v]
      else if v ≤ 0x7ff then [UInt8.ofNat (v / 64 % 0x20 + 0xc0), UInt8.ofNat (v % 0x40 + 0x80)]
      else if v ≤ 0xffff then [UInt8.ofNat (v / 4096 % 0x10 + 0xe0), UInt8.ofNat (v / 64 % 0x40 + 0x80), UInt8.ofNat (v % 0x40 + 0x80)]
      else [UInt8.ofNat (v / 262144 % 8 + 0xf0), UInt8.ofNat (v / 4096 % 0x40 + 0x80), UInt8.ofNat (v / 64 % 0x40 + 0x80),
        UInt8.ofNat (v % 0x40 + 0x80)] := by
  have hval : v.isValidChar := hv
  refine ⟨Char.ofNat v, ?_⟩
  have e : (Char.ofNat v).val.toNat = v := by
    unfold Char.ofNat
    rw [dif_pos hval]
    rfl
  have d1 : v / 64 / 64 = v / 4096 := Nat.div_div_eq_div_mul ..
  have d2 : v / 4096 / 64 = v / 262144 := Nat.div_div_eq_div_mul ..
  unfold String.utf8EncodeChar
  simp only [e]

theorem u8_eq {b : UInt8} {n : Nat} (h : b.toNat = n) : UInt8.ofNat n = b := by
  rw [← h]
  simp

/-- A well-formed sequence at the head is the encoding of a character. -/
theorem nextChar_decodes {l : Bytes} (hl : l ≠ []) (h : (nextChar l).1 = true) :
    ∃ c : Char, l.take (nextChar l).2 = String.utf8EncodeChar c := by
  match l, hl with
  | b0 :: l, _ =>
    have h0 := b0.toNat_lt
    rw [nextChar_eq] at h ⊢
    simp only [List.getD_cons_zero, List.getD_cons_succ] at h ⊢
    unfold nextCharN at h ⊢
    split at h
    · rename_i c1
      rw [if_pos c1]
      obtain ⟨c, hc⟩ := encode_of_val b0.toNat (by omega)
      rw [if_pos (by omega)] at hc
      exact ⟨c, by rw [hc]; simp⟩
    · rename_i c1
      rw [if_neg c1]
      split at h
      · rename_i c2
        rw [if_pos c2]
        split at h
        · rename_i c3
          rw [if_pos c3]
          match l with
          | [] => simp at c3
          | b1 :: l =>
            simp only [List.getD_cons_zero] at c3
            obtain ⟨c, hc⟩ := encode_of_val ((b0.toNat - 0xc0) * 64 + (b1.toNat - 0x80)) (by omega)
            rw [if_neg (by omega), if_pos (by omega), u8_eq (b := b0) (by omega), u8_eq (b := b1) (by omega)] at hc
            exact ⟨c, by rw [hc]; simp⟩
        · simp at h
      · rename_i c2
        rw [if_neg c2]
        split at h
        · rename_i c3
          rw [if_pos c3]
          split at h
          · rename_i c4
            rw [if_pos c4]
            split at h
            · rename_i c5
              rw [if_pos c5]
              match l with
              | [] => simp at c5
              | [b1] => simp at c5
              | b1 :: b2 :: l =>
                simp only [List.getD_cons_zero, List.getD_cons_succ] at c4 c5
                obtain ⟨c, hc⟩ := encode_of_val ((b0.toNat - 0xe0) * 4096 + (b1.toNat - 0x80) * 64 + (b2.toNat - 0x80)) (by omega)
                rw [if_neg (by omega), if_neg (by omega), if_pos (by omega), u8_eq (b := b0) (by omega), u8_eq (b := b1) (by omega),
                  u8_eq (b := b2) (by omega)] at hc
                exact ⟨c, by rw [hc]; simp⟩
            · simp at h
          · simp at h
        · rename_i c3
          rw [if_neg c3]
          split at h
          · rename_i c4
            rw [if_pos c4]
            split at h
            · rename_i c5
              rw [if_pos c5]
              split at h
              · rename_i c6
                rw [if_pos c6]
                split at h
                · rename_i c7
                  rw [if_pos c7]
                  match l with
                  | [] => simp at c7
                  | [b1] => simp at c7
                  | [b1, b2] => simp at c7
                  | b1 :: b2 :: b3 :: l =>
                    simp only [List.getD_cons_zero, List.getD_cons_succ] at c5 c6 c7
                    obtain ⟨c, hc⟩ := encode_of_val ((b0.toNat - 0xf0) * 262144 + (b1.toNat - 0x80) * 4096 + (b2.toNat - 0x80) * 64 +
                      (b3.toNat - 0x80)) (by omega)
                    rw [if_neg (by omega), if_neg (by omega), if_neg (by omega), u8_eq (b := b0) (by omega), u8_eq (b := b1) (by omega),
                      u8_eq (b := b2) (by omega), u8_eq (b := b3) (by omega)] at hc
                    exact ⟨c, by rw [hc]; simp⟩
                · simp at h
              · simp at h
            · simp at h
          · simp at h

theorem utf8_cons (c : Char) (cs : List Char) : utf8 (String.ofList (c :: cs)) = String.utf8EncodeChar c ++ utf8 (String.ofList cs) := by
  simp [utf8]

theorem validUtf8Aux_decodes (n : Nat) (l : Bytes) (h : validUtf8Aux n l = true) : ∃ s : String, utf8 s = l := by
  induction n generalizing l with
  | zero =>
    cases l with
    | nil => exact ⟨"", by simp⟩
    | cons => simp [validUtf8Aux] at h
  | succ n ih =>
    match l with
    | [] => exact ⟨"", by simp⟩
    | b0 :: l =>
      rw [validUtf8Aux, Bool.and_eq_true] at h
      obtain ⟨c, hc⟩ := nextChar_decodes (by simp) h.1
      obtain ⟨s, hs⟩ := ih _ h.2
      refine ⟨String.ofList (c :: s.toList), ?_⟩
      rw [utf8_cons, ← hc, String.ofList_toList, hs, List.take_append_drop]

theorem validUtf8_iff (l : Bytes) : validUtf8 l = true ↔ ∃ s : String, utf8 s = l :=
  ⟨validUtf8Aux_decodes _ _, fun ⟨s, hs⟩ => by rw [← hs]; exact validUtf8_utf8 s⟩

theorem lossyAux_decodes (n : Nat) (l : Bytes) : ∃ s : String, utf8 s = lossyAux n l := by
  induction n generalizing l with
  | zero => cases l <;> exact ⟨"", by simp [lossyAux]⟩
  | succ n ih =>
    match l with
    | [] => exact ⟨"", by simp [lossyAux]⟩
    | b0 :: l =>
      rw [lossyAux]
      obtain ⟨s, hs⟩ := ih ((b0 :: l).drop (nextChar (b0 :: l)).2)
      split
      · rename_i h
        obtain ⟨c, hc⟩ := nextChar_decodes (by simp) h
        refine ⟨String.ofList (c :: s.toList), ?_⟩
        rw [utf8_cons, ← hc, String.ofList_toList, hs]
      · refine ⟨String.ofList ('\uFFFD' :: s.toList), ?_⟩
        rw [utf8_cons, String.ofList_toList, hs]
        congr 1

theorem lossy_decodes (l : Bytes) : ∃ s : String, utf8 s = fromUtf8Lossy l := lossyAux_decodes _ _

/-- Being text: the encoding of a string. -/
theorem text_append {a b : Bytes} (ha : ∃ s : String, utf8 s = a) (hb : ∃ s : String, utf8 s = b) : ∃ s : String, utf8 s = a ++ b := by
  obtain ⟨s, hs⟩ := ha
  obtain ⟨t, ht⟩ := hb
  exact ⟨s ++ t, by rw [utf8_append, hs, ht]⟩

end Verif.Mm
