import Verif.Model.Utf8

namespace Verif.Mm

open Verif

theorem u8_ofNat_toNat_lt {n : Nat} (h : n < 256) : (UInt8.ofNat n).toNat = n := by
  simp [UInt8.toNat_ofNat, Nat.mod_eq_of_lt h]

/-- The scanner step on byte values. -/
def nextCharN (a b c d : Nat) : Bool × Nat :=
  if a < 128 then (true, 1)
  else if 194 ≤ a ∧ a ≤ 223 then
    if 128 ≤ b ∧ b ≤ 191 then (true, 2) else (false, 1)
  else if 224 ≤ a ∧ a ≤ 239 then
    if (a = 224 ∧ 160 ≤ b ∧ b ≤ 191) ∨ (225 ≤ a ∧ a ≤ 236 ∧ 128 ≤ b ∧ b ≤ 191) ∨
       (a = 237 ∧ 128 ≤ b ∧ b ≤ 159) ∨ (238 ≤ a ∧ a ≤ 239 ∧ 128 ≤ b ∧ b ≤ 191) then
      if 128 ≤ c ∧ c ≤ 191 then (true, 3) else (false, 2)
    else (false, 1)
  else if 240 ≤ a ∧ a ≤ 244 then
    if (a = 240 ∧ 144 ≤ b ∧ b ≤ 191) ∨ (241 ≤ a ∧ a ≤ 243 ∧ 128 ≤ b ∧ b ≤ 191) ∨
       (a = 244 ∧ 128 ≤ b ∧ b ≤ 143) then
      if 128 ≤ c ∧ c ≤ 191 then
        if 128 ≤ d ∧ d ≤ 191 then (true, 4) else (false, 3)
      else (false, 2)
    else (false, 1)
  else (false, 1)

theorem nextChar_eq (l : Bytes) :
    nextChar l = nextCharN (l.getD 0 0).toNat (l.getD 1 0).toNat (l.getD 2 0).toNat (l.getD 3 0).toNat := by
  simp only [nextChar, nextCharN, isCont, UInt8.lt_iff_toNat_lt, UInt8.le_iff_toNat_le, ← UInt8.toNat_inj,
    Bool.and_eq_true, Bool.or_eq_true, decide_eq_true_eq, UInt8.reduceToNat, and_assoc, or_assoc]

/-- Every character's encoding: its length, that the scanner accepts exactly it, and that its bytes are below 0xF5. -/
theorem nextChar_encode (c : Char) (rest : Bytes) :
    nextChar (String.utf8EncodeChar c ++ rest) = (true, (String.utf8EncodeChar c).length) ∧
      (String.utf8EncodeChar c) ≠ [] ∧ ∀ b ∈ String.utf8EncodeChar c, b.toNat < 0xF5 := by
  have hv : c.val.toNat < 0xd800 ∨ (0xdfff < c.val.toNat ∧ c.val.toNat < 0x110000) := c.valid
  rw [nextChar_eq]
  unfold String.utf8EncodeChar
  generalize c.val.toNat = v at hv
  have d1 : v / 64 / 64 = v / 4096 := Nat.div_div_eq_div_mul ..
  have d2 : v / 4096 / 64 = v / 262144 := Nat.div_div_eq_div_mul ..
  simp only []
  split
  · rename_i h
    have e0 : (UInt8.ofNat v).toNat = v := u8_ofNat_toNat_lt (by omega)
    generalize UInt8.ofNat v = b0 at e0
    refine ⟨?_, by simp, ?_⟩
    · simp only [nextCharN, List.cons_append, List.getD_cons_zero, e0, List.length_cons, List.length_nil]
      repeat' split
      all_goals first | rfl | omega
    · simp [e0]; omega
  · split
    · have e0 : (UInt8.ofNat (v / 64 % 0x20 + 0xc0)).toNat = v / 64 % 0x20 + 0xc0 := u8_ofNat_toNat_lt (by omega)
      have e1 : (UInt8.ofNat (v % 0x40 + 0x80)).toNat = v % 0x40 + 0x80 := u8_ofNat_toNat_lt (by omega)
      generalize UInt8.ofNat (v / 64 % 0x20 + 0xc0) = b0 at e0
      generalize UInt8.ofNat (v % 0x40 + 0x80) = b1 at e1
      refine ⟨?_, by simp, ?_⟩
      · simp only [nextCharN, List.cons_append, List.getD_cons_zero, List.getD_cons_succ, e0, e1, List.length_cons, List.length_nil]
        repeat' split
        all_goals first | rfl | omega
      · simp [e0, e1]; omega
    · split
      · have e0 : (UInt8.ofNat (v / 4096 % 0x10 + 0xe0)).toNat = v / 4096 % 0x10 + 0xe0 := u8_ofNat_toNat_lt (by omega)
        have e1 : (UInt8.ofNat (v / 64 % 0x40 + 0x80)).toNat = v / 64 % 0x40 + 0x80 := u8_ofNat_toNat_lt (by omega)
        have e2 : (UInt8.ofNat (v % 0x40 + 0x80)).toNat = v % 0x40 + 0x80 := u8_ofNat_toNat_lt (by omega)
        generalize UInt8.ofNat (v / 4096 % 0x10 + 0xe0) = b0 at e0
        generalize UInt8.ofNat (v / 64 % 0x40 + 0x80) = b1 at e1
        generalize UInt8.ofNat (v % 0x40 + 0x80) = b2 at e2
        refine ⟨?_, by simp, ?_⟩
        · simp only [nextCharN, List.cons_append, List.getD_cons_zero, List.getD_cons_succ, e0, e1, e2, List.length_cons, List.length_nil]
          repeat' split
          all_goals first | rfl | omega
        · simp [e0, e1, e2]; omega
      · have e0 : (UInt8.ofNat (v / 262144 % 8 + 0xf0)).toNat = v / 262144 % 8 + 0xf0 := u8_ofNat_toNat_lt (by omega)
        have e1 : (UInt8.ofNat (v / 4096 % 0x40 + 0x80)).toNat = v / 4096 % 0x40 + 0x80 := u8_ofNat_toNat_lt (by omega)
        have e2 : (UInt8.ofNat (v / 64 % 0x40 + 0x80)).toNat = v / 64 % 0x40 + 0x80 := u8_ofNat_toNat_lt (by omega)
        have e3 : (UInt8.ofNat (v % 0x40 + 0x80)).toNat = v % 0x40 + 0x80 := u8_ofNat_toNat_lt (by omega)
        generalize UInt8.ofNat (v / 262144 % 8 + 0xf0) = b0 at e0
        generalize UInt8.ofNat (v / 4096 % 0x40 + 0x80) = b1 at e1
        generalize UInt8.ofNat (v / 64 % 0x40 + 0x80) = b2 at e2
        generalize UInt8.ofNat (v % 0x40 + 0x80) = b3 at e3
        refine ⟨?_, by simp, ?_⟩
        · simp only [nextCharN, List.cons_append, List.getD_cons_zero, List.getD_cons_succ, e0, e1, e2, e3, List.length_cons, List.length_nil]
          repeat' split
          all_goals first | rfl | omega
        · simp [e0, e1, e2, e3]; omega

theorem nextChar_pos (l : Bytes) : 0 < (nextChar l).2 := by
  unfold nextChar
  simp only []
  repeat' split
  all_goals simp

/-- Unfolding of the validator on well-formed prefixes. -/
theorem validUtf8Aux_chars (cs : List Char) (n : Nat) (hn : (cs.flatMap String.utf8EncodeChar).length ≤ n) :
    validUtf8Aux n (cs.flatMap String.utf8EncodeChar) = true := by
  induction cs generalizing n with
  | nil => simp [validUtf8Aux]
  | cons c cs ih =>
    obtain ⟨h1, h2, _⟩ := nextChar_encode c (cs.flatMap String.utf8EncodeChar)
    simp only [List.flatMap_cons] at hn ⊢
    match he : String.utf8EncodeChar c, h2 with
    | b :: l, _ =>
      rw [he] at h1 hn
      match n, hn with
      | 0, hn => simp at hn
      | n + 1, hn =>
        simp only [List.cons_append] at h1 ⊢
        rw [validUtf8Aux, h1]
        simp only [Bool.true_and]
        rw [← List.cons_append, List.drop_left]
        exact ih n (by simp only [List.length_append, List.length_cons] at hn; omega)

theorem lossyAux_chars (cs : List Char) (n : Nat) (hn : (cs.flatMap String.utf8EncodeChar).length ≤ n) :
    lossyAux n (cs.flatMap String.utf8EncodeChar) = cs.flatMap String.utf8EncodeChar := by
  induction cs generalizing n with
  | nil => simp [lossyAux]
  | cons c cs ih =>
    obtain ⟨h1, h2, _⟩ := nextChar_encode c (cs.flatMap String.utf8EncodeChar)
    simp only [List.flatMap_cons] at hn ⊢
    match he : String.utf8EncodeChar c, h2 with
    | b :: l, _ =>
      rw [he] at h1 hn
      match n, hn with
      | 0, hn => simp at hn
      | n + 1, hn =>
        simp only [List.cons_append] at h1 ⊢
        rw [lossyAux, h1]
        simp only [if_true]
        rw [← List.cons_append, List.drop_left, List.take_left, ih n (by simp only [List.length_append, List.length_cons] at hn; omega)]

theorem utf8_append (s t : String) : utf8 (s ++ t) = utf8 s ++ utf8 t := by
  simp [utf8]

@[simp] theorem utf8_empty : utf8 "" = [] := by simp [utf8]

/-- The bytes of a `str` are Lean's own UTF-8 encoding of the string. -/
theorem utf8_eq_toByteArray (s : String) : utf8 s = s.toByteArray.data.toList := by
  rw [← String.utf8Encode_toList]
  simp [List.utf8Encode, utf8]

theorem utf8_inj {s t : String} (h : utf8 s = utf8 t) : s = t := by
  rw [utf8_eq_toByteArray, utf8_eq_toByteArray] at h
  apply String.toByteArray_inj.mp
  cases hs : s.toByteArray; cases ht : t.toByteArray
  rw [hs, ht] at h
  simp only [ByteArray.mk.injEq]
  exact Array.toList_inj.mp h

theorem validUtf8_utf8 (s : String) : validUtf8 (utf8 s) = true :=
  validUtf8Aux_chars _ _ (Nat.le_refl _)

theorem lossy_utf8 (s : String) : fromUtf8Lossy (utf8 s) = utf8 s :=
  lossyAux_chars _ _ (Nat.le_refl _)

theorem utf8_bytes_lt (s : String) : ∀ b ∈ utf8 s, b.toNat < 0xF5 := by
  intro b hb
  simp only [utf8, List.mem_flatMap] at hb
  obtain ⟨c, _, hb⟩ := hb
  exact (nextChar_encode c []).2.2 b hb

/-- Bytes accepted by the validator are below 0xF5. -/
theorem nextChar_bytes {l : Bytes} (h : (nextChar l).1 = true) : ∀ b ∈ l.take (nextChar l).2, b.toNat < 0xF5 := by
  intro b hb
  match l with
  | [] => simp at hb
  | b0 :: l =>
    have key : ∀ n, n ≤ 4 → b ∈ (b0 :: l).take n → b = b0 ∨ (2 ≤ n ∧ b = l.getD 0 0) ∨ (3 ≤ n ∧ b = l.getD 1 0) ∨ (4 ≤ n ∧ b = l.getD 2 0) := by
      intro n hn hm
      match n, hn with
      | 0, _ => simp at hm
      | 1, _ => simp at hm; exact .inl hm
      | 2, _ => rcases l with _ | ⟨x, l⟩ <;> simp at hm ⊢ <;> grind
      | 3, _ => rcases l with _ | ⟨x, _ | ⟨y, l⟩⟩ <;> simp at hm ⊢ <;> grind
      | 4, _ => rcases l with _ | ⟨x, _ | ⟨y, _ | ⟨z, l⟩⟩⟩ <;> simp at hm ⊢ <;> grind
    rw [nextChar_eq] at h hb
    simp only [List.getD_cons_zero, List.getD_cons_succ] at h hb
    unfold nextCharN at h hb
    split at h
    · rw [if_pos (by assumption)] at hb
      rcases key _ (by simp) hb with rfl | ⟨hn, rfl⟩ | ⟨hn, rfl⟩ | ⟨hn, rfl⟩ <;> (try simp only [] at hn) <;> omega
    · rw [if_neg (by assumption)] at hb
      split at h
      · rw [if_pos (by assumption)] at hb
        split at h
        · rw [if_pos (by assumption)] at hb
          rcases key _ (by simp) hb with rfl | ⟨hn, rfl⟩ | ⟨hn, rfl⟩ | ⟨hn, rfl⟩ <;> (try simp only [] at hn) <;> omega
        · simp at h
      · rw [if_neg (by assumption)] at hb
        split at h
        · rw [if_pos (by assumption)] at hb
          split at h
          · rw [if_pos (by assumption)] at hb
            split at h
            · rw [if_pos (by assumption)] at hb
              rcases key _ (by simp) hb with rfl | ⟨hn, rfl⟩ | ⟨hn, rfl⟩ | ⟨hn, rfl⟩ <;> (try simp only [] at hn) <;> omega
            · simp at h
          · simp at h
        · rw [if_neg (by assumption)] at hb
          split at h
          · rw [if_pos (by assumption)] at hb
            split at h
            · rw [if_pos (by assumption)] at hb
              split at h
              · rw [if_pos (by assumption)] at hb
                split at h
                · rw [if_pos (by assumption)] at hb
                  rcases key _ (by simp) hb with rfl | ⟨hn, rfl⟩ | ⟨hn, rfl⟩ | ⟨hn, rfl⟩ <;> (try simp only [] at hn) <;> omega
                · simp at h
              · simp at h
            · simp at h
          · simp at h

theorem validUtf8Aux_bytes (n : Nat) (l : Bytes) (h : validUtf8Aux n l = true) : ∀ b ∈ l, b.toNat < 0xF5 := by
  induction n generalizing l with
  | zero => cases l <;> simp [validUtf8Aux] at h ⊢
  | succ n ih =>
    match l with
    | [] => simp
    | b0 :: l =>
      rw [validUtf8Aux, Bool.and_eq_true] at h
      intro b hb
      rw [← List.take_append_drop (nextChar (b0 :: l)).2 (b0 :: l), List.mem_append] at hb
      rcases hb with hb | hb
      · exact nextChar_bytes h.1 b hb
      · exact ih _ h.2 b hb

end Verif.Mm
