import Verif.Spec.Text
import Verif.Proofs.Utf8Texts
import Verif.Proofs.EventId
import Verif.Model.JsonOut

/-! # Texts stay well formed -/

namespace Verif.Proofs

open Verif Verif.Mm Verif.Json Verif.Decode Verif.Spec

theorem isText_iff (b : Bytes) : IsText b ↔ ∃ s : String, utf8 s = b := by
  unfold IsText
  simp only [utf8_eq_toByteArray]

theorem isText_utf8 (s : String) : IsText (utf8 s) := (isText_iff _).2 ⟨s, rfl⟩

theorem isText_nil : IsText [] := (isText_iff _).2 ⟨"", by simp⟩

theorem isText_append {a b : Bytes} (ha : IsText a) (hb : IsText b) : IsText (a ++ b) := by
  rw [isText_iff] at *
  exact text_append ha hb

theorem isText_of_valid {b : Bytes} (h : validUtf8 b = true) : IsText b := (isText_iff _).2 ((validUtf8_iff b).1 h)

theorem valid_of_isText {b : Bytes} (h : IsText b) : validUtf8 b = true := (validUtf8_iff b).2 ((isText_iff _).1 h)

theorem isText_char (c : Char) : IsText (String.utf8EncodeChar c) := by
  have := isText_utf8 (String.ofList [c])
  simpa [utf8] using this

theorem encode_ascii {b : UInt8} (h : b < 0x80) : ∃ c : Char, String.utf8EncodeChar c = [b] := by
  have hb : b.toNat < 128 := by simpa [UInt8.lt_iff_toNat_lt] using h
  obtain ⟨c, hc⟩ := encode_of_val b.toNat (by omega)
  rw [if_pos (by omega)] at hc
  exact ⟨c, by rw [hc]; simp⟩

theorem isText_ascii {b : UInt8} (h : b < 0x80) : IsText [b] := by
  obtain ⟨c, hc⟩ := encode_ascii h
  rw [← hc]
  exact isText_char c

theorem isText_cons_ascii {b : UInt8} (h : b < 0x80) {r : Bytes} (hr : IsText r) : IsText (b :: r) :=
  isText_append (isText_ascii h) hr

theorem isText_allAscii {w : Bytes} (h : ∀ b ∈ w, b < 0x80) : IsText w := by
  induction w with
  | nil => exact isText_nil
  | cons b w ih => exact isText_cons_ascii (h b (by simp)) (ih fun x hx => h x (by simp [hx]))

/-- The encoding of a character is one ASCII byte, or bytes that are all not ASCII. -/
theorem encode_cases (c : Char) :
    (∃ b : UInt8, b < 0x80 ∧ String.utf8EncodeChar c = [b]) ∨ (∀ b ∈ String.utf8EncodeChar c, ¬ b < 0x80) := by
  have big : ∀ n : Nat, 0x80 ≤ n → n < 256 → ¬ UInt8.ofNat n < 0x80 := by
    intro n h1 h2 h3
    rw [UInt8.lt_iff_toNat_lt, u8_ofNat_toNat_lt h2] at h3
    simp at h3
    omega
  have hv : c.val.toNat < 0xd800 ∨ (0xdfff < c.val.toNat ∧ c.val.toNat < 0x110000) := c.valid
  obtain ⟨c', hc'⟩ := encode_of_val c.val.toNat hv
  unfold String.utf8EncodeChar
  generalize c.val.toNat = v at hv
  simp only []
  split
  · left
    refine ⟨_, ?_, rfl⟩
    rw [UInt8.lt_iff_toNat_lt, u8_ofNat_toNat_lt (by omega)]
    simp
    omega
  · right
    split
    · intro b hb
      simp only [List.mem_cons, List.not_mem_nil, or_false] at hb
      rcases hb with rfl | rfl <;> exact big _ (by omega) (by omega)
    · split
      · intro b hb
        simp only [List.mem_cons, List.not_mem_nil, or_false] at hb
        rcases hb with rfl | rfl | rfl <;> exact big _ (by omega) (by omega)
      · intro b hb
        simp only [List.mem_cons, List.not_mem_nil, or_false] at hb
        rcases hb with rfl | rfl | rfl | rfl <;> exact big _ (by omega) (by omega)

/-- Taking a text apart at its first character. -/
theorem isText_cases {l : Bytes} (h : IsText l) :
    l = [] ∨ (∃ b r, l = b :: r ∧ b < 0x80 ∧ IsText r) ∨ (∃ w r, l = w ++ r ∧ w ≠ [] ∧ (∀ b ∈ w, ¬ b < 0x80) ∧ IsText w ∧ IsText r) := by
  obtain ⟨s, hs⟩ := (isText_iff _).1 h
  cases hc : s.toList with
  | nil =>
    left
    rw [← hs]
    simp [utf8, hc]
  | cons c cs =>
    right
    have e : l = String.utf8EncodeChar c ++ utf8 (String.ofList cs) := by
      rw [← hs]
      simp [utf8, hc]
    rcases encode_cases c with ⟨b, hb, he⟩ | hn
    · left
      exact ⟨b, _, by rw [e, he]; rfl, hb, isText_utf8 _⟩
    · right
      exact ⟨_, _, e, (nextChar_encode c []).2.1, hn, isText_char c, isText_utf8 _⟩

theorem isText_tail {b : UInt8} {r : Bytes} (hb : b < 0x80) (h : IsText (b :: r)) : IsText r := by
  rcases isText_cases h with h | ⟨b', r', h, _, hr⟩ | ⟨w, r', h, hw, hn, _⟩
  · cases h
  · injection h with _ h
    rw [h]
    exact hr
  · cases w with
    | nil => exact absurd rfl hw
    | cons x w =>
      injection h with h _
      exact absurd (h ▸ hb) (hn x (by simp))

theorem isText_rest {w r : Bytes} (hw : ∀ b ∈ w, b < 0x80) (h : IsText (w ++ r)) : IsText r := by
  induction w with
  | nil => exact h
  | cons b w ih => exact ih (fun x hx => hw x (by simp [hx])) (isText_tail (hw b (by simp)) h)

/-! ## The string table -/

mutual
theorem write_text (t : StringTable) (fuel : Nat) (id : StringId) (out : Bytes) (h : t.write fuel id = .ok out) : IsText out := by
  match fuel with
  | 0 => rw [StringTable.write] at h; cases h
  | fuel + 1 =>
    rw [StringTable.write] at h
    split at h
    · cases h
    · injection h with h; rw [← h]; exact isText_utf8 _
    · exact writeLoop_text t fuel _ out h
theorem writeLoop_text (t : StringTable) (fuel pos : Nat) (out : Bytes) (h : t.writeLoop fuel pos = .ok out) : IsText out := by
  match fuel with
  | 0 => rw [StringTable.writeLoop] at h; cases h
  | fuel + 1 =>
    rw [StringTable.writeLoop] at h
    split at h
    · cases h
    · split at h
      · injection h with h; rw [← h]; exact isText_nil
      · split at h
        · split at h
          · cases h
          · split at h
            · cases h
            · rename_i s hs
              split at h
              · cases h
              · rename_i rest hr
                injection h with h
                rw [← h]
                exact isText_append (write_text t fuel _ s hs) (writeLoop_text t fuel _ rest hr)
        · split at h
          · split at h
            · cases h
            · rename_i rest hr
              injection h with h
              rw [← h]
              exact isText_append ((isText_iff _).2 (lossy_decodes _)) (writeLoop_text t fuel _ rest hr)
          · injection h with h; rw [← h]; exact isText_utf8 _
end

theorem toStr_text (t : StringTable) (fuel : Nat) (id : StringId) (out : Bytes) (h : t.toStr fuel id = .ok out) : IsText out := by
  induction fuel generalizing id with
  | zero => rw [StringTable.toStr] at h; cases h
  | succ fuel ih =>
    rw [StringTable.toStr] at h
    split at h
    · cases h
    · injection h with h; rw [← h]; exact isText_utf8 _
    · split at h
      · cases h
      · simp only [] at h
        split at h
        · cases h
        · split at h
          · cases h
          · split at h
            · split at h
              · cases h
              · exact ih _ h
            · split at h
              · rename_i hv
                injection h with h
                rw [← h]
                exact isText_of_valid hv
              · exact write_text t fuel id out h

/-! ## Event ids -/

theorem substring_text {text s : Bytes} {a b : Nat} (h : substring text a b = .ok s) : IsText s := by
  unfold substring at h
  split at h
  · rename_i hv; injection h with h; exact h ▸ isText_of_valid hv
  · cases h

theorem parseText_text {text s : Bytes} {pos pos' : Nat} (h : parseText text pos = .ok (pos', .ok s)) : IsText s := by
  unfold parseText at h
  split at h
  · cases h
  · simp only [] at h
    split at h
    · unfold parserErr at h
      split at h <;> cases h
    · split at h
      · unfold parserErr at h
        split at h <;> cases h
      · split at h
        · rename_i s' hs
          injection h with h
          injection h with _ h
          injection h with h
          exact h ▸ substring_text hs
        · cases h

theorem parseArgs_text (text : Bytes) (fuel pos : Nat) (as : List Bytes) (m : Option Bytes) (h : parseArgs text fuel pos = .ok (as, m)) : ∀ a ∈ as, IsText a := by
  induction fuel generalizing pos as m with
  | zero => rw [parseArgs] at h; cases h
  | succ fuel ih =>
    rw [parseArgs] at h
    split at h
    · injection h with h; injection h with h _; rw [← h]; simp
    · split at h
      · cases h
      · injection h with h; injection h with h _; rw [← h]; simp
      · rename_i pos' arg ha
        split at h
        · cases h
        · rename_i args m' hr
          injection h with h
          injection h with h _
          rw [← h]
          intro a ha'
          rcases List.mem_cons.1 ha' with rfl | ha'
          · unfold parseArg at ha
            split at ha
            · cases ha
            · split at ha
              · unfold parserErr at ha
                split at ha <;> cases ha
              · exact parseText_text ha
          · exact ih _ _ _ hr a ha'

theorem parseEventId_text {text label : Bytes} {args : List Bytes} (h : parseEventId text = .ok (label, args)) :
    IsText label ∧ ∀ a ∈ args, IsText a := by
  obtain ⟨m, h⟩ := reporting_of_parse h
  unfold parseReporting at h
  split at h
  · cases h
  · injection h with h
    injection h with h _
    injection h with h1 h2
    rw [← h1, ← h2]
    exact ⟨isText_utf8 _, by simp⟩
  · rename_i pos l hp
    split at h
    · cases h
    · rename_i as m' ha
      injection h with h
      injection h with h _
      injection h with h1 h2
      rw [← h1, ← h2]
      exact ⟨parseText_text hp, parseArgs_text _ _ _ _ _ ha⟩

theorem decodeFull_text {fuel : Nat} {d : EventDecoder} {i : Nat} {e : Event} (h : d.decodeFull fuel i = .ok e) : EventText e := by
  unfold EventDecoder.decodeFull at h
  simp only [bind, Except.bind] at h
  split at h
  · cases h
  · split at h
    · cases h
    · split at h
      · cases h
      · rename_i la hla
        obtain ⟨label, args⟩ := la
        simp only [] at h
        split at h
        · cases h
        · rename_i kind hk
          injection h with h
          rw [← h]
          exact ⟨toStr_text _ _ _ _ hk, (parseEventId_text hla).1, (parseEventId_text hla).2⟩

end Verif.Proofs
