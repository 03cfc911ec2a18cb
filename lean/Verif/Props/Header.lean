import Verif.Model.FileHeader

/-! # Property C11: file headers -/

namespace Verif.Props
open Verif Verif.Mm

/-- The four stream kinds and their documented magic, as text. -/
def magics : List (String × Bytes) :=
  [("MMPD", magicTopLevel), ("MMES", magicEventStream), ("MMSD", magicStringData), ("MMSI", magicStringIndex)]

/-- **C11.** The magic numbers are the documented ASCII strings (`file_header.rs:10-13`). -/
theorem C11_magics_documented : ∀ x ∈ magics, x.2 = x.1.toByteArray.data.toList := by decide

/-- **C11.** `write_file_header` writes the magic followed by version 9 as a 32-bit little-endian number. -/
theorem C11_header_bytes (magic : Bytes) : fileHeader magic = magic ++ [9, 0, 0, 0] := by
  simp [fileHeader, fileHeaderWrites, leBytes, currentFileFormatVersion]

/-- **C11.** `verify_file_header` accepts a byte string iff it starts with the expected four magic bytes followed by
the little-endian version number 9; anything else is reported as an error value, never a panic. -/
theorem C11_verify_iff (bytes magic : Bytes) (hm : magic.length = 4) :
    (verifyFileHeader diag stream bytes magic = .ok () ↔ ∃ rest, bytes = magic ++ [9, 0, 0, 0] ++ rest) ∧
    (IsOk (verifyFileHeader diag stream bytes magic) ∨ IsErr (verifyFileHeader diag stream bytes magic)) := by
  constructor
  · constructor
    · intro h
      unfold verifyFileHeader at h
      split at h
      · simp at h
      · split at h
        · simp at h
        · split at h
          · simp at h
          · rename_i h1 h2 h3
            simp only [fileHeaderSize, Nat.not_lt, ne_eq, Decidable.not_not, currentFileFormatVersion] at h1 h2 h3
            have hl : ((bytes.take 8).drop 4).length = 4 := by simp; omega
            have hle := leBytes_fromLe ((bytes.take 8).drop 4)
            rw [hl, h3] at hle
            refine ⟨bytes.drop 8, ?_⟩
            have e1 : bytes = bytes.take 8 ++ bytes.drop 8 := (List.take_append_drop 8 bytes).symm
            have e2 : bytes.take 8 = (bytes.take 8).take 4 ++ (bytes.take 8).drop 4 :=
              (List.take_append_drop 4 _).symm
            have e3 : (bytes.take 8).take 4 = magic := by rw [List.take_take, ← h2]; rfl
            rw [e3, ← hle] at e2
            rw [e2] at e1
            exact e1
    · rintro ⟨rest, rfl⟩
      have h1 : ¬ (magic ++ [9, 0, 0, 0] ++ rest).length < fileHeaderSize := by simp [fileHeaderSize, hm]; omega
      have h2 : (magic ++ [9, 0, 0, 0] ++ rest).take 4 = magic := by
        rw [List.append_assoc, ← hm, List.take_left]
      have h3 : ((magic ++ [9, 0, 0, 0] ++ rest).take 8).drop 4 = [9, 0, 0, 0] := by
        have h8 : (magic ++ [9, 0, 0, 0] : Bytes).length = 8 := by simp [hm]
        have e1 : (magic ++ [9, 0, 0, 0] ++ rest).take 8 = magic ++ [9, 0, 0, 0] := by
          rw [← h8, List.take_left]
        rw [e1, ← hm, List.drop_left]
      simp only [verifyFileHeader, h1, if_false, h2, h3, ne_eq, not_true_eq_false]
      rw [if_neg (by decide)]
  · unfold verifyFileHeader
    split
    · right; trivial
    · split
      · right; trivial
      · split
        · right; trivial
        · left; trivial

/-- **C11.** A written header followed by anything verifies, and stripping it leaves exactly what follows. -/
theorem C11_write_then_verify (magic rest : Bytes) (hm : magic.length = 4) :
    verifyFileHeader diag stream (fileHeader magic ++ rest) magic = .ok () ∧
    readFileHeader diag stream (fileHeader magic ++ rest) magic = .ok 9 ∧
    stripFileHeader (fileHeader magic ++ rest) = .ok rest := by
  rw [C11_header_bytes]
  refine ⟨((C11_verify_iff _ magic hm).1).mpr ⟨rest, rfl⟩, ?_, ?_⟩
  · have h1 : ¬ (magic ++ [9, 0, 0, 0] ++ rest).length < fileHeaderSize := by simp [fileHeaderSize, hm]; omega
    have h2 : (magic ++ [9, 0, 0, 0] ++ rest).take 4 = magic := by
      rw [List.append_assoc, ← hm, List.take_left]
    have h3 : ((magic ++ [9, 0, 0, 0] ++ rest).take 8).drop 4 = [9, 0, 0, 0] := by
      have h8 : (magic ++ [9, 0, 0, 0] : Bytes).length = 8 := by simp [hm]
      have e1 : (magic ++ [9, 0, 0, 0] ++ rest).take 8 = magic ++ [9, 0, 0, 0] := by
        rw [← h8, List.take_left]
      rw [e1, ← hm, List.drop_left]
    simp only [readFileHeader, h1, if_false, h2, h3, ne_eq, not_true_eq_false]
    decide
  · have h1 : ¬ (magic ++ [9, 0, 0, 0] ++ rest).length < fileHeaderSize := by simp [fileHeaderSize, hm]; omega
    have h8 : (magic ++ [9, 0, 0, 0] : Bytes).length = 8 := by simp [hm]
    simp only [stripFileHeader, h1, if_false]
    rw [show fileHeaderSize = (magic ++ [9, 0, 0, 0] : Bytes).length from h8.symm, List.drop_left]

/-- **C11.** `read_file_header` reports the version of any file with the right magic: it succeeds iff there are at
least eight bytes starting with the magic, and then returns the little-endian number in bytes 4..8. -/
theorem C11_read_iff (bytes magic : Bytes) (v : Nat) (hm : magic.length = 4) :
    readFileHeader diag stream bytes magic = .ok v ↔
      ∃ b0 b1 b2 b3 rest, bytes = magic ++ [b0, b1, b2, b3] ++ rest ∧
        v = b0.toNat + 256 * b1.toNat + 65536 * b2.toNat + 16777216 * b3.toNat := by
  constructor
  · intro h
    unfold readFileHeader at h
    split at h
    · simp at h
    · split at h
      · simp at h
      · rename_i h1 h2
        simp only [fileHeaderSize, Nat.not_lt, ne_eq, Decidable.not_not, Except.ok.injEq] at h1 h2 h
        match bytes, h1, h2, h with
        | a0 :: a1 :: a2 :: a3 :: b0 :: b1 :: b2 :: b3 :: rest, _, h2, h =>
          refine ⟨b0, b1, b2, b3, rest, ?_, ?_⟩
          · rw [← h2]; simp
          · rw [← h]; simp [fromLe]; omega
        | [], h1, _, _ => simp at h1
        | [_], h1, _, _ => simp at h1
        | [_, _], h1, _, _ => simp at h1
        | [_, _, _], h1, _, _ => simp at h1
        | [_, _, _, _], h1, _, _ => simp at h1
        | [_, _, _, _, _], h1, _, _ => simp at h1
        | [_, _, _, _, _, _], h1, _, _ => simp at h1
        | [_, _, _, _, _, _, _], h1, _, _ => simp at h1
  · rintro ⟨b0, b1, b2, b3, rest, rfl, rfl⟩
    match magic, hm with
    | [m0, m1, m2, m3], _ =>
      have h : ¬ ([m0, m1, m2, m3] ++ [b0, b1, b2, b3] ++ rest).length < fileHeaderSize := by
        simp [fileHeaderSize]
      simp only [readFileHeader, h, if_false]
      simp [fromLe]
      omega

/-- **C11.** No header verifies as another kind: the four magics are pairwise different. -/
theorem C11_kinds_exclusive (x y : String × Bytes) (hx : x ∈ magics) (hy : y ∈ magics) (rest : Bytes)
    (h : verifyFileHeader diag stream (fileHeader x.2 ++ rest) y.2 = .ok ()) : x = y := by
  have hlen : ∀ z ∈ magics, z.2.length = 4 := by decide
  obtain ⟨rest', hr⟩ := ((C11_verify_iff _ y.2 (hlen y hy)).1).mp h
  rw [C11_header_bytes, List.append_assoc, List.append_assoc] at hr
  have hxy : x.2 = y.2 := (List.append_inj hr (by rw [hlen x hx, hlen y hy])).1
  revert hxy
  have : ∀ x ∈ magics, ∀ y ∈ magics, x.2 = y.2 → x = y := by decide
  exact this x hx y hy

example : verifyFileHeader diag stream [0x4D, 0x4D, 0x50, 0x44, 9, 0, 0, 0, 1, 2] magicTopLevel = .ok () ∧
    IsErr (verifyFileHeader diag stream [0x4D, 0x4D, 0x50, 0x44, 8, 0, 0, 0] magicTopLevel) := ⟨rfl, trivial⟩

end Verif.Props
