import Verif.Spec.EventId
import Verif.Proofs.StringFast

namespace Verif.Decode

open Verif Verif.Mm Verif.Spec

/-- ASCII characters are encoded as themselves, others with bytes ≥ 0x80 only. -/
theorem encode_ascii (c : Char) :
    (c.toNat < 128 ∧ String.utf8EncodeChar c = [UInt8.ofNat c.toNat]) ∨
    (128 ≤ c.toNat ∧ (String.utf8EncodeChar c) ≠ [] ∧ ∀ b ∈ String.utf8EncodeChar c, 128 ≤ b.toNat) := by
  have hv : c.val.toNat < 0xd800 ∨ (0xdfff < c.val.toNat ∧ c.val.toNat < 0x110000) := c.valid
  have he : c.toNat = c.val.toNat := rfl
  rw [he]
  unfold String.utf8EncodeChar
  generalize c.val.toNat = v at hv
  by_cases h : v < 128
  · left
    refine ⟨h, ?_⟩
    rw [if_pos (by omega)]
  · right
    refine ⟨by omega, ?_, ?_⟩
    · simp only []
      split
      · simp
      · split
        · simp
        · split <;> simp
    · rw [if_neg (by omega)]
      intro b hb
      split at hb
      · simp at hb; rcases hb with rfl | rfl <;> simp [UInt8.toNat_ofNat] <;> omega
      · split at hb
        · simp at hb; rcases hb with rfl | rfl | rfl <;> simp [UInt8.toNat_ofNat] <;> omega
        · simp at hb; rcases hb with rfl | rfl | rfl | rfl <;> simp [UInt8.toNat_ofNat] <;> omega


theorem byte_char (s : String) (b : UInt8) (hb : b.toNat < 128) : b ∈ utf8 s ↔ ∃ c ∈ s.toList, c.toNat = b.toNat := by
  simp only [utf8, List.mem_flatMap]
  constructor
  · rintro ⟨c, hc, hbc⟩
    refine ⟨c, hc, ?_⟩
    rcases encode_ascii c with ⟨h1, h2⟩ | ⟨_, _, h2⟩
    · rw [h2] at hbc
      simp at hbc
      subst hbc
      simp [UInt8.toNat_ofNat]
      omega
    · have := h2 b hbc; omega
  · rintro ⟨c, hc, hbc⟩
    refine ⟨c, hc, ?_⟩
    rcases encode_ascii c with ⟨h1, h2⟩ | ⟨h1, _⟩
    · rw [h2, hbc]
      simp
    · omega

theorem toNat_1E : (Char.ofNat 0x1E).toNat = 30 := by decide

theorem sepFree_bytes {s : String} (h : SepFree s) : ∀ b ∈ utf8 s, (fun b : UInt8 => decide (b = separatorByte)) b = false := by
  intro b hb
  simp only [decide_eq_false_iff_not]
  rintro rfl
  obtain ⟨c, hc, he⟩ := (byte_char s separatorByte (by decide)).mp hb
  have : c = Char.ofNat 0x1E := by
    apply Char.ext
    apply UInt32.toNat_inj.mp
    have h1 : c.val.toNat = 30 := he
    rw [h1]; decide
  exact h (this ▸ hc)

theorem utf8_nil {s : String} : utf8 s = [] ↔ s = "" := by
  constructor
  · intro h
    exact utf8_inj (by rw [h]; simp)
  · rintro rfl; simp

/-- The parser's test for bad characters, on the bytes of a text. -/
theorem bad_iff (s : String) :
    ((utf8 s).filter (fun x => !isAsciiWhitespace x)).any isAsciiControl = true ↔
      ∃ c ∈ s.toList, ControlChar c ∧ ¬ RustSpace c := by
  simp only [List.any_eq_true, List.mem_filter, Bool.not_eq_true']
  constructor
  · rintro ⟨b, ⟨hb, hw⟩, hc⟩
    have hb7 : b.toNat < 128 := by
      simp [isAsciiControl, UInt8.lt_iff_toNat_lt] at hc
      rcases hc with hc | rfl
      · omega
      · decide
    obtain ⟨c, hcm, he⟩ := (byte_char s b hb7).mp hb
    refine ⟨c, hcm, ?_, ?_⟩
    · simp [isAsciiControl, UInt8.lt_iff_toNat_lt] at hc
      unfold ControlChar
      rcases hc with hc | rfl
      · omega
      · right; rw [he]; decide
    · simp only [isAsciiWhitespace, Bool.or_eq_false_iff, decide_eq_false_iff_not, ← UInt8.toNat_inj] at hw
      unfold RustSpace
      simp at hw
      omega
  · rintro ⟨c, hc, hcc, hns⟩
    have h7 : c.toNat < 128 := by unfold ControlChar at hcc; omega
    have hb : (UInt8.ofNat c.toNat).toNat = c.toNat := by simp [UInt8.toNat_ofNat]; omega
    refine ⟨UInt8.ofNat c.toNat, ⟨(byte_char s _ (by omega)).mpr ⟨c, hc, hb.symm⟩, ?_⟩, ?_⟩
    · simp only [isAsciiWhitespace, Bool.or_eq_false_iff, decide_eq_false_iff_not, ← UInt8.toNat_inj, hb]
      unfold RustSpace at hns
      simp
      omega
    · unfold ControlChar at hcc
      simp only [isAsciiControl, Bool.or_eq_true, decide_eq_true_eq, UInt8.lt_iff_toNat_lt, ← UInt8.toNat_inj, hb]
      simpa using hcc

theorem textOk_iff (s : String) :
    TextOk s ↔ utf8 s ≠ [] ∧ ((utf8 s).filter (fun x => !isAsciiWhitespace x)).any isAsciiControl = false := by
  rw [← Bool.not_eq_true, bad_iff, ne_eq, utf8_nil]
  unfold TextOk
  constructor
  · rintro ⟨h1, h2⟩
    exact ⟨h1, fun ⟨c, hc, h3, h4⟩ => h4 (h2 c hc h3)⟩
  · rintro ⟨h1, h2⟩
    refine ⟨h1, fun c hc h3 => ?_⟩
    by_cases h : RustSpace c
    · exact h
    · exact (h2 ⟨c, hc, h3, h⟩).elim

/-- The message about an improper field that begins at byte `start`. -/
def fieldMessage (text : Bytes) (start : Nat) (F : String) : Bytes :=
  utf8 "Could not parse `event_id`. " ++ utf8 (if F = "" then "Zero-length <text>" else "Found ASCII control character in <text>") ++
    utf8 " at " ++ utf8 (decimal (start + (utf8 F).length)) ++ utf8 " in \"" ++ text ++ utf8 "\""

/-- The message about the first improper argument; the first argument's separator is at byte `start`. -/
def firstMessage (text : Bytes) : Nat → List String → Option Bytes
  | _, [] => none
  | start, a :: as => if TextOk a then firstMessage text (start + 1 + (utf8 a).length) as else some (fieldMessage text (start + 1) a)

/-- Parsing one separator-free field in the middle of a text. -/
theorem parseText_field (pre : Bytes) (F : String) (rest : Bytes) (hF : SepFree F)
    (hrest : rest = [] ∨ ∃ r, rest = separatorByte :: r) (hv : validUtf8 (pre ++ utf8 F ++ rest) = true) :
    parseText (pre ++ utf8 F ++ rest) pre.length =
      .ok (pre.length + (utf8 F).length,
        if TextOk F then .ok (utf8 F) else .error (fieldMessage (pre ++ utf8 F ++ rest) pre.length F)) := by
  have hstop : textEnd (pre ++ utf8 F ++ rest) pre.length = pre.length + (utf8 F).length := by
    unfold textEnd
    rw [List.append_assoc, List.drop_left]
    rcases hrest with rfl | ⟨r, rfl⟩
    · have : memchr (fun b => decide (b = separatorByte)) (utf8 F ++ []) = none := by
        simp only [memchr, List.append_nil, List.findIdx?_eq_none_iff]
        exact sepFree_bytes hF
      rw [this]
      simp
    · rw [memchr_append (sepFree_bytes hF) (by decide)]
      simp
      omega
  have hsub : ((pre ++ utf8 F ++ rest).take (pre.length + (utf8 F).length)).drop pre.length = utf8 F := by
    rw [← List.length_append, List.take_left, List.drop_left]
  unfold parseText
  rw [if_neg (by simp)]
  simp only [hstop, hsub, substring, parserErr, hv, validUtf8_utf8, if_true]
  by_cases hok : TextOk F
  · obtain ⟨h1, h2⟩ := (textOk_iff F).mp hok
    have : (utf8 F).length ≠ 0 := by simpa using h1
    rw [if_neg (by omega), h2]
    simp [hok]
  · by_cases h1 : utf8 F = []
    · have hF0 : F = "" := utf8_nil.mp h1
      rw [if_pos (by simp [h1])]
      rw [if_neg hok]
      simp [fieldMessage, hF0, utf8_nil.mpr rfl]
    · have h2 : ((utf8 F).filter (fun x => !isAsciiWhitespace x)).any isAsciiControl = true := by
        by_cases hh : ((utf8 F).filter (fun x => !isAsciiWhitespace x)).any isAsciiControl = true
        · exact hh
        · exact (hok ((textOk_iff F).mpr ⟨h1, by simpa using hh⟩)).elim
      have : (utf8 F).length ≠ 0 := by simpa using h1
      have hF0 : F ≠ "" := fun h => h1 (utf8_nil.mpr h)
      rw [if_neg (by omega), if_pos h2]
      simp [hok, fieldMessage, hF0]

/-- The bytes of the arguments. -/
def argBytes (args : List String) : Bytes := args.flatMap (fun a => separatorByte :: utf8 a)

theorem utf8_sep : utf8 "\x1e" = [separatorByte] := by decide

theorem joined_bytes (label : String) (args : List String) : utf8 (joined label args) = utf8 label ++ argBytes args := by
  induction args generalizing label with
  | nil => simp [joined, argBytes]
  | cons a as ih =>
    rw [joined, ih, utf8_append, utf8_append, utf8_sep]
    simp [argBytes]

theorem argBytes_head (args : List String) : argBytes args = [] ∨ ∃ r, argBytes args = separatorByte :: r := by
  cases args with
  | nil => exact .inl rfl
  | cons a as => exact .inr ⟨utf8 a ++ argBytes as, by simp [argBytes]⟩

theorem argBytes_length (args : List String) : args.length ≤ (argBytes args).length := by
  induction args with
  | nil => simp
  | cons a as ih =>
    simp only [argBytes, List.flatMap_cons, List.length_append, List.length_cons] at ih ⊢
    omega

theorem parseArgs_fields (args : List String) : ∀ (pre : Bytes) (fuel : Nat), (∀ a ∈ args, SepFree a) →
    args.length < fuel → validUtf8 (pre ++ argBytes args) = true →
    parseArgs (pre ++ argBytes args) fuel pre.length =
      .ok ((args.takeWhile (fun a => decide (TextOk a))).map utf8, firstMessage (pre ++ argBytes args) pre.length args) := by
  induction args with
  | nil =>
    intro pre fuel _ hf _
    obtain ⟨f, rfl⟩ : ∃ f, fuel = f + 1 := ⟨fuel - 1, by simp at hf; omega⟩
    simp [parseArgs, argBytes, firstMessage]
  | cons a as ih =>
    intro pre fuel hs hf hv
    obtain ⟨f, rfl⟩ : ∃ f, fuel = f + 1 := ⟨fuel - 1, by omega⟩
    have e : pre ++ argBytes (a :: as) = (pre ++ [separatorByte]) ++ utf8 a ++ argBytes as := by simp [argBytes]
    rw [e] at hv ⊢
    have hb : ((pre ++ [separatorByte]) ++ utf8 a ++ argBytes as)[pre.length]? = some separatorByte := by simp
    have hp := parseText_field (pre ++ [separatorByte]) a (argBytes as) (hs a (by simp)) (argBytes_head as) hv
    rw [List.length_append, List.length_singleton] at hp
    rw [parseArgs, if_neg (by simp), parseArg, hb]
    simp only [ne_eq, not_true_eq_false, if_false, hp]
    by_cases hok : TextOk a
    · simp only [hok, if_true]
      have hv' : validUtf8 ((pre ++ [separatorByte] ++ utf8 a) ++ argBytes as) = true := hv
      have := ih (pre ++ [separatorByte] ++ utf8 a) f (fun x hx => hs x (by simp [hx])) (by simp at hf; omega) hv'
      rw [List.length_append, List.length_append, List.length_singleton] at this
      rw [this, List.takeWhile_cons_of_pos (by simpa using hok)]
      simp [firstMessage, hok]
    · simp only [hok, if_false]
      rw [List.takeWhile_cons_of_neg (by simpa using hok)]
      simp [firstMessage, hok]

/-- The parser on a joined text: what it returns and the message it prints. -/
theorem parseReporting_joined (label : String) (args : List String) (hl : SepFree label) (ha : ∀ a ∈ args, SepFree a) :
    parseReporting (utf8 (joined label args)) = .ok
      (if TextOk label then
        ((utf8 label, (args.takeWhile (fun a => decide (TextOk a))).map utf8),
          firstMessage (utf8 (joined label args)) (utf8 label).length args)
       else ((utf8 "<parse error>", []), some (fieldMessage (utf8 (joined label args)) 0 label))) := by
  have hv : validUtf8 (utf8 (joined label args)) = true := validUtf8_utf8 _
  have h0 := parseText_field [] label (argBytes args) hl (argBytes_head args) (by simpa [joined_bytes] using hv)
  simp only [List.nil_append, List.length_nil, Nat.zero_add, ← joined_bytes] at h0
  unfold parseReporting
  rw [h0]
  by_cases hok : TextOk label
  · simp only [hok, if_true]
    rw [joined_bytes] at hv ⊢
    rw [parseArgs_fields args (utf8 label) _ ha (by have := argBytes_length args; simp; omega) hv]
  · simp only [hok, if_false]

/-- The parser on a joined text: what it returns. -/
theorem parseEventId_joined (label : String) (args : List String) (hl : SepFree label) (ha : ∀ a ∈ args, SepFree a) :
    parseEventId (utf8 (joined label args)) = .ok
      (if TextOk label then (utf8 label, (args.takeWhile (fun a => decide (TextOk a))).map utf8)
       else (utf8 "<parse error>", [])) := by
  unfold parseEventId
  rw [parseReporting_joined label args hl ha]
  by_cases hok : TextOk label <;> simp [hok, Except.map]

theorem reporting_of_parse {text : Bytes} {r : Bytes × List Bytes} (h : parseEventId text = .ok r) :
    ∃ m : Option Bytes, parseReporting text = .ok (r, m) := by
  unfold parseEventId at h
  cases hp : parseReporting text with
  | error e => rw [hp] at h; cases h
  | ok x =>
    rw [hp] at h
    injection h with h
    exact ⟨x.2, by rw [← h]⟩

/-- Every text is a joined text of separator-free fields. -/
theorem exists_fields (s : String) : ∃ label args, SepFree label ∧ (∀ a ∈ args, SepFree a) ∧ s = joined label args := by
  obtain ⟨l, rfl⟩ : ∃ l, s = String.ofList l := ⟨s.toList, by simp⟩
  induction l with
  | nil => exact ⟨"", [], by simp [SepFree], by simp, rfl⟩
  | cons c l ih =>
    obtain ⟨label, args, h1, h2, h3⟩ := ih
    have hj : ∀ (p q : String) (as : List String), joined (p ++ q) as = p ++ joined q as := by
      intro p q as
      induction as generalizing q with
      | nil => rfl
      | cons a as ih => simp only [joined]; rw [← ih]; simp [String.append_assoc]
    have e : String.ofList (c :: l) = String.ofList [c] ++ joined label args := by
      rw [← h3, ← String.ofList_append]; rfl
    by_cases hc : c = Char.ofNat 0x1E
    · refine ⟨"", label :: args, by simp [SepFree], ?_, ?_⟩
      · intro a ha
        simp at ha
        rcases ha with rfl | ha
        · exact h1
        · exact h2 a ha
      · rw [e, joined, ← hj, hc]
        rfl
    · refine ⟨String.ofList [c] ++ label, args, ?_, h2, ?_⟩
      · unfold SepFree at h1 ⊢
        simp
        exact ⟨fun h => hc h.symm, h1⟩
      · rw [e, hj]

end Verif.Decode
