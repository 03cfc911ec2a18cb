import Verif.Props.EventId
import Verif.Proofs.Decimal

/-!
# Property C77: malformed event ids are reported

The reader parses the text of every event id it hands out.  A text that does not follow the grammar is reported on standard error,
with the reason, the place and the text; the texts that are not reported are exactly those of which nothing is lost.
-/

namespace Verif.Props
open Verif Verif.Mm Verif.Spec Verif.Decode

theorem utf8_length (s : String) : (utf8 s).length = s.utf8ByteSize := by
  rw [← String.size_toByteArray, ← String.utf8Encode_toList, List.utf8Encode, utf8]
  simp [List.size_toByteArray]

theorem fieldMessage_eq (text F : String) (start : Nat) : fieldMessage (utf8 text) start F = utf8 (idComplaint text F start) := by
  unfold fieldMessage idComplaint
  rw [decimal_eq_toString, utf8_length]
  simp only [utf8_append]

theorem firstMessage_ok (text : Bytes) (args : List String) (h : ∀ a ∈ args, TextOk a) (start : Nat) : firstMessage text start args = none := by
  induction args generalizing start with
  | nil => rfl
  | cons a as ih => rw [firstMessage, if_pos (h a (by simp)), ih (fun b hb => h b (by simp [hb]))]

theorem joined_size (L : String) (as : List String) : (joined L as).utf8ByteSize = L.utf8ByteSize + (as.map (fun a => 1 + a.utf8ByteSize)).sum := by
  rw [← utf8_length, joined_bytes, List.length_append, utf8_length]
  congr 1
  induction as with
  | nil => rfl
  | cons a as ih =>
    simp only [argBytes, List.flatMap_cons, List.length_append, List.length_cons, List.map_cons, List.sum_cons] at ih ⊢
    rw [ih, utf8_length]
    omega

theorem firstMessage_bad (text : Bytes) (before : List String) (f : String) (after : List String) (h : ∀ a ∈ before, TextOk a) (bad : ¬ TextOk f)
    (start : Nat) : firstMessage text start (before ++ f :: after) =
      some (fieldMessage text (start + (before.map (fun a => 1 + a.utf8ByteSize)).sum + 1) f) := by
  induction before generalizing start with
  | nil => simp [firstMessage, bad]
  | cons a as ih =>
    rw [List.cons_append, firstMessage, if_pos (h a (by simp)), ih (fun b hb => h b (by simp [hb])), utf8_length]
    congr 2
    simp only [List.map_cons, List.sum_cons]
    omega

theorem takeWhile_bad {α : Type} {p : α → Bool} {l : List α} {x : α} {r : List α} (h : ∀ a ∈ l, p a = true) (hx : p x = false) :
    (l ++ x :: r).takeWhile p = l := by
  induction l with
  | nil => simp [hx]
  | cons a l ih => rw [List.cons_append, List.takeWhile_cons, h a (by simp), if_pos rfl, ih (fun b hb => h b (by simp [hb]))]

/-- **C77.** If the label and all arguments are proper texts, parsing gives them back and nothing is reported. -/
theorem C77_silent (L : String) (as : List String) (okL : TextOk L) (okA : ∀ a ∈ as, TextOk a) :
    parseReporting (utf8 (joined L as)) = .ok ((utf8 L, as.map utf8), none) := by
  rw [parseReporting_joined L as (textOk_sepFree okL) (fun a h => textOk_sepFree (okA a h)), if_pos okL,
    takeWhile_all (fun a h => by simpa using okA a h), firstMessage_ok _ _ okA]

/-- **C77.** If the label is not a proper text, the label reads `<parse error>`, there are no arguments, and the report is about
the label. -/
theorem C77_label_reported (L : String) (as : List String) (sepL : SepFree L) (sepA : ∀ a ∈ as, SepFree a) (bad : ¬ TextOk L) :
    parseReporting (utf8 (joined L as)) = .ok ((utf8 "<parse error>", []), some (utf8 (idComplaint (joined L as) L 0))) := by
  rw [parseReporting_joined L as sepL sepA, if_neg bad, fieldMessage_eq]

/-- **C77.** If the argument `f` is the first field that is not a proper text, the label and the arguments before `f` are returned
and the report is about `f`, which begins one byte after the text of the fields before it. -/
theorem C77_argument_reported (L : String) (before : List String) (f : String) (after : List String) (okL : TextOk L)
    (okB : ∀ a ∈ before, TextOk a) (sepF : SepFree f) (bad : ¬ TextOk f) (sepA : ∀ a ∈ after, SepFree a) :
    parseReporting (utf8 (joined L (before ++ f :: after))) = .ok ((utf8 L, before.map utf8),
      some (utf8 (idComplaint (joined L (before ++ f :: after)) f ((joined L before).utf8ByteSize + 1)))) := by
  rw [parseReporting_joined L _ (textOk_sepFree okL), if_pos okL, takeWhile_bad (fun a h => by simpa using okB a h) (by simpa using bad),
    firstMessage_bad _ _ _ _ okB bad, utf8_length, ← joined_size, fieldMessage_eq]
  intro a ha
  rcases List.mem_append.1 ha with ha | ha
  · exact textOk_sepFree (okB a ha)
  · rcases List.mem_cons.1 ha with rfl | ha
    · exact sepF
    · exact sepA a ha

theorem first_bad (as : List String) : (∀ a ∈ as, TextOk a) ∨
    ∃ (before : List String) (f : String) (after : List String), as = before ++ f :: after ∧ (∀ a ∈ before, TextOk a) ∧ ¬ TextOk f := by
  induction as with
  | nil => exact .inl (by simp)
  | cons a as ih =>
    by_cases h : TextOk a
    · rcases ih with ih | ⟨b, f, r, rfl, hb, hf⟩
      · exact .inl (by intro x hx; rcases List.mem_cons.1 hx with rfl | hx; exacts [h, ih x hx])
      · exact .inr ⟨a :: b, f, r, rfl, by intro x hx; rcases List.mem_cons.1 hx with rfl | hx; exacts [h, hb x hx], hf⟩
    · exact .inr ⟨[], a, as, rfl, by simp, h⟩

/-- **C77.** For every text: parsing returns a label and arguments, and there is no report exactly if the label and the arguments,
joined again, are the text. -/
theorem C77_reported_iff_lossy (s : String) : ∃ (L : String) (as : List String) (m : Option Bytes),
    parseReporting (utf8 s) = .ok ((utf8 L, as.map utf8), m) ∧ (m = none ↔ joined L as = s) := by
  obtain ⟨L, as, hl, ha, rfl⟩ := exists_fields s
  by_cases okL : TextOk L
  · rcases first_bad as with okA | ⟨b, f, r, rfl, hb, hf⟩
    · exact ⟨L, as, none, C77_silent L as okL okA, by simp⟩
    · refine ⟨L, b, _, C77_argument_reported L b f r okL hb (ha f (by simp)) hf (fun a h => ha a (by simp [h])), ?_⟩
      simp only [reduceCtorEq, false_iff]
      intro h
      have := congrArg String.utf8ByteSize h
      rw [joined_size, joined_size] at this
      simp at this
  · refine ⟨"<parse error>", [], _, C77_label_reported L as hl ha okL, ?_⟩
    simp only [reduceCtorEq, false_iff]
    intro h
    have h1 := C77_silent "<parse error>" [] (by decide) (by simp)
    rw [h, C77_label_reported L as hl ha okL] at h1
    injection h1 with h1
    injection h1 with _ h1
    cases h1

/-- **C77.** For every text that `decodeme` parses, what is returned is the same whether or not the report is looked at. -/
theorem C77_report_is_separate (s : String) (r : (Bytes × List Bytes) × Option Bytes) (h : parseReporting (utf8 s) = .ok r) :
    parseEventId (utf8 s) = .ok r.1 := by
  unfold parseEventId
  rw [h]
  rfl

example : parseReporting (utf8 "a\x1eb c") = .ok ((utf8 "a", [utf8 "b c"]), none) := C77_silent "a" ["b c"] (by decide) (by decide)

example : parseReporting (utf8 "\x1eb") = .ok ((utf8 "<parse error>", []),
    some (utf8 "Could not parse `event_id`. Zero-length <text> at 0 in \"\x1eb\"")) :=
  C77_label_reported "" ["b"] (by decide) (by decide) (by decide)

example : parseReporting (utf8 "lé\x1exy\x1e\x01z\x1ew") = .ok ((utf8 "lé", [utf8 "xy"]),
    some (utf8 "Could not parse `event_id`. Found ASCII control character in <text> at 9 in \"lé\x1exy\x1e\x01z\x1ew\"")) :=
  C77_argument_reported "lé" ["xy"] "\x01z" ["w"] (by decide) (by decide) (by decide) (by decide) (by decide)

end Verif.Props
