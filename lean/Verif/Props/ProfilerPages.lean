import Verif.Props.Space
import Verif.Proofs.ProfilerPages

/-!
# C06, continued: the pages a profiler writes
-/

namespace Verif.Props

open Verif Verif.Mm Verif.Spec Verif.Proofs

/-- **C06.** In the file of every session with a profiler, no event record is cut by the end of a page: the first page of the event stream
holds the header of the stream (8 bytes) and whole records (of 32 bytes), every later one whole records. -/
theorem C06_profiler_pages (md : String) (calls : List ProfCall) : ∃ pages : List Page,
    savedFile md calls = utf8 "MMPD" ++ [9, 0, 0, 0] ++ storeOf pages ∧ (∀ p ∈ pages, 0 < p.body.length ∧ p.body.length ≤ 262144) ∧
      ∀ before p after, pages = before ++ p :: after → p.tag = .events →
        ((∀ q ∈ before, q.tag ≠ .events) → ∃ n, p.body.length = 8 + 32 * n) ∧
        ((∃ q ∈ before, q.tag = .events) → ∃ n, p.body.length = 32 * n) := by
  obtain ⟨pages, hf, hb, hw⟩ := profiler_pages md calls
  refine ⟨pages, hf.trans rfl, hb, ?_⟩
  intro before p after he ht
  obtain ⟨h0, h1⟩ := hw before p after he ht
  refine ⟨fun hn => h0 ?_, fun ⟨q, hq, hqt⟩ => h1 ?_⟩
  · simp only [streamOf, List.flatMap_eq_nil_iff, List.mem_filter, decide_eq_true_eq]
    exact fun q hq => absurd hq.2 (hn q hq.1)
  · intro hnil
    simp only [streamOf, List.flatMap_eq_nil_iff, List.mem_filter, decide_eq_true_eq] at hnil
    have := (hb q (by rw [he]; simp [hq])).1
    rw [hnil q ⟨hq, hqt⟩] at this
    exact absurd this (by simp)

/-- Non-vacuity: the file of a session with two events has pages of the event stream, with 72 bytes in all. -/
example : ∃ pages : List Page, savedFile "md" [.instant 1 2 3 4, .integer 1 2 3 5] = utf8 "MMPD" ++ [9, 0, 0, 0] ++ storeOf pages ∧
    (streamOf .events pages).length = 72 ∧ ∃ before p after, pages = before ++ p :: after ∧ p.tag = PageTag.events := by
  obtain ⟨pages, raws, P⟩ := parts_exist "md" [.instant 1 2 3 4, .integer 1 2 3 5]
  have hl : (streamOf .events pages).length = 72 := by
    rw [P.events, List.length_append, serialize_flat_length, P.enc.length_eq]
    decide
  refine ⟨pages, P.file.trans rfl, hl, ?_⟩
  have : streamOf .events pages ≠ [] := by
    intro h
    rw [h] at hl
    exact absurd hl (by decide)
  simp only [streamOf, ne_eq, List.flatMap_eq_nil_iff, List.mem_filter, decide_eq_true_eq, not_forall] at this
  obtain ⟨p, ⟨hp, ht⟩, _⟩ := this
  obtain ⟨before, after, e⟩ := List.append_of_mem hp
  exact ⟨before, p, after, e, ht⟩

end Verif.Props
