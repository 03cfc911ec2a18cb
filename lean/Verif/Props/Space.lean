import Verif.Props.EndToEnd
import Verif.Proofs.Space

/-!
# C80: what a profile takes on disk
-/

namespace Verif.Props

open Verif Verif.Mm Verif.Spec Verif.Proofs

/-- **C80.** However data is handed to a sink, in pieces of whatever sizes and by whichever calls: except for those it was made to write by being flushed or
dropped, its pages are on average at least half full (128 KiB), so the number of page headers is bounded by the amount of data. -/
theorem C80_few_pages (tagOf : Nat → PageTag) (h : History) (hg : AllGood h) (i : Nat) (hun : TagUnshared tagOf i h) :
    ∃ pages, storeAfter tagOf h = storeOf pages ∧ (∀ p ∈ pages, 0 < p.body.length ∧ p.body.length ≤ 262144) ∧
      131072 * pageCount (tagOf i) pages ≤ (written i h).length + 131072 * flushCount i h := by
  obtain ⟨pages, inv, _⟩ := run_inv tagOf h hg
  exact ⟨pages, by simp [storeAfter, inv.store], inv.bodies, run_few tagOf h hg i hun pages inv⟩

/-- Non-vacuity: two callers' pieces, a big one between small ones; flushed twice. -/
example : AllGood exHistory ∧ TagUnshared exTags 0 exHistory ∧ TagUnshared exTags 1 exHistory ∧ (written 0 exHistory).length = 600002 ∧
    flushCount 0 exHistory = 1 ∧ flushCount 1 exHistory = 2 := by
  refine ⟨?_, ?_, ?_, ?_, by decide, by decide⟩
  · intro x hx
    simp only [exHistory, List.mem_cons, List.not_mem_nil, or_false] at hx
    rcases hx with rfl | rfl | rfl | rfl | rfl | rfl | rfl
    · trivial
    · exact ⟨[7, 8, 9], rfl, rfl⟩
    all_goals trivial
  · intro x hx ht
    simp only [exHistory, List.mem_cons, List.not_mem_nil, or_false] at hx
    rcases hx with rfl | rfl | rfl | rfl | rfl | rfl | rfl <;> first | rfl | (simp [exTags] at ht)
  · intro x hx ht
    simp only [exHistory, List.mem_cons, List.not_mem_nil, or_false] at hx
    rcases hx with rfl | rfl | rfl | rfl | rfl | rfl | rfl <;> first | rfl | (simp [exTags] at ht)
  · simp [exHistory, written, payload, -List.reduceReplicate]

/-- **C80.** The file of a session holds what the session recorded (32 bytes for an event, 16 for a mapping, its bytes and one more for a string, nine for a
reference in a string, four headers of eight bytes, the metadata) and five bytes for each of its pages, of which there are at most
three more than there are 128 KiB of content. -/
theorem C80_session_size (md : String) (calls : List ProfCall) :
    ∃ pages : List Page, savedFile md calls = fileHeader magicTopLevel ++ storeOf pages ∧
      (∀ p ∈ pages, 0 < p.body.length ∧ p.body.length ≤ 262144) ∧
      (savedFile md calls).length = contentSize md calls + 5 * pages.length ∧ 131072 * pages.length ≤ contentSize md calls + 3 * 131072 :=
  session_size md calls

/-- **C80** (the same, as a bound on the size of the file). -/
theorem C80_overhead (md : String) (calls : List ProfCall) :
    contentSize md calls ≤ (savedFile md calls).length ∧
      131072 * (savedFile md calls).length ≤ 131077 * contentSize md calls + 15 * 131072 := by
  obtain ⟨pages, _, _, h1, h2⟩ := session_size md calls
  generalize (savedFile md calls).length = a at *
  generalize contentSize md calls = b at *
  generalize pages.length = c at *
  omega

/-- Non-vacuity: a session with strings, a mapping, a refused mapping and events, and its size in the file. -/
example : let calls : List ProfCall := [.allocString (.str "ab"), .allocString (.comps [.value "x", .ref 100000011, .value "é"]), .mapVirtual 7 100000011,
      .mapVirtual 100000002 100000011, .instant 7 7 1 5, .start 0 7 7 1 5, .finish 0 9]
    contentSize "{}" calls = 8 + (8 + 64) + (8 + 3 + (3 + 13)) + (24 + 16) ∧ (savedFile "{}" calls).length = contentSize "{}" calls + 15 := by
  decide +kernel

end Verif.Props
