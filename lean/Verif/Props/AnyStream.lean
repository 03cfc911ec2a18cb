import Verif.Proofs.AnyStream
import Verif.Props.Analysis

/-! # Property C40, continued: the analysis of streams of any shape -/

namespace Verif.Props
open Verif Verif.Mm Verif.Spec Verif.Decode Verif.Analyze

/-- **C40.** Exactly when the analysis returns: no interval ends before it starts; with overflow checks the sizes of no
artifact add up to 2⁶⁴; and for no label, walking from the end, more time is counted inside its intervals (its result-hashing
intervals, its result-loading intervals) than the ones already seen have. -/
theorem C40_returns_iff (checks : Bool) (es : List Event) : (∃ r, analyze checks es = .ok r) ↔
    (∀ e ∈ es, Forward e) ∧ (checks = false ∨ ∀ l, artifactTotal l es < 2 ^ 64) ∧
    ∀ l, Covered (hasLabel l) es ∧ Covered (fun e => hasLabel l e && hasKind "IncrementalResultHashing" e) es ∧
      Covered (fun e => hasLabel l e && hasKind "IncrementalLoadResult" e) es :=
  analyze_iff checks es

/-- **C40.** Otherwise it panics: there is no error result. -/
theorem C40_otherwise_panics (checks : Bool) (es : List Event) : (∃ r, analyze checks es = .ok r) ∨ IsPanic (analyze checks es) := by
  cases h : analyze checks es with
  | ok r => exact Or.inl ⟨r, rfl⟩
  | error f =>
    obtain ⟨m, rfl⟩ := analyze_panics h
    exact Or.inr trivial

/-- **C40.** What the numbers mean on any stream the analysis returns on, nested or not: the self time of a label is the
length of its intervals minus the length of the intervals counted in them; likewise hashing and loading times; and the self
times of all labels together are the length of all intervals minus the length of those counted in another. -/
theorem C40_any_stream (checks : Bool) (es : List Event) (r : Results) (h : analyze checks es = .ok r) :
    (∀ l d, (l, d) ∈ r.queryData →
      d.selfTime + heldTime (hasLabel l) es = timeOf (hasLabel l) es ∧
      d.incrementalHashingTime + heldTime (fun e => hasLabel l e && hasKind "IncrementalResultHashing" e) es =
        timeOf (fun e => hasLabel l e && hasKind "IncrementalResultHashing" e) es ∧
      d.incrementalLoadTime + heldTime (fun e => hasLabel l e && hasKind "IncrementalLoadResult" e) es =
        timeOf (fun e => hasLabel l e && hasKind "IncrementalLoadResult" e) es) ∧
    (r.queryData.map (·.2.selfTime)).sum + heldTime (fun _ => true) es = timeOf (fun _ => true) es := by
  refine ⟨fun l d hd => ?_, ?_⟩
  · have hi := data_of_entry h hd
    rw [heldTime_subs, heldTime_subs, heldTime_subs]
    exact ⟨hi.self, hi.hash, hi.load⟩
  · obtain ⟨st, hr, hq, -⟩ := analyze_run h
    rw [heldTime_subs, hq]
    exact (inv_run hr).total

/-- **C40.** On properly nested streams an interval is counted in its parent. -/
theorem C40_nested_holder (es : List Event) (hn : ProperlyNested es) (i : Nat) : holderOf es i = parentOf es i :=
  holderOf_nested hn i

/-- A stream whose intervals overlap without nesting: `b` lies across the end of `a`. -/
def acrossStream : List Event :=
  [ev "Query" "x" 0 1 2, ev "Query" "b" 0 5 9, ev "Query" "a" 0 0 8, ev "Query" "p" 0 0 20]

theorem acrossStream_analysed (checks : Bool) : (analyze checks acrossStream).map (fun r => r.queryData.map fun x => (x.1, x.2.selfTime)) =
    .ok [(utf8 "p", 7), (utf8 "a", 8), (utf8 "b", 4), (utf8 "x", 1)] := by cases checks <;> decide +kernel

/-- **C40.** The analysis can return numbers that are not the self times: of `acrossStream`, where the only smallest interval
around `x` is `a`, the time of `x` is taken from `p`. -/
theorem C40_silently_wrong (checks : Bool) : ∃ r d, analyze checks acrossStream = .ok r ∧ (utf8 "a", d) ∈ r.queryData ∧
    d.selfTime = 8 ∧ selfTimeOf (hasLabel (utf8 "a")) acrossStream = 7 ∧
    parentOf acrossStream 0 = some 2 ∧ holderOf acrossStream 0 = some 3 := by
  have h := acrossStream_analysed checks
  cases hr : analyze checks acrossStream with
  | error f => rw [hr] at h; cases h
  | ok r =>
    rw [hr] at h
    simp only [Except.map, Except.ok.injEq] at h
    have hm : (utf8 "a", 8) ∈ r.queryData.map fun x => (x.1, x.2.selfTime) := by rw [h]; simp
    obtain ⟨x, hx, hx'⟩ := List.mem_map.1 hm
    obtain ⟨l, d⟩ := x
    simp only [Prod.mk.injEq] at hx'
    obtain ⟨rfl, hd⟩ := hx'
    exact ⟨r, d, rfl, hx, hd, by decide +kernel, by decide +kernel, by decide +kernel⟩

/-- The conditions hold of a stream that is not nested. -/
example : ¬ ProperlyNested acrossStream ∧ ∃ r, analyze true acrossStream = .ok r := by
  refine ⟨by decide +kernel, ?_⟩
  obtain ⟨r, -, h, -⟩ := C40_silently_wrong true
  exact ⟨r, h⟩

/-- They fail of the overlapping stream that panics: 16 is counted inside `p`, which has 10. -/
example : ¬ Covered (hasLabel (utf8 "p")) [ev "Query" "a" 0 0 8, ev "Query" "b" 0 2 10, ev "Query" "p" 0 0 10] := by
  intro h
  exact absurd (h 0) (by decide +kernel)

end Verif.Props
