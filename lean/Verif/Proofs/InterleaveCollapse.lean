import Verif.Proofs.AnyCollapse

/-! # Collapsed stacks and the interleaving of threads -/

namespace Verif.Analyze

open Verif Verif.Mm Verif.Spec Verif.Decode

theorem around_onT (e : Event) (es : List Event) : around e es = around e (onT e.threadId es) := by
  unfold around
  rw [stackOf_onT]

theorem onPath_zero (e : Event) (es : List Event) (k : Bytes) : onPath (e :: es) k 0 =
    (isInterval e && decide (stackStr (around e es) ++ utf8 ";" ++ e.label = k)) := by
  unfold onPath
  rw [at_zero]
  cases he : isInterval e with
  | false => rfl
  | true => rw [heldPath_zero he]

theorem pathLength_cost (k : Bytes) (es : List Event) : pathLength es k = cost (fun e es =>
    if isInterval e && decide (stackStr (around e es) ++ utf8 ";" ++ e.label = k) then len e else 0) es := by
  induction es with
  | nil => rfl
  | cons e es ih => rw [pathLength_cons, ih, onPath_zero]; rfl

theorem pathLength_same {es es' : List Event} (h : SameThreads es es') (k : Bytes) : pathLength es k = pathLength es' k := by
  rw [pathLength_cost, pathLength_cost]
  apply cost_same _ h
  intro e es
  rw [← around_onT]

theorem held_any {e : Event} (he : isInterval e = true) (es : List Event) (k : Bytes) :
    ((List.range es.length).find? (holds e es)).any (onPath es k) =
      (!(around e es).isEmpty && decide (stackStr (around e es) = k)) := by
  have h1 := around_nil he es
  have h2 := around_str he es
  cases hf : (List.range es.length).find? (holds e es) with
  | none => rw [h1.2 hf]; rfl
  | some j =>
    rw [hf] at h2
    simp only [Option.map_some, Option.getD_some] at h2
    rw [h2, Option.any_some, onPath_holder hf]
    cases ha : around e es with
    | nil => rw [h1.1 ha] at hf; cases hf
    | cons y ys => simp

theorem pathHeld_cost (k : Bytes) (es : List Event) : pathHeld es k = cost (fun e es =>
    if isInterval e && (!(around e es).isEmpty && decide (stackStr (around e es) = k)) then len e else 0) es := by
  induction es with
  | nil => rfl
  | cons e es ih =>
    rw [pathHeld_cons, ih]
    simp only [cost]
    congr 1
    cases he : isInterval e with
    | true => rw [held_any he]; rfl
    | false =>
      have : times e = none := by unfold isInterval at he; simpa using he
      simp [len_none this]

theorem pathHeld_same {es es' : List Event} (h : SameThreads es es') (k : Bytes) : pathHeld es k = pathHeld es' k := by
  rw [pathHeld_cost, pathHeld_cost]
  apply cost_same _ h
  intro e es
  rw [← around_onT]

theorem unheld_cost (es : List Event) : unheld es = cost (fun e es =>
    if isInterval e && (around e es).isEmpty then len e else 0) es := by
  induction es with
  | nil => rfl
  | cons e es ih =>
    have hc : unheld (e :: es) = unheld es + if (List.range es.length).find? (holds e es) = none then len e else 0 := by
      unfold unheld
      rw [List.length_cons, Finset.sum_range_succ']
      simp only [lenAt_succ, lenAt_zero, holderOf, Option.map_eq_none_iff]
    rw [hc, ih]
    simp only [cost]
    congr 1
    cases he : isInterval e with
    | true =>
      have h1 := around_nil he es
      by_cases hn : around e es = []
      · rw [if_pos (h1.1 hn), hn]; rfl
      · rw [if_neg (fun h => hn (h1.2 h))]
        cases ha : around e es with
        | nil => exact absurd ha hn
        | cons y ys => rfl
    | false =>
      have : times e = none := by unfold isInterval at he; simpa using he
      simp [len_none this]

theorem unheld_same {es es' : List Event} (h : SameThreads es es') : unheld es = unheld es' := by
  rw [unheld_cost, unheld_cost]
  apply cost_same _ h
  intro e es
  rw [← around_onT]

theorem recorded_same {es es' : List Event} (h : SameThreads es es') : recordedTime es = recordedTime es' := by
  unfold recordedTime
  have h1 : threadsOf es = threadsOf es' := by
    unfold threadsOf
    exact List.toFinset_eq_of_perm _ _ (((same_perm h).filter _).map _)
  rw [h1]
  apply Finset.sum_congr rfl
  intro t _
  unfold recordedSpan
  rw [startsOf_onT, endsOf_onT, startsOf_onT t es', endsOf_onT t es']
  have : onT t es = onT t es' := h t
  rw [this]

/-- The number of intervals with a path. -/
theorem present_cost (k : Bytes) (es : List Event) : (∃ j, onPath es k j = true) ↔ 0 < cost (fun e es =>
    if isInterval e && decide (stackStr (around e es) ++ utf8 ";" ++ e.label = k) then 1 else 0) es := by
  induction es with
  | nil => simp [onPath, at?, cost]
  | cons e es ih =>
    simp only [cost]
    constructor
    · rintro ⟨j, hj⟩
      cases j with
      | zero => rw [onPath_zero] at hj; rw [if_pos hj]; omega
      | succ j =>
        have := ih.1 ⟨j, by rw [← onPath_succ e es]; exact hj⟩
        omega
    · intro h
      by_cases h0 : onPath (e :: es) k 0 = true
      · exact ⟨0, h0⟩
      · rw [onPath_zero] at h0
        rw [if_neg h0] at h
        obtain ⟨j, hj⟩ := ih.2 h
        exact ⟨j + 1, by rw [← onPath_succ e es] at hj; exact hj⟩

theorem present_same {es es' : List Event} (h : SameThreads es es') (k : Bytes) :
    (∃ j, onPath es k j = true) ↔ ∃ j, onPath es' k j = true := by
  rw [present_cost, present_cost, cost_same _ h]
  intro e es
  rw [← around_onT]

theorem forward_same {es es' : List Event} (h : SameThreads es es') (hf : ∀ e ∈ es, Forward e) : ∀ e ∈ es', Forward e :=
  fun e he => hf e ((same_perm h).mem_iff.2 he)

end Verif.Analyze
