import Verif.Proofs.AggregateOrder
import Verif.Props.Aggregate

/-!
# C47–C49, continued: whatever the profiles are
-/

namespace Verif.Props

open Verif Verif.Mm Verif.Spec Verif.Decode Verif.Aggregate

/-- **C47.** The points of a one-thread stream come in the order of time, so that no duration is negative, exactly if the stream is what scoped timings record: no interval ends before it starts, events come in the
order of their ends, and each interval spans each earlier event or begins no sooner than it ended. -/
theorem C47_in_time_order_iff (es : List Event) (tr : List (SamplePoint (WithParent Event))) (h : Emits (SamplePoints.new es) tr) :
    (tr.reverse.map momentOf).Pairwise (· ≤ ·) ↔ PostOrdered es := by
  obtain ⟨h1, h2⟩ := (C47_points es).2 tr h
  rw [← sorted_iff h h1 h2, List.map_reverse, List.pairwise_reverse, List.pairwise_map]
  exact ⟨successive_le, pairwise_of_successive⟩

/-- Intervals that overlap without nesting, the later one recorded second: its points are not in order. -/
example : ∃ tr, Emits (SamplePoints.new [ev "Query" "a" 0 10 30, ev "Query" "b" 0 20 40]) tr ∧ ¬ (tr.reverse.map momentOf).Pairwise (· ≤ ·) ∧
    ¬ PostOrdered [ev "Query" "a" 0 10 30, ev "Query" "b" 0 20 40] := by
  obtain ⟨tr, h⟩ := (C47_points [ev "Query" "a" 0 10 30, ev "Query" "b" 0 20 40]).1.mpr (by unfold OneThread; decide)
  have hn : ¬ PostOrdered [ev "Query" "a" 0 10 30, ev "Query" "b" 0 20 40] := by
    rintro ⟨_, hp⟩
    have := (List.pairwise_cons.1 hp).1 _ (List.mem_singleton.2 rfl) 10 30 20 40 rfl rfl
    omega
  exact ⟨tr, h, fun hs => hn ((C47_in_time_order_iff _ tr h).mp hs), hn⟩

/-- **C48.** Exactly which sets of profiles can be aggregated, in terms of what was recorded: each profile is what scoped timings of one thread record, and all have the same kinds, labels and arguments of successive
points and their parents. -/
theorem C48_succeeds_iff_recorded (p : List Event) (ps : List (List Event)) :
    (∃ r, aggregateProfiles (p :: ps) = .ok r) ↔
      (∀ q ∈ p :: ps, OneThread q ∧ PostOrdered q) ∧
      ∃ (tr : List (SamplePoint (WithParent Event))) (trs : List (List (SamplePoint (WithParent Event)))),
        List.Forall₂ (fun p tr => Emits (SamplePoints.new p) tr) (p :: ps) (tr :: trs) ∧
        ∀ t ∈ trs, (successive t).map shape = (successive tr).map shape := by
  have key : ∀ (qs : List (List Event)) (ts : List (List (SamplePoint (WithParent Event)))),
      List.Forall₂ (fun p tr => Emits (SamplePoints.new p) tr) qs ts →
      ((∀ t ∈ ts, ∀ i ∈ successive t, momentOf i.start ≤ momentOf i.stop) ↔ ∀ q ∈ qs, OneThread q ∧ PostOrdered q) := by
    intro qs ts h
    induction h with
    | nil => simp
    | @cons q t qs ts h _ ih =>
      obtain ⟨h1, h2⟩ := (C47_points q).2 t h
      rw [List.forall_mem_cons, List.forall_mem_cons, ih, sorted_iff h h1 h2]
      have : OneThread q := (C47_points q).1.mp ⟨t, h⟩
      simp [this]
  rw [C48_succeeds_iff]
  constructor
  · rintro ⟨tr, trs, h1, h2, h3⟩
    exact ⟨(key _ _ h1).mp h2, tr, trs, h1, h3⟩
  · rintro ⟨h2, tr, trs, h1, h3⟩
    exact ⟨tr, trs, h1, (key _ _ h1).mpr h2, h3⟩

/-- **C49.** Whenever the command gives a report at all, whatever the profiles are, the report is the exact one. -/
theorem C49_whenever (p : List Event) (ps : List (List Event)) (r : Report) (h : aggregateProfiles (p :: ps) = .ok r) :
    ∃ tr, Emits (SamplePoints.new p) tr ∧
      IsSection .smallest (lows ((p :: ps).map gaps)) (sentences tr) r.smallestDurations ∧
      IsSection .largest (highs ((p :: ps).map gaps)) (sentences tr) r.largestDurations ∧
      IsSection .smallest (spreads ((p :: ps).map gaps)) (sentences tr) r.smallestVariances ∧
      IsSection .largest (spreads ((p :: ps).map gaps)) (sentences tr) r.largestVariances := by
  obtain ⟨hp, tr, trs, h1, h2⟩ := (C48_succeeds_iff_recorded p ps).mp ⟨r, h⟩
  obtain ⟨r', hr, i1, i2, i3, i4⟩ := C49_report p ps tr trs h1 (fun q hq => (hp q hq).2) h2
  rw [h] at hr
  injection hr with hr
  subst hr
  cases h1 with
  | cons h3 _ => exact ⟨tr, h3, i1, i2, i3, i4⟩

/-- It does give a report. -/
example : ∃ r, aggregateProfiles [exProfile 10 30 35 5 50, exProfile 10 20 45 0 50] = .ok r ∧ r.smallestDurations.length = 2 := by
  cases h : aggregateProfiles [exProfile 10 30 35 5 50, exProfile 10 20 45 0 50] with
  | error e =>
    have h' : (aggregateProfiles [exProfile 10 30 35 5 50, exProfile 10 20 45 0 50]).map (fun r => r.smallestDurations.length) = .ok 2 := by decide +kernel
    rw [h] at h'; cases h'
  | ok r =>
    have h' : (aggregateProfiles [exProfile 10 30 35 5 50, exProfile 10 20 45 0 50]).map (fun r => r.smallestDurations.length) = .ok 2 := by decide +kernel
    rw [h] at h'
    exact ⟨r, rfl, by injection h'⟩

end Verif.Props
