import Verif.Proofs.Aggregate

/-! # `aggregate_profiles` returns a report or panics -/

namespace Verif.Aggregate
open Verif Verif.Mm Verif.Decode Verif.Analyze

/-- If it fails, it panics. -/
def PanicOnly {α : Type} (x : Except Fault α) : Prop := ∀ f, x = .error f → ∃ m, f = .panic m

theorem PanicOnly.ok {α : Type} (a : α) : PanicOnly (.ok a : Except Fault α) := by intro f h; cases h

theorem PanicOnly.panic {α : Type} (m : String) : PanicOnly (.error (.panic m) : Except Fault α) := by
  intro f h; injection h with h; exact ⟨m, h.symm⟩

theorem PanicOnly.bind {α β : Type} {x : Except Fault α} {g : α → Except Fault β} (hx : PanicOnly x) (hg : ∀ a, x = .ok a → PanicOnly (g a)) :
    PanicOnly (x >>= g) := by
  cases x with
  | error e =>
    intro f h
    injection h with h
    exact hx f (by rw [h])
  | ok a => exact hg a rfl

theorem consume_only (st : SamplePoints) (e : Event) (rest : List Event) : PanicOnly (st.consume e rest) := by
  unfold SamplePoints.consume
  split <;> first | exact .ok _ | exact .panic _

theorem point_only (st : SamplePoints) : PanicOnly st.point := by
  unfold SamplePoints.point
  split
  · split
    · exact .panic _
    · split
      · exact .panic _
      · split
        · split
          · exact .ok _
          · exact consume_only _ _ _
        · exact consume_only _ _ _
  · split <;> exact .ok _

theorem nextBack_only (st : SamplePoints) : PanicOnly st.nextBack := by
  unfold SamplePoints.nextBack
  refine .bind (point_only st) (fun a _ => ?_)
  rcases a with _ | ⟨p, st'⟩ <;> exact .ok _

/-- What is left to do. -/
def todo (st : SamplePoints) : Nat := 2 * st.revEvents.length + st.stack.length

theorem consume_todo {st st' : SamplePoints} {e : Event} {rest : List Event} {p : SamplePoint Event} (hr : st.revEvents = e :: rest)
    (h : st.consume e rest = .ok (some (p, st'))) : todo st' < todo st := by
  unfold SamplePoints.consume at h
  split at h
  · injection h with h; injection h with h; injection h with _ h
    rw [← h]; simp [todo, hr]; omega
  · injection h with h; injection h with h; injection h with _ h
    rw [← h]; simp [todo, hr]
  · cases h

theorem point_todo {st st' : SamplePoints} {p : SamplePoint Event} (h : st.point = .ok (some (p, st'))) : todo st' < todo st := by
  unfold SamplePoints.point at h
  split at h
  · rename_i e rest hr
    split at h
    · cases h
    · split at h
      · cases h
      · split at h
        · rename_i top stack hs
          split at h
          · injection h with h; injection h with h; injection h with _ h
            rw [← h]; simp [todo, hs]
          · exact consume_todo hr h
        · exact consume_todo hr h
  · split at h
    · rename_i top stack hs
      injection h with h; injection h with h; injection h with _ h
      rw [← h]; simp [todo, hs]
    · injection h with h; cases h

theorem nextBack_todo {st st' : SamplePoints} {p : SamplePoint (WithParent Event)} (h : st.nextBack = .ok (some (p, st'))) :
    todo st' < todo st := by
  unfold SamplePoints.nextBack at h
  cases hp : st.point with
  | error e => simp only [hp, bind, Except.bind] at h; cases h
  | ok a =>
    rcases a with _ | ⟨q, st''⟩
    · simp only [hp, bind, Except.bind] at h; cases h
    · simp only [hp, bind, Except.bind, Except.ok.injEq, Option.some.injEq, Prod.mk.injEq] at h
      rw [← h.2]
      exact point_todo hp

theorem intervals_only (it : SampleIntervals) : PanicOnly it.nextBack := by
  unfold SampleIntervals.nextBack
  refine .bind (nextBack_only _) (fun a _ => ?_)
  rcases a with _ | ⟨p, st⟩
  · exact .ok _
  · simp only []
    split <;> exact .ok _

theorem intervals_todo {it it' : SampleIntervals} {i : SampleInterval (WithParent Event)} (h : it.nextBack = .ok (some i, it')) :
    todo it'.samplePoints < todo it.samplePoints := by
  unfold SampleIntervals.nextBack at h
  cases hp : it.samplePoints.nextBack with
  | error e => simp only [hp, bind, Except.bind] at h; cases h
  | ok a =>
    rcases a with _ | ⟨q, st⟩
    · simp only [hp, bind, Except.bind] at h; cases h
    · simp only [hp, bind, Except.bind] at h
      split at h
      · cases h
      · simp only [Except.ok.injEq, Prod.mk.injEq] at h
        rw [← h.2]
        exact nextBack_todo hp

theorem timestamp_only (p : SamplePoint (WithParent Event)) : PanicOnly p.timestamp := by
  unfold SamplePoint.timestamp
  repeat' split
  all_goals first | exact .ok _ | exact .panic _

theorem duration_only (i : SampleInterval (WithParent Event)) : PanicOnly i.duration := by
  unfold SampleInterval.duration
  refine .bind (timestamp_only _) (fun t _ => .bind (timestamp_only _) (fun s _ => ?_))
  split
  · exact .ok _
  · exact .panic _

theorem stepOthers_only (d : SampleInterval (WithParent EventDescription)) (its : List SampleIntervals) : PanicOnly (stepOthers d its) := by
  induction its with
  | nil => exact .ok _
  | cons it its ih =>
    rw [stepOthers]
    refine .bind (intervals_only it) (fun a _ => ?_)
    rcases a with ⟨_ | i, it'⟩
    · exact .panic _
    · refine .bind (duration_only i) (fun dur _ => ?_)
      simp only []
      split
      · exact .panic _
      · exact .bind ih (fun _ _ => .ok _)

theorem checkLeftover_only (its : List SampleIntervals) : PanicOnly (checkLeftover its) := by
  induction its with
  | nil => exact .ok _
  | cons it its ih =>
    rw [checkLeftover]
    refine .bind (intervals_only it) (fun a _ => ?_)
    rcases a with ⟨_ | i, it'⟩
    · exact .bind ih (fun _ _ => .ok _)
    · exact .panic _

theorem aggregated_only (its : List SampleIntervals) : PanicOnly (aggregatedNextBack its) := by
  cases its with
  | nil => exact .ok _
  | cons it its =>
    rw [aggregatedNextBack]
    refine .bind (intervals_only it) (fun a _ => ?_)
    rcases a with ⟨_ | i, it'⟩
    · exact .bind (checkLeftover_only _) (fun _ _ => .ok _)
    · exact .bind (duration_only i) (fun dur _ => .bind (stepOthers_only _ _) (fun _ _ => .ok _))

theorem aggregated_todo {it : SampleIntervals} {its its' : List SampleIntervals} {a : AggregatedSampleInterval}
    (h : aggregatedNextBack (it :: its) = .ok (some a, its')) :
    ∃ it' rest, its' = it' :: rest ∧ todo it'.samplePoints < todo it.samplePoints := by
  rw [aggregatedNextBack] at h
  cases hp : it.nextBack with
  | error e => simp only [hp, bind, Except.bind] at h; cases h
  | ok x =>
    rcases x with ⟨_ | i, it'⟩
    · simp only [hp, bind, Except.bind] at h
      split at h
      · cases h
      · simp only [Except.ok.injEq, Prod.mk.injEq, reduceCtorEq, false_and] at h
    · simp only [hp, bind, Except.bind] at h
      split at h
      · cases h
      · split at h
        · cases h
        · simp only [Except.ok.injEq, Prod.mk.injEq] at h
          exact ⟨it', _, h.2.symm, intervals_todo hp⟩

theorem addTo_only {S : Type} (w : Which) (limit : Nat) (m : List (Nat × ExtremaSources S)) (v : Nat) (s : S) : PanicOnly (addTo w limit m v s) := by
  unfold addTo
  split
  · exact .ok _
  · split
    · exact .panic _
    · split
      · simp only []
        repeat' split
        all_goals first | exact .ok _ | exact .panic _
      · exact .ok _

theorem addRange_only {S : Type} (x : Extrema S) (lo hi : Nat) (s : S) : PanicOnly (x.addRange lo hi s) := by
  unfold Extrema.addRange
  exact .bind (addTo_only _ _ _ _ _) (fun _ _ => .bind (addTo_only _ _ _ _ _) (fun _ _ => .ok _))

theorem loop_only (fuel : Nat) (it : SampleIntervals) (its : List SampleIntervals) (t : Totals) (h : todo it.samplePoints < fuel) :
    PanicOnly (aggregateLoop fuel (it :: its) t) := by
  induction fuel generalizing it its t with
  | zero => omega
  | succ fuel ih =>
    rw [aggregateLoop]
    refine .bind (aggregated_only _) (fun x hx => ?_)
    rcases x with ⟨_ | a, its'⟩
    · exact .ok _
    · obtain ⟨it', rest, rfl, ht⟩ := aggregated_todo hx
      refine .bind ?_ (fun t' _ => ih it' rest t' (by omega))
      unfold Totals.addInterval Extrema.add
      exact .bind (addRange_only _ _ _ _) (fun _ _ => .bind (addRange_only _ _ _ _) (fun _ _ => .ok _))

theorem describe_only (total : Nat) (x : ExtremaSources Source) : PanicOnly (describe total x) := by
  unfold describe
  repeat' split
  all_goals first | exact .ok _ | exact .panic _

theorem describeAll_only (total : Nat) (m : List (Nat × ExtremaSources Source)) : PanicOnly (describeAll total m) := by
  induction m with
  | nil => exact .ok _
  | cons x m ih => exact .bind (describe_only _ _) (fun _ _ => .bind ih (fun _ _ => .ok _))

theorem new_only (st : SamplePoints) : PanicOnly (SampleIntervals.new st) := by
  unfold SampleIntervals.new
  refine .bind (nextBack_only _) (fun a _ => ?_)
  rcases a with _ | ⟨p, st'⟩ <;> exact .ok _

theorem new_todo {st : SamplePoints} {it : SampleIntervals} (h : SampleIntervals.new st = .ok it) : todo it.samplePoints ≤ todo st := by
  unfold SampleIntervals.new at h
  cases hp : st.nextBack with
  | error e => simp only [hp, bind, Except.bind] at h; cases h
  | ok a =>
    rcases a with _ | ⟨q, st'⟩
    · simp only [hp, bind, Except.bind, Except.ok.injEq] at h
      rw [← h]
    · simp only [hp, bind, Except.bind, Except.ok.injEq] at h
      rw [← h]
      exact (nextBack_todo hp).le

theorem openAll_only (ps : List (List Event)) : PanicOnly (openAll ps) := by
  induction ps with
  | nil => exact .ok _
  | cons p ps ih => exact .bind (new_only _) (fun _ _ => .bind ih (fun _ _ => .ok _))

theorem aggregate_only (ps : List (List Event)) : PanicOnly (aggregateProfiles ps) := by
  unfold aggregateProfiles
  refine .bind (openAll_only ps) (fun its hi => ?_)
  refine .bind ?_ (fun t _ => .bind (describeAll_only _ _) (fun _ _ => .bind (describeAll_only _ _) (fun _ _ =>
    .bind (describeAll_only _ _) (fun _ _ => .bind (describeAll_only _ _) (fun _ _ => .ok _)))))
  cases ps with
  | nil =>
    injection hi with hi
    rw [← hi]
    exact .ok _
  | cons p ps =>
    rw [openAll] at hi
    cases hp : SampleIntervals.new (SamplePoints.new p) with
    | error e => simp only [hp, bind, Except.bind] at hi; cases hi
    | ok it =>
      simp only [hp, bind, Except.bind] at hi
      split at hi
      · cases hi
      · simp only [Except.ok.injEq] at hi
        rw [← hi]
        refine loop_only _ _ _ _ ?_
        have h1 := new_todo hp
        have h2 : todo (SamplePoints.new p) ≤ 2 * p.length := by
          unfold SamplePoints.new todo
          simp only [List.length_nil, Nat.add_zero]
          have := List.length_filter_le (fun e : Event => !isInteger e.payload) p.reverse
          rw [List.length_reverse] at this
          omega
        simp only [List.head?_cons, Option.getD_some]
        omega

end Verif.Aggregate
