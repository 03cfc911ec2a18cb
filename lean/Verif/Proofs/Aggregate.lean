import Verif.Proofs.Extrema
import Verif.Proofs.SamplePoints
import Mathlib.Data.List.Forall2
import Mathlib.Data.List.Induction
import Mathlib.Data.List.Sort

/-! # Aggregation across profiles -/

namespace Verif.Aggregate

open Verif Verif.Mm Verif.Decode Verif.Analyze Verif.Spec

/-! ## Intervals -/

/-- The iterator gives these intervals and then none, as often as asked. -/
inductive Runs : SampleIntervals → List (SampleInterval (WithParent Event)) → Prop
  | done {it : SampleIntervals} (h : it.nextBack = .ok (none, it)) : Runs it []
  | more {it it' : SampleIntervals} {i : SampleInterval (WithParent Event)} {l : List (SampleInterval (WithParent Event))}
      (h : it.nextBack = .ok (some i, it')) (t : Runs it' l) : Runs it (i :: l)

theorem nextBack_none {o : Option (SamplePoint (WithParent Event))} {st : SamplePoints} (h : st.nextBack = .ok none) :
    (SampleIntervals.mk o st).nextBack = .ok (none, ⟨o, st⟩) := by
  simp only [SampleIntervals.nextBack, h, bind, Except.bind]

theorem nextBack_some {p q : SamplePoint (WithParent Event)} {st st' : SamplePoints} (h : st.nextBack = .ok (some (q, st'))) :
    (SampleIntervals.mk (some p) st).nextBack = .ok (some ⟨q, p⟩, ⟨some q, st'⟩) := by
  simp only [SampleIntervals.nextBack, h, bind, Except.bind]

theorem runs_of_emits {st : SamplePoints} {ps : List (SamplePoint (WithParent Event))} (he : Emits st ps)
    (p : SamplePoint (WithParent Event)) : Runs ⟨some p, st⟩ (successive (p :: ps)) := by
  induction he generalizing p with
  | done h => exact .done (nextBack_none h)
  | more h t ih => exact .more (nextBack_some h) (ih _)

/-- Opening a profile. -/
theorem open_of_emits {st : SamplePoints} {ps : List (SamplePoint (WithParent Event))} (he : Emits st ps) :
    ∃ it, SampleIntervals.new st = .ok it ∧ Runs it (successive ps) := by
  cases he with
  | done h => exact ⟨⟨none, st⟩, by simp only [SampleIntervals.new, h, bind, Except.bind], .done (nextBack_none h)⟩
  | more h t => exact ⟨_, by simp only [SampleIntervals.new, h, bind, Except.bind], runs_of_emits t _⟩

theorem emits_of_runs {p : SamplePoint (WithParent Event)} {st : SamplePoints} {l : List (SampleInterval (WithParent Event))}
    (h : Runs ⟨some p, st⟩ l) : ∃ ps, Emits st ps ∧ l = successive (p :: ps) := by
  generalize hit : SampleIntervals.mk (some p) st = it at h
  induction h generalizing p st with
  | done h =>
    subst hit
    cases hn : st.nextBack with
    | error f => simp only [SampleIntervals.nextBack, hn, bind, Except.bind] at h; cases h
    | ok o =>
      cases o with
      | none => exact ⟨[], .done hn, rfl⟩
      | some x => rw [nextBack_some (p := p) (q := x.1) (st' := x.2) hn] at h; simp at h
  | more h t ih =>
    subst hit
    cases hn : st.nextBack with
    | error f => simp only [SampleIntervals.nextBack, hn, bind, Except.bind] at h; cases h
    | ok o =>
      cases o with
      | none => rw [nextBack_none hn] at h; simp at h
      | some x =>
        rw [nextBack_some (p := p) (q := x.1) (st' := x.2) hn] at h
        simp only [Except.ok.injEq, Prod.mk.injEq, Option.some.injEq] at h
        obtain ⟨ps, h1, h2⟩ := ih h.2
        exact ⟨x.1 :: ps, .more hn h1, by rw [← h.1, h2]; rfl⟩

theorem emits_of_open {st : SamplePoints} {it : SampleIntervals} {l : List (SampleInterval (WithParent Event))}
    (h1 : SampleIntervals.new st = .ok it) (h2 : Runs it l) : ∃ ps, Emits st ps ∧ l = successive ps := by
  simp only [SampleIntervals.new, bind, Except.bind] at h1
  cases hn : st.nextBack with
  | error f => rw [hn] at h1; cases h1
  | ok o =>
    rw [hn] at h1
    cases o with
    | none =>
      simp only [Except.ok.injEq] at h1
      subst h1
      cases h2 with
      | done h => exact ⟨[], .done hn, rfl⟩
      | more h t => rw [nextBack_none hn] at h; simp at h
    | some x =>
      simp only [Except.ok.injEq] at h1
      subst h1
      obtain ⟨ps, h3, h4⟩ := emits_of_runs h2
      exact ⟨x.1 :: ps, .more hn h3, h4⟩

/-! ## Durations -/

theorem timestamp_moment {p : SamplePoint (WithParent Event)} {t : Nat} (h : p.timestamp = .ok t) : t = momentOf p := by
  unfold SamplePoint.timestamp at h
  cases p with
  | start w => simp only at h; split at h <;> cases h; simp [momentOf, span, *]
  | stop w => simp only at h; split at h <;> cases h; simp [momentOf, span, *]
  | instant w => simp only at h; split at h <;> cases h; simp [momentOf, span, *]

theorem duration_between {i : SampleInterval (WithParent Event)} {d : Nat} (h : i.duration = .ok d) :
    d = timeBetween i ∧ momentOf i.start ≤ momentOf i.stop := by
  simp only [SampleInterval.duration, bind, Except.bind] at h
  cases h1 : i.stop.timestamp with
  | error f => rw [h1] at h; cases h
  | ok t =>
    rw [h1] at h
    cases h2 : i.start.timestamp with
    | error f => rw [h2] at h; cases h
    | ok s =>
      rw [h2] at h
      simp only at h
      split at h
      · cases h
        rw [timestamp_moment h1, timestamp_moment h2] at *
        exact ⟨rfl, by assumption⟩
      · cases h

theorem duration_ok {i : SampleInterval (WithParent Event)} (h1 : i.start.timestamp = .ok (momentOf i.start))
    (h2 : i.stop.timestamp = .ok (momentOf i.stop)) (h3 : momentOf i.start ≤ momentOf i.stop) :
    i.duration = .ok (timeBetween i) := by
  simp only [SampleInterval.duration, bind, Except.bind, h1, h2, if_pos h3, timeBetween]

/-! ## One step of all profiles -/

/-- The first interval of each, taken off. -/
def heads (ls : List (List (SampleInterval (WithParent Event)))) : List Nat :=
  ls.map fun l => match l with
    | i :: _ => timeBetween i
    | [] => 0

theorem stepOthers_ok {d : Source} {its : List SampleIntervals} {ls : List (List (SampleInterval (WithParent Event)))}
    (h : List.Forall₂ Runs its ls)
    (hl : ∀ l ∈ ls, ∃ i l', l = i :: l' ∧ i.duration = .ok (timeBetween i) ∧ shape i = d) :
    ∃ its', stepOthers d its = .ok (heads ls, its') ∧ List.Forall₂ Runs its' (ls.map List.tail) := by
  induction h with
  | nil => exact ⟨[], rfl, .nil⟩
  | @cons it l its ls hr _ ih =>
    obtain ⟨i, l', rfl, hd, hs⟩ := hl l (by simp)
    obtain ⟨its', h1, h2⟩ := ih fun x hx => hl x (by simp [hx])
    cases hr with
    | @more _ it' _ _ hn ht =>
      refine ⟨it' :: its', ?_, .cons ht h2⟩
      simp only [stepOthers, hn, bind, Except.bind, hd]
      rw [if_neg (by simpa [shape] using hs.symm)]
      simp only [h1]
      rfl

theorem stepOthers_inv {d : Source} {its its' : List SampleIntervals} {ds : List Nat} (h : stepOthers d its = .ok (ds, its'))
    {ls' : List (List (SampleInterval (WithParent Event)))} (hr : List.Forall₂ Runs its' ls') :
    ∃ ls, List.Forall₂ Runs its ls ∧ ls.map List.tail = ls' ∧
      ∀ l ∈ ls, ∃ i l', l = i :: l' ∧ i.duration = .ok (timeBetween i) ∧ shape i = d := by
  induction its generalizing its' ds ls' with
  | nil =>
    simp only [stepOthers, Except.ok.injEq, Prod.mk.injEq] at h
    obtain ⟨-, rfl⟩ := h
    cases hr
    exact ⟨[], .nil, rfl, by simp⟩
  | cons it its ih =>
    simp only [stepOthers, bind, Except.bind] at h
    cases hn : it.nextBack with
    | error f => rw [hn] at h; cases h
    | ok x =>
      obtain ⟨o, it'⟩ := x
      rw [hn] at h
      cases o with
      | none => cases h
      | some i =>
        simp only at h
        cases hd : i.duration with
        | error f => rw [hd] at h; cases h
        | ok du =>
          rw [hd] at h
          simp only at h
          split at h
          · cases h
          · rename_i hsh
            cases hs : stepOthers d its with
            | error f => rw [hs] at h; cases h
            | ok y =>
              obtain ⟨ds2, its2⟩ := y
              rw [hs] at h
              simp only [Except.ok.injEq, Prod.mk.injEq] at h
              obtain ⟨-, rfl⟩ := h
              cases hr with
              | @cons _ l0 _ ls0 hr1 hr2 =>
                obtain ⟨ls, h1, h2, h3⟩ := ih hs hr2
                refine ⟨(i :: l0) :: ls, .cons (.more hn hr1) h1, by simp [h2], ?_⟩
                intro l hl
                rcases List.mem_cons.1 hl with rfl | hl
                · have := (duration_between hd).1
                  refine ⟨i, l0, rfl, by rw [hd, this], ?_⟩
                  simpa [shape] using (not_not.1 hsh).symm
                · exact h3 l hl

theorem checkLeftover_ok {its : List SampleIntervals} (h : ∀ it ∈ its, it.nextBack = .ok (none, it)) :
    checkLeftover its = .ok its := by
  induction its with
  | nil => rfl
  | cons it its ih =>
    simp only [checkLeftover, h it (by simp), bind, Except.bind, ih fun x hx => h x (by simp [hx])]

theorem nextBack_none_inv {it it' : SampleIntervals} {p : SamplePoint (WithParent Event)} (hp : it.lastSamplePoint = some p)
    (h : it.nextBack = .ok (none, it')) : it.nextBack = .ok (none, it) := by
  obtain ⟨o, st⟩ := it
  simp only at hp
  subst hp
  cases hn : st.nextBack with
  | error f => simp only [SampleIntervals.nextBack, hn, bind, Except.bind] at h; cases h
  | ok o =>
    cases o with
    | none => exact nextBack_none hn
    | some x => rw [nextBack_some (p := p) (q := x.1) (st' := x.2) hn] at h; simp at h

/-- States after opening: a point is remembered unless there is none. -/
def Opened (it : SampleIntervals) : Prop := it.lastSamplePoint.isSome ∨ it.samplePoints.nextBack = .ok none

theorem opened_new {st : SamplePoints} {it : SampleIntervals} (h : SampleIntervals.new st = .ok it) : Opened it := by
  simp only [SampleIntervals.new, bind, Except.bind] at h
  cases hn : st.nextBack with
  | error f => rw [hn] at h; cases h
  | ok o =>
    rw [hn] at h
    cases o with
    | none => simp only [Except.ok.injEq] at h; subst h; exact Or.inr hn
    | some x => simp only [Except.ok.injEq] at h; subst h; exact Or.inl rfl

theorem opened_none {it it' : SampleIntervals} (ho : Opened it) (h : it.nextBack = .ok (none, it')) :
    it.nextBack = .ok (none, it) := by
  rcases ho with ho | ho
  · obtain ⟨p, hp⟩ := Option.isSome_iff_exists.1 ho
    exact nextBack_none_inv hp h
  · exact nextBack_none ho

theorem opened_some {it it' : SampleIntervals} {i : SampleInterval (WithParent Event)} (h : it.nextBack = .ok (some i, it')) :
    Opened it' := by
  obtain ⟨o, st⟩ := it
  simp only [SampleIntervals.nextBack, bind, Except.bind] at h
  cases hn : st.nextBack with
  | error f => rw [hn] at h; cases h
  | ok x =>
    rw [hn] at h
    cases x with
    | none => cases h
    | some y =>
      cases o with
      | none => simp at h
      | some p =>
        simp only [Except.ok.injEq, Prod.mk.injEq] at h
        rw [← h.2]
        exact Or.inl rfl

theorem checkLeftover_inv {its its' : List SampleIntervals} (ho : ∀ it ∈ its, Opened it) (h : checkLeftover its = .ok its') :
    ∀ it ∈ its, it.nextBack = .ok (none, it) := by
  induction its generalizing its' with
  | nil => simp
  | cons it its ih =>
    simp only [checkLeftover, bind, Except.bind] at h
    cases hn : it.nextBack with
    | error f => rw [hn] at h; cases h
    | ok x =>
      obtain ⟨o, it'⟩ := x
      rw [hn] at h
      cases o with
      | some i => cases h
      | none =>
        simp only at h
        cases hc : checkLeftover its with
        | error f => rw [hc] at h; cases h
        | ok y =>
          intro x hx
          rcases List.mem_cons.1 hx with rfl | hx
          · exact opened_none (ho x (by simp)) hn
          · exact ih (fun z hz => ho z (by simp [hz])) hc x hx

/-! ## The whole loop -/

/-- The intervals aggregated across profiles. -/
def columns : List (SampleInterval (WithParent Event)) → List (List (SampleInterval (WithParent Event))) →
    List AggregatedSampleInterval
  | [], _ => []
  | i :: l, ls => ⟨shape i, (heads ls).foldl min (timeBetween i), (heads ls).foldl max (timeBetween i) - (heads ls).foldl min (timeBetween i)⟩ ::
      columns l (ls.map List.tail)

/-- Add all. -/
def addColumns : Totals → List AggregatedSampleInterval → Except Fault Totals
  | t, [] => .ok t
  | t, a :: as => do
    let t' ← t.addInterval a
    addColumns t' as

/-- Profiles that can be aggregated. -/
def Matching (l : List (SampleInterval (WithParent Event))) (ls : List (List (SampleInterval (WithParent Event)))) : Prop :=
  (∀ l' ∈ l :: ls, ∀ i ∈ l', i.duration = .ok (timeBetween i)) ∧ ∀ l' ∈ ls, l'.map shape = l.map shape

theorem loop_ok {it : SampleIntervals} {its : List SampleIntervals} {l : List (SampleInterval (WithParent Event))}
    {ls : List (List (SampleInterval (WithParent Event)))} (hr : Runs it l) (hrs : List.Forall₂ Runs its ls) (hm : Matching l ls)
    (fuel : Nat) (hf : l.length < fuel) (t : Totals) : aggregateLoop fuel (it :: its) t = addColumns t (columns l ls) := by
  induction hr generalizing its ls fuel t with
  | @done it h =>
    cases fuel with
    | zero => omega
    | succ fuel =>
      have hnil : ∀ l' ∈ ls, l' = [] := by
        intro l' hl'
        have := hm.2 l' hl'
        simpa using this
      have hall : ∀ x ∈ it :: its, x.nextBack = .ok (none, x) := by
        intro x hx
        rcases List.mem_cons.1 hx with rfl | hx
        · exact h
        · obtain ⟨i, hi, rfl⟩ := List.mem_iff_getElem.1 hx
          have hlen := hrs.length_eq
          have := (List.forall₂_iff_get.1 hrs).2 i hi (by omega)
          simp only [List.get_eq_getElem] at this
          rw [hnil _ (List.getElem_mem _)] at this
          cases this with
          | done h => exact h
      simp only [aggregateLoop, aggregatedNextBack, h, bind, Except.bind, checkLeftover_ok hall]
      rfl
  | @more it it' i l h ht ih =>
    cases fuel with
    | zero => omega
    | succ fuel =>
      have hd : i.duration = .ok (timeBetween i) := hm.1 (i :: l) (by simp) i (by simp)
      have hcond : ∀ l' ∈ ls, ∃ j l'', l' = j :: l'' ∧ j.duration = .ok (timeBetween j) ∧ shape j = shape i := by
        intro l' hl'
        have h2 := hm.2 l' hl'
        cases l' with
        | nil => simp at h2
        | cons j l'' =>
          simp only [List.map_cons, List.cons.injEq] at h2
          exact ⟨j, l'', rfl, hm.1 (j :: l'') (by simp [hl']) j (by simp), h2.1⟩
      obtain ⟨its', h1, h2⟩ := stepOthers_ok hrs hcond
      have hm' : Matching l (ls.map List.tail) := by
        constructor
        · intro l' hl' j hj
          rcases List.mem_cons.1 hl' with rfl | hl'
          · exact hm.1 (i :: l') (by simp) j (by simp [hj])
          · obtain ⟨l0, hl0, rfl⟩ := List.mem_map.1 hl'
            exact hm.1 l0 (by simp [hl0]) j (List.mem_of_mem_tail hj)
        · intro l' hl'
          obtain ⟨l0, hl0, rfl⟩ := List.mem_map.1 hl'
          have := hm.2 l0 hl0
          rw [List.map_tail, this]
          rfl
      have h1' : stepOthers (i.mapEvent WithParent.describe) its = .ok (heads ls, its') := h1
      simp only [aggregateLoop, aggregatedNextBack, h, bind, Except.bind, hd, h1', columns, addColumns]
      simp only [List.length_cons] at hf
      have hsh : shape i = i.mapEvent WithParent.describe := rfl
      rw [hsh]
      cases ha : t.addInterval ⟨i.mapEvent WithParent.describe, (heads ls).foldl min (timeBetween i),
          (heads ls).foldl max (timeBetween i) - (heads ls).foldl min (timeBetween i)⟩ with
      | error f => simp only [ha]
      | ok t' =>
        simp only [ha]
        exact ih h2 hm' fuel (by omega) t'

/-- If the loop succeeds, the profiles could be aggregated. -/
theorem loop_inv {fuel : Nat} {it : SampleIntervals} {its : List SampleIntervals} {t t' : Totals}
    (ho : ∀ x ∈ it :: its, Opened x) (h : aggregateLoop fuel (it :: its) t = .ok t') :
    ∃ l ls, Runs it l ∧ List.Forall₂ Runs its ls ∧ Matching l ls := by
  induction fuel generalizing it its t with
  | zero => cases h
  | succ fuel ih =>
    simp only [aggregateLoop, aggregatedNextBack, bind, Except.bind] at h
    cases hn : it.nextBack with
    | error f => rw [hn] at h; cases h
    | ok x =>
      obtain ⟨o, it'⟩ := x
      rw [hn] at h
      cases o with
      | none =>
        simp only at h
        have hn' := opened_none (ho it (by simp)) hn
        rw [hn] at hn'
        simp only [Except.ok.injEq, Prod.mk.injEq, true_and] at hn'
        subst hn'
        cases hc : checkLeftover (it' :: its) with
        | error f => rw [hc] at h; cases h
        | ok y =>
          have := checkLeftover_inv ho hc
          refine ⟨[], its.map fun _ => [], .done (this it' (by simp)), ?_, ?_, ?_⟩
          · have hnone : ∀ x ∈ its, x.nextBack = .ok (none, x) := fun x hx => this x (by simp [hx])
            clear this hc ho h ih
            induction its with
            | nil => exact .nil
            | cons x its ih2 =>
              exact .cons (.done (hnone x (by simp))) (ih2 fun y hy => hnone y (by simp [hy]))
          · intro l' hl' i hi
            rcases List.mem_cons.1 hl' with rfl | hl'
            · simp at hi
            · obtain ⟨_, _, rfl⟩ := List.mem_map.1 hl'
              simp at hi
          · intro l' hl'
            obtain ⟨_, _, rfl⟩ := List.mem_map.1 hl'
            rfl
      | some i =>
        simp only at h
        cases hd : i.duration with
        | error f => rw [hd] at h; cases h
        | ok du =>
          rw [hd] at h
          simp only at h
          cases hs : stepOthers (i.mapEvent WithParent.describe) its with
          | error f => rw [hs] at h; cases h
          | ok y =>
            obtain ⟨ds, its'⟩ := y
            rw [hs] at h
            simp only at h
            cases ha : t.addInterval ⟨i.mapEvent WithParent.describe, ds.foldl min du, ds.foldl max du - ds.foldl min du⟩ with
            | error f => rw [ha] at h; cases h
            | ok t2 =>
              rw [ha] at h
              simp only at h
              have ho' : ∀ x ∈ it' :: its', Opened x := by
                intro x hx
                rcases List.mem_cons.1 hx with rfl | hx
                · exact opened_some hn
                · clear ih h ha
                  have hos : ∀ y ∈ its, Opened y := fun y hy => ho y (by simp [hy])
                  clear ho hn
                  induction its generalizing its' ds with
                  | nil =>
                    simp only [stepOthers, Except.ok.injEq, Prod.mk.injEq] at hs
                    rw [← hs.2] at hx
                    simp at hx
                  | cons z its ih2 =>
                    simp only [stepOthers, bind, Except.bind] at hs
                    cases hz : z.nextBack with
                    | error f => rw [hz] at hs; cases hs
                    | ok w =>
                      obtain ⟨o, z'⟩ := w
                      rw [hz] at hs
                      cases o with
                      | none => cases hs
                      | some j =>
                        simp only at hs
                        cases hj : j.duration with
                        | error f => rw [hj] at hs; cases hs
                        | ok dj =>
                          rw [hj] at hs
                          simp only at hs
                          split at hs
                          · cases hs
                          · cases hss : stepOthers (i.mapEvent WithParent.describe) its with
                            | error f => rw [hss] at hs; cases hs
                            | ok v =>
                              rw [hss] at hs
                              simp only [Except.ok.injEq, Prod.mk.injEq] at hs
                              rw [← hs.2] at hx
                              rcases List.mem_cons.1 hx with rfl | hx
                              · exact opened_some hz
                              · exact ih2 v.1 v.2 hss (by simp [hx]) hx fun y hy => hos y (by simp [hy])
              obtain ⟨l, ls', h1, h2, h3⟩ := ih ho' h
              obtain ⟨ls, h4, h5, h6⟩ := stepOthers_inv hs h2
              refine ⟨i :: l, ls, .more hn h1, h4, ?_, ?_⟩
              · intro l' hl' j hj
                rcases List.mem_cons.1 hl' with rfl | hl'
                · rcases List.mem_cons.1 hj with rfl | hj
                  · rw [hd, (duration_between hd).1]
                  · exact h3.1 l (by simp) j hj
                · obtain ⟨k, l'', rfl, h7, h8⟩ := h6 l' hl'
                  rcases List.mem_cons.1 hj with rfl | hj
                  · exact h7
                  · refine h3.1 l'' ?_ j hj
                    rw [← h5]
                    exact List.mem_cons_of_mem _ (List.mem_map.2 ⟨_, hl', rfl⟩)
              · intro l' hl'
                obtain ⟨k, l'', rfl, h7, h8⟩ := h6 l' hl'
                rw [List.map_cons, List.map_cons, h3.2 l'' (by rw [← h5]; exact List.mem_map.2 ⟨_, hl', rfl⟩), h8]
                rfl

/-! ## Totals -/

/-- What holds of the totals after adding columns. -/
def TotalsInv (as : List AggregatedSampleInterval) (t : Totals) : Prop :=
  t.intervalsCount = as.length ∧
  BothInv 10 (as.map fun a => (a.minDuration, a.minDuration + a.rangeSize, a.descriptions)) t.durations ∧
  BothInv 10 (as.map fun a => (a.rangeSize, a.rangeSize, a.descriptions)) t.variances

theorem totals_add {as : List AggregatedSampleInterval} {t : Totals} (hi : TotalsInv as t) (a : AggregatedSampleInterval) :
    ∃ t', t.addInterval a = .ok t' ∧ TotalsInv (as ++ [a]) t' := by
  obtain ⟨h0, h1, h2⟩ := hi
  obtain ⟨x, hx, hx'⟩ := both_add (by omega) h1 a.minDuration (a.minDuration + a.rangeSize) a.descriptions
  obtain ⟨y, hy, hy'⟩ := both_add (by omega) h2 a.rangeSize a.rangeSize a.descriptions
  refine ⟨⟨t.intervalsCount + 1, x, y⟩, ?_, ?_, ?_, ?_⟩
  · simp only [Totals.addInterval, AggregatedSampleInterval.maxDuration, Extrema.add, hx, hy, bind, Except.bind]
  · simp [h0]
  · simpa using hx'
  · simpa using hy'

theorem totals_all (bs as : List AggregatedSampleInterval) {t : Totals} (hi : TotalsInv as t) :
    ∃ t', addColumns t bs = .ok t' ∧ TotalsInv (as ++ bs) t' := by
  induction bs generalizing as t with
  | nil => exact ⟨t, rfl, by simpa using hi⟩
  | cons b bs ih =>
    obtain ⟨t1, h1, h2⟩ := totals_add hi b
    obtain ⟨t2, h3, h4⟩ := ih (as ++ [b]) h2
    exact ⟨t2, by simp only [addColumns, h1, bind, Except.bind, h3], by simpa using h4⟩

theorem totals_init : TotalsInv [] {} := ⟨rfl, ⟨rfl, ext_nil _ _, ext_nil _ _⟩, ⟨rfl, ext_nil _ _, ext_nil _ _⟩⟩

/-! ## Describing -/

theorem describeAll_ok {total : Nat} {m : List (Nat × ExtremaSources Source)}
    (h : ∀ x ∈ m, ∃ d, describe total x.2 = .ok d) :
    ∃ lines, describeAll total m = .ok lines ∧ lines.map (·.1) = m.map (·.1) ∧
      ∀ k d, (k, d) ∈ lines → ∃ x, (k, x) ∈ m ∧ describe total x = .ok d := by
  induction m with
  | nil => exact ⟨[], rfl, rfl, by simp⟩
  | cons a m ih =>
    obtain ⟨k, x⟩ := a
    obtain ⟨d, hd⟩ := h (k, x) (by simp)
    obtain ⟨lines, h1, h2, h3⟩ := ih fun y hy => h y (by simp [hy])
    refine ⟨(k, d) :: lines, ?_, by simp [h2], ?_⟩
    · simp only [describeAll, bind, Except.bind, hd, h1]
    · intro k' d' hkd
      rcases List.mem_cons.1 hkd with he | hkd
      · cases he; exact ⟨x, by simp, hd⟩
      · obtain ⟨y, h4, h5⟩ := h3 k' d' hkd
        exact ⟨y, by simp [h4], h5⟩

theorem sourcesOf_length {S : Type} (k : Nat) (xs : List (Nat × S)) : (sourcesOf k xs).length = (xs.map (·.1)).count k := by
  induction xs with
  | nil => rfl
  | cons x xs ih =>
    unfold sourcesOf at ih ⊢
    by_cases h : x.1 = k
    · simp [h] at ih ⊢; exact ih
    · simp [h] at ih ⊢
      exact ih

/-- A section of the report. -/
theorem section_ok {w : Which} {xs : List (Nat × Source)} {m : List (Nat × ExtremaSources Source)} (hi : ExtInv w 10 xs m)
    {g : Source → Bytes} (hs : ∀ x ∈ xs, describe xs.length (.one x.2) = .ok (.text (g x.2))) :
    ∃ lines, describeAll xs.length m = .ok lines ∧ IsSection w (xs.map (·.1)) (xs.map fun x => g x.2) lines ∧
      ∀ k d, (k, d) ∈ lines → describe xs.length (remember (sourcesOf k xs)) = .ok d := by
  have hone : ∀ k, (xs.map (·.1)).count k = 1 → ∃ x ∈ xs, x.1 = k ∧ describe xs.length (remember (sourcesOf k xs)) = .ok (.text (g x.2)) := by
    intro k hk
    rw [← sourcesOf_length] at hk
    obtain ⟨s, hs'⟩ := List.length_eq_one_iff.1 hk
    have : s ∈ sourcesOf k xs := by rw [hs']; simp
    obtain ⟨x, hx, rfl⟩ := List.mem_map.1 this
    rw [hs']
    exact ⟨x, (List.mem_filter.1 hx).1, by simpa using (List.mem_filter.1 hx).2, hs x (List.mem_filter.1 hx).1⟩
  have hmany : ∀ k, (xs.map (·.1)).count k ≠ 1 →
      describe xs.length (remember (sourcesOf k xs)) = .ok (.share ((xs.map (·.1)).count k) (xs.map (·.1)).length) := by
    intro k hk
    rw [← sourcesOf_length] at hk ⊢
    rw [List.length_map]
    match hl : sourcesOf k xs with
    | [] => rfl
    | [s] => rw [hl] at hk; simp at hk
    | a :: b :: l => rfl
  have hmem : ∀ x ∈ m, ∃ d, describe xs.length x.2 = .ok d := by
    rintro ⟨k, x⟩ hx
    rw [hi.src k x hx]
    by_cases h1 : (xs.map (·.1)).count k = 1
    · obtain ⟨b, -, -, hb⟩ := hone k h1
      exact ⟨_, hb⟩
    · exact ⟨_, hmany k h1⟩
  obtain ⟨lines, h1, h2, h3⟩ := describeAll_ok hmem
  have h4 : ∀ k d, (k, d) ∈ lines → describe xs.length (remember (sourcesOf k xs)) = .ok d := by
    intro k d hkd
    obtain ⟨x, h4, h5⟩ := h3 k d hkd
    rw [hi.src k x h4] at h5
    exact h5
  refine ⟨lines, h1, ⟨by rw [h2]; exact hi.sorted, fun k => by rw [h2]; exact ext_keys hi k, ?_⟩, h4⟩
  intro k d hkd
  have h5 := h4 k d hkd
  constructor
  · intro hc
    obtain ⟨x, hx, hk, hb⟩ := hone k hc
    rw [hb] at h5
    refine ⟨g x.2, ?_, (Except.ok.inj h5).symm⟩
    rw [List.zip_map']
    exact List.mem_map.2 ⟨x, hx, by rw [hk]⟩
  · intro hc
    rw [hmany k hc] at h5
    exact (Except.ok.inj h5).symm

end Verif.Aggregate
