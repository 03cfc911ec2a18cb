import Verif.Spec.Aggregate
import Mathlib.Data.List.Perm.Basic

/-! # Sample points -/

namespace Verif.Aggregate

open Verif Verif.Mm Verif.Decode Verif.Analyze Verif.Spec

/-- The states that occur: no integers, one thread, and only intervals on the stack. -/
structure Good (st : SamplePoints) : Prop where
  timed : ∀ e ∈ st.revEvents, isInteger e.payload = false
  thread : ∀ e ∈ st.revEvents, e.threadId = st.expectedThreadId
  stack : ∀ e ∈ st.stack, ∃ s t, e.payload = .timestamp (.interval s t)

/-- What a step does. -/
inductive StepView (st : SamplePoints) : Prop
  | done (h : st.nextBack = .ok none) (h1 : st.revEvents = []) (h2 : st.stack = [])
  | leave (top : Event) (stk : List Event) (hs : st.stack = top :: stk)
      (hr : st.revEvents = [] ∨ ∃ e r, st.revEvents = e :: r ∧ contains top.payload e.payload = false)
      (h : st.nextBack = .ok (some (.start ⟨top, stk.head?⟩, { st with stack := stk })))
  | enter (e : Event) (r : List Event) (s t : Nat) (hr : st.revEvents = e :: r) (he : e.payload = .timestamp (.interval s t))
      (hs : st.stack = [] ∨ ∃ top stk, st.stack = top :: stk ∧ contains top.payload e.payload = true)
      (h : st.nextBack = .ok (some (.stop ⟨e, st.stack.head?⟩, { st with revEvents := r, stack := e :: st.stack })))
  | pass (e : Event) (r : List Event) (t : Nat) (hr : st.revEvents = e :: r) (he : e.payload = .timestamp (.instant t))
      (hs : st.stack = [] ∨ ∃ top stk, st.stack = top :: stk ∧ contains top.payload e.payload = true)
      (h : st.nextBack = .ok (some (.instant ⟨e, st.stack.head?⟩, { st with revEvents := r })))

theorem nextBack_consume {st : SamplePoints} {e : Event} {r : List Event} (hp : st.point = st.consume e r)
    (hr : st.revEvents = e :: r) (ht : isInteger e.payload = false)
    (hs : st.stack = [] ∨ ∃ top stk, st.stack = top :: stk ∧ contains top.payload e.payload = true) : StepView st := by
  unfold SamplePoints.consume at hp
  cases hpay : e.payload with
  | integer v => rw [hpay] at ht; cases ht
  | timestamp ts =>
    rw [hpay] at hp
    cases ts with
    | interval s t =>
      refine .enter e r s t hr hpay hs ?_
      simp only [SamplePoints.nextBack, hp, bind, Except.bind, SamplePoint.mapEvent]
      cases st.stack <;> rfl
    | instant t =>
      refine .pass e r t hr hpay hs ?_
      simp only [SamplePoints.nextBack, hp, bind, Except.bind, SamplePoint.mapEvent]

theorem step_view {st : SamplePoints} (hg : Good st) : StepView st := by
  cases hr : st.revEvents with
  | nil =>
    cases hs : st.stack with
    | nil =>
      refine .done ?_ hr hs
      simp only [SamplePoints.nextBack, SamplePoints.point, hr, hs, bind, Except.bind]
    | cons top stk =>
      refine .leave top stk hs (Or.inl hr) ?_
      simp only [SamplePoints.nextBack, SamplePoints.point, hr, hs, bind, Except.bind, SamplePoint.mapEvent]
  | cons e r =>
    have h1 := hg.timed e (by simp [hr])
    have h2 := hg.thread e (by simp [hr])
    cases hs : st.stack with
    | nil =>
      refine nextBack_consume (e := e) (r := r) ?_ hr h1 (Or.inl hs)
      simp only [SamplePoints.point, hr, hs, h1, h2, ne_eq, not_true_eq_false, if_false, Bool.false_eq_true]
    | cons top stk =>
      cases hc : contains top.payload e.payload with
      | true =>
        refine nextBack_consume (e := e) (r := r) ?_ hr h1 (Or.inr ⟨top, stk, hs, hc⟩)
        simp only [SamplePoints.point, hr, hs, h1, h2, hc, ne_eq, not_true_eq_false, if_false, Bool.false_eq_true, Bool.not_true]
      | false =>
        refine .leave top stk hs (Or.inr ⟨e, r, hr, hc⟩) ?_
        simp only [SamplePoints.nextBack, SamplePoints.point, hr, hs, h1, h2, hc, ne_eq, not_true_eq_false, if_false,
          Bool.false_eq_true, Bool.not_false, if_true, bind, Except.bind, SamplePoint.mapEvent]

/-- The effect of a step, as cases on the given result. -/
theorem step_cases {st st' : SamplePoints} {p : SamplePoint (WithParent Event)} (hg : Good st)
    (h : st.nextBack = .ok (some (p, st'))) :
    (∃ top stk, st.stack = top :: stk ∧ (st.revEvents = [] ∨ ∃ e r, st.revEvents = e :: r ∧ contains top.payload e.payload = false) ∧
      p = .start ⟨top, stk.head?⟩ ∧ st' = { st with stack := stk }) ∨
    (∃ e r s t, st.revEvents = e :: r ∧ e.payload = .timestamp (.interval s t) ∧
      (st.stack = [] ∨ ∃ top stk, st.stack = top :: stk ∧ contains top.payload e.payload = true) ∧
      p = .stop ⟨e, st.stack.head?⟩ ∧ st' = { st with revEvents := r, stack := e :: st.stack }) ∨
    (∃ e r t, st.revEvents = e :: r ∧ e.payload = .timestamp (.instant t) ∧
      (st.stack = [] ∨ ∃ top stk, st.stack = top :: stk ∧ contains top.payload e.payload = true) ∧
      p = .instant ⟨e, st.stack.head?⟩ ∧ st' = { st with revEvents := r }) := by
  cases step_view hg with
  | done h' => rw [h'] at h; cases h
  | leave top stk hs hr h' =>
    rw [h'] at h
    simp only [Except.ok.injEq, Option.some.injEq, Prod.mk.injEq] at h
    exact Or.inl ⟨top, stk, hs, hr, h.1.symm, h.2.symm⟩
  | enter e r s t hr he hs h' =>
    rw [h'] at h
    simp only [Except.ok.injEq, Option.some.injEq, Prod.mk.injEq] at h
    exact Or.inr (Or.inl ⟨e, r, s, t, hr, he, hs, h.1.symm, h.2.symm⟩)
  | pass e r t hr he hs h' =>
    rw [h'] at h
    simp only [Except.ok.injEq, Option.some.injEq, Prod.mk.injEq] at h
    exact Or.inr (Or.inr ⟨e, r, t, hr, he, hs, h.1.symm, h.2.symm⟩)

theorem step_done {st : SamplePoints} (hg : Good st) (h : st.nextBack = .ok none) : st.revEvents = [] ∧ st.stack = [] := by
  cases step_view hg with
  | done _ h1 h2 => exact ⟨h1, h2⟩
  | leave top stk hs hr h' => rw [h'] at h; cases h
  | enter e r s t hr he hs h' => rw [h'] at h; cases h
  | pass e r t hr he hs h' => rw [h'] at h; cases h

theorem good_step {st st' : SamplePoints} {p : SamplePoint (WithParent Event)} (hg : Good st)
    (h : st.nextBack = .ok (some (p, st'))) : Good st' := by
  rcases step_cases hg h with ⟨top, stk, hs, -, -, rfl⟩ | ⟨e, r, s, t, hr, he, -, -, rfl⟩ | ⟨e, r, t, hr, he, -, -, rfl⟩
  · exact ⟨hg.timed, hg.thread, fun e he => hg.stack e (by rw [hs]; simp [he])⟩
  · refine ⟨fun x hx => hg.timed x (by rw [hr]; simp [hx]), fun x hx => hg.thread x (by rw [hr]; simp [hx]), ?_⟩
    intro x hx
    rcases List.mem_cons.1 hx with rfl | hx
    · exact ⟨s, t, he⟩
    · exact hg.stack x hx
  · exact ⟨fun x hx => hg.timed x (by rw [hr]; simp [hx]), fun x hx => hg.thread x (by rw [hr]; simp [hx]), hg.stack⟩

/-- The number of steps left. -/
def measure (st : SamplePoints) : Nat := 2 * st.revEvents.length + st.stack.length

theorem emits_exists {st : SamplePoints} (hg : Good st) : ∃ ps, Emits st ps ∧ ps.length ≤ measure st := by
  generalize hn : measure st = n
  induction n using Nat.strong_induction_on generalizing st with
  | _ n ih =>
    have key : ∀ p st', st.nextBack = .ok (some (p, st')) → measure st' + 1 ≤ n → ∃ ps, Emits st ps ∧ ps.length ≤ n := by
      intro p st' h hm
      obtain ⟨ps, h1, h2⟩ := ih (measure st') (by omega) (good_step hg h) rfl
      exact ⟨p :: ps, .more h h1, by simp only [List.length_cons]; omega⟩
    cases step_view hg with
    | done h _ _ => exact ⟨[], .done h, by simp⟩
    | leave top stk hs hr h =>
      refine key _ _ h ?_
      rw [← hn]; simp only [measure, hs, List.length_cons]; omega
    | enter e r s t hr he hs h =>
      refine key _ _ h ?_
      rw [← hn]; simp only [measure, hr, List.length_cons]; omega
    | pass e r t hr he hs h =>
      refine key _ _ h ?_
      rw [← hn]; simp only [measure, hr, List.length_cons]; omega

theorem emits_unique {st : SamplePoints} {ps qs : List (SamplePoint (WithParent Event))} (h1 : Emits st ps) (h2 : Emits st qs) :
    ps = qs := by
  induction h1 generalizing qs with
  | done h =>
    cases h2 with
    | done => rfl
    | more h' _ => rw [h] at h'; cases h'
  | more h _ ih =>
    cases h2 with
    | done h' => rw [h] at h'; cases h'
    | more h' t' =>
      rw [h] at h'
      simp only [Except.ok.injEq, Option.some.injEq, Prod.mk.injEq] at h'
      obtain ⟨rfl, rfl⟩ := h'
      rw [ih t']

/-! ## Replaying -/

theorem replay_append (ps qs : List (SamplePoint (WithParent Event))) (st : List Event) :
    replay (ps ++ qs) st = (replay ps st).bind (replay qs) := by
  induction ps generalizing st with
  | nil => rfl
  | cons p ps ih =>
    cases p with
    | start w => simp only [List.cons_append, replay]; split <;> simp [ih]
    | instant w => simp only [List.cons_append, replay]; split <;> simp [ih]
    | stop w =>
      cases st with
      | nil => rfl
      | cons e st => simp only [List.cons_append, replay]; split <;> simp [ih]

theorem emits_replay {st : SamplePoints} {ps : List (SamplePoint (WithParent Event))} (he : Emits st ps) (hg : Good st) :
    replay ps.reverse [] = some st.stack ∧ ps.reverse.filterMap completed = st.revEvents.reverse := by
  induction he with
  | done h =>
    obtain ⟨h1, h2⟩ := step_done hg h
    simp [h1, h2, replay]
  | more h tl ih =>
    obtain ⟨ih1, ih2⟩ := ih (good_step hg h)
    rw [List.reverse_cons, replay_append, ih1, List.filterMap_append, ih2]
    rcases step_cases hg h with ⟨top, stk, hs, -, rfl, rfl⟩ | ⟨e, r, s, t, hr, he, -, rfl, rfl⟩ | ⟨e, r, t, hr, he, -, rfl, rfl⟩
    · simp [replay, hs, completed]
    · simp [replay, hr, completed]
    · simp [replay, hr, completed]

/-! ## Moments -/

theorem timestamp_ok {st : SamplePoints} {ps : List (SamplePoint (WithParent Event))} (he : Emits st ps) (hg : Good st) :
    ∀ p ∈ ps, p.timestamp = .ok (momentOf p) := by
  induction he with
  | done h => simp
  | more h tl ih =>
    intro p hp
    rcases List.mem_cons.1 hp with rfl | hp
    · rcases step_cases hg h with ⟨top, stk, hs, -, rfl, rfl⟩ | ⟨e, r, s, t, hr, he, -, rfl, rfl⟩ | ⟨e, r, t, hr, he, -, rfl, rfl⟩
      · obtain ⟨s, t, hp⟩ := hg.stack top (by simp [hs])
        simp [SamplePoint.timestamp, momentOf, span, hp]
      · simp [SamplePoint.timestamp, momentOf, span, he]
      · simp [SamplePoint.timestamp, momentOf, span, he]
    · exact ih (good_step hg h) p hp

/-- The start of an interval. -/
def startOf (e : Event) : Nat := ((span e).map (·.1)).getD 0

theorem endpoints_cons (e : Event) (es : List Event) : endpoints (e :: es) = endpoints [e] ++ endpoints es := by
  simp [endpoints]

theorem emits_moments {st : SamplePoints} {ps : List (SamplePoint (WithParent Event))} (he : Emits st ps) (hg : Good st) :
    (ps.map momentOf).Perm (endpoints st.revEvents ++ st.stack.map startOf) := by
  induction he with
  | done h =>
    obtain ⟨h1, h2⟩ := step_done hg h
    simp [h1, h2, endpoints]
  | more h tl ih =>
    have ih' := ih (good_step hg h)
    rw [List.map_cons]
    rcases step_cases hg h with ⟨top, stk, hs, -, rfl, rfl⟩ | ⟨e, r, s, t, hr, he, -, rfl, rfl⟩ | ⟨e, r, t, hr, he, -, rfl, rfl⟩
    · rw [hs]
      simp only [List.map_cons] at ih' ⊢
      exact (ih'.cons _).trans List.perm_middle.symm
    · rw [hr, endpoints_cons]
      have h1 : endpoints [e] = [s, t] := by simp [endpoints, he]
      have h2 : startOf e = s := by simp [startOf, span, he]
      have h3 : ∀ o, momentOf (.stop ⟨e, o⟩) = t := by intro o; simp [momentOf, span, he]
      simp only [List.map_cons, h2] at ih'
      rw [h1, h3]
      refine (ih'.cons _).trans ?_
      simp only [List.cons_append, List.nil_append]
      refine (List.Perm.trans ?_ (List.Perm.swap _ _ _))
      exact (List.perm_middle).cons _
    · rw [hr, endpoints_cons]
      have h1 : endpoints [e] = [t] := by simp [endpoints, he]
      have h3 : ∀ o, momentOf (.instant ⟨e, o⟩) = t := by intro o; simp [momentOf, span, he]
      rw [h1, h3]
      exact ih'.cons _

/-! ## Order -/

/-- `a` recorded before `b`. -/
def Recorded (a b : Event) : Prop := ∀ s t s' t', span a = some (s, t) → span b = some (s', t') → t ≤ t' ∧ (s' ≤ s ∨ t ≤ s')

structure Ordered (st : SamplePoints) : Prop where
  forward : ∀ e, e ∈ st.revEvents ∨ e ∈ st.stack → Forward e
  rev : st.revEvents.Pairwise fun a b => Recorded b a
  cross : ∀ e ∈ st.revEvents, ∀ x ∈ st.stack, Recorded e x
  chain : st.stack.Pairwise fun a b => startOf b ≤ startOf a

/-- Nothing left is later than `T`. -/
def Bounded (st : SamplePoints) (T : Nat) : Prop :=
  (∀ e ∈ st.revEvents, ∀ s t, span e = some (s, t) → t ≤ T) ∧ ∀ x ∈ st.stack, startOf x ≤ T

theorem forward_span {e : Event} (h : Forward e) {s t : Nat} (hs : span e = some (s, t)) : s ≤ t := by
  unfold span at hs
  split at hs
  · cases hs; omega
  · rename_i heq
    cases hs
    exact h s t (by simp [times, heq])
  · cases hs

theorem contains_iff {x e : Event} {s t : Nat} (hx : x.payload = .timestamp (.interval s t)) {s' t' : Nat}
    (he : span e = some (s', t')) : contains x.payload e.payload = true ↔ s ≤ s' ∧ t' ≤ t := by
  unfold span at he
  split at he
  · rename_i heq; cases he; simp [contains, hx, heq]
  · rename_i heq; cases he; simp [contains, hx, heq]
  · cases he

theorem ordered_step {st st' : SamplePoints} {p : SamplePoint (WithParent Event)} (hg : Good st) (ho : Ordered st)
    (h : st.nextBack = .ok (some (p, st'))) : Ordered st' ∧ Bounded st' (momentOf p) := by
  rcases step_cases hg h with ⟨top, stk, hs, hr, rfl, rfl⟩ | ⟨e, r, s, t, hr, he, hc, rfl, rfl⟩ | ⟨e, r, t, hr, he, hc, rfl, rfl⟩
  · obtain ⟨ts, tt, htop⟩ := hg.stack top (by simp [hs])
    have hspan : span top = some (ts, tt) := by simp [span, htop]
    have hmom : momentOf (.start ⟨top, stk.head?⟩) = ts := by simp [momentOf, hspan]
    have hch := ho.chain
    rw [hs, List.pairwise_cons] at hch
    refine ⟨⟨?_, ho.rev, ?_, hch.2⟩, ?_, ?_⟩
    · intro e he
      apply ho.forward
      rcases he with he | he
      · exact Or.inl he
      · exact Or.inr (by rw [hs]; exact List.mem_cons_of_mem _ he)
    · intro e he x hx
      exact ho.cross e he x (by rw [hs]; exact List.mem_cons_of_mem _ hx)
    · rw [hmom]
      intro e he s t hsp
      simp only at he
      rcases hr with hr | ⟨e0, r, hr, hc⟩
      · rw [hr] at he; simp at he
      · -- the peeked event ends before `top` begins
        have h0 : e0 ∈ st.revEvents := by rw [hr]; simp
        have hpk : ∃ s0 t0, span e0 = some (s0, t0) := by
          have := hg.timed e0 h0
          unfold span
          cases hp : e0.payload with
          | integer v => rw [hp] at this; cases this
          | timestamp ts => cases ts <;> simp
        obtain ⟨s0, t0, hsp0⟩ := hpk
        have h1 := ho.cross e0 h0 top (by rw [hs]; simp) s0 t0 ts tt hsp0 hspan
        have h2 : ¬ (ts ≤ s0 ∧ t0 ≤ tt) := by rw [← contains_iff htop hsp0, hc]; simp
        have h3 : t0 ≤ ts := by omega
        rw [hr] at he
        rcases List.mem_cons.1 he with rfl | he
        · rw [hsp0] at hsp; cases hsp; exact h3
        · have hrev := ho.rev
          rw [hr, List.pairwise_cons] at hrev
          have := (hrev.1 e he s t s0 t0 hsp hsp0).1
          omega
    · rw [hmom]
      intro x hx
      have := hch.1 x hx
      simpa [startOf, hspan] using this
  · have hspan : span e = some (s, t) := by simp [span, he]
    have hmom : momentOf (.stop ⟨e, st.stack.head?⟩) = t := by simp [momentOf, hspan]
    have hrev := ho.rev
    rw [hr, List.pairwise_cons] at hrev
    have hle := forward_span (ho.forward e (Or.inl (by rw [hr]; simp))) hspan
    have hse : startOf e = s := by simp [startOf, hspan]
    have hstk : ∀ x ∈ st.stack, startOf x ≤ s := by
      rcases hc with hc | ⟨top, stk, hc, hcc⟩
      · rw [hc]; simp
      · obtain ⟨ts, tt, htop⟩ := hg.stack top (by simp [hc])
        have := (contains_iff htop hspan).1 hcc
        have hts : startOf top = ts := by simp [startOf, span, htop]
        have hch := ho.chain
        rw [hc, List.pairwise_cons] at hch
        intro x hx
        rw [hc] at hx
        rcases List.mem_cons.1 hx with rfl | hx
        · omega
        · have := hch.1 x hx; omega
    refine ⟨⟨?_, hrev.2, ?_, ?_⟩, ?_, ?_⟩
    · intro x hx
      apply ho.forward
      simp only [List.mem_cons] at hx
      rcases hx with hx | hx | hx
      · exact Or.inl (by rw [hr]; simp [hx])
      · exact Or.inl (by rw [hr]; simp [hx])
      · exact Or.inr hx
    · intro x hx y hy
      rcases List.mem_cons.1 hy with rfl | hy
      · exact hrev.1 x hx
      · exact ho.cross x (by rw [hr]; exact List.mem_cons_of_mem _ hx) y hy
    · rw [List.pairwise_cons]
      exact ⟨fun x hx => by rw [hse]; exact hstk x hx, ho.chain⟩
    · rw [hmom]
      intro x hx s' t' hsp
      exact (hrev.1 x hx s' t' s t hsp hspan).1
    · rw [hmom]
      intro x hx
      rcases List.mem_cons.1 hx with rfl | hx
      · omega
      · have := hstk x hx; omega
  · have hspan : span e = some (t, t) := by simp [span, he]
    have hmom : momentOf (.instant ⟨e, st.stack.head?⟩) = t := by simp [momentOf, hspan]
    have hrev := ho.rev
    rw [hr, List.pairwise_cons] at hrev
    refine ⟨⟨?_, hrev.2, ?_, ho.chain⟩, ?_, ?_⟩
    · intro x hx
      apply ho.forward
      rcases hx with hx | hx
      · exact Or.inl (by rw [hr]; simp [show x ∈ r from hx])
      · exact Or.inr hx
    · intro x hx y hy
      exact ho.cross x (by rw [hr]; exact List.mem_cons_of_mem _ hx) y hy
    · rw [hmom]
      intro x hx s' t' hsp
      exact (hrev.1 x hx s' t' t t hsp hspan).1
    · rw [hmom]
      rcases hc with hc | ⟨top, stk, hc, hcc⟩
      · simp [hc]
      · obtain ⟨ts, tt, htop⟩ := hg.stack top (by simp [hc])
        have := (contains_iff htop hspan).1 hcc
        have hts : startOf top = ts := by simp [startOf, span, htop]
        have hch := ho.chain
        rw [hc, List.pairwise_cons] at hch
        intro x hx
        simp only [hc] at hx
        rcases List.mem_cons.1 hx with rfl | hx
        · omega
        · have := hch.1 x hx; omega

theorem step_bounded {st st' : SamplePoints} {p : SamplePoint (WithParent Event)} {T : Nat} (hg : Good st) (hb : Bounded st T)
    (h : st.nextBack = .ok (some (p, st'))) : momentOf p ≤ T := by
  rcases step_cases hg h with ⟨top, stk, hs, hr, rfl, rfl⟩ | ⟨e, r, s, t, hr, he, hc, rfl, rfl⟩ | ⟨e, r, t, hr, he, hc, rfl, rfl⟩
  · exact hb.2 top (by simp [hs])
  · have hspan : span e = some (s, t) := by simp [span, he]
    simpa [momentOf, hspan] using hb.1 e (by simp [hr]) s t hspan
  · have hspan : span e = some (t, t) := by simp [span, he]
    simpa [momentOf, hspan] using hb.1 e (by simp [hr]) t t hspan

theorem emits_bounded {st : SamplePoints} {ps : List (SamplePoint (WithParent Event))} (he : Emits st ps) (hg : Good st)
    (ho : Ordered st) (T : Nat) (hb : Bounded st T) : ∀ p ∈ ps, momentOf p ≤ T := by
  induction he generalizing T with
  | done h => simp
  | more h tl ih =>
    have h1 := step_bounded hg hb h
    obtain ⟨h2, h3⟩ := ordered_step hg ho h
    intro p hp
    rcases List.mem_cons.1 hp with rfl | hp
    · exact h1
    · exact Nat.le_trans (ih (good_step hg h) h2 _ h3 p hp) h1

theorem emits_sorted {st : SamplePoints} {ps : List (SamplePoint (WithParent Event))} (he : Emits st ps) (hg : Good st)
    (ho : Ordered st) : ps.Pairwise fun p q => momentOf q ≤ momentOf p := by
  induction he with
  | done h => exact List.Pairwise.nil
  | more h tl ih =>
    obtain ⟨h2, h3⟩ := ordered_step hg ho h
    rw [List.pairwise_cons]
    exact ⟨emits_bounded tl (good_step hg h) h2 _ h3, ih (good_step hg h) h2⟩

/-! ## The initial state -/

theorem isInteger_span (e : Event) : isInteger e.payload = !(span e).isSome := by
  unfold isInteger span
  cases e.payload with
  | integer v => rfl
  | timestamp t => cases t <;> rfl

theorem timed_filter (es : List Event) :
    es.filter (fun e => !isInteger e.payload) = es.filter fun e => (span e).isSome := by
  apply List.filter_congr
  intro e _
  rw [isInteger_span]
  simp

theorem good_new {es : List Event} (h : OneThread es) : Good (SamplePoints.new es) := by
  unfold SamplePoints.new
  refine ⟨?_, ?_, by simp⟩
  · intro e he
    simpa using (List.mem_filter.1 he).2
  · intro e he
    simp only at he ⊢
    cases hl : es.reverse.filter (fun e => !isInteger e.payload) with
    | nil => rw [hl] at he; simp at he
    | cons a l =>
      simp only [List.head?_cons, Option.map_some, Option.getD_some]
      have ha : a ∈ es.reverse.filter (fun e => !isInteger e.payload) := by rw [hl]; simp
      rw [timed_filter, List.mem_filter, List.mem_reverse] at ha he
      exact h e he.1 a ha.1 he.2 ha.2

theorem ordered_new {es : List Event} (h : PostOrdered es) : Ordered (SamplePoints.new es) := by
  unfold SamplePoints.new
  refine ⟨?_, ?_, by simp, by simp⟩
  · intro e he
    simp only [List.mem_filter, List.mem_reverse, List.not_mem_nil, or_false] at he
    exact h.1 e he.1
  · apply List.Pairwise.filter
    rw [List.pairwise_reverse]
    exact h.2

/-- Streams with more than one thread make the iterator panic. -/
theorem emits_thread {st : SamplePoints} {ps : List (SamplePoint (WithParent Event))} (he : Emits st ps) :
    ∀ e ∈ st.revEvents, e.threadId = st.expectedThreadId := by
  induction he with
  | @done st h =>
    intro e he
    cases hr : st.revEvents with
    | nil => rw [hr] at he; simp at he
    | cons a r =>
      exfalso
      simp only [SamplePoints.nextBack, SamplePoints.point, hr, bind, Except.bind] at h
      cases hs : st.stack with
      | nil =>
        rw [hs] at h
        by_cases h1 : isInteger a.payload = true
        · simp [h1] at h
        · by_cases h2 : a.threadId ≠ st.expectedThreadId
          · simp [h1, h2] at h
          · unfold SamplePoints.consume at h
            cases hp : a.payload with
            | integer v => simp [hp, isInteger] at h1
            | timestamp ts => cases ts <;> simp [h2, hp, isInteger] at h
      | cons top stk =>
        rw [hs] at h
        by_cases h1 : isInteger a.payload = true
        · simp [h1] at h
        · by_cases h2 : a.threadId ≠ st.expectedThreadId
          · simp [h1, h2] at h
          · cases hc : contains top.payload a.payload
            · simp [h1, h2, hc] at h
            · unfold SamplePoints.consume at h
              cases hp : a.payload with
              | integer v => simp [hp, isInteger] at h1
              | timestamp ts =>
                rw [hp] at hc
                cases ts <;> simp [h2, hp, hc, isInteger] at h
  | @more st st' p ps h tl ih =>
    intro e he
    cases hr : st.revEvents with
    | nil => rw [hr] at he; simp at he
    | cons a r =>
      have hpt : a.threadId = st.expectedThreadId := by
        by_contra h2
        simp only [SamplePoints.nextBack, SamplePoints.point, hr, bind, Except.bind] at h
        by_cases h1 : isInteger a.payload = true
        · simp [h1] at h
        · simp [h1, h2] at h
      have hst' : st'.expectedThreadId = st.expectedThreadId ∧ ∀ x ∈ r, x ∈ st'.revEvents := by
        have hcons : ∀ y, st.consume a r = .ok (some y) → y.2.expectedThreadId = st.expectedThreadId ∧ y.2.revEvents = r := by
          intro y hy
          unfold SamplePoints.consume at hy
          split at hy
          · cases hy; exact ⟨rfl, rfl⟩
          · cases hy; exact ⟨rfl, rfl⟩
          · cases hy
        have hpoint : ∃ q, st.point = .ok (some (q, st')) := by
          simp only [SamplePoints.nextBack, bind, Except.bind] at h
          cases hq : st.point with
          | error f => rw [hq] at h; cases h
          | ok o =>
            cases o with
            | none => rw [hq] at h; cases h
            | some y =>
              obtain ⟨q, st2⟩ := y
              rw [hq] at h
              simp only [Except.ok.injEq, Option.some.injEq, Prod.mk.injEq] at h
              exact ⟨q, by rw [h.2]⟩
        obtain ⟨q, hq⟩ := hpoint
        simp only [SamplePoints.point, hr] at hq
        split at hq
        · cases hq
        · split at hq
          · cases hq
          · split at hq
            · split at hq
              · simp only [Except.ok.injEq, Option.some.injEq, Prod.mk.injEq] at hq
                rw [← hq.2]
                exact ⟨rfl, fun x hx => by simp [hr, hx]⟩
              · have := hcons _ hq
                exact ⟨this.1, fun x hx => by rw [this.2]; exact hx⟩
            · have := hcons _ hq
              exact ⟨this.1, fun x hx => by rw [this.2]; exact hx⟩
      rw [hr] at he
      rcases List.mem_cons.1 he with rfl | he
      · exact hpt
      · rw [← hst'.1]
        exact ih e (hst'.2 e he)

theorem oneThread_of_emits {es : List Event} {ps : List (SamplePoint (WithParent Event))} (h : Emits (SamplePoints.new es) ps) :
    OneThread es := by
  intro a ha b hb ha' hb'
  have h1 := emits_thread h
  have hm : ∀ x ∈ es, (span x).isSome → x ∈ (SamplePoints.new es).revEvents := by
    intro x hx hs
    unfold SamplePoints.new
    simp only
    rw [timed_filter, List.mem_filter, List.mem_reverse]
    exact ⟨hx, hs⟩
  rw [h1 a (hm a ha ha'), h1 b (hm b hb hb')]

/-! ## Successive points -/

/-- What `describe` asserts of two successive points. -/
def Fits : SampleInterval (WithParent Event) → Prop
  | ⟨.start s, .stop e⟩ => s = e
  | ⟨.start outer, .start inner⟩ => inner.parent = some outer.this
  | ⟨.start outer, .instant inner⟩ => inner.parent = some outer.this
  | ⟨.stop inner, .stop outer⟩ => inner.parent = some outer.this
  | ⟨.instant inner, .stop outer⟩ => inner.parent = some outer.this
  | ⟨.stop first, .start second⟩ => first.parent = second.parent
  | ⟨.instant first, .start second⟩ => first.parent = second.parent
  | ⟨.stop first, .instant second⟩ => first.parent = second.parent
  | ⟨.instant first, .instant second⟩ => first.parent = second.parent

theorem emits_fits {st : SamplePoints} {ps : List (SamplePoint (WithParent Event))} (he : Emits st ps) (hg : Good st) :
    ∀ i ∈ successive ps, Fits i := by
  induction he with
  | done h => simp [successive]
  | @more st st' p ps h tl ih =>
    have hg' := good_step hg h
    cases ps with
    | nil => simp [successive]
    | cons q qs =>
      intro i hi
      simp only [successive, List.mem_cons] at hi
      rcases hi with rfl | hi
      · cases tl with
        | more h' tl' =>
          rcases step_cases hg h with ⟨top, stk, hs, -, rfl, rfl⟩ | ⟨e, r, s, t, hr, he, -, rfl, rfl⟩ | ⟨e, r, t, hr, he, -, rfl, rfl⟩ <;>
          rcases step_cases hg' h' with ⟨top', stk', hs', -, rfl, rfl⟩ | ⟨e', r', s', t', hr', he', -, rfl, rfl⟩ | ⟨e', r', t', hr', he', -, rfl, rfl⟩ <;>
          simp only [Fits] at * <;> simp_all
      · exact ih hg' i hi

theorem commas_intercalate (as : List Bytes) : commas as = List.intercalate (utf8 ", ") as := by
  induction as with
  | nil => rfl
  | cons a as ih =>
    cases as with
    | nil => simp [commas, List.intercalate]
    | cons b as =>
      simp only [commas]
      rw [ih]
      simp [List.intercalate]

theorem named_text (e : Event) : (EventDescription.ofEvent e).text = named e := by
  unfold EventDescription.text named
  simp only [EventDescription.ofEvent, commas_intercalate, List.mem_cons, List.not_mem_nil, or_false, queryKind, genericActivityKind,
    List.append_assoc]
  congr 1

theorem describe_fits (total : Nat) {i : SampleInterval (WithParent Event)} (h : Fits i) :
    describe total (.one (shape i)) = .ok (.text (sentence i)) := by
  obtain ⟨s, e⟩ := i
  cases s <;> cases e <;> rename_i x y <;> simp only [Fits] at h <;>
    simp only [describe, shape, SampleInterval.mapEvent, SamplePoint.mapEvent, WithParent.describe, h, Option.map_some, if_true,
      sentence, named_text]
  all_goals first
    | done
    | (cases y.parent <;> simp only [Option.map_some, Option.map_none, named_text])

end Verif.Aggregate
