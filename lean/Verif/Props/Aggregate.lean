import Verif.Proofs.AggregatePanics
import Verif.Proofs.AggregateReport
import Verif.Props.Analysis

/-! # Properties C46 to C49: `summarize aggregate` -/

namespace Verif.Props
open Verif Verif.Mm Verif.Spec Verif.Decode Verif.Analyze Verif.Aggregate

/-! ## C46 -/

/-- **C46.** Adding any ranges to an `Extrema` with a positive limit never panics. Afterwards `smallest` has, in ascending order,
exactly the `limit` smallest distinct lower ends, `largest` the `limit` largest distinct upper ends; each with its source if it
occurred once, and with the number of its occurrences otherwise. -/
theorem C46_extrema {S : Type} (limit : Nat) (hl : 0 < limit) (rs : List (Nat × Nat × S)) :
    ∃ x, rs.foldlM (fun x r => Extrema.addRange x r.1 r.2.1 r.2.2) ({ limit := limit } : Extrema S) = .ok x ∧
      (x.smallest.map (·.1)).Pairwise (· < ·) ∧ (x.largest.map (·.1)).Pairwise (· < ·) ∧
      (∀ k, k ∈ x.smallest.map (·.1) ↔ IsExtreme .smallest limit (rs.map (·.1)) k) ∧
      (∀ k, k ∈ x.largest.map (·.1) ↔ IsExtreme .largest limit (rs.map (·.2.1)) k) ∧
      (∀ k y, (k, y) ∈ x.smallest → y = remember (sourcesOf k (rs.map fun r => (r.1, r.2.2)))) ∧
      (∀ k y, (k, y) ∈ x.largest → y = remember (sourcesOf k (rs.map fun r => (r.2.1, r.2.2)))) := by
  have all : ∀ (rs done : List (Nat × Nat × S)) (x : Extrema S), BothInv limit done x →
      ∃ x', rs.foldlM (fun x r => Extrema.addRange x r.1 r.2.1 r.2.2) x = .ok x' ∧ BothInv limit (done ++ rs) x' := by
    intro rs
    induction rs with
    | nil => intro done x hi; exact ⟨x, rfl, by simpa using hi⟩
    | cons r rs ih =>
      intro done x hi
      obtain ⟨x1, h1, h2⟩ := both_add hl hi r.1 r.2.1 r.2.2
      obtain ⟨x2, h3, h4⟩ := ih _ x1 h2
      refine ⟨x2, ?_, by simpa using h4⟩
      rw [List.foldlM_cons, h1]
      exact h3
  obtain ⟨x, hx, -, h1, h2⟩ := all rs [] { limit := limit } ⟨rfl, ext_nil _ _, ext_nil _ _⟩
  rw [List.nil_append] at h1 h2
  refine ⟨x, hx, h1.sorted, h2.sorted, ?_, ?_, h1.src, h2.src⟩
  · intro k
    rw [ext_keys h1, List.map_map]
    rfl
  · intro k
    rw [ext_keys h2, List.map_map]
    rfl

/-- **C46.** With limit zero the first addition panics. -/
theorem C46_zero_panics {S : Type} (lo hi : Nat) (s : S) : ∃ f, ({ limit := 0 } : Extrema S).addRange lo hi s = .error (.panic f) :=
  ⟨_, rfl⟩

/-! ## C47 -/

/-- **C47.** The sample points of a stream exist exactly if all its timed events are on one thread. In chronological order they
are balanced: every point's parent is the innermost open interval, every end closes it, at the end nothing is open; and the events
completed, in order, are the timed events of the stream. -/
theorem C47_points (es : List Event) :
    ((∃ tr, Emits (SamplePoints.new es) tr) ↔ OneThread es) ∧
    ∀ tr, Emits (SamplePoints.new es) tr → replay tr.reverse [] = some [] ∧
      tr.reverse.filterMap completed = es.filter fun e => (span e).isSome := by
  refine ⟨⟨fun ⟨tr, h⟩ => oneThread_of_emits h, fun h => ?_⟩, ?_⟩
  · obtain ⟨tr, h1, -⟩ := emits_exists (good_new h)
    exact ⟨tr, h1⟩
  · intro tr h
    obtain ⟨h1, h2⟩ := emits_replay h (good_of_emits h)
    refine ⟨h1, ?_⟩
    rw [h2]
    unfold SamplePoints.new
    simp only
    rw [timed_filter, List.filter_reverse, List.reverse_reverse]

/-- **C47.** If the stream was recorded by scoped timings, the points are in the order of time: their moments are all the starts,
ends and instants of the stream, sorted; so no duration between successive points is negative, and the durations are the gaps of
the stream. -/
theorem C47_in_time_order (es : List Event) (hp : PostOrdered es) (tr : List (SamplePoint (WithParent Event)))
    (h : Emits (SamplePoints.new es) tr) :
    tr.reverse.map momentOf = (endpoints es).insertionSort (· ≤ ·) ∧
    (∀ i ∈ successive tr, i.duration = .ok (timeBetween i)) ∧ (successive tr).reverse.map timeBetween = gaps es := by
  refine ⟨by rw [List.map_reverse]; exact moments_sorted h hp, ?_, ?_⟩
  · exact (durations_iff h).2 (successive_le (emits_sorted h (good_of_emits h) (ordered_new hp)))
  · rw [List.map_reverse, successive_gaps h hp, List.reverse_reverse]

/-- **C47.** The gaps of a stream add up to the time from its first to its last moment. -/
theorem C47_gaps_sum (es : List Event) :
    (gaps es).sum = (endpoints es).max?.getD 0 - (endpoints es).min?.getD 0 := by
  have key : ∀ (l : List Nat), l.Pairwise (· ≤ ·) → (differences l).sum = l.max?.getD 0 - l.min?.getD 0 := by
    intro l hl
    match l with
    | [] => rfl
    | a :: l =>
      have hmin : (a :: l).min? = some a := by
        rw [List.min?_eq_some_iff]
        refine ⟨by simp, ?_⟩
        intro b hb
        rcases List.mem_cons.1 hb with rfl | hb
        · exact Nat.le_refl _
        · exact (List.pairwise_cons.1 hl).1 b hb
      rw [hmin]
      induction l generalizing a with
      | nil => simp [differences]
      | cons b l ih =>
        rw [List.pairwise_cons] at hl
        have hb : (b :: l).min? = some b := by
          rw [List.min?_eq_some_iff]
          refine ⟨by simp, ?_⟩
          intro c hc
          rcases List.mem_cons.1 hc with rfl | hc
          · exact Nat.le_refl _
          · exact (List.pairwise_cons.1 hl.2).1 c hc
        have ih' := ih b hl.2 hb
        simp only [differences, List.sum_cons, ih']
        have hab := hl.1 b (by simp)
        have hmax : (a :: b :: l).max? = (b :: l).max? := by
          rw [List.max?_cons', List.max?_cons']
          congr 1
          rw [List.foldl_cons, Nat.max_eq_right hab]
        rw [hmax]
        cases hm : (b :: l).max? with
        | none => simp at hm
        | some c =>
          rw [List.max?_eq_some_iff] at hm
          have := hm.2 b (by simp)
          simp only [Option.getD_some]
          omega
  unfold gaps
  rw [key _ (List.pairwise_insertionSort _ _)]
  have hperm := List.perm_insertionSort (· ≤ ·) (endpoints es)
  have hmx : ((endpoints es).insertionSort (· ≤ ·)).max? = (endpoints es).max? := by
    cases h : (endpoints es).max? with
    | none =>
      rw [List.max?_eq_none_iff] at h ⊢
      rw [h] at hperm ⊢
      rfl
    | some c =>
      rw [List.max?_eq_some_iff] at h ⊢
      exact ⟨hperm.mem_iff.2 h.1, fun b hb => h.2 b (hperm.mem_iff.1 hb)⟩
  have hmn : ((endpoints es).insertionSort (· ≤ ·)).min? = (endpoints es).min? := by
    cases h : (endpoints es).min? with
    | none =>
      rw [List.min?_eq_none_iff] at h ⊢
      rw [h] at hperm ⊢
      rfl
    | some c =>
      rw [List.min?_eq_some_iff] at h ⊢
      exact ⟨hperm.mem_iff.2 h.1, fun b hb => h.2 b (hperm.mem_iff.1 hb)⟩
  rw [hmx, hmn]

/-! ## C48 -/

/-- **C48.** Exactly which sets of profiles can be aggregated: each profile is on one thread, no two of its successive points are
out of order, and all have the same shape, that is the same kinds, labels and arguments of successive points and their parents.
Every other set makes the command panic; for these no assertion fails, neither while aggregating nor while describing. -/
theorem C48_succeeds_iff (p : List Event) (ps : List (List Event)) :
    (∃ r, aggregateProfiles (p :: ps) = .ok r) ↔
      ∃ (tr : List (SamplePoint (WithParent Event))) (trs : List (List (SamplePoint (WithParent Event)))),
        List.Forall₂ (fun p tr => Emits (SamplePoints.new p) tr) (p :: ps) (tr :: trs) ∧
        (∀ t ∈ tr :: trs, ∀ i ∈ successive t, momentOf i.start ≤ momentOf i.stop) ∧
        ∀ t ∈ trs, (successive t).map shape = (successive tr).map shape := by
  have hmem : ∀ (ps : List (List Event)) (trs : List (List (SamplePoint (WithParent Event)))),
      List.Forall₂ (fun p tr => Emits (SamplePoints.new p) tr) ps trs → ∀ t ∈ trs, ∃ p, Emits (SamplePoints.new p) t := by
    intro ps trs h
    induction h with
    | nil => simp
    | cons h _ ih =>
      intro t ht
      rcases List.mem_cons.1 ht with rfl | ht
      · exact ⟨_, h⟩
      · exact ih t ht
  constructor
  · rintro ⟨r, h⟩
    obtain ⟨tr, trs, h1, h2, h3, h4⟩ := report_inv h
    refine ⟨tr, trs, .cons h1 h2, ?_, ?_⟩
    · intro t ht
      obtain ⟨q, hq⟩ := hmem _ _ (.cons h1 h2) t ht
      refine (durations_iff hq).1 (h3 (successive t) ?_)
      rcases List.mem_cons.1 ht with rfl | ht
      · simp
      · exact List.mem_cons_of_mem _ (List.mem_map.2 ⟨t, ht, rfl⟩)
    · intro t ht
      exact h4 (successive t) (List.mem_map.2 ⟨t, ht, rfl⟩)
  · rintro ⟨tr, trs, h1, h2, h3⟩
    have hm : Matching (successive tr) (trs.map successive) := by
      constructor
      · intro l hl
        have : ∃ t ∈ tr :: trs, l = successive t := by
          rcases List.mem_cons.1 hl with rfl | hl
          · exact ⟨tr, by simp, rfl⟩
          · obtain ⟨t, ht, rfl⟩ := List.mem_map.1 hl
            exact ⟨t, by simp [ht], rfl⟩
        obtain ⟨t, ht, rfl⟩ := this
        obtain ⟨q, hq⟩ := hmem _ _ h1 t ht
        exact (durations_iff hq).2 (h2 t ht)
      · intro l hl
        obtain ⟨t, ht, rfl⟩ := List.mem_map.1 hl
        exact h3 t ht
    cases h1 with
    | cons h4 h5 =>
      obtain ⟨r, hr, -⟩ := report_ok h4 h5 hm
      exact ⟨r, hr⟩

/-- **C48.** Two successive points of any one-thread stream, in time order or not, are described without a failed assertion, by
the sentence that belongs to them. -/
theorem C48_describe_never_panics (es : List Event) (tr : List (SamplePoint (WithParent Event)))
    (h : Emits (SamplePoints.new es) tr) (total : Nat) :
    ∀ i ∈ successive tr, describe total (.one (shape i)) = .ok (.text (sentence i)) :=
  fun i hi => describe_fits total (emits_fits h (good_of_emits h) i hi)

/-- **C48.** If there is no report, `aggregate_profiles` panics: it never returns an error, and it always ends. -/
theorem C48_otherwise_panics (ps : List (List Event)) : (∃ r, aggregateProfiles ps = .ok r) ∨ IsPanic (aggregateProfiles ps) := by
  cases h : aggregateProfiles ps with
  | ok r => exact .inl ⟨r, rfl⟩
  | error f =>
    obtain ⟨m, rfl⟩ := aggregate_only ps f h
    exact .inr trivial

/-- **C48.** Without profiles nothing is reported. -/
theorem C48_no_profiles : aggregateProfiles [] = .ok ⟨[], [], [], []⟩ := rfl

/-! ## C49 -/

/-- **C49.** For profiles recorded by scoped timings on one thread each, with equal shapes: position by position, the report has
the ten smallest of the least gaps, the ten largest of the greatest gaps, and the ten smallest and largest differences between
them; a value found at one position only is described by what happens there. -/
theorem C49_report (p : List Event) (ps : List (List Event)) (tr : List (SamplePoint (WithParent Event)))
    (trs : List (List (SamplePoint (WithParent Event))))
    (he : List.Forall₂ (fun p tr => Emits (SamplePoints.new p) tr) (p :: ps) (tr :: trs))
    (hp : ∀ q ∈ p :: ps, PostOrdered q) (hs : ∀ t ∈ trs, (successive t).map shape = (successive tr).map shape) :
    ∃ r, aggregateProfiles (p :: ps) = .ok r ∧
      IsSection .smallest (lows ((p :: ps).map gaps)) (sentences tr) r.smallestDurations ∧
      IsSection .largest (highs ((p :: ps).map gaps)) (sentences tr) r.largestDurations ∧
      IsSection .smallest (spreads ((p :: ps).map gaps)) (sentences tr) r.smallestVariances ∧
      IsSection .largest (spreads ((p :: ps).map gaps)) (sentences tr) r.largestVariances := by
  have hpair : ∀ (ps : List (List Event)) (trs : List (List (SamplePoint (WithParent Event)))),
      List.Forall₂ (fun p tr => Emits (SamplePoints.new p) tr) ps trs → (∀ q ∈ ps, PostOrdered q) →
      (∀ t ∈ trs, ∀ i ∈ successive t, i.duration = .ok (timeBetween i)) ∧
      (trs.map successive).map (List.map timeBetween) = (ps.map gaps).map List.reverse := by
    intro ps trs h
    induction h with
    | nil => intro _; exact ⟨by simp, rfl⟩
    | cons h _ ih =>
      intro hq
      obtain ⟨ih1, ih2⟩ := ih fun q hq' => hq q (by simp [hq'])
      refine ⟨?_, ?_⟩
      · intro t ht
        rcases List.mem_cons.1 ht with rfl | ht
        · exact (C47_in_time_order _ (hq _ (by simp)) _ h).2.1
        · exact ih1 t ht
      · simp only [List.map_cons, ih2, successive_gaps h (hq _ (by simp))]
  obtain ⟨h1, h2⟩ := hpair _ _ he hp
  have hm : Matching (successive tr) (trs.map successive) := by
    constructor
    · intro l hl
      rw [← List.map_cons] at hl
      obtain ⟨t, ht, rfl⟩ := List.mem_map.1 hl
      exact h1 t ht
    · intro l hl
      obtain ⟨t, ht, rfl⟩ := List.mem_map.1 hl
      exact hs t ht
  have hlen : ∀ g ∈ (p :: ps).map gaps, g.length = width ((p :: ps).map gaps) := by
    have hall : ∀ g ∈ ((p :: ps).map gaps).map List.reverse, g.length = (successive tr).length := by
      rw [← h2]
      intro g hg
      obtain ⟨l, hl, rfl⟩ := List.mem_map.1 hg
      rw [List.length_map]
      obtain ⟨t, ht, rfl⟩ := List.mem_map.1 hl
      rcases List.mem_cons.1 ht with rfl | ht
      · rfl
      · have := congrArg List.length (hs t ht)
        simpa using this
    have hall' : ∀ g ∈ (p :: ps).map gaps, g.length = (successive tr).length := by
      intro g hg
      have := hall g.reverse (List.mem_map.2 ⟨g, hg, rfl⟩)
      simpa using this
    intro g hg
    rw [hall' g hg]
    unfold width
    simp only [List.map_cons, List.head?_cons, Option.getD_some]
    exact (hall' (gaps p) (by simp)).symm
  cases he with
  | cons h3 h4 =>
    obtain ⟨r, hr, i1, i2, i3, i4⟩ := report_ok h3 h4 hm
    obtain ⟨c1, c2, c3⟩ := columns_values (successive tr) (trs.map successive)
    have h2' : (successive tr :: trs.map successive).map (List.map timeBetween) = ((p :: ps).map gaps).map List.reverse := h2
    rw [c1, h2'] at i1
    rw [c3, h2'] at i2
    rw [c2, h2'] at i3 i4
    have r1 := reverse_values hlen (fun c => c.min?.getD 0)
    have r2 := reverse_values hlen (fun c => c.max?.getD 0)
    have r3 := reverse_values hlen (fun c => c.max?.getD 0 - c.min?.getD 0)
    have hw : width ((p :: ps).map gaps) = (sentences tr).length := by
      have h5 := congrArg List.length (successive_gaps h3 (hp p (by simp)))
      simp only [List.length_map, List.length_reverse] at h5
      simp only [sentences, List.length_map, List.length_reverse, width, List.map_cons, List.head?_cons, Option.getD_some, h5]
    have ht : (sentences tr).reverse = (successive tr).map sentence := by simp [sentences, List.map_reverse]
    refine ⟨r, hr, section_reverse (by unfold lows; rw [List.length_map, List.length_range, hw]) ?_, section_reverse (by unfold highs; rw [List.length_map, List.length_range, hw]) ?_,
      section_reverse (by unfold spreads; rw [List.length_map, List.length_range, hw]) ?_, section_reverse (by unfold spreads; rw [List.length_map, List.length_range, hw]) ?_⟩ <;> rw [ht]
    · unfold lows; rw [← r1]; exact i1
    · unfold highs; rw [← r2]; exact i2
    · unfold spreads; rw [← r3]; exact i3
    · unfold spreads; rw [← r3]; exact i4

/-! ## A concrete case -/

/-- A profile: `b` and an instant `c` inside `a`, at the given times. -/
def exProfile (s1 t1 i s t : Nat) : List Event :=
  [ev "Query" "b" 0 s1 t1, ⟨utf8 "QueryCacheHit", utf8 "c", [], .timestamp (.instant i), 0⟩, ⟨utf8 "ArtifactSize", utf8 "o", [], .integer 7, 3⟩,
   ev "GenericActivity" "a" 0 s t]

/-- Running the iterator for some number of steps. -/
def runPoints : Nat → SamplePoints → Option (List (SamplePoint (WithParent Event)))
  | 0, _ => none
  | n + 1, st => match st.nextBack with
    | .ok none => some []
    | .ok (some (p, st')) => (runPoints n st').map (p :: ·)
    | .error _ => none

theorem emits_of_run : ∀ (n : Nat) (st : SamplePoints) (tr : List (SamplePoint (WithParent Event))),
    runPoints n st = some tr → Emits st tr
  | 0, _, _, h => by simp [runPoints] at h
  | n + 1, st, tr, h => by
    unfold runPoints at h
    split at h
    · next h0 => cases h; exact .done h0
    · next p st' h0 =>
      obtain ⟨ps, h1, h2⟩ := Option.map_eq_some_iff.1 h
      cases h2
      exact .more h0 (emits_of_run n st' ps h1)
    · cases h

/-- The sample points of such a profile, latest first. -/
def exTrace (s1 t1 i s t : Nat) : List (SamplePoint (WithParent Event)) :=
  let a := ev "GenericActivity" "a" 0 s t
  let b := ev "Query" "b" 0 s1 t1
  let c : Event := ⟨utf8 "QueryCacheHit", utf8 "c", [], .timestamp (.instant i), 0⟩
  [.stop ⟨a, none⟩, .instant ⟨c, some a⟩, .stop ⟨b, some a⟩, .start ⟨b, some a⟩, .start ⟨a, none⟩]

theorem exTrace_emitted : Emits (SamplePoints.new (exProfile 10 30 35 5 50)) (exTrace 10 30 35 5 50) ∧
    Emits (SamplePoints.new (exProfile 10 20 45 0 50)) (exTrace 10 20 45 0 50) :=
  ⟨emits_of_run 10 _ _ (by decide +kernel), emits_of_run 10 _ _ (by decide +kernel)⟩

theorem exTrace_shapes : (successive (exTrace 10 20 45 0 50)).map shape = (successive (exTrace 10 30 35 5 50)).map shape := by
  decide +kernel

example : (aggregateProfiles [exProfile 10 30 35 5 50, exProfile 10 20 45 0 50]).map (fun r => r.smallestDurations.map (·.1)) =
    .ok [5, 10] := by decide +kernel

example : gaps (exProfile 10 30 35 5 50) = [5, 20, 5, 15] ∧ gaps (exProfile 10 20 45 0 50) = [10, 10, 25, 5] := by decide +kernel

example : (aggregateProfiles [exProfile 10 30 35 5 50, exProfile 10 20 45 0 50]).map (fun r => r.largestVariances) =
    .ok [(5, .text (utf8 "in `a()`, before `b()`")), (10, .share 2 4), (20, .text (utf8 "in `a()`,\n    between `b()`\n        and QueryCacheHit `c()`\n"))] := by
  decide +kernel

theorem span_ev (kind label : String) (thread : UInt32) (s t : Nat) : span (ev kind label thread s t) = some (s, t) := rfl

theorem exProfile_postOrdered (s1 t1 i s t : Nat) (h : s ≤ s1) (h1 : s1 ≤ t1) (h2 : t1 ≤ i) (h3 : i ≤ t) :
    PostOrdered (exProfile s1 t1 i s t) := by
  refine ⟨?_, ?_⟩
  · intro e he
    simp only [exProfile, List.mem_cons, List.not_mem_nil, or_false] at he
    rcases he with rfl | rfl | rfl | rfl <;> intro s t ht <;> simp [times, ev] at ht <;> omega
  · simp only [exProfile, List.pairwise_cons, List.mem_cons, List.not_mem_nil, or_false, List.Pairwise.nil, and_true]
    refine ⟨?_, ?_, ?_, ?_⟩
    · rintro b (rfl | rfl | rfl) s t s' t' h1 h2 <;> simp [span, ev] at h1 h2 <;> omega
    · rintro b (rfl | rfl) s t s' t' h1 h2 <;> simp [span, ev] at h1 h2 <;> omega
    · rintro b rfl s t s' t' h1 h2; simp [span] at h1
    · simp

/-- The hypotheses of the report theorem hold of two such profiles. -/
example : ∃ r, aggregateProfiles [exProfile 10 30 35 5 50, exProfile 10 20 45 0 50] = .ok r ∧
    IsSection .smallest [5, 10, 5, 5]
      [utf8 "in `a()`, before `b()`", utf8 "`b()`", utf8 "in `a()`,\n    between `b()`\n        and QueryCacheHit `c()`\n",
        utf8 "in `a()`, after QueryCacheHit `c()`"] r.smallestDurations := by
  obtain ⟨r, h, h1, _⟩ := C49_report (exProfile 10 30 35 5 50) [exProfile 10 20 45 0 50] (exTrace 10 30 35 5 50) [exTrace 10 20 45 0 50]
    (.cons exTrace_emitted.1 (.cons exTrace_emitted.2 .nil))
    (by
      intro q hq
      simp only [List.mem_cons, List.not_mem_nil, or_false] at hq
      rcases hq with rfl | rfl <;> exact exProfile_postOrdered _ _ _ _ _ (by decide) (by decide) (by decide) (by decide))
    (by
      intro t ht
      simp only [List.mem_cons, List.not_mem_nil, or_false] at ht
      subst ht
      exact exTrace_shapes)
  have e : lows ([exProfile 10 30 35 5 50, exProfile 10 20 45 0 50].map gaps) = [5, 10, 5, 5] := by decide +kernel
  have e' : sentences (exTrace 10 30 35 5 50) = [utf8 "in `a()`, before `b()`", utf8 "`b()`",
      utf8 "in `a()`,\n    between `b()`\n        and QueryCacheHit `c()`\n", utf8 "in `a()`, after QueryCacheHit `c()`"] := by
    decide +kernel
  rw [e, e'] at h1
  exact ⟨r, h, h1⟩

/-- Different sequences, two threads, overlapping intervals. -/
example : aggregateProfiles [exProfile 10 30 35 5 50, []] =
    .error (.panic "`summarize aggregate` requires identical sequences of events") := by decide +kernel

example : aggregateProfiles [[ev "Query" "a" 0 0 5, ev "Query" "b" 1 0 5]] =
    .error (.panic "more than one thread is not supported in `summarize aggregate`") := by decide +kernel

example : aggregateProfiles [[ev "Query" "a" 0 0 8, ev "Query" "b" 0 2 10, ev "Query" "p" 0 0 10]] =
    .error (.panic "called `Result::unwrap()` on an `Err` value") := by decide +kernel

example : ([(5, 7, "x"), (2, 9, "y"), (5, 7, "z")] : List (Nat × Nat × String)).foldlM
    (fun x r => Extrema.addRange x r.1 r.2.1 r.2.2) ({ limit := 2 } : Extrema String) =
      .ok ⟨2, [(2, .one "y"), (5, .count 2)], [(7, .count 2), (9, .one "y")]⟩ := by decide +kernel

end Verif.Props
