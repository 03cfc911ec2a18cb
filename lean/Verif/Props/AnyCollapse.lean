import Verif.Proofs.AnyCollapse
import Verif.Props.AnyStream
import Verif.Props.Collapse

/-! # Properties C41 and C42, continued: the collapsed stacks of streams of any shape -/

namespace Verif.Props
open Verif Verif.Mm Verif.Spec Verif.Decode Verif.Analyze

/-- **C41.** What the tool reports on any stream it returns on, nested or not. There is one entry per path through the events
the intervals are counted in, and one entry `rustc`; modulo 2⁶⁴, the value of a path is the length of its intervals minus the
length of the intervals counted in them, `rustc` has the time from the first start to the end recorded last on each thread
minus the length of the intervals counted in no other, and all values together are the times of the threads. -/
theorem C41_any_stream (checks : Bool) (es : List Event) (m : List (Bytes × Nat)) (h : collapse checks es = .ok m) :
    (m.map (·.1)).Nodup ∧ (∀ k, k ∈ m.map (·.1) ↔ k = utf8 "rustc" ∨ ∃ j, onPath es k j = true) ∧
    (∀ k v, (k, v) ∈ m → v < 2 ^ 64 ∧
      (k ≠ utf8 "rustc" → (v + pathHeld es k) % 2 ^ 64 = pathLength es k % 2 ^ 64) ∧
      (k = utf8 "rustc" → (v + unheld es) % 2 ^ 64 = recordedTime es % 2 ^ 64)) ∧
    (m.map (·.2)).sum % 2 ^ 64 = recordedTime es % 2 ^ 64 := by
  obtain ⟨st, g, hr, hi, hno, rfl, hg, hs⟩ := collapse_any (x := False) (fun h => h.elim) (fun h => h.elim) (fun h => h.elim) h
  have hnr : utf8 "rustc" ∉ st.counters.map (·.1) := by rw [← lookup_isSome, hno]; simp
  have hval : ∀ k v, (k, v) ∈ st.counters → v < 2 ^ 64 ∧ Same False (v + pathHeld es k) (pathLength es k) := by
    intro k v hkv
    have := hi.vals k
    rw [lookup_of_mem hi.keys hkv] at this
    exact this
  refine ⟨?_, ?_, ?_, ?_⟩
  · rw [List.map_append, List.nodup_append]
    refine ⟨hi.keys, by simp, ?_⟩
    intro a ha b hb
    simp only [List.map_cons, List.map_nil, List.mem_singleton] at hb
    subst hb
    rintro rfl
    exact hnr ha
  · intro k
    rw [List.map_append, List.mem_append, hi.present]
    simp only [List.map_cons, List.map_nil, List.mem_singleton]
    tauto
  · intro k v hkv
    rcases List.mem_append.1 hkv with hm | hm
    · obtain ⟨h1, h2⟩ := hval k v hm
      refine ⟨h1, fun _ => h2.1, ?_⟩
      rintro rfl
      exact absurd (List.mem_map.2 ⟨_, hm, rfl⟩) hnr
    · simp only [List.mem_singleton, Prod.mk.injEq] at hm
      obtain ⟨rfl, rfl⟩ := hm
      exact ⟨hg, fun h => absurd rfl h, fun _ => hs.1⟩
  · have h1 : Same False ((st.counters.map fun y => y.2 + pathHeld es y.1).sum) ((st.counters.map fun y => pathLength es y.1).sum) :=
      sum_same _ _ _ fun y hy => (hval y.1 y.2 hy).2
    obtain ⟨h2, h3⟩ := all_paths es (st.counters.map (·.1)).toFinset (fun k => by rw [List.mem_toFinset]; exact hi.present k)
    rw [List.sum_toFinset _ hi.keys, List.map_map] at h2 h3
    have h4 : (st.counters.map fun y => y.2 + pathHeld es y.1).sum = (st.counters.map (·.2)).sum + (st.counters.map fun y => pathHeld es y.1).sum :=
      List.sum_map_add
    have h5 := h1.1
    rw [h4] at h5
    change (st.counters.map fun y => pathLength es y.1).sum = _ at h2
    change (st.counters.map fun y => pathHeld es y.1).sum + _ = _ at h3
    rw [List.map_append, List.sum_append]
    simp only [List.map_cons, List.map_nil, List.sum_cons, List.sum_nil, Nat.add_zero]
    have h6 := hs.1
    rw [h2, ← h3] at h5
    have fin : ∀ V H U G R : Nat, (V + H) % 2 ^ 64 = (H + U) % 2 ^ 64 → (G + U) % 2 ^ 64 = R % 2 ^ 64 → (V + G) % 2 ^ 64 = R % 2 ^ 64 := by
      intro V H U G R a b; omega
    exact fin _ _ _ _ _ h5 h6

/-- **C41.** With overflow checks, and times below 2⁶⁴ ns, nothing has wrapped: these are the exact values. -/
theorem C41_any_stream_exact (es : List Event) (hb : ∀ e ∈ es, ∀ s t, times e = some (s, t) → t < 2 ^ 64)
    (m : List (Bytes × Nat)) (h : collapse true es = .ok m) :
    (∀ k v, (k, v) ∈ m → (k ≠ utf8 "rustc" → v + pathHeld es k = pathLength es k) ∧
      (k = utf8 "rustc" → v + unheld es = recordedTime es)) ∧ (m.map (·.2)).sum = recordedTime es := by
  obtain ⟨st, g, hr, hi, hno, rfl, hg, hs⟩ := collapse_any (x := True) (fun _ => rfl) (fun _ => len_small hb)
    (fun _ t _ => span_small hb t) h
  have hnr : utf8 "rustc" ∉ st.counters.map (·.1) := by rw [← lookup_isSome, hno]; simp
  have hval : ∀ k v, (k, v) ∈ st.counters → v + pathHeld es k = pathLength es k := by
    intro k v hkv
    have := (hi.vals k).2.2 trivial
    rw [lookup_of_mem hi.keys hkv] at this
    exact this
  refine ⟨?_, ?_⟩
  · intro k v hkv
    rcases List.mem_append.1 hkv with hm | hm
    · refine ⟨fun _ => hval k v hm, ?_⟩
      rintro rfl
      exact absurd (List.mem_map.2 ⟨_, hm, rfl⟩) hnr
    · simp only [List.mem_singleton, Prod.mk.injEq] at hm
      obtain ⟨rfl, rfl⟩ := hm
      exact ⟨fun h => absurd rfl h, fun _ => hs.2 trivial⟩
  · have h1 : (st.counters.map fun y => y.2 + pathHeld es y.1).sum = (st.counters.map fun y => pathLength es y.1).sum := by
      congr 1
      exact List.map_congr_left fun y hy => hval y.1 y.2 hy
    obtain ⟨h2, h3⟩ := all_paths es (st.counters.map (·.1)).toFinset (fun k => by rw [List.mem_toFinset]; exact hi.present k)
    rw [List.sum_toFinset _ hi.keys, List.map_map] at h2 h3
    have h4 : (st.counters.map fun y => y.2 + pathHeld es y.1).sum = (st.counters.map (·.2)).sum + (st.counters.map fun y => pathHeld es y.1).sum :=
      List.sum_map_add
    rw [h4] at h1
    change (st.counters.map fun y => pathLength es y.1).sum = _ at h2
    change (st.counters.map fun y => pathHeld es y.1).sum + _ = _ at h3
    rw [List.map_append, List.sum_append]
    simp only [List.map_cons, List.map_nil, List.sum_cons, List.sum_nil, Nat.add_zero]
    have h6 := hs.2 trivial
    rw [h2, ← h3] at h1
    have fin : ∀ V H U G R : Nat, V + H = H + U → G + U = R → V + G = R := by intro V H U G R a b; omega
    exact fin _ _ _ _ _ h1 h6

/-- **C41.** Exactly when the tool returns in a release build: no interval ends before it starts. -/
theorem C41_release_returns_iff (es : List Event) : (∃ m, collapse false es = .ok m) ↔ ∀ e ∈ es, Forward e := collapse_release es

/-- **C41.** Exactly when it returns with overflow checks, for times below 2⁶⁴ ns: no interval ends before it starts; walking
from the end, never more is counted inside the intervals of a path than the ones already seen have, and no path and no thread
reaches 2⁶⁴; on no thread are the intervals in no other longer than the time from the first start to the end recorded last; and the time
left is below 2⁶⁴. -/
theorem C41_checked_returns_iff (es : List Event) (hb : ∀ e ∈ es, ∀ s t, times e = some (s, t) → t < 2 ^ 64) :
    (∃ m, collapse true es = .ok m) ↔ (∀ e ∈ es, Forward e) ∧
      (∀ n k, pathHeld (es.drop n) k ≤ pathLength (es.drop (n + 1)) k ∧ pathLength (es.drop n) k < 2 ^ 64 + pathHeld (es.drop n) k) ∧
      (∀ t, unheldOf t es < 2 ^ 64 ∧ unheldOf t es ≤ recordedSpan t es) ∧ recordedTime es < 2 ^ 64 + unheld es := by
  rw [collapse_checked (len_small hb) (span_small hb), pathsCovered_iff]
  simp only [unheldOn_eq]
  constructor
  · rintro ⟨h1, ⟨h2, h3⟩, h4, h5⟩
    exact ⟨h1, h2, fun t => ⟨h3 t, h4 t⟩, h5⟩
  · rintro ⟨h1, h2, h3, h5⟩
    exact ⟨h1, ⟨h2, fun t => (h3 t).1⟩, fun t => (h3 t).2, h5⟩

/-- **C41.** Otherwise it panics. -/
theorem C41_otherwise_panics (checks : Bool) (es : List Event) : (∃ m, collapse checks es = .ok m) ∨ IsPanic (collapse checks es) := by
  cases h : collapse checks es with
  | ok m => exact Or.inl ⟨m, rfl⟩
  | error f =>
    obtain ⟨m, rfl⟩ := collapse_panics h
    exact Or.inr trivial

/-- **C41.** On properly nested streams these are the paths through the parents and the times of the threads. -/
theorem C41_nested_paths (es : List Event) (hn : ProperlyNested es) :
    (∀ j, heldPath es j = pathOf es j) ∧ recordedTime es = allTime es ∧ unheld es = rootTime es := by
  refine ⟨heldPath_nested hn, recorded_nested hn, ?_⟩
  unfold unheld rootTime
  apply Finset.sum_congr rfl
  intro i _
  rw [holderOf_nested hn]

/-- **C41.** On a profile of the current format all of whose events can be decoded the tool does exactly this to the events. -/
theorem C41_profile_any (checks : Bool) (fuel : Nat) (d : EventDecoder) (es : List Event) (h : (v9Data fuel d).fullEvents = .ok es) :
    collapseProfile checks (v9Data fuel d) = collapse checks es := collapse_eq checks _ es h (v9_agree fuel d)

/-- **C42.** The two tools agree on every stream they both return on, nested or not: modulo 2⁶⁴, and exactly in a debug build
for times below 2⁶⁴ ns, the values of the stacks that end in a label add up to the self time the analysis reports for it. -/
theorem C42_any_stream (checks : Bool) (es : List Event) (hl : ∀ e ∈ es, (0x3B : UInt8) ∉ e.label) (r : Results)
    (hr : analyze checks es = .ok r) (m : List (Bytes × Nat)) (hm : collapse checks es = .ok m) (l : Bytes) (d : QueryData)
    (hd : (l, d) ∈ r.queryData) :
    ((m.filter fun x => decide (x.1 ≠ utf8 "rustc") && decide (leafOf x.1 = l)).map (·.2)).sum % 2 ^ 64 = d.selfTime % 2 ^ 64 ∧
    (checks = true → (∀ e ∈ es, ∀ s t, times e = some (s, t) → t < 2 ^ 64) →
      ((m.filter fun x => decide (x.1 ≠ utf8 "rustc") && decide (leafOf x.1 = l)).map (·.2)).sum = d.selfTime) := by
  have hself := ((C40_any_stream checks es r hr).1 l d hd).1
  have hmod : ∀ S D H T : Nat, (S + H) % 2 ^ 64 = T % 2 ^ 64 → D + H = T → S % 2 ^ 64 = D % 2 ^ 64 := by
    intro S D H T a b; omega
  have hex : ∀ S D H T : Nat, S + H = T → D + H = T → S = D := by
    intro S D H T a b; omega
  constructor
  · obtain ⟨st, g, -, hi, -, rfl, -, -⟩ := collapse_any (x := False) (fun h => h.elim) (fun h => h.elim) (fun h => h.elim) hm
    exact hmod _ _ _ _ (leaf_sum hi g hl l).1 hself
  · rintro rfl hb
    obtain ⟨st, g, -, hi, -, rfl, -, -⟩ := collapse_any (x := True) (fun _ => rfl) (fun _ => len_small hb)
      (fun _ t _ => span_small hb t) hm
    exact hex _ _ _ _ ((leaf_sum hi g hl l).2 trivial) hself

/-- Non-vacuity: a stream that is not nested, on which the tool returns in both builds. -/
theorem acrossStream_collapsed (checks : Bool) : collapse checks acrossStream = .ok
    [(utf8 "rustc;p", 7), (utf8 "rustc;p;a", 8), (utf8 "rustc;p;b", 4), (utf8 "rustc;p;x", 1), (utf8 "rustc", 0)] := by
  cases checks <;> decide +kernel

example : (∀ e ∈ acrossStream, ∀ s t, times e = some (s, t) → t < 2 ^ 64) ∧ ¬ ProperlyNested acrossStream ∧
    heldPath acrossStream 0 = utf8 "rustc;p;x" ∧ pathHeld acrossStream (utf8 "rustc;p") = 13 ∧ recordedTime acrossStream = 20 := by
  refine ⟨?_, by decide +kernel, by decide +kernel, by decide +kernel, by decide +kernel⟩
  intro e he s t ht
  simp only [acrossStream, List.mem_cons, List.not_mem_nil, or_false] at he
  rcases he with rfl | rfl | rfl | rfl <;> cases ht <;> decide

/-- Both tools return on it: the analysis gives `a` 8, and so do the stacks that end in `a`. -/
example : (∀ e ∈ acrossStream, (0x3B : UInt8) ∉ e.label) ∧ (∃ r, analyze true acrossStream = .ok r) ∧
    ∃ m, collapse true acrossStream = .ok m := by
  refine ⟨by decide +kernel, ?_, _, acrossStream_collapsed true⟩
  obtain ⟨r, -, h, -⟩ := C40_silently_wrong true
  exact ⟨r, h⟩

/-- The wrapped values that the release build reports on the overlapping stream are these. -/
example : collapse false [ev "Query" "a" 0 0 8, ev "Query" "b" 0 2 10, ev "Query" "p" 0 0 10] =
      .ok [(utf8 "rustc;p", 2 ^ 64 - 6), (utf8 "rustc;p;b", 8), (utf8 "rustc;p;a", 8), (utf8 "rustc", 0)] ∧
    pathHeld [ev "Query" "a" 0 0 8, ev "Query" "b" 0 2 10, ev "Query" "p" 0 0 10] (utf8 "rustc;p") = 16 ∧
    pathLength [ev "Query" "a" 0 0 8, ev "Query" "b" 0 2 10, ev "Query" "p" 0 0 10] (utf8 "rustc;p") = 10 :=
  ⟨C41_overlap_wraps.2, by decide +kernel, by decide +kernel⟩

end Verif.Props
