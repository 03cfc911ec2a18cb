import Verif.Proofs.Diff

/-! # C50, C51, C60: `summarize diff` -/

namespace Verif.Props

open Verif Verif.Mm Verif.Analyze Verif.Diff Verif.Spec Verif.Proofs

/-! ## C50 -/

theorem natAbs_signed (d : SignedDuration) : (signed d).natAbs = d.duration := by
  unfold signed
  cases d.isPositive <;> simp

theorem calculateDiff_of {checks : Bool} {order : List Bytes → List Bytes} {base change : Results} {qs : List QueryDataDiff}
    {as : List ArtifactSizeDiff}
    (h1 : mapAll (queryDiff checks base.queryData change.queryData)
      (order (labelSet ((base.queryData ++ change.queryData).map (·.1)))) = .ok qs)
    (h2 : mapAll (artifactDiff checks base.artifactSizes change.artifactSizes)
      (order (labelSet ((base.artifactSizes ++ change.artifactSizes).map (·.1)))) = .ok as) :
    calculateDiff checks order base change = .ok ⟨qs.insertionSort fun l r => r.selfTime.duration ≤ l.selfTime.duration,
      as.insertionSort fun l r => r.sizeChange ≤ l.sizeChange,
      (SignedDuration.ofDuration change.totalTime).sub (SignedDuration.ofDuration base.totalTime)⟩ := by
  unfold calculateDiff
  rw [h1, h2]
  rfl

/-- **C50.** For any two results of modest size the difference has exactly one row for every label of either, every column is the
change minus the base, and rows come by decreasing size of the change in self time; whatever order hash sets are enumerated in. -/
theorem C50_difference (checks : Bool) (order : List Bytes → List Bytes) (ho : ∀ l, (order l).Perm l) (base change : Results)
    (hb : Modest base) (hc : Modest change) : ∃ r, calculateDiff checks order base change = .ok r ∧ IsDiff base change r := by
  have hall : ∀ l ∈ order (labelSet ((base.queryData ++ change.queryData).map (·.1))),
      l ∈ base.queryData.map (·.1) ∨ l ∈ change.queryData.map (·.1) := by
    intro l hl
    rw [(ho _).mem_iff, mem_labelSet] at hl
    simpa using hl
  have hart : ∀ l ∈ order (labelSet ((base.artifactSizes ++ change.artifactSizes).map (·.1))),
      l ∈ base.artifactSizes.map (·.1) ∨ l ∈ change.artifactSizes.map (·.1) := by
    intro l hl
    rw [(ho _).mem_iff, mem_labelSet] at hl
    simpa using hl
  classical
  let d0 : QueryDataDiff := ⟨[], ⟨0, true⟩, .new, ⟨0, true⟩, .new, 0, 0, 0, ⟨0, true⟩, ⟨0, true⟩, ⟨0, true⟩⟩
  let g : Bytes → QueryDataDiff := fun l =>
    if h : l ∈ base.queryData.map (·.1) ∨ l ∈ change.queryData.map (·.1) then
      (queryDiff_row checks base change hb hc l h).choose else d0
  have hg : ∀ l, (l ∈ base.queryData.map (·.1) ∨ l ∈ change.queryData.map (·.1)) →
      queryDiff checks base.queryData change.queryData l = .ok (g l) ∧ (g l).label = l ∧
        RowDiff base.queryData change.queryData (g l) := by
    intro l h
    have := (queryDiff_row checks base change hb hc l h).choose_spec
    simp only [g, dif_pos h]
    exact this
  have e1 := mapAll_ok (g := g) fun l hl => (hg l (hall l hl)).1
  have e2 := mapAll_ok (f := artifactDiff checks base.artifactSizes change.artifactSizes)
    (g := fun l => (⟨l, delta id l base.artifactSizes change.artifactSizes⟩ : ArtifactSizeDiff))
    fun l hl => artifactDiff_row checks base change hb hc l (hart l hl)
  refine ⟨_, calculateDiff_of e1 e2, ?_⟩
  have l1 : ((order (labelSet ((base.queryData ++ change.queryData).map (·.1)))).map g).map (·.label) =
      order (labelSet ((base.queryData ++ change.queryData).map (·.1))) := by
    rw [List.map_map]
    refine (List.map_congr_left fun l hl => ?_).trans (List.map_id _)
    exact (hg l (hall l hl)).2.1
  have l2 : ((order (labelSet ((base.artifactSizes ++ change.artifactSizes).map (·.1)))).map
        fun l => (⟨l, delta id l base.artifactSizes change.artifactSizes⟩ : ArtifactSizeDiff)).map (·.label) =
      order (labelSet ((base.artifactSizes ++ change.artifactSizes).map (·.1))) := by
    rw [List.map_map]
    exact List.map_id _
  constructor
  · refine ((List.perm_insertionSort _ _).map (fun q : QueryDataDiff => q.label)).nodup_iff.2 ?_
    rw [l1]
    exact (ho _).nodup_iff.2 (labelSet_nodup _)
  · intro l
    refine (((List.perm_insertionSort _ _).map (fun q : QueryDataDiff => q.label)).mem_iff).trans ?_
    rw [l1, (ho _).mem_iff, mem_labelSet]
    simp
  · intro q hq
    simp only [List.mem_insertionSort] at hq
    obtain ⟨l, hl, rfl⟩ := List.mem_map.1 hq
    exact (hg l (hall l hl)).2.2
  · have : ∀ l : List QueryDataDiff, (l.insertionSort fun l r => r.selfTime.duration ≤ l.selfTime.duration).Pairwise
        fun l r => r.selfTime.duration ≤ l.selfTime.duration := by
      have i1 : Std.Total (fun l r : QueryDataDiff => r.selfTime.duration ≤ l.selfTime.duration) := ⟨fun a b => by omega⟩
      have i2 : IsTrans QueryDataDiff (fun l r => r.selfTime.duration ≤ l.selfTime.duration) := ⟨fun a b c => by omega⟩
      exact fun l => List.pairwise_insertionSort _ l
    simp only [natAbs_signed]
    exact this _
  · refine ((List.perm_insertionSort _ _).map (fun q : ArtifactSizeDiff => q.label)).nodup_iff.2 ?_
    rw [l2]
    exact (ho _).nodup_iff.2 (labelSet_nodup _)
  · intro l
    refine (((List.perm_insertionSort _ _).map (fun q : ArtifactSizeDiff => q.label)).mem_iff).trans ?_
    rw [l2, (ho _).mem_iff, mem_labelSet]
    simp
  · intro a ha
    simp only [List.mem_insertionSort] at ha
    obtain ⟨l, -, rfl⟩ := List.mem_map.1 ha
    rfl
  · have : ∀ l : List ArtifactSizeDiff, (l.insertionSort fun l r => r.sizeChange ≤ l.sizeChange).Pairwise
        fun l r => r.sizeChange ≤ l.sizeChange := by
      have i1 : Std.Total (fun l r : ArtifactSizeDiff => r.sizeChange ≤ l.sizeChange) := ⟨fun a b => by omega⟩
      have i2 : IsTrans ArtifactSizeDiff (fun l r => r.sizeChange ≤ l.sizeChange) := ⟨fun a b c => by omega⟩
      exact fun l => List.pairwise_insertionSort _ l
    exact this _
  · exact signed_sub hc.total hb.total

/-- **C50.** Without the bound on sizes the claim is false: an artifact that grew from nothing to 2⁶³ bytes is reported to have
shrunk. -/
theorem C50_huge_sizes_wrap :
    calculateDiff true id ⟨[], [], 0⟩ ⟨[], [(utf8 "o", 2 ^ 63)], 0⟩ =
      .ok ⟨[], [⟨utf8 "o", -2 ^ 63⟩], ⟨0, true⟩⟩ := by decide +kernel

/-! ## C51 -/

/-- **C51.** Swapping base and change negates every column of every row, and the total. -/
theorem C51_antisymmetric (checks : Bool) (order order' : List Bytes → List Bytes) (ho : ∀ l, (order l).Perm l)
    (ho' : ∀ l, (order' l).Perm l) (base change : Results) (hb : Modest base) (hc : Modest change) :
    ∃ r r', calculateDiff checks order base change = .ok r ∧ calculateDiff checks order' change base = .ok r' ∧
      (∀ q ∈ r.queryData, ∃ q' ∈ r'.queryData, q'.label = q.label ∧ signed q'.time = -signed q.time ∧
        signed q'.selfTime = -signed q.selfTime ∧ q'.numberOfCacheMisses = -q.numberOfCacheMisses ∧
        q'.numberOfCacheHits = -q.numberOfCacheHits ∧ q'.invocationCount = -q.invocationCount ∧
        signed q'.blockedTime = -signed q.blockedTime ∧ signed q'.incrementalLoadTime = -signed q.incrementalLoadTime ∧
        signed q'.incrementalHashingTime = -signed q.incrementalHashingTime) ∧
      (∀ a ∈ r.artifactSizes, ∃ a' ∈ r'.artifactSizes, a'.label = a.label ∧ a'.sizeChange = -a.sizeChange) ∧
      signed r'.totalTime = -signed r.totalTime := by
  obtain ⟨r, h1, h2⟩ := C50_difference checks order ho base change hb hc
  obtain ⟨r', h3, h4⟩ := C50_difference checks order' ho' change base hc hb
  refine ⟨r, r', h1, h3, ?_, ?_, ?_⟩
  · intro q hq
    have hl := (h2.labels q.label).1 (List.mem_map.2 ⟨q, hq, rfl⟩)
    obtain ⟨q', hq', he⟩ := List.mem_map.1 ((h4.labels q.label).2 hl.symm)
    have a := h2.rows q hq
    have b := h4.rows q' hq'
    have neg : ∀ f : QueryData → Nat, delta f q'.label change.queryData base.queryData =
        -delta f q.label base.queryData change.queryData := by
      intro f; rw [he]; unfold delta; omega
    refine ⟨q', hq', he, ?_, ?_, ?_, ?_, ?_, ?_, ?_, ?_⟩
    · rw [b.time, neg, a.time]
    · rw [b.selfTime, neg, a.selfTime]
    · rw [b.misses, neg, a.misses]
    · rw [b.hits, neg, a.hits]
    · rw [b.count, neg, a.count]
    · rw [b.blocked, neg, a.blocked]
    · rw [b.load, neg, a.load]
    · rw [b.hashing, neg, a.hashing]
  · intro a ha
    have hl := (h2.artifactLabels a.label).1 (List.mem_map.2 ⟨a, ha, rfl⟩)
    obtain ⟨a', ha', he⟩ := List.mem_map.1 ((h4.artifactLabels a.label).2 hl.symm)
    refine ⟨a', ha', he, ?_⟩
    rw [h4.artifacts a' ha', h2.artifacts a ha, he]
    unfold delta
    omega
  · rw [h4.total, h2.total]; omega

/-- **C51.** A result compared with itself shows no change. -/
theorem C51_self_is_zero (checks : Bool) (order : List Bytes → List Bytes) (ho : ∀ l, (order l).Perm l) (r : Results) (h : Modest r) :
    ∃ d, calculateDiff checks order r r = .ok d ∧
      (∀ q ∈ d.queryData, signed q.time = 0 ∧ signed q.selfTime = 0 ∧ q.numberOfCacheMisses = 0 ∧ q.numberOfCacheHits = 0 ∧
        q.invocationCount = 0 ∧ signed q.blockedTime = 0 ∧ signed q.incrementalLoadTime = 0 ∧ signed q.incrementalHashingTime = 0) ∧
      (∀ a ∈ d.artifactSizes, a.sizeChange = 0) ∧ signed d.totalTime = 0 := by
  obtain ⟨d, h1, h2⟩ := C50_difference checks order ho r r h h
  have z : ∀ (f : QueryData → Nat) (l : Bytes), delta f l r.queryData r.queryData = 0 := by intro f l; unfold delta; omega
  refine ⟨d, h1, ?_, ?_, ?_⟩
  · intro q hq
    have a := h2.rows q hq
    exact ⟨by rw [a.time, z], by rw [a.selfTime, z], by rw [a.misses, z], by rw [a.hits, z], by rw [a.count, z], by rw [a.blocked, z],
      by rw [a.load, z], by rw [a.hashing, z]⟩
  · intro a ha
    rw [h2.artifacts a ha]
    unfold delta
    omega
  · rw [h2.total]; omega

/-- **C51.** Signed durations subtract and compare as the numbers they stand for, as long as the difference is below 2⁶⁴
nanoseconds; otherwise its size is cut off to 64 bits. -/
theorem C51_subtraction (a b : SignedDuration) :
    ((signed a - signed b).natAbs < 2 ^ 64 → signed (a.sub b) = signed a - signed b) ∧
    (signed (a.sub b)).natAbs = (signed a - signed b).natAbs % 2 ^ 64 ∧
    a.cmp b = compare (signed a) (signed b) := by
  refine ⟨?_, ?_, ?_⟩
  · intro h
    unfold SignedDuration.sub
    rw [asNanos_signed, asNanos_signed, signed_fromNanos h]
  · rw [natAbs_signed]
    unfold SignedDuration.sub SignedDuration.fromNanos
    rw [asNanos_signed, asNanos_signed]
  · unfold SignedDuration.cmp
    rw [asNanos_signed, asNanos_signed]

/-- **C51.** Ordering and equality of signed durations disagree exactly at zero, which has two representations. -/
theorem C51_signed_zero (a b : SignedDuration) : a.cmp b = .eq ↔ a = b ∨ (a.duration = 0 ∧ b.duration = 0) := by
  rw [(C51_subtraction a b).2.2, Int.compare_eq_eq]
  obtain ⟨x, p⟩ := a
  obtain ⟨y, q⟩ := b
  unfold signed
  cases p <;> cases q <;> simp <;> omega

/-! ## C60 -/

theorem containsText_iff (pat : Bytes) : ∀ text : Bytes, containsText pat text = true ↔ pat <:+: text
  | [] => by simp [containsText]
  | b :: bs => by
    rw [containsText, Bool.or_eq_true, containsText_iff pat bs, List.infix_cons_iff, decide_eq_true_eq]
    constructor
    · rintro (h | h)
      · left
        rw [← h]
        exact List.take_prefix _ _
      · exact Or.inr h
    · rintro (⟨t, h⟩ | h)
      · left
        rw [← h]
        simp
      · exact Or.inr h

/-- **C60.** With `--exclude`, the rows shown are those, each as often and in the order of the results, whose label contains
none of the given texts. -/
theorem C60_excluded (exclude : List Bytes) (r : DiffResults) :
    (shownRows exclude r).1 = r.queryData.filter (fun q => decide (∀ e ∈ exclude, ¬ e <:+: q.label)) ∧
    (shownRows exclude r).2 = r.artifactSizes.filter (fun a => decide (∀ e ∈ exclude, ¬ e <:+: a.label)) := by
  have h : ∀ l : Bytes, (!exclude.any fun e => containsText e l) = decide (∀ e ∈ exclude, ¬ e <:+: l) := by
    intro l
    rw [Bool.eq_iff_iff]
    simp [← containsText_iff]
  unfold shownRows
  simp only [h, and_self]

/-! ## A concrete case -/

/-- Some results. -/
def exBase : Results := ⟨[(utf8 "a", { time := 50, selfTime := 20, invocationCount := 3 }), (utf8 "gone", { time := 7, selfTime := 7 })],
  [(utf8 "o", 100)], 90⟩

/-- Some other results. -/
def exChange : Results := ⟨[(utf8 "new", { time := 8, selfTime := 8 }), (utf8 "a", { time := 40, selfTime := 5, invocationCount := 4 })],
  [(utf8 "o", 120), (utf8 "p", 1)], 100⟩

theorem exBase_modest : Modest exBase ∧ Modest exChange :=
  ⟨⟨by decide +kernel, by decide +kernel, by decide +kernel⟩, ⟨by decide +kernel, by decide +kernel, by decide +kernel⟩⟩

example : (calculateDiff true List.reverse exBase exChange).map (fun r => r.queryData.map fun q => (q.label, signed q.selfTime)) =
    .ok [(utf8 "a", -15), (utf8 "new", 8), (utf8 "gone", -7)] := by decide +kernel

example : (calculateDiff true List.reverse exBase exChange).map (fun r => ((shownRows [utf8 "e"] r).1.map (·.label), r.artifactSizes)) =
    .ok ([utf8 "a"], [⟨utf8 "o", 20⟩, ⟨utf8 "p", 1⟩]) := by decide +kernel

/-- The two zeros. -/
example : (⟨0, true⟩ : SignedDuration) ≠ ⟨0, false⟩ ∧ (⟨0, true⟩ : SignedDuration).cmp ⟨0, false⟩ = .eq := by decide +kernel

end Verif.Props
