import Verif.Proofs.Interleave

/-! # Properties C34–C40: the analysis of a profile -/

namespace Verif.Props
open Verif Verif.Mm Verif.Spec Verif.Decode Verif.Analyze

theorem data_of_entry {checks : Bool} {es : List Event} {r : Results} (h : analyze checks es = .ok r) {l : Bytes} {d : QueryData}
    (hd : (l, d) ∈ r.queryData) : DataInv l es d := by
  obtain ⟨st, hr, hq, -, -⟩ := analyze_run h
  have hi := inv_run hr
  rw [hq] at hd
  have := hi.data l
  rwa [dataOf, lookup_of_mem hi.dataKeys hd] at this

/-! ## C34 -/

/-- **C34.** On properly nested streams the self time reported for a label is the sum, over its intervals, of their lengths
minus the lengths of their direct children. -/
theorem C34_self_time (checks : Bool) (es : List Event) (hn : ProperlyNested es) (r : Results) (h : analyze checks es = .ok r)
    (l : Bytes) (d : QueryData) (hd : (l, d) ∈ r.queryData) : d.selfTime = selfTimeOf (hasLabel l) es := by
  have h1 := (data_of_entry h hd).self
  have h2 := selfTimeOf_add hn (hasLabel l)
  omega

/-- **C34.** No self time was cut off: the direct children of an interval never take longer than it. -/
theorem C34_children_fit (es : List Event) (hn : ProperlyNested es) (j : Nat) : childTime es j ≤ lenAt es j := childTime_le hn j

/-- **C34.** Every label that occurs on an interval, or on a cache-hit instant, has exactly one entry; no other label has one. -/
theorem C34_labels (checks : Bool) (es : List Event) (r : Results) (h : analyze checks es = .ok r) :
    (r.queryData.map (·.1)).Nodup ∧
    ∀ l, l ∈ r.queryData.map (·.1) ↔
      ∃ e ∈ es, e.label = l ∧ (isInterval e || (isInstant e && hasKind "QueryCacheHit" e)) = true := by
  obtain ⟨st, hr, hq, -, -⟩ := analyze_run h
  have hi := inv_run hr
  rw [hq]
  exact ⟨hi.dataKeys, hi.labels⟩

/-! ## C35 -/

/-- **C35.** The self times of all labels add up to the total length of the intervals that lie in no other. -/
theorem C35_conserved (checks : Bool) (es : List Event) (hn : ProperlyNested es) (r : Results) (h : analyze checks es = .ok r) :
    (r.queryData.map (·.2.selfTime)).sum = rootTime es := by
  obtain ⟨st, hr, hq, -, -⟩ := analyze_run h
  have h1 := (inv_run hr).total
  have h2 := rootTime_add hn
  rw [hq]
  omega

/-- **C35.** The self times of all labels together are no more than the total time. -/
theorem C35_within_total (checks : Bool) (es : List Event) (hn : ProperlyNested es) (r : Results) (h : analyze checks es = .ok r) :
    (r.queryData.map (·.2.selfTime)).sum ≤ r.totalTime := by
  rw [C35_conserved checks es hn r h]
  obtain ⟨st, hr, -, -, ht⟩ := analyze_run h
  rw [total_of_inv (inv_run hr)] at ht
  have ht := (Except.ok.inj ht).symm
  rw [ht]
  exact rootTime_le hn

/-- **C35.** For every stream the self time of a label is at most the length of all its intervals; it is at most the
reported time if the label has no result-hashing intervals. -/
theorem C35_self_le_time (checks : Bool) (es : List Event) (r : Results) (h : analyze checks es = .ok r)
    (l : Bytes) (d : QueryData) (hd : (l, d) ∈ r.queryData) :
    d.selfTime ≤ timeOf (hasLabel l) es ∧
    ((∀ e ∈ es, hasLabel l e = true → hasKind "IncrementalResultHashing" e = false) → d.selfTime ≤ d.time) := by
  have h1 := data_of_entry h hd
  refine ⟨by have := h1.self; omega, fun hno => ?_⟩
  have h2 := h1.self
  rw [h1.time]
  have : timeOf (fun e => hasLabel l e && !isHash e) es = timeOf (hasLabel l) es := by
    unfold timeOf
    congr 2
    apply List.filter_congr
    intro e he
    cases hl : hasLabel l e with
    | false => rfl
    | true => simp [isHash, hno e he hl]
  omega

/-! ## C36 -/

/-- **C36.** Two streams with the same events in the same order on each thread: if both are analysed without a panic, the
results are the same. -/
theorem C36_interleaving (checks : Bool) (a b : List Event) (hs : SameThreads a b) (ra rb : Results)
    (ha : analyze checks a = .ok ra) (hb : analyze checks b = .ok rb) :
    (∀ l d, (l, d) ∈ ra.queryData ↔ (l, d) ∈ rb.queryData) ∧ ra.artifactSizes = rb.artifactSizes ∧
      ra.totalTime = rb.totalTime := by
  obtain ⟨sa, hra, qa, aa, ta⟩ := analyze_run ha
  obtain ⟨sb, hrb, qb, ab, tb⟩ := analyze_run hb
  have ia := inv_run hra
  have ib := inv_run hrb
  refine ⟨?_, ?_, ?_⟩
  · have hd : ∀ l, dataOf l sa.queryData = dataOf l sb.queryData := fun l => data_unique hs (ia.data l) (ib.data l)
    have hk : ∀ l, l ∈ sa.queryData.map (·.1) ↔ l ∈ sb.queryData.map (·.1) := by
      intro l
      rw [ia.labels, ib.labels]
      constructor
      · rintro ⟨e, he, h⟩; exact ⟨e, (same_perm hs).mem_iff.1 he, h⟩
      · rintro ⟨e, he, h⟩; exact ⟨e, (same_perm hs).mem_iff.2 he, h⟩
    have one : ∀ (m m' : List (Bytes × QueryData)), (m.map (·.1)).Nodup →
        (∀ l, dataOf l m = dataOf l m') → (∀ l, l ∈ m.map (·.1) → l ∈ m'.map (·.1)) → ∀ l d, (l, d) ∈ m → (l, d) ∈ m' := by
      intro m m' hn hd hk l d hm
      have h1 := lookup_of_mem hn hm
      have h2 := hk l (List.mem_map.2 ⟨_, hm, rfl⟩)
      rw [← lookup_isSome] at h2
      cases h3 : lookup l m' with
      | none => rw [h3] at h2; cases h2
      | some d' =>
        have := hd l
        unfold dataOf at this
        rw [h1, h3] at this
        simp only [Option.getD_some] at this
        subst this
        exact mem_of_lookup h3
    intro l d
    rw [qa, qb]
    exact ⟨one _ _ ia.dataKeys hd (fun l => (hk l).1) l d, one _ _ ib.dataKeys (fun l => (hd l).symm) (fun l => (hk l).2) l d⟩
  · rw [aa, ab]
    exact artifacts_unique hs (artInv_run hra) (artInv_run hrb)
  · rw [total_of_inv ia] at ta
    rw [total_of_inv ib] at tb
    rw [← Except.ok.inj ta, ← Except.ok.inj tb]
    exact total_same hs

/-- **C36.** For properly nested streams the other interleaving is analysed without a panic too. -/
theorem C36_nested (checks : Bool) (a b : List Event) (hs : SameThreads a b) (hn : ProperlyNested a) (ra : Results)
    (ha : analyze checks a = .ok ra) :
    ∃ rb, analyze checks b = .ok rb ∧ (∀ l d, (l, d) ∈ ra.queryData ↔ (l, d) ∈ rb.queryData) ∧
      ra.artifactSizes = rb.artifactSizes ∧ ra.totalTime = rb.totalTime := by
  obtain ⟨sa, hra, -, -, -⟩ := analyze_run ha
  obtain ⟨st, hst⟩ := run_succeeds (checks := checks) (nested_same hs hn) (by
    cases hc : checks with
    | false => exact Or.inl rfl
    | true =>
      right
      intro l
      rw [← artifact_same hs]
      exact (artInv_run hra).bound hc l)
  obtain ⟨rb, hrb⟩ := analyze_of_run hst
  exact ⟨rb, hrb, C36_interleaving checks a b hs ra rb ha hrb⟩

/-! ## C37 -/

/-- **C37.** Whatever the stream, the counts and plain sums of a label are those of its events: every interval counts as an
invocation unless it is a load or hashing interval, and so does every cache hit; a query or generic activity is a cache
miss; the time includes everything except hashing. -/
theorem C37_counts (checks : Bool) (es : List Event) (r : Results) (h : analyze checks es = .ok r)
    (l : Bytes) (d : QueryData) (hd : (l, d) ∈ r.queryData) :
    d.invocationCount =
      countOf (fun e => hasLabel l e && isInterval e && !hasKind "IncrementalLoadResult" e && !hasKind "IncrementalResultHashing" e) es
      + countOf (fun e => hasLabel l e && isInstant e && hasKind "QueryCacheHit" e) es ∧
    d.numberOfCacheMisses =
      countOf (fun e => hasLabel l e && isInterval e && (hasKind "Query" e || hasKind "GenericActivity" e)) es ∧
    d.numberOfCacheHits = countOf (fun e => hasLabel l e && isInstant e && hasKind "QueryCacheHit" e) es ∧
    d.time = timeOf (fun e => hasLabel l e && !hasKind "IncrementalResultHashing" e) es ∧
    d.blockedTime = timeOf (fun e => hasLabel l e && hasKind "QueryBlocked" e) es := by
  have hi := data_of_entry h hd
  refine ⟨?_, hi.misses, hi.hits, hi.time, hi.blocked⟩
  rw [hi.count]
  clear hd hi h
  induction es with
  | nil => rfl
  | cons e es ih =>
    rw [countOf_cons, countOf_cons, countOf_cons, ih]
    have hx : isInterval e = true → isInstant e = false := by
      intro hi
      cases hb : isInstant e with
      | false => rfl
      | true => rw [isInterval, isInstant_times hb] at hi; cases hi
    unfold isHash isLoad
    cases h1 : hasLabel l e <;> cases h2 : isInterval e <;> cases h3 : isInstant e <;>
      cases h4 : hasKind "IncrementalResultHashing" e <;> cases h5 : hasKind "IncrementalLoadResult" e <;>
      cases h6 : hasKind "QueryCacheHit" e <;> simp_all <;> omega

/-- **C37.** On properly nested streams load and hashing times are the self times of the label's intervals of these kinds. -/
theorem C37_incremental (checks : Bool) (es : List Event) (hn : ProperlyNested es) (r : Results)
    (h : analyze checks es = .ok r) (l : Bytes) (d : QueryData) (hd : (l, d) ∈ r.queryData) :
    d.incrementalLoadTime = selfTimeOf (fun e => hasLabel l e && hasKind "IncrementalLoadResult" e) es ∧
    d.incrementalHashingTime = selfTimeOf (fun e => hasLabel l e && hasKind "IncrementalResultHashing" e) es := by
  have hi := data_of_entry h hd
  constructor
  · have h1 := hi.load
    have h2 := selfTimeOf_add hn (fun e => hasLabel l e && hasKind "IncrementalLoadResult" e)
    unfold isLoad at h1
    omega
  · have h1 := hi.hash
    have h2 := selfTimeOf_add hn (fun e => hasLabel l e && hasKind "IncrementalResultHashing" e)
    unfold isHash at h1
    omega

/-! ## C38 -/

/-- **C38.** The total time is the sum, over the threads with intervals, of the time from their first start to their last
end. -/
theorem C38_total_time (checks : Bool) (es : List Event) (r : Results) (h : analyze checks es = .ok r) :
    r.totalTime = ∑ t ∈ threadsOf es, spanLength t es := by
  obtain ⟨st, hr, -, -, ht⟩ := analyze_run h
  rw [total_of_inv (inv_run hr)] at ht
  exact (Except.ok.inj ht).symm

/-- **C38.** Computing the total never fails: the analysis can only fail while it walks the events. -/
theorem C38_total_never_fails (checks : Bool) (es : List Event) (f : Fault) (h : analyze checks es = .error f) :
    steps checks {} es.reverse = .error f := by
  cases hs : steps checks {} es.reverse with
  | error g =>
    unfold analyze at h
    rw [hs] at h
    cases h
    rfl
  | ok st =>
    rw [steps_reverse] at hs
    obtain ⟨r, hr⟩ := analyze_of_run hs
    rw [hr] at h
    cases h

/-! ## C39 -/

/-- **C39.** The artifact sizes: labels in increasing order of their bytes, each label once, exactly the labels of
artifact-size events, each with the sum of their integers modulo 2⁶⁴. -/
theorem C39_artifact_sizes (checks : Bool) (es : List Event) (r : Results) (h : analyze checks es = .ok r) :
    (r.artifactSizes.map (·.1)).Pairwise (· < ·) ∧
    ∀ l v, (l, v) ∈ r.artifactSizes ↔ (∃ e ∈ es, isArtifact l e = true) ∧ v = artifactTotal l es % 2 ^ 64 := by
  obtain ⟨st, hr, -, ha, -⟩ := analyze_run h
  have hi := artInv_run hr
  rw [ha]
  refine ⟨hi.sorted, fun l v => ?_⟩
  rw [← art_lookup hi]
  constructor
  · apply lookup_of_mem
    exact hi.sorted.imp fun {a b} hab heq => by subst heq; exact List.lt_irrefl a hab
  · exact mem_of_lookup

/-- **C39.** With overflow checks the sums are exact: they never exceed the type, or the analysis panics. -/
theorem C39_exact (es : List Event) (r : Results) (h : analyze true es = .ok r) (l : Bytes) (v : Nat)
    (hv : (l, v) ∈ r.artifactSizes) : v = artifactTotal l es := by
  obtain ⟨st, hr, -, -, -⟩ := analyze_run h
  rw [((C39_artifact_sizes true es r h).2 l v).1 hv |>.2, Nat.mod_eq_of_lt ((artInv_run hr).bound rfl l)]

/-! ## C40 -/

/-- **C40.** Properly nested streams are always analysed without a panic (with overflow checks: unless the sizes of one
artifact add up to 2⁶⁴ or more). -/
theorem C40_nested_never_panics (checks : Bool) (es : List Event) (hn : ProperlyNested es)
    (ha : checks = false ∨ ∀ l, artifactTotal l es < 2 ^ 64) : ∃ r, analyze checks es = .ok r := by
  obtain ⟨st, hst⟩ := run_succeeds hn ha
  exact analyze_of_run hst

/-- **C40.** An interval that ends before it starts makes every analysis panic. -/
theorem C40_reversed_panics (checks : Bool) (es : List Event) (e : Event) (s t : Nat) (he : e ∈ es) (ht : times e = some (s, t))
    (hst : t < s) : ∃ f, analyze checks es = .error f := by
  cases h : analyze checks es with
  | error f => exact ⟨f, rfl⟩
  | ok r =>
    obtain ⟨st, hr, -⟩ := analyze_run h
    have := (inv_run hr).forward e he s t ht
    omega

/-- An interval event for the examples. -/
def ev (kind label : String) (thread : UInt32) (s t : Nat) : Event :=
  ⟨utf8 kind, utf8 label, [], .timestamp (.interval s t), thread⟩

/-- **C40.** The desired claim — an answer for every stream — is false: two intervals that overlap without nesting,
recorded in the order of their ends, inside a third make the analysis panic although every interval is forward. -/
theorem C40_overlap_panics (checks : Bool) :
    analyze checks [ev "Query" "a" 0 0 8, ev "Query" "b" 0 2 10, ev "Query" "p" 0 0 10] =
      .error (.panic "overflow when subtracting durations") := by
  cases checks <;> decide +kernel

/-! ## A concrete stream -/

/-- The stream of the documentation, on two interleaved threads, with a cache hit, artifact sizes and hashing. -/
def exStream : List Event :=
  [ev "Query" "e2" 0 5 10, ev "Query" "e2" 1 7 9, ev "Query" "e4" 0 17 19, ⟨utf8 "ArtifactSize", utf8 "o", [], .integer 7, 0⟩,
   ev "IncrementalResultHashing" "e3" 0 15 20, ⟨utf8 "QueryCacheHit", utf8 "e4", [], .timestamp (.instant 21), 0⟩,
   ev "GenericActivity" "e1" 0 0 25, ⟨utf8 "ArtifactSize", utf8 "a", [], .integer 3, 1⟩,
   ⟨utf8 "ArtifactSize", utf8 "o", [], .integer 5, 1⟩, ev "QueryBlocked" "e5" 1 6 9]

/-- The same stream, one thread after the other. -/
def exStream' : List Event :=
  exStream.filter (fun e => e.threadId = 1) ++ exStream.filter (fun e => e.threadId = 0)

theorem inOrder_iff (a b : Event) : InOrder a b ↔ (match times a, times b with
    | some (s, t), some (s', t') => decide (a.threadId ≠ b.threadId) || (decide (t ≤ t') && (decide (s' ≤ s) || decide (t ≤ s')))
    | _, _ => true) = true := by
  unfold InOrder
  cases times a with
  | none => simp
  | some x =>
    cases times b with
    | none => simp
    | some y =>
      obtain ⟨s, t⟩ := x; obtain ⟨s', t'⟩ := y
      simp only [Option.some.injEq, Prod.mk.injEq, and_imp]
      by_cases h : a.threadId = b.threadId
      · simp only [h, ne_eq, not_true_eq_false, decide_false, Bool.false_or, Bool.and_eq_true, Bool.or_eq_true, decide_eq_true_eq]
        constructor
        · intro hh; exact hh _ _ _ _ rfl rfl rfl rfl trivial
        · rintro hh _ _ _ _ rfl rfl rfl rfl _; exact hh
      · simp [h]

instance (a b : Event) : Decidable (InOrder a b) := decidable_of_iff _ (inOrder_iff a b).symm

theorem forward_iff (e : Event) : Forward e ↔ (match times e with
    | some (s, t) => decide (s ≤ t)
    | none => true) = true := by
  unfold Forward
  cases times e with
  | none => simp
  | some x => obtain ⟨s, t⟩ := x; simp

instance (e : Event) : Decidable (Forward e) := decidable_of_iff _ (forward_iff e).symm

instance (es : List Event) : Decidable (ProperlyNested es) := by unfold ProperlyNested; infer_instance

theorem exStream_nested : ProperlyNested exStream := by decide +kernel

theorem exStream_analysed : (analyze true exStream).map (fun r => (r.queryData, r.artifactSizes, r.totalTime)) = .ok
    ([(utf8 "e5", { time := 3, selfTime := 1, invocationCount := 1, blockedTime := 3 }),
      (utf8 "e1", { time := 25, selfTime := 15, numberOfCacheMisses := 1, invocationCount := 1 }),
      (utf8 "e4", { time := 2, selfTime := 2, numberOfCacheMisses := 1, numberOfCacheHits := 1, invocationCount := 2 }),
      (utf8 "e3", { selfTime := 3, incrementalHashingTime := 3 }),
      (utf8 "e2", { time := 7, selfTime := 7, numberOfCacheMisses := 2, invocationCount := 2 })],
     [(utf8 "a", 3), (utf8 "o", 12)], 28) := by decide +kernel

example : ∃ r, analyze true exStream = .ok r ∧ (utf8 "e1", { time := 25, selfTime := 15, numberOfCacheMisses := 1, invocationCount := 1 }) ∈ r.queryData := by
  have h := exStream_analysed
  cases hr : analyze true exStream with
  | error f => rw [hr] at h; cases h
  | ok r =>
    rw [hr] at h
    simp only [Except.map, Except.ok.injEq, Prod.mk.injEq] at h
    exact ⟨r, rfl, by rw [h.1]; simp⟩

example : (∀ t, exStream.filter (fun e => decide (e.threadId = t)) = exStream'.filter (fun e => decide (e.threadId = t))) ∧
    exStream ≠ exStream' := by
  constructor
  · intro t
    by_cases h0 : t = 0
    · subst h0; decide +kernel
    · by_cases h1 : t = 1
      · subst h1; decide +kernel
      · have : ∀ es : List Event, (∀ e ∈ es, e.threadId = 0 ∨ e.threadId = 1) → es.filter (fun e => decide (e.threadId = t)) = [] := by
          intro es hes
          apply List.filter_eq_nil_iff.2
          intro e he
          rcases hes e he with h | h <;> simp [h, Ne.symm h0, Ne.symm h1]
        rw [this exStream (by decide +kernel), this exStream' (by decide +kernel)]
  · decide +kernel

example : (∀ l, artifactTotal l exStream < 2 ^ 64) := by
  intro l
  have : ∀ es : List Event, artifactTotal l es ≤ (es.map intOf).sum := by
    intro es
    induction es with
    | nil => simp [artifactTotal]
    | cons e es ih =>
      rw [artifactTotal_cons]
      simp only [List.map_cons, List.sum_cons]
      split <;> omega
  have h2 : (exStream.map intOf).sum = 15 := by decide +kernel
  have := this exStream
  omega

/-- A reversed interval. -/
example : ∃ f, analyze false [ev "Query" "a" 0 3 2] = .error f :=
  C40_reversed_panics false _ (ev "Query" "a" 0 3 2) 3 2 (by simp) rfl (by decide)

end Verif.Props
