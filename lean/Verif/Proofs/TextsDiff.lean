import Verif.Proofs.TextsTools
import Verif.Proofs.DiffJson

/-! # Text in a difference -/

namespace Verif.Proofs

open Verif Verif.Mm Verif.Decode Verif.Paths Verif.Spec Verif.Analyze Verif.Json Verif.Diff Verif.Tools

theorem fetch_mem {α : Type} {data : List (Bytes × α)} {m : List (Bytes × Nat)} {l : Bytes} {d : Bytes × α} (h : fetch data m l = .ok (some d)) :
    d ∈ data := by
  unfold fetch at h
  split at h
  · cases h
  · split at h
    · rename_i hd
      injection h with h
      injection h with h
      rw [← h]
      exact List.mem_of_getElem? hd
    · cases h

theorem mapAll_mem {α β : Type} {f : α → Except Fault β} : ∀ {l : List α} {bs : List β}, mapAll f l = .ok bs → ∀ b ∈ bs, ∃ a ∈ l, f a = .ok b
  | [], bs, h, b, hb => by
    injection h with h
    rw [← h] at hb
    cases hb
  | a :: as, bs, h, b, hb => by
    simp only [mapAll, bind, Except.bind] at h
    split at h
    · cases h
    · rename_i x hx
      split at h
      · cases h
      · rename_i xs hxs
        injection h with h
        rw [← h] at hb
        rcases List.mem_cons.mp hb with rfl | hb
        · exact ⟨a, by simp, hx⟩
        · obtain ⟨c, hc, e⟩ := mapAll_mem hxs b hb
          exact ⟨c, by simp [hc], e⟩

theorem sub_label {checks : Bool} {l : Bytes} {c b : QueryData} {q : QueryDataDiff} (h : QueryDataDiff.sub checks l c b = .ok q) : q.label = l := by
  simp only [QueryDataDiff.sub, bind, Except.bind] at h
  repeat' split at h
  all_goals first
    | cases h; done
    | (injection h with h; rw [← h])

theorem invert_label {checks : Bool} {l : Bytes} {b : QueryData} {q : QueryDataDiff} (h : QueryDataDiff.invert checks l b = .ok q) : q.label = l := by
  simp only [QueryDataDiff.invert, bind, Except.bind] at h
  repeat' split at h
  all_goals first
    | cases h; done
    | (injection h with h; rw [← h])

theorem queryDiff_label {checks : Bool} {base change : List (Bytes × QueryData)} {l : Bytes} {q : QueryDataDiff}
    (h : queryDiff checks base change l = .ok q) : ∃ d, (d ∈ base ∨ d ∈ change) ∧ q.label = d.1 := by
  simp only [queryDiff, bind, Except.bind] at h
  cases hb : fetch base (buildLookup base) l with
  | error f => rw [hb] at h; cases h
  | ok b =>
    rw [hb] at h
    simp only [] at h
    cases hc : fetch change (buildLookup change) l with
    | error f => rw [hc] at h; cases h
    | ok c =>
      rw [hc] at h
      cases b with
      | none =>
        cases c with
        | none => cases h
        | some c => injection h with h; exact ⟨c, .inr (fetch_mem hc), by rw [← h]; rfl⟩
      | some b =>
        cases c with
        | none => exact ⟨b, .inl (fetch_mem hb), invert_label h⟩
        | some c => exact ⟨c, .inr (fetch_mem hc), sub_label h⟩

theorem artifactDiff_label {checks : Bool} {base change : List (Bytes × Nat)} {l : Bytes} {a : ArtifactSizeDiff}
    (h : artifactDiff checks base change l = .ok a) : ∃ d, (d ∈ base ∨ d ∈ change) ∧ a.label = d.1 := by
  simp only [artifactDiff, bind, Except.bind] at h
  cases hb : fetch base (buildLookup base) l with
  | error f => rw [hb] at h; cases h
  | ok b =>
    rw [hb] at h
    simp only [] at h
    cases hc : fetch change (buildLookup change) l with
    | error f => rw [hc] at h; cases h
    | ok c =>
      rw [hc] at h
      cases b with
      | none =>
        cases c with
        | none => cases h
        | some c => injection h with h; exact ⟨c, .inr (fetch_mem hc), by rw [← h]⟩
      | some b =>
        cases c with
        | none =>
          simp only [] at h
          split at h
          · cases h
          · injection h with h; exact ⟨b, .inl (fetch_mem hb), by rw [← h]⟩
        | some c =>
          simp only [] at h
          split at h
          · cases h
          · injection h with h; exact ⟨c, .inr (fetch_mem hc), by rw [← h]⟩

/-- Labels of a difference are labels of one of the results. -/
theorem diff_labels {checks : Bool} {order : List Bytes → List Bytes} {base change : Results} {r : DiffResults}
    (h : calculateDiff checks order base change = .ok r) :
    (∀ q ∈ r.queryData, ∃ d, (d ∈ base.queryData ∨ d ∈ change.queryData) ∧ q.label = d.1) ∧
    (∀ a ∈ r.artifactSizes, ∃ d, (d ∈ base.artifactSizes ∨ d ∈ change.artifactSizes) ∧ a.label = d.1) := by
  simp only [calculateDiff, bind, Except.bind] at h
  split at h
  · cases h
  · rename_i qs hq
    split at h
    · cases h
    · rename_i as ha
      injection h with h
      subst h
      constructor
      · intro q hm
        obtain ⟨l, _, e⟩ := mapAll_mem hq q ((List.mem_insertionSort _).mp hm)
        exact queryDiff_label e
      · intro a hm
        obtain ⟨l, _, e⟩ := mapAll_mem ha a ((List.mem_insertionSort _).mp hm)
        exact artifactDiff_label e

theorem mapM_some_mem {α β : Type} {f : α → Option β} : ∀ {l : List α} {bs : List β}, l.mapM f = some bs → ∀ b ∈ bs, ∃ a ∈ l, f a = some b := by
  intro l
  induction l with
  | nil => intro bs h b hb; simp at h; subst h; cases hb
  | cons a as ih =>
    intro bs h b hb
    rw [List.mapM_cons] at h
    simp only [Option.bind_eq_bind, Option.bind_eq_some_iff] at h
    obtain ⟨x, hx, xs, hxs, h⟩ := h
    injection h with h
    rw [← h] at hb
    rcases List.mem_cons.mp hb with rfl | hb
    · exact ⟨a, by simp, hx⟩
    · obtain ⟨c, hc, e⟩ := ih hxs b hb
      exact ⟨c, by simp [hc], e⟩

theorem textOf_text {v : Value} {s : Bytes} (h : textOf v = some s) : IsText s := by
  unfold textOf at h
  split at h
  · split at h
    · injection h with h; subst h; exact isText_of_valid ‹_›
    · cases h
  · cases h

theorem queryOf_text {v : Value} {q : Bytes × QueryData} (h : queryOf v = some q) : IsText q.1 := by
  unfold queryOf at h
  split at h
  · simp only [Option.bind_eq_bind, Option.bind_eq_some_iff] at h
    obtain ⟨x, hx, h⟩ := h
    have : q.1 = x := by
      obtain ⟨_, _, _, _, _, _, _, _, _, _, _, _, _, _, _, _, h⟩ := h
      injection h with h
      rw [← h]
    rw [this]
    exact textOf_text hx
  · cases h

theorem artifactOf_text {v : Value} {q : Bytes × Nat} (h : artifactOf v = some q) : IsText q.1 := by
  unfold artifactOf at h
  split at h
  · simp only [Option.bind_eq_bind, Option.bind_eq_some_iff] at h
    obtain ⟨x, hx, h⟩ := h
    have : q.1 = x := by
      obtain ⟨_, _, h⟩ := h
      injection h with h
      rw [← h]
    rw [this]
    exact textOf_text hx
  · cases h

theorem listOf_mem {α : Type} {f : Value → Option α} {v : Value} {as : List α} (h : listOf f v = some as) : ∀ a ∈ as, ∃ w, f w = some a := by
  unfold listOf at h
  split at h
  · intro a ha
    obtain ⟨w, _, e⟩ := mapM_some_mem h a ha
    exact ⟨w, e⟩
  · cases h

theorem resultsOf_text {v : Value} {r : Results} (h : resultsOf v = some r) : (∀ q ∈ r.queryData, IsText q.1) ∧ (∀ a ∈ r.artifactSizes, IsText a.1) := by
  unfold resultsOf at h
  split at h
  · simp only [Option.bind_eq_bind, Option.bind_eq_some_iff] at h
    obtain ⟨q, hq, a, ha, _, _, h⟩ := h
    injection h with h
    subst h
    exact ⟨fun x hx => (listOf_mem hq x hx).elim fun _ e => queryOf_text e, fun x hx => (listOf_mem ha x hx).elim fun _ e => artifactOf_text e⟩
  · cases h

theorem processResults_text {env : Env} (hv : ∀ data d, env.v8New data = .ok d → OldText d) {file : Bytes} {r : Results}
    (h : processResults readResults (performAnalysis env.checks) env.v8New env.fuel env.files file = .ok r) :
    (∀ q ∈ r.queryData, IsText q.1) ∧ (∀ a ∈ r.artifactSizes, IsText a.1) := by
  unfold processResults at h
  split at h
  · split at h
    · unfold readResults at h
      split at h
      · cases h
      · split at h
        · injection h with h; subst h; exact resultsOf_text ‹_›
        · cases h
    · cases h
  · simp only [bind, Except.bind] at h
    split at h
    · cases h
    · rename_i p hp
      exact analysis_text (open_text hv hp) h

theorem members_text {l : List (String × Value)} (h : ∀ x ∈ l, AllText x.2) : AllText (.obj (l.map fun x => (utf8 x.1, x.2))) := by
  refine allText_members ?_
  intro f hf
  obtain ⟨x, hx, rfl⟩ := List.mem_map.mp hf
  exact ⟨isText_utf8 _, h x hx⟩

theorem signedValue_text (d : SignedDuration) : AllText (signedValue d) :=
  members_text (l := [("duration", durationValue d.duration), ("is_positive", .bool d.isPositive)])
    (by simp only [List.forall_mem_cons]; exact ⟨durationValue_text _, .bool _, fun _ h => by cases h⟩)

theorem intValue_text (n : Int) : AllText (intValue n) := by
  unfold intValue
  split
  · exact .num _
  · refine .real ?_
    have : (0x2D :: utf8 (decimal n.natAbs) : Bytes) = utf8 ("-" ++ decimal n.natAbs) := by
      rw [utf8_append, show utf8 "-" = [0x2D] by decide +kernel]; rfl
    rw [this]
    exact isText_utf8 _

theorem changeValue_text {percent : Int → Nat → Bytes} (hp : ∀ d b, b ≠ 0 → IsText (percent d b)) (c : Change) : AllText (changeValue percent c) := by
  cases c with
  | percent d b =>
    simp only [changeValue]
    split
    · exact .null
    · exact .real (hp _ _ ‹_›)
  | gone => exact .real (isText_utf8 _)
  | new => exact .null

theorem diffValue_text {percent : Int → Nat → Bytes} (hp : ∀ d b, b ≠ 0 → IsText (percent d b)) {r : DiffResults}
    (hq : ∀ q ∈ r.queryData, IsText q.label) (ha : ∀ a ∈ r.artifactSizes, IsText a.label) : AllText (diffValue percent r) := by
  refine members_text (l := [("query_data", .arr (r.queryData.map (queryDiffValue percent))), ("artifact_sizes", .arr (r.artifactSizes.map artifactDiffValue)),
    ("total_time", signedValue r.totalTime)]) ?_
  simp only [List.forall_mem_cons]
  refine ⟨.arr ?_, .arr ?_, signedValue_text _, fun _ h => by cases h⟩
  · intro v hv
    obtain ⟨q, hm, rfl⟩ := List.mem_map.mp hv
    refine members_text (l := [("label", .str q.label), ("time", signedValue q.time), ("time_change", changeValue percent q.timeChange),
      ("self_time", signedValue q.selfTime), ("self_time_change", changeValue percent q.selfTimeChange),
      ("number_of_cache_misses", intValue q.numberOfCacheMisses), ("number_of_cache_hits", intValue q.numberOfCacheHits),
      ("invocation_count", intValue q.invocationCount), ("blocked_time", signedValue q.blockedTime),
      ("incremental_load_time", signedValue q.incrementalLoadTime), ("incremental_hashing_time", signedValue q.incrementalHashingTime)]) ?_
    simp only [List.forall_mem_cons]
    exact ⟨.str (hq q hm), signedValue_text _, changeValue_text hp _, signedValue_text _, changeValue_text hp _, intValue_text _, intValue_text _,
      intValue_text _, signedValue_text _, signedValue_text _, signedValue_text _, fun _ h => by cases h⟩
  · intro v hv
    obtain ⟨a, hm, rfl⟩ := List.mem_map.mp hv
    refine members_text (l := [("label", .str a.label), ("size_change", intValue a.sizeChange)]) ?_
    simp only [List.forall_mem_cons]
    exact ⟨.str (ha a hm), intValue_text _, fun _ h => by cases h⟩

end Verif.Proofs
