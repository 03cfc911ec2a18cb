import Verif.Proofs.JsonFiles
import Verif.Spec.DiffJson

/-! # The document of `summarize diff --json` -/

namespace Verif.Json

open Verif Verif.Mm Verif.Analyze Verif.Spec Verif.Diff

theorem utf8_minus (s : String) : utf8 ("-" ++ s) = 0x2D :: utf8 s := by
  rw [show utf8 ("-" ++ s) = utf8 "-" ++ utf8 s from utf8_append _ _]
  rfl

theorem saved_int (n : Int) : SavedInt n (intValue n) := by
  unfold intValue
  split
  · exact .inl ⟨n.natAbs, by omega, rfl⟩
  · refine .inr ⟨n.natAbs, by omega, by omega, ?_⟩
    rw [utf8_minus, decimal_eq_toString]

theorem decimal_int (n : Nat) : JsonInt (utf8 (decimal n)) := by
  have h := decimal_number n
  generalize utf8 (decimal n) = t at h
  generalize hv : Value.num n = v at h
  cases h with
  | plain hi => exact hi
  | other => cases hv

theorem minus_number (n : Nat) : JsonNumber (0x2D :: utf8 (decimal n)) (.real (0x2D :: utf8 (decimal n))) := by
  have hi := decimal_int n
  have := JsonNumber.other (minus := [0x2D]) (frac := []) (exp := []) (.inr rfl) hi (.inl rfl) (.inl rfl) (by simp)
  simpa using this

theorem writable_int (n : Int) : Writable (intValue n) := by
  unfold intValue
  split
  · exact .num _
  · exact .real (minus_number _)

theorem signed_names : [utf8 "duration", utf8 "is_positive"].Nodup := by decide +kernel

theorem saved_signed (d : SignedDuration) : SavedSigned (signed d) (signedValue d) := by
  refine ⟨_, _, field_of_mem signed_names (.head _), ?_, field_of_mem signed_names (.tail _ (.head _)), ?_, ?_, _, rfl, ?_⟩
  · have : (signed d).natAbs = d.duration := by unfold signed; split <;> omega
    rw [this]
    exact saved_duration _
  · intro h
    unfold signed at h
    split at h
    · assumption
    · omega
  · intro h
    unfold signed at h
    split at h
    · omega
    · exact Bool.eq_false_iff.mpr ‹_›
  · simp only [List.forall_mem_cons]
    exact ⟨⟨_, by simp, rfl⟩, ⟨_, by simp, rfl⟩, fun _ h => by cases h⟩

theorem writable_signed (d : SignedDuration) : Writable (signedValue d) := by
  refine .obj ?_
  simp only [List.forall_mem_cons]
  exact ⟨writable_duration _, .bool _, fun _ h => by cases h⟩

theorem saved_change (percent : Int → Nat → Bytes) (f : QueryData → Nat) (l : Bytes) (base change : List (Bytes × QueryData)) :
    SavedChange percent f l base change (changeValue percent (relative f l base change)) := by
  unfold SavedChange relative
  cases latest l base with
  | none => rfl
  | some b =>
    cases latest l change with
    | none => rfl
    | some c =>
      simp only [changeValue]
      by_cases h : f b = 0
      · exact .inl ⟨h, by rw [if_pos h]⟩
      · exact .inr ⟨h, by rw [if_neg h]⟩

theorem hundred_number : JsonNumber (utf8 "-100.0") (.real (utf8 "-100.0")) := by
  have e : utf8 "-100.0" = [0x2D] ++ [0x31, 0x30, 0x30] ++ [0x2E, 0x30] ++ [] := by decide +kernel
  rw [e]
  refine .other (.inr rfl) ⟨⟨by simp, ?_⟩, .inr (by decide)⟩ (.inr ⟨[0x30], ⟨by simp, ?_⟩, rfl⟩) (.inl rfl) (by simp)
  · simp only [List.forall_mem_cons]
    exact ⟨by decide, by decide, by decide, fun _ h => by cases h⟩
  · simp only [List.forall_mem_cons]
    exact ⟨by decide, fun _ h => by cases h⟩

theorem writable_change {percent : Int → Nat → Bytes} (hp : ∀ d b, b ≠ 0 → JsonNumber (percent d b) (.real (percent d b))) (c : Change) :
    Writable (changeValue percent c) := by
  cases c with
  | percent d b =>
    simp only [changeValue]
    split
    · exact .null
    · exact .real (hp _ _ ‹_›)
  | gone => exact .real hundred_number
  | new => exact .null

theorem only_of {fs : List (Bytes × Value)} {names : List String} (h : fs.map (·.1) = names.map utf8) : OnlyFields (.obj fs) names := by
  refine ⟨fs, rfl, fun f hf => ?_⟩
  have : f.1 ∈ fs.map (·.1) := List.mem_map_of_mem hf
  rw [h] at this
  obtain ⟨n, hn, e⟩ := List.mem_map.mp this
  exact ⟨n, hn, e.symm⟩

theorem diff_names : [utf8 "label", utf8 "time", utf8 "time_change", utf8 "self_time", utf8 "self_time_change", utf8 "number_of_cache_misses",
    utf8 "number_of_cache_hits", utf8 "invocation_count", utf8 "blocked_time", utf8 "incremental_load_time", utf8 "incremental_hashing_time"].Nodup := by
  decide +kernel

theorem saved_row (percent : Int → Nat → Bytes) {base change : List (Bytes × QueryData)} {q : QueryDataDiff} (h : RowDiff base change q) :
    SavedDiffRow percent base change q.label (queryDiffValue percent q) := by
  refine ⟨_, _, _, _, _, _, _, _, _, _, field_of_mem diff_names (.head _), field_of_mem diff_names (.tail _ (.head _)), h.time ▸ saved_signed _,
    field_of_mem diff_names (.tail _ (.tail _ (.head _))), h.timeChange ▸ saved_change _ _ _ _ _,
    field_of_mem diff_names (.tail _ (.tail _ (.tail _ (.head _)))), h.selfTime ▸ saved_signed _,
    field_of_mem diff_names (.tail _ (.tail _ (.tail _ (.tail _ (.head _))))), h.selfTimeChange ▸ saved_change _ _ _ _ _,
    field_of_mem diff_names (.tail _ (.tail _ (.tail _ (.tail _ (.tail _ (.head _)))))), h.misses ▸ saved_int _,
    field_of_mem diff_names (.tail _ (.tail _ (.tail _ (.tail _ (.tail _ (.tail _ (.head _))))))), h.hits ▸ saved_int _,
    field_of_mem diff_names (.tail _ (.tail _ (.tail _ (.tail _ (.tail _ (.tail _ (.tail _ (.head _)))))))), h.count ▸ saved_int _,
    field_of_mem diff_names (.tail _ (.tail _ (.tail _ (.tail _ (.tail _ (.tail _ (.tail _ (.tail _ (.head _))))))))), h.blocked ▸ saved_signed _,
    field_of_mem diff_names (.tail _ (.tail _ (.tail _ (.tail _ (.tail _ (.tail _ (.tail _ (.tail _ (.tail _ (.head _)))))))))), h.load ▸ saved_signed _,
    field_of_mem diff_names (.tail _ (.tail _ (.tail _ (.tail _ (.tail _ (.tail _ (.tail _ (.tail _ (.tail _ (.tail _ (.head _))))))))))),
    h.hashing ▸ saved_signed _, only_of rfl⟩

theorem results_names3 : [utf8 "query_data", utf8 "artifact_sizes", utf8 "total_time"].Nodup := by decide +kernel

theorem artifact_diff_names : [utf8 "label", utf8 "size_change"].Nodup := by decide +kernel

theorem saved_diff (percent : Int → Nat → Bytes) {base change : Results} {r : DiffResults} (h : IsDiff base change r) :
    SavedDiff percent base change (diffValue percent r) := by
  refine ⟨_, _, _, r.queryData.map (·.label), r.artifactSizes.map (·.label), field_of_mem results_names3 (.head _), ?_, h.distinct, h.labels, ?_,
    field_of_mem results_names3 (.tail _ (.head _)), ?_, h.artifactsDistinct, h.artifactLabels, ?_,
    field_of_mem results_names3 (.tail _ (.tail _ (.head _))), h.total ▸ saved_signed _, only_of rfl⟩
  · rw [List.forall₂_map_left_iff, List.forall₂_map_right_iff]
    exact List.forall₂_same.mpr fun q hq => saved_row percent (h.rows q hq)
  · rw [List.pairwise_map]
    refine h.sorted.imp_of_mem ?_
    intro a b ha hb hab
    rwa [← (h.rows a ha).selfTime, ← (h.rows b hb).selfTime]
  · rw [List.forall₂_map_left_iff, List.forall₂_map_right_iff]
    exact List.forall₂_same.mpr fun a ha => ⟨_, field_of_mem artifact_diff_names (.head _), field_of_mem artifact_diff_names (.tail _ (.head _)),
      h.artifacts a ha ▸ saved_int _, only_of rfl⟩
  · rw [List.pairwise_map]
    refine h.artifactsSorted.imp_of_mem ?_
    intro a b ha hb hab
    rwa [← h.artifacts a ha, ← h.artifacts b hb]

theorem writable_diff {percent : Int → Nat → Bytes} (hp : ∀ d b, b ≠ 0 → JsonNumber (percent d b) (.real (percent d b))) (r : DiffResults) :
    Writable (diffValue percent r) := by
  refine .obj ?_
  simp only [List.forall_mem_cons]
  refine ⟨.arr ?_, .arr ?_, writable_signed _, fun _ h => by cases h⟩
  · intro v hv
    obtain ⟨q, _, rfl⟩ := List.mem_map.mp hv
    refine .obj ?_
    simp only [List.forall_mem_cons]
    exact ⟨.str _, writable_signed _, writable_change hp _, writable_signed _, writable_change hp _, writable_int _, writable_int _, writable_int _,
      writable_signed _, writable_signed _, writable_signed _, fun _ h => by cases h⟩
  · intro v hv
    obtain ⟨a, _, rfl⟩ := List.mem_map.mp hv
    refine .obj ?_
    simp only [List.forall_mem_cons]
    exact ⟨.str _, writable_int _, fun _ h => by cases h⟩

end Verif.Json
