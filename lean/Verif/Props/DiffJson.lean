import Verif.Proofs.DiffJson
import Verif.Props.JsonFiles
import Verif.Props.Diff

/-! # Property C71: the file of `summarize diff --json` -/

namespace Verif.Props
open Verif Verif.Mm Verif.Spec Verif.Decode Verif.Analyze Verif.Tools Verif.Paths Verif.Json Verif.Diff

/-- **C71.** `summarize diff --json` writes a JSON document with one meaning: the difference of the two results, row by row.  `percent` is
how a finite floating-point number is written. -/
theorem C71_document (env : Env) (order : List Bytes → List Bytes) (ho : ∀ l, (order l).Perm l) (percent : Int → Nat → Bytes)
    (hp : ∀ d b, b ≠ 0 → JsonNumber (percent d b) (.real (percent d b))) (base change dir name : Bytes) (hn : Names change dir name) (rb rc : Results)
    (hb : processResults readResults (performAnalysis env.checks) env.v8New env.fuel env.files base = .ok rb)
    (hc : processResults readResults (performAnalysis env.checks) env.v8New env.fuel env.files change = .ok rc) (mb : Modest rb) (mc : Modest rc) :
    ∃ path text v, diffJsonTool env order percent base change = .ok (path, text) ∧ SavedDiff percent rb rc v ∧ (∀ w, JsonDocument text w ↔ w = v) ∧
      (∀ st ext, HasExtension name st ext → path = dir ++ st ++ utf8 ".json") ∧
      ((∀ st ext, ¬ HasExtension name st ext) → path = dir ++ name ++ utf8 ".json") := by
  obtain ⟨r, hr, hd⟩ := C50_difference env.checks order ho rb rc mb mc
  have hdoc := render_document (writable_diff hp r)
  refine ⟨resultsPath change, _, diffValue percent r, ?_, saved_diff percent hd, fun w => ⟨fun hw => document_unique hw hdoc, fun hw => hw ▸ hdoc⟩,
    results_path_named hn⟩
  simp only [diffJsonTool, diffTool, bind, Except.bind, hb, hc, hr]

/-- **C71.** A relative change is `null` exactly for a new item and for an item that took no time in the base; an item that is gone never
has `null`. -/
theorem C71_null_changes (percent : Int → Nat → Bytes) (f : QueryData → Nat) (l : Bytes) (base change : List (Bytes × QueryData)) (v : Value)
    (h : SavedChange percent f l base change v) :
    v = .null ↔ latest l base = none ∨ (latest l change ≠ none ∧ ∃ b, latest l base = some b ∧ f b = 0) := by
  unfold SavedChange at h
  cases hb : latest l base with
  | none => rw [hb] at h; simp [h]
  | some b =>
    rw [hb] at h
    cases hc : latest l change with
    | none => rw [hc] at h; simp only [] at h; subst h; simp
    | some c =>
      rw [hc] at h
      simp only [] at h
      rcases h with ⟨h1, h2⟩ | ⟨h1, h2⟩
      · subst h2; simp [h1]
      · subst h2; simp [h1]

/-- **C71.** The file is written under the name of the results of the changed profile: `summarize diff --json` and `summarize --json` write
to the same path. -/
theorem C71_same_path (env : Env) (order : List Bytes → List Bytes) (percent : Int → Nat → Bytes) (base change path text path' text' : Bytes)
    (h : diffJsonTool env order percent base change = .ok (path, text)) (h' : summarizeJsonTool env change = .ok (path', text')) : path = path' := by
  simp only [diffJsonTool, bind, Except.bind] at h
  split at h
  · cases h
  · injection h with h
    injection h with h _
    simp only [summarizeJsonTool, bind, Except.bind] at h'
    split at h'
    · cases h'
    · split at h'
      · cases h'
      · injection h' with h'
        injection h' with h' _
        rw [← h, ← h']

/-! ## A concrete case -/

/-- A way to write percentages: whole ones. -/
def exPercent (d : Int) (b : Nat) : Bytes := (if d < 0 then [0x2D] else []) ++ utf8 (decimal (d.natAbs * 100 / b)) ++ [0x2E, 0x30]

theorem exPercent_number (d : Int) (b : Nat) : JsonNumber (exPercent d b) (.real (exPercent d b)) := by
  have hi : JsonInt (utf8 (decimal (d.natAbs * 100 / b))) := decimal_int _
  have := JsonNumber.other (minus := if d < 0 then [0x2D] else []) (frac := [0x2E, 0x30]) (exp := []) (by split <;> simp) hi
    (.inr ⟨[0x30], ⟨by simp, by simp only [List.forall_mem_cons]; exact ⟨by decide, fun _ h => by cases h⟩⟩, rfl⟩) (.inl rfl) (by simp)
  rw [List.append_nil] at this
  exact this

/-- A folder with two saved results. -/
def exDiffEnv : Env :=
  ⟨fun _ => .error .outOfFuel, 0, true, fun p => if p = utf8 "b/json" then some (writeResults exBase) else
    if p = utf8 "c/json" then some (writeResults exChange) else none⟩

theorem exDiff_fits : Fits exBase ∧ Fits exChange := by
  refine ⟨⟨?_, ?_, ?_, ?_, ?_⟩, ⟨?_, ?_, ?_, ?_, ?_⟩⟩ <;> (first | unfold exBase | unfold exChange) <;>
    simp only [List.forall_mem_cons, List.forall_mem_nil] <;> decide +kernel

example : ∃ path text v, diffJsonTool exDiffEnv List.reverse exPercent (utf8 "b/json") (utf8 "c/json") = .ok (path, text) ∧
    SavedDiff exPercent exBase exChange v ∧ (∀ w, JsonDocument text w ↔ w = v) ∧
    (∀ st ext, HasExtension (utf8 "json") st ext → path = utf8 "c/" ++ st ++ utf8 ".json") ∧
    ((∀ st ext, ¬ HasExtension (utf8 "json") st ext) → path = utf8 "c/" ++ utf8 "json" ++ utf8 ".json") := by
  have nb : Names (utf8 "b/json") (utf8 "b/") (utf8 "json") := ⟨⟨[], .nil, by decide +kernel⟩, Or.inr (by decide +kernel), by decide +kernel,
    by decide +kernel, by decide +kernel, by decide +kernel⟩
  have nc : Names (utf8 "c/json") (utf8 "c/") (utf8 "json") := ⟨⟨[], .nil, by decide +kernel⟩, Or.inr (by decide +kernel), by decide +kernel,
    by decide +kernel, by decide +kernel, by decide +kernel⟩
  refine C71_document exDiffEnv List.reverse (fun l => List.reverse_perm l) exPercent (fun d b _ => exPercent_number d b) _ _ _ _ nc _ _ ?_ ?_
    exBase_modest.1 exBase_modest.2
  · rw [(C52_json_iff _ _ _ _ _ _).1 ⟨_, nb⟩ (writeResults exBase) (by simp [exDiffEnv])]
    exact C69_round_trip _ exDiff_fits.1
  · rw [(C52_json_iff _ _ _ _ _ _).1 ⟨_, nc⟩ (writeResults exChange) (by
      have : utf8 "c/json" ≠ utf8 "b/json" := by decide +kernel
      simp [exDiffEnv, this])]
    exact C69_round_trip _ exDiff_fits.2

example : render (changeValue exPercent (.percent (-10) 50)) = utf8 "-20.0" ∧ render (intValue (-3)) = utf8 "-3" ∧
    render (signedValue ⟨1500000000, false⟩) = utf8 "{\"duration\":{\"secs\":1,\"nanos\":500000000},\"is_positive\":false}" ∧
    render (changeValue exPercent .new) = utf8 "null" := by decide +kernel

example : (calculateDiff true id ⟨[], [(utf8 "p", 7)], 90⟩ ⟨[], [(utf8 "o", 5)], 80⟩).map (fun r => render (diffValue exPercent r)) =
    .ok (utf8 ("{\"query_data\":[],\"artifact_sizes\":[{\"label\":\"o\",\"size_change\":5},{\"label\":\"p\",\"size_change\":-7}]," ++
      "\"total_time\":{\"duration\":{\"secs\":0,\"nanos\":10},\"is_positive\":false}}")) := by
  decide +kernel

end Verif.Props
