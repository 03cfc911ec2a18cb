import Verif.Proofs.TextsDiff
import Verif.Props.DiffJson

/-! # C76, continued: the file of `summarize diff --json` -/

namespace Verif.Props

open Verif Verif.Mm Verif.Decode Verif.Paths Verif.Spec Verif.Analyze Verif.Json Verif.Proofs Verif.Tools Verif.Diff

/-- **C76.** The file of `summarize diff --json` is text, whatever the two inputs contain, profiles or saved results. -/
theorem C76_diff_file (env : Env) (hv : ∀ data d, env.v8New data = .ok d → OldText d) (order : List Bytes → List Bytes)
    (percent : Int → Nat → Bytes) (hp : ∀ d b, b ≠ 0 → IsText (percent d b)) (base change path file : Bytes)
    (h : diffJsonTool env order percent base change = .ok (path, file)) : IsText file := by
  simp only [diffJsonTool, diffTool, bind, Except.bind] at h
  split at h
  · cases h
  · rename_i r hr
    injection h with h
    injection h with _ h
    rw [← h]
    split at hr
    · cases hr
    · rename_i rb hb
      split at hr
      · cases hr
      · rename_i rc hc
        obtain ⟨b1, b2⟩ := processResults_text hv hb
        obtain ⟨c1, c2⟩ := processResults_text hv hc
        obtain ⟨l1, l2⟩ := diff_labels hr
        refine render_text _ (diffValue_text hp ?_ ?_)
        · intro q hq
          obtain ⟨d, hd, e⟩ := l1 q hq
          rw [e]
          exact hd.elim (b1 d) (c1 d)
        · intro a ha
          obtain ⟨d, hd, e⟩ := l2 a ha
          rw [e]
          exact hd.elim (b2 d) (c2 d)

/-- A run that succeeds (`C71_document` gives more): every hypothesis holds of it. -/
example : ∃ path file, diffJsonTool exDiffEnv List.reverse exPercent (utf8 "b/json") (utf8 "c/json") = .ok (path, file) ∧ IsText file := by
  have nb : Names (utf8 "b/json") (utf8 "b/") (utf8 "json") := ⟨⟨[], .nil, by decide +kernel⟩, Or.inr (by decide +kernel), by decide +kernel,
    by decide +kernel, by decide +kernel, by decide +kernel⟩
  have nc : Names (utf8 "c/json") (utf8 "c/") (utf8 "json") := ⟨⟨[], .nil, by decide +kernel⟩, Or.inr (by decide +kernel), by decide +kernel,
    by decide +kernel, by decide +kernel, by decide +kernel⟩
  have hp : ∀ (d : Int) (b : Nat), IsText (exPercent d b) := by
    intro d b
    have e : exPercent d b = utf8 ((if d < 0 then "-" else "") ++ decimal (d.natAbs * 100 / b) ++ ".0") := by
      rw [utf8_append, utf8_append]
      unfold exPercent
      have h1 : utf8 ".0" = [0x2E, 0x30] := by decide +kernel
      have h2 : utf8 "-" = [0x2D] := by decide +kernel
      have h3 : utf8 "" = [] := by decide +kernel
      rw [h1]
      split <;> simp only [h2, h3]
    rw [e]
    exact isText_utf8 _
  obtain ⟨path, file, v, h, _⟩ := C71_document exDiffEnv List.reverse (fun l => List.reverse_perm l) exPercent
    (fun d b _ => exPercent_number d b) _ _ _ _ nc exBase exChange (by
      rw [(C52_json_iff _ _ _ _ _ _).1 ⟨_, nb⟩ (writeResults exBase) (by simp [exDiffEnv])]
      exact C69_round_trip _ exDiff_fits.1) (by
      rw [(C52_json_iff _ _ _ _ _ _).1 ⟨_, nc⟩ (writeResults exChange) (by
        have : utf8 "c/json" ≠ utf8 "b/json" := by decide +kernel
        simp [exDiffEnv, this])]
      exact C69_round_trip _ exDiff_fits.2) exBase_modest.1 exBase_modest.2
  exact ⟨path, file, h, C76_diff_file exDiffEnv (fun _ _ h => by cases h) _ _ (fun d b _ => hp d b) _ _ _ _ h⟩

end Verif.Props
