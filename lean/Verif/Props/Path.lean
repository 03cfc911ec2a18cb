import Verif.Proofs.Path

/-! # C52, C59: which file is read and written -/

namespace Verif.Props

open Verif Verif.Mm Verif.Decode Verif.Paths Verif.Spec Verif.Proofs

/-! ## C52 -/

/-- **C52.** `summarize diff` reads an argument as saved JSON exactly if the last component of the path is the name `json`. -/
theorem C52_json_iff {R : Type} (readJson : Bytes → Except Fault R) (analyse : ProfilingData → Except Fault R)
    (v8New : Bytes → Except Fault OldDecoder) (fuel : Nat) (fs : Files) (p : Bytes) :
    ((∃ dir, Names p dir (utf8 "json")) → ∀ data, fs p = some data →
      processResults readJson analyse v8New fuel fs p = readJson data) ∧
    ((¬ ∃ dir, Names p dir (utf8 "json")) →
      processResults readJson analyse v8New fuel fs p = (openProfile v8New fuel fs p).bind analyse) := by
  have key : endsWithName p (utf8 "json") = true ↔ ∃ dir, Names p dir (utf8 "json") := by
    unfold endsWithName
    simp only [decide_eq_true_eq, Option.map_eq_some_iff]
    constructor
    · rintro ⟨⟨d, n⟩, h1, h2⟩
      exact ⟨d, by rw [← fileName_iff, h1, ← h2]⟩
    · rintro ⟨d, h⟩
      exact ⟨(d, utf8 "json"), (fileName_iff _ _ _).2 h, rfl⟩
  constructor
  · intro h data hd
    unfold processResults
    rw [if_pos (key.2 h), hd]
  · intro h
    unfold processResults
    rw [if_neg (fun hh => h (key.1 hh))]
    rfl

/-- **C52.** If the saved results are not there, `summarize diff` reports an error. -/
theorem C52_missing_json {R : Type} (readJson : Bytes → Except Fault R) (analyse : ProfilingData → Except Fault R)
    (v8New : Bytes → Except Fault OldDecoder) (fuel : Nat) (fs : Files) (p dir : Bytes) (h : Names p dir (utf8 "json")) (hf : fs p = none) :
    ∃ msg, processResults readJson analyse v8New fuel fs p = .error (.err msg) := by
  have key : endsWithName p (utf8 "json") = true := by
    unfold endsWithName
    rw [(fileName_iff _ _ _).2 h]
    simp
  unfold processResults
  rw [if_pos key, hf]
  exact ⟨_, rfl⟩

/-- A path with the extension `.json` does not have the name `json`. -/
theorem not_named_json (stem : Bytes) : ¬ ∃ dir, Names (stem ++ utf8 ".json") dir (utf8 "json") := by
  rintro ⟨dir, ⟨t, ht, he⟩, hd, -⟩
  have e1 : utf8 ".json" = [0x2E, 0x6A, 0x73, 0x6F, 0x6E] := by decide +kernel
  have e2 : utf8 "json" = [0x6A, 0x73, 0x6F, 0x6E] := by decide +kernel
  rw [e1, e2] at he
  cases ht with
  | nil =>
    have h1 : stem ++ [0x2E] ++ [0x6A, 0x73, 0x6F, 0x6E] = dir ++ [0x6A, 0x73, 0x6F, 0x6E] := by simpa using he
    have h2 := List.append_cancel_right h1
    rcases hd with hd | hd
    · rw [hd] at h2; simp at h2
    · rw [← h2] at hd; simp at hd
  | sep _ =>
    have := congrArg List.getLast? he
    rw [← List.append_assoc, List.getLast?_append, List.getLast?_append] at this
    simp at this
  | cur _ =>
    have := congrArg List.getLast? he
    rw [← List.append_assoc, List.getLast?_append, List.getLast?_append] at this
    simp at this

/-- Changing the extension twice. -/
theorem withExtension_twice {p dir name : Bytes} (h : Names p dir name) {a : Bytes} (b : Bytes) (ha : (0x2F : UInt8) ∉ a)
    (hd : (0x2E : UInt8) ∉ a) (hl : 2 ≤ a.length) : withExtension (withExtension p a) b = withExtension p b := by
  have h1 := names_withExtension h ha hl
  have e1 : withExtension (withExtension p a) b = dir ++ fileStem (fileStem name ++ [0x2E] ++ a) ++ [dot] ++ b := by
    exact withExtension_of_names h1 b
  have e2 : withExtension p b = dir ++ fileStem name ++ [dot] ++ b := by
    unfold withExtension
    rw [(fileName_iff _ _ _).2 h]
  have e3 : fileStem (fileStem name ++ [0x2E] ++ a) = fileStem name :=
    fileStem_ext ⟨rfl, fileStem_ne_nil h.2.2.2.1, hd⟩
  rw [e1, e2, e3]

/-- **C52.** A path that ends in `.json` is never read as JSON, whatever the file holds. -/
theorem C52_extension_not_recognised {R : Type} (readJson : Bytes → Except Fault R) (analyse : ProfilingData → Except Fault R)
    (v8New : Bytes → Except Fault OldDecoder) (fuel : Nat) (fs : Files) (stem : Bytes) :
    processResults readJson analyse v8New fuel fs (stem ++ utf8 ".json") =
      (openProfile v8New fuel fs (stem ++ utf8 ".json")).bind analyse :=
  (C52_json_iff readJson analyse v8New fuel fs _).2 (not_named_json stem)

/-- **C52.** Results saved by `--json` are never read back: naming the saved file means the profile it was made from. -/
theorem C52_saved_results_not_read {R : Type} (readJson : Bytes → Except Fault R) (analyse : ProfilingData → Except Fault R)
    (v8New : Bytes → Except Fault OldDecoder) (fuel : Nat) (fs : Files) (p dir name : Bytes) (h : Names p dir name) :
    (∃ s, resultsPath p = s ++ utf8 ".json") ∧
    processResults readJson analyse v8New fuel fs (resultsPath p) =
      match fs (profilerPath p) with
      | some data => (fromPagedBuffer (some (display (profilerPath p))) v8New fuel data).bind analyse
      | none => (openProfile v8New fuel fs (resultsPath p)).bind analyse := by
  have e : utf8 ".json" = [dot] ++ utf8 "json" := by decide +kernel
  have h1 : resultsPath p = (dir ++ fileStem name) ++ utf8 ".json" := by
    unfold resultsPath withExtension
    rw [(fileName_iff _ _ _).2 h, e]
    simp
  refine ⟨⟨_, h1⟩, ?_⟩
  rw [h1, C52_extension_not_recognised]
  cases hf : fs (profilerPath p) with
  | none => rfl
  | some data =>
    simp only
    congr 1
    unfold openProfile
    rw [← h1]
    have : withExtension (resultsPath p) fileExtension = profilerPath p :=
      withExtension_twice h fileExtension (by decide +kernel) (by decide +kernel) (by decide +kernel)
    rw [this, hf]

example : Names (utf8 "dir/run-1.mm_profdata") (utf8 "dir/") (utf8 "run-1.mm_profdata") ∧
    resultsPath (utf8 "dir/run-1.mm_profdata") = utf8 "dir/run-1.json" ∧
    profilerPath (utf8 "dir/run-1.json/.") = utf8 "dir/run-1.mm_profdata" := by
  refine ⟨⟨⟨[], .nil, by decide +kernel⟩, Or.inr (by decide +kernel), by decide +kernel, by decide +kernel, by decide +kernel,
    by decide +kernel⟩, by decide +kernel, by decide +kernel⟩

/-- A path that is read as JSON. -/
example : Names (utf8 "/tmp/json/") (utf8 "/tmp/") (utf8 "json") :=
  ⟨⟨[0x2F], Trailing.sep .nil, by decide +kernel⟩, Or.inr (by decide +kernel), by decide +kernel, by decide +kernel,
    by decide +kernel, by decide +kernel⟩

/-! ## C59 -/

/-- **C59.** A profiler made for a path writes next to it: the last component keeps its part before the last dot (all of it if
there is no dot or only a leading one) and gets the extension `.mm_profdata`. -/
theorem C59_profiler_path (p dir name : Bytes) (h : Names p dir name) :
    (∀ stem ext, HasExtension name stem ext → profilerPath p = dir ++ stem ++ utf8 ".mm_profdata") ∧
    ((∀ stem ext, ¬ HasExtension name stem ext) → profilerPath p = dir ++ name ++ utf8 ".mm_profdata") := by
  have e : utf8 ".mm_profdata" = [dot] ++ fileExtension := by decide +kernel
  have h1 : profilerPath p = dir ++ fileStem name ++ utf8 ".mm_profdata" := by
    unfold profilerPath withExtension
    rw [(fileName_iff _ _ _).2 h, e]
    simp
  rw [h1]
  constructor
  · intro stem ext hx
    rw [fileStem_ext hx]
  · intro hn
    rcases fileStem_cases name with ⟨ext, hx⟩ | hx
    · exact absurd hx (hn _ _)
    · rw [hx.1]

/-- **C59.** What a profiler wrote for a path is what is read for that path, or for the written file's own path. -/
theorem C59_reads_what_was_written (v8New : Bytes → Except Fault OldDecoder) (fuel : Nat) (fs : Files) (p dir name data : Bytes)
    (h : Names p dir name) (hf : fs (profilerPath p) = some data) :
    openProfile v8New fuel fs p = fromPagedBuffer (some (display (profilerPath p))) v8New fuel data ∧
    openProfile v8New fuel fs (profilerPath p) = fromPagedBuffer (some (display (profilerPath p))) v8New fuel data := by
  constructor
  · unfold openProfile
    unfold profilerPath at hf
    rw [hf]
    rfl
  · unfold openProfile
    have : withExtension (profilerPath p) fileExtension = profilerPath p :=
      withExtension_twice h fileExtension (by decide +kernel) (by decide +kernel) (by decide +kernel)
    rw [this, hf]

/-- **C59.** Two paths that differ only after the last dot of their last component mean the same file: the second profiler
overwrites the file of the first. -/
theorem C59_extensions_collide (dir stem e1 e2 : Bytes) (hd : dir = [] ∨ dir.getLast? = some 0x2F) (hs : (0x2F : UInt8) ∉ stem)
    (hne : stem ≠ []) (h1 : (0x2F : UInt8) ∉ e1 ∧ (0x2E : UInt8) ∉ e1 ∧ e1 ≠ []) (h2 : (0x2F : UInt8) ∉ e2 ∧ (0x2E : UInt8) ∉ e2 ∧ e2 ≠ []) :
    profilerPath (dir ++ stem ++ [0x2E] ++ e1) = profilerPath (dir ++ stem ++ [0x2E] ++ e2) := by
  have names : ∀ e : Bytes, (0x2F : UInt8) ∉ e ∧ (0x2E : UInt8) ∉ e ∧ e ≠ [] →
      Names (dir ++ stem ++ [0x2E] ++ e) dir (stem ++ [0x2E] ++ e) := by
    rintro e ⟨he1, he2, he3⟩
    have hlen : 3 ≤ (stem ++ [0x2E] ++ e).length := by
      have := List.length_pos_iff.2 hne
      have := List.length_pos_iff.2 he3
      simp; omega
    refine ⟨⟨[], .nil, by simp⟩, hd, ?_, ?_, ?_, ?_⟩
    · simp only [List.mem_append, List.mem_cons, List.not_mem_nil, or_false, not_or]
      exact ⟨⟨hs, by decide⟩, he1⟩
    · rintro hh; rw [hh] at hlen; simp at hlen
    · rintro hh; rw [hh] at hlen; simp at hlen
    · rintro hh; rw [hh] at hlen; simp at hlen
  rw [(C59_profiler_path _ _ _ (names e1 h1)).1 stem e1 ⟨rfl, hne, h1.2.1⟩,
    (C59_profiler_path _ _ _ (names e2 h2)).1 stem e2 ⟨rfl, hne, h2.2.1⟩]

/-- **C59.** The file `mmedit truncate` writes can be read by its full name; but its name without the extension means the
original file. -/
theorem C59_truncated_file (p dir name : Bytes) (h : Names p dir name) :
    profilerPath (truncatedPath p) = truncatedPath p ∧
    ∃ prefix_, truncatedPath p = prefix_ ++ utf8 ".mm_profdata" ∧ profilerPath prefix_ = profilerPath p := by
  have e0 : utf8 "truncated.mm_profdata" = utf8 "truncated" ++ [0x2E] ++ fileExtension := by decide +kernel
  have e1 : truncatedPath p = withExtension p (utf8 "truncated") ++ [dot] ++ fileExtension := by
    unfold truncatedPath withExtension
    rw [(fileName_iff _ _ _).2 h]
    simp only [e0, dot]
    simp
  have h1 := names_withExtension h (ext := utf8 "truncated.mm_profdata") (by decide +kernel) (by decide +kernel)
  constructor
  · have e2 : profilerPath (truncatedPath p) = _ := withExtension_of_names h1 fileExtension
    rw [e2]
    have : fileStem (fileStem name ++ [0x2E] ++ utf8 "truncated.mm_profdata") = fileStem name ++ [0x2E] ++ utf8 "truncated" :=
      fileStem_ext (ext := fileExtension) ⟨by rw [e0]; simp, by simp, by decide +kernel⟩
    rw [this, e1]
    unfold withExtension
    rw [(fileName_iff _ _ _).2 h]
    simp [dot]
  · refine ⟨withExtension p (utf8 "truncated"), ?_, ?_⟩
    · rw [e1]
      have : utf8 ".mm_profdata" = [dot] ++ fileExtension := by decide +kernel
      rw [this]; simp
    · exact withExtension_twice h fileExtension (by decide +kernel) (by decide +kernel) (by decide +kernel)

example : profilerPath (utf8 "out/foo-1.2.3") = utf8 "out/foo-1.2.mm_profdata" ∧
    profilerPath (utf8 "out/foo-1.2.4") = utf8 "out/foo-1.2.mm_profdata" ∧
    profilerPath (utf8 ".hidden") = utf8 ".hidden.mm_profdata" ∧ profilerPath (utf8 "out/..") = utf8 "out/.." ∧
    truncatedPath (utf8 "a.mm_profdata") = utf8 "a.truncated.mm_profdata" := by decide +kernel

example : HasExtension (utf8 "foo-1.2.3") (utf8 "foo-1.2") (utf8 "3") := ⟨by decide +kernel, by decide +kernel, by decide +kernel⟩

end Verif.Props
