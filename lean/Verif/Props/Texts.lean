import Verif.Proofs.TextsTools
import Verif.Props.EventId
import Verif.Props.JsonFiles

/-! # C76: all text is well-formed, whatever a file contains -/

namespace Verif.Props

open Verif Verif.Mm Verif.Json Verif.Decode Verif.Spec Verif.Proofs Verif.Analyze Verif.Paths Verif.Tools

/-- **C20.** The validator accepts exactly the encodings of strings. -/
theorem C20_validator_exact (b : Bytes) : validUtf8 b = true ↔ IsText b := ⟨isText_of_valid, valid_of_isText⟩

example : IsText (utf8 "añ𝄞") ∧ ¬ IsText [0xC0, 0x80] ∧ ¬ IsText [0xED, 0xA0, 0x80] := by
  refine ⟨isText_utf8 _, ?_, ?_⟩ <;> rw [← C20_validator_exact] <;> decide +kernel

/-- **C20.** Lossy decoding of any bytes gives text, and gives text back unchanged. -/
theorem C20_lossy (b : Bytes) : IsText (fromUtf8Lossy b) ∧ (IsText b → fromUtf8Lossy b = b) := by
  refine ⟨(isText_iff _).2 (lossy_decodes b), ?_⟩
  intro h
  obtain ⟨s, hs⟩ := (isText_iff _).1 h
  rw [← hs, lossy_utf8]

example : fromUtf8Lossy [0x61, 0xE2, 0x82, 0x62] = utf8 "a\uFFFDb" ∧ ¬ IsText [0x61, 0xE2, 0x82, 0x62] := by
  refine ⟨by decide +kernel, ?_⟩
  rw [← C20_validator_exact]; decide +kernel

/-- **C76.** Whatever bytes the two streams of a string table hold, both ways of reading a string give well-formed text if they
give anything. -/
theorem C76_strings (t : StringTable) (fuel : Nat) (id : StringId) (out : Bytes) :
    (t.toStr fuel id = .ok out → IsText out) ∧ (t.write fuel id = .ok out → IsText out) :=
  ⟨toStr_text t fuel id out, write_text t fuel id out⟩

/-- A string whose bytes are not UTF-8. -/
example : (⟨[0x61, 0xFC, 0x62, 0xFF], fun _ => none⟩ : StringTable).toStr 9 (UInt64.ofNat (firstRegularStringId.toNat)) = .ok (utf8 "a\uFFFDb") := by
  decide +kernel

/-- **C76.** Whatever bytes a file holds, if it opens, then its command line and the kind, label and arguments of every event that
can be decoded are well-formed text. -/
theorem C76_profile (v8New : Bytes → Except Fault OldDecoder) (hv : ∀ data d, v8New data = .ok d → OldText d) (fuel : Nat)
    (data : Bytes) (p : ProfilingData) (h : fromPagedBuffer diag v8New fuel data = .ok p) : ProfileText p := profile_text hv h

/-- **C76.** Therefore reading an event id never panics in the parser, whatever the file. -/
theorem C76_event_ids (t : StringTable) (fuel : Nat) (id : StringId) (text : Bytes) (h : t.toStr fuel id = .ok text) :
    ∃ r, parseEventId text = .ok r := by
  obtain ⟨s, hs⟩ := (isText_iff _).1 (toStr_text t fuel id text h)
  obtain ⟨L, as, hp⟩ := C22_parse_never_panics s
  exact ⟨_, hs ▸ hp⟩

/-- **C76.** crox's file is well-formed text, also if the run fails. -/
theorem C76_trace_file (env : Env) (hv : ∀ data d, env.v8New data = .ok d → OldText d) (opt : Crox.Opt)
    (sortEnds sortStarts : List (Nat × UInt32) → List (Nat × UInt32)) (argOrder : List (Bytes × Bytes) → List (Bytes × Bytes))
    (ho : ∀ l, (argOrder l).Perm l) (filePrefix : List Bytes) (dirEntries : Option (Except Fault (List Bytes))) (r : Except Fault Unit)
    (file : Bytes) (h : croxMain env opt sortEnds sortStarts argOrder filePrefix dirEntries = (r, file)) : IsText file := by
  unfold croxMain at h
  split at h
  · injection h with _ h
    rw [← h]
    exact isText_ascii (by decide)
  · rename_i dirPaths _
    have ht := croxRun_text (croxElements_text hv opt sortEnds sortStarts ho) (filePrefix ++ dirPaths)
    simp only [] at h
    injection h with _ h
    rw [← h]
    refine isText_cons_ascii (by decide) (isText_append (renderElems_text _ ht) ?_)
    split
    · exact isText_ascii (by decide)
    · exact isText_nil

/-- **C76.** So are the file of `stack_collapse`, what `mmview` prints, and the file of `summarize --json`. -/
theorem C76_other_output (env : Env) (hv : ∀ data d, env.v8New data = .ok d → OldText d) (stem : Bytes) :
    (∀ file, stackCollapseTool env stem = .ok file → IsText file) ∧
    (∀ p thread, openProfile env.v8New env.fuel env.files stem = .ok p →
      IsText (Mmview.mmview p thread).stdout ∧ IsText (Mmview.mmview p thread).stderr) ∧
    (∀ name file, summarizeJsonTool env stem = .ok (name, file) → IsText file) := by
  refine ⟨?_, ?_, ?_⟩
  · intro file h
    unfold stackCollapseTool readCollapsed at h
    simp only [bind, Except.bind] at h
    cases hp : openProfile env.v8New env.fuel env.files stem with
    | error f => rw [hp] at h; cases h
    | ok p =>
      rw [hp] at h
      simp only [] at h
      cases hc : collapseProfile env.checks p with
      | error f => rw [hc] at h; cases h
      | ok m =>
        rw [hc] at h
        injection h with h
        rw [← h]
        exact folded_text (collapse_text (open_text hv hp) hc)
  · intro p thread hp
    exact mmview_text (open_text hv hp) thread
  · intro name file h
    unfold summarizeJsonTool at h
    simp only [bind, Except.bind] at h
    cases hp : openProfile env.v8New env.fuel env.files stem with
    | error f => rw [hp] at h; cases h
    | ok p =>
      rw [hp] at h
      simp only [] at h
      cases hc : performAnalysis env.checks p with
      | error f => rw [hc] at h; cases h
      | ok m =>
        rw [hc] at h
        injection h with h
        injection h with _ h
        rw [← h]
        obtain ⟨h1, h2⟩ := analysis_text (open_text hv hp) hc
        exact render_text _ (resultsValue_text h1 h2)

/-- The hypothesis on the external decoder, and files for which the runs succeed (`C62_stack_collapse`, `C68_sessions_succeed` have whole
sessions). -/
example : ∃ v8New : Bytes → Except Fault OldDecoder, (∃ d, v8New [] = .ok d) ∧ ∀ data d, v8New data = .ok d → OldText d := by
  refine ⟨fun _ => .ok ⟨.ok 1, ⟨0, 0, utf8 "cmd"⟩, fun _ => .ok ⟨utf8 "é", utf8 "b", [utf8 "c"], .integer 0, 0⟩, fun _ => .error .outOfFuel⟩,
    ⟨_, rfl⟩, ?_⟩
  intro data d h
  injection h with h
  subst h
  refine ⟨isText_utf8 _, ?_⟩
  intro i e he
  injection he with he
  subst he
  exact ⟨isText_utf8 _, isText_utf8 _, by intro a ha; rw [List.mem_singleton.1 ha]; exact isText_utf8 _⟩

end Verif.Props
