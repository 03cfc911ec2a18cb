import Verif.Proofs.JsonFits
import Verif.Props.Path
import Verif.Props.EndToEnd

/-! # Properties C68 and C69: the JSON files -/

namespace Verif.Props
open Verif Verif.Mm Verif.Spec Verif.Decode Verif.Analyze Verif.Tools Verif.Paths Verif.Crox Verif.Json

/-! ## C68 -/

theorem profileTrace {env : Env} {opt : Opt} {sortEnds sortStarts : List (Nat × UInt32) → List (Nat × UInt32)} (hE : SortsByTime sortEnds)
    (hS : SortsByTime sortStarts) {argOrder : List (Bytes × Bytes) → List (Bytes × Bytes)} (ho : ∀ l, (argOrder l).Perm l) {stem : Bytes}
    (h : (croxElements env opt sortEnds sortStarts argOrder stem).2 = .ok ()) :
    ∃ p, openProfile env.v8New env.fuel env.files stem = .ok p ∧
      ProfileTrace opt.minimumDuration opt.collapseThreads p (croxElements env opt sortEnds sortStarts argOrder stem).1 := by
  unfold croxElements croxTool at h ⊢
  cases hp : openProfile env.v8New env.fuel env.files stem with
  | error f => rw [hp] at h; cases h
  | ok p =>
    rw [hp] at h
    refine ⟨p, rfl, ?_⟩
    simp only [] at h ⊢
    cases hb : (croxBody opt sortEnds sortStarts p).2 with
    | error f => rw [hb] at h; cases h
    | ok u =>
      rw [hb] at h
      clear h
      simp only []
      cases hl : croxLanes opt sortEnds sortStarts p with
      | error f => simp only [croxBody, hl] at hb; cases hb
      | ok lanes =>
        cases hn : p.numEvents with
        | error f => simp only [croxBody, hl, hn] at hb; cases hb
        | ok n =>
          simp only [croxBody, hl, hn] at hb ⊢
          obtain ⟨les, h1, h2⟩ := croxLoop_records p opt lanes n 0 hb
          have hles : p.lightEvents = .ok les := by simp only [ProfilingData.lightEvents, hn, bind, Except.bind, h1]
          refine ⟨les, fun t => (lookup t lanes).getD t.toNat, _, _, _, hles, rfl, ?_, ?_, ?_, ?_, ?_, ?_⟩
          · intro hc
            simp only [croxLanes, hc, if_true, hles, bind, Except.bind] at hl
            obtain ⟨m, hm, hnd, hk, hap⟩ := C43_lanes_apart sortEnds sortStarts hE hS les
            rw [hm] at hl
            cases hl
            intro a b ha hb hab hl
            have h1 := (hk a).2 ha
            have h2 := (hk b).2 hb
            rw [← lookup_isSome] at h1 h2
            obtain ⟨v, hv⟩ := Option.isSome_iff_exists.1 h1
            obtain ⟨w, hw⟩ := Option.isSome_iff_exists.1 h2
            simp only [hv, hw, Option.getD_some] at hl
            subst hl
            exact hap a b v (mem_of_lookup hv) (mem_of_lookup hw) hab
          · intro hc t
            simp only [croxLanes, hc, Bool.false_eq_true, if_false, laneMapping] at hl
            cases hl
            rfl
          · rw [List.forall₂_map_right_iff]
            exact h2.imp fun l x hr => traceEvent_value ho hr
          · intro c hc
            have := ((C45_crate_name p.metadata.cmd).1 c).mpr hc
            refine ⟨processNameValue (p.metadata.processId, c), ?_, traceMeta_value _ _ _ _⟩
            simp only [processName, this, Option.map_some, Option.toList_some, List.map_cons, List.map_nil]
          · intro hc
            cases hcn : crateName p.metadata.cmd with
            | none => simp only [processName, hcn, Option.map_none, Option.toList_none, List.map_nil]
            | some c => exact absurd ⟨c, ((C45_crate_name p.metadata.cmd).1 c).mp hcn⟩ hc
          · exact traceMeta_value _ _ _ _

theorem writable_event (argOrder : List (Bytes × Bytes) → List (Bytes × Bytes)) (x : CroxEvent) : Writable (eventValue argOrder x) := by
  refine .obj ?_
  simp only [List.forall_mem_cons]
  refine ⟨.str _, .str _, .str _, .num _, .num _, .num _, .num _, ?_, fun _ h => by cases h⟩
  cases x.args with
  | none => exact .null
  | some as =>
    refine .obj fun f hf => ?_
    obtain ⟨a, _, rfl⟩ := List.mem_map.mp hf
    exact .str _

theorem writable_meta (a b c d e f : Bytes) (k : Bytes) (x s t u : Value) (pid m n : Nat) (hx : Writable x) (hs : Writable s) (ht : Writable t)
    (hu : Writable u) (g : Bytes) :
    Writable (.obj [(a, .obj [(k, x)]), (b, s), (c, t), (d, u), (e, .num pid), (f, .num m), (g, .num n)]) := by
  refine .obj ?_
  simp only [List.forall_mem_cons]
  refine ⟨.obj ?_, hs, ht, hu, .num _, .num _, .num _, fun _ h => by cases h⟩
  simp only [List.forall_mem_cons]
  exact ⟨hx, fun _ h => by cases h⟩

theorem elements_written (env : Env) (opt : Opt) (sortEnds sortStarts : List (Nat × UInt32) → List (Nat × UInt32))
    (argOrder : List (Bytes × Bytes) → List (Bytes × Bytes)) (stem : Bytes) :
    ∀ v ∈ (croxElements env opt sortEnds sortStarts argOrder stem).1, Writable v ∧ ∃ fs, v = .obj fs := by
  intro v hv
  unfold croxElements at hv
  split at hv
  · obtain ⟨x, _, rfl⟩ := List.mem_map.mp hv
    exact ⟨writable_event argOrder x, _, rfl⟩
  · simp only [List.mem_append, List.mem_singleton] at hv
    rcases hv with (hv | hv) | rfl
    · obtain ⟨x, _, rfl⟩ := List.mem_map.mp hv
      exact ⟨writable_event argOrder x, _, rfl⟩
    · obtain ⟨x, _, rfl⟩ := List.mem_map.mp hv
      exact ⟨writable_meta _ _ _ _ _ _ _ _ _ _ _ _ _ _ (.str _) (.str _) (.str _) (.str _) _, _, rfl⟩
    · exact ⟨writable_meta _ _ _ _ _ _ _ _ _ _ _ _ _ _ (.num _) (.str _) (.str _) (.str _) _, _, rfl⟩

theorem run_written (elements : Bytes → List Value × Except Fault Unit) (h : ∀ stem, ∀ v ∈ (elements stem).1, Writable v ∧ ∃ fs, v = .obj fs)
    (stems : List Bytes) : ∀ v ∈ (croxRun elements stems).1, Writable v ∧ ∃ fs, v = .obj fs := by
  induction stems with
  | nil => intro v hv; cases hv
  | cons stem rest ih =>
    intro v hv
    unfold croxRun at hv
    have he := h stem
    split at hv
    · rename_i vs e hh
      rw [hh] at he
      exact he v hv
    · rename_i vs e hh
      rw [hh] at he
      rcases List.mem_append.mp hv with hv | hv
      · exact he v hv
      · exact ih v hv

theorem run_chunks (elements : Bytes → List Value × Except Fault Unit) (stems : List Bytes) (h : (croxRun elements stems).2 = .ok ()) :
    (croxRun elements stems).1 = (stems.map fun s => (elements s).1).flatten ∧ ∀ s ∈ stems, (elements s).2 = .ok () := by
  induction stems with
  | nil => exact ⟨rfl, fun _ h => by cases h⟩
  | cons stem rest ih =>
    unfold croxRun at h ⊢
    split at h
    · cases h
    · rename_i vs u hh
      obtain ⟨h1, h2⟩ := ih h
      simp only [List.map_cons, List.flatten_cons, h1, hh, List.forall_mem_cons]
      exact ⟨trivial, trivial, h2⟩

/-- **C68.** If crox succeeds, the file it leaves is a JSON document, and what it says is determined: an array that lists, profile
after profile in the order given, what a trace should say about each. -/
theorem C68_trace_file (env : Env) (opt : Opt) (sortEnds sortStarts : List (Nat × UInt32) → List (Nat × UInt32)) (hE : SortsByTime sortEnds)
    (hS : SortsByTime sortStarts) (argOrder : List (Bytes × Bytes) → List (Bytes × Bytes)) (ho : ∀ l, (argOrder l).Perm l)
    (filePrefix : List Bytes) (dir : Option (List Bytes)) (file : Bytes)
    (h : croxMain env opt sortEnds sortStarts argOrder filePrefix (dir.map .ok) = (.ok (), file)) :
    ∃ (fromDir : List Bytes) (chunks : List (List Value)), (∀ v, JsonDocument file v ↔ v = .arr chunks.flatten) ∧
      fromDir.Sublist (dir.getD []) ∧ (∀ f, f ∈ fromDir ↔ f ∈ dir.getD [] ∧ IsProfile f) ∧
      List.Forall₂ (fun stem vs => ∃ p, openProfile env.v8New env.fuel env.files stem = .ok p ∧
        ProfileTrace opt.minimumDuration opt.collapseThreads p vs) (filePrefix ++ fromDir) chunks := by
  obtain ⟨entries, hdir, h⟩ : ∃ entries, dir.getD [] = entries ∧
      croxMain env opt sortEnds sortStarts argOrder filePrefix (some (.ok entries)) = (.ok (), file) := by
    cases dir with
    | none => exact ⟨[], rfl, h⟩
    | some es => exact ⟨es, rfl, h⟩
  rw [hdir]
  unfold croxMain at h
  simp only [Except.map, Prod.mk.injEq] at h
  obtain ⟨h1, h2⟩ := h
  rw [h1] at h2
  simp only [] at h2
  generalize hel : croxElements env opt sortEnds sortStarts argOrder = elements at h1 h2
  have hw := run_written elements (fun stem => hel ▸ elements_written env opt sortEnds sortStarts argOrder stem) (filePrefix ++ profilesInDir entries)
  obtain ⟨h3, h4⟩ := run_chunks _ _ h1
  refine ⟨profilesInDir entries, (filePrefix ++ profilesInDir entries).map fun s => (elements s).1, ?_, List.filter_sublist, ?_, ?_⟩
  · have hd : JsonDocument file (.arr (croxRun elements (filePrefix ++ profilesInDir entries)).1) := by
      have := render_document (v := .arr (croxRun elements (filePrefix ++ profilesInDir entries)).1) (.arr fun v hv => (hw v hv).1)
      rw [render] at this
      rw [← h2]
      exact this
    rw [h3] at hd
    intro v
    exact ⟨fun hv => document_unique hv hd, fun hv => hv ▸ hd⟩
  · intro f
    rw [profilesInDir, List.mem_filter, decide_eq_true_eq, extension_profile]
  · rw [List.forall₂_map_right_iff]
    refine List.forall₂_same.mpr fun s hs => ?_
    have := h4 s hs
    rw [← hel] at this ⊢
    exact profileTrace hE hS ho this

/-- **C68.** If crox fails, the file it leaves is not JSON. -/
theorem C68_failed_run_leaves_no_json (env : Env) (opt : Opt) (sortEnds sortStarts : List (Nat × UInt32) → List (Nat × UInt32))
    (argOrder : List (Bytes × Bytes) → List (Bytes × Bytes)) (filePrefix : List Bytes) (dirEntries : Option (Except Fault (List Bytes)))
    (f : Fault) (file : Bytes) (h : croxMain env opt sortEnds sortStarts argOrder filePrefix dirEntries = (.error f, file)) (v : Value) :
    ¬ JsonDocument file v := by
  unfold croxMain at h
  split at h
  · simp only [Prod.mk.injEq] at h
    rw [← h.2]
    exact unclosed_not_json [] (fun _ h => by cases h) v
  · simp only [Prod.mk.injEq] at h
    obtain ⟨h1, h2⟩ := h
    rw [h1] at h2
    simp only [List.append_nil] at h2
    rw [← h2]
    exact unclosed_not_json _ (fun v hv => (run_written _ (elements_written env opt sortEnds sortStarts argOrder) _ v hv).2) v

/-- **C68.** A file of the directory that is picked is the file that is read. -/
theorem C68_directory_files (v8New : Bytes → Except Fault OldDecoder) (fuel : Nat) (fs : Files) (dir stem data : Bytes)
    (hd : dir = [] ∨ dir.getLast? = some 0x2F) (h0 : stem ≠ []) (h1 : (0x2F : UInt8) ∉ stem) (hf : fs (dir ++ stem ++ utf8 ".mm_profdata") = some data) :
    IsProfile (dir ++ stem ++ utf8 ".mm_profdata") ∧
    openProfile v8New fuel fs (dir ++ stem ++ utf8 ".mm_profdata") = fromPagedBuffer (some (display (dir ++ stem ++ utf8 ".mm_profdata"))) v8New fuel data := by
  have hl : (utf8 ".mm_profdata").length = 12 := by decide +kernel
  have hsl : (0x2F : UInt8) ∉ utf8 ".mm_profdata" := by decide +kernel
  have hn : Names (dir ++ stem ++ utf8 ".mm_profdata") dir (stem ++ utf8 ".mm_profdata") := by
    refine ⟨⟨[], .nil, by simp⟩, hd, ?_, ?_, ?_, ?_⟩
    · simp only [List.mem_append, not_or]; exact ⟨h1, hsl⟩
    · intro hc; have := congrArg List.length hc; simp [hl] at this
    · intro hc; have := congrArg List.length hc; simp [hl] at this
    · intro hc; have := congrArg List.length hc; simp [hl] at this
  refine ⟨⟨dir, stem, hn, h0⟩, ?_⟩
  have := (C59_profiler_path _ _ _ hn).1 stem fileExtension ⟨by rw [mm_profdata.1, ← List.append_assoc], h0, mm_profdata.2⟩
  unfold profilerPath at this
  unfold openProfile
  rw [this, hf]

/-! ## C69 -/

/-- **C69.** The file saved by `summarize --json` is a JSON document, and what it says is determined: all the results, with durations
as seconds and nanoseconds. -/
theorem C69_saved_document (r : Results) : ∃ v, SavedResults r v ∧ ∀ w, JsonDocument (writeResults r) w ↔ w = v := by
  have hd := render_document (writable_results r)
  exact ⟨resultsValue r, saved_results r, fun w => ⟨fun hw => document_unique hw hd, fun hw => hw ▸ hd⟩⟩

/-- **C69.** Reading saved results gives them back. -/
theorem C69_round_trip (r : Results) (h : Fits r) : readResults (writeResults r) = .ok r := by
  unfold readResults writeResults
  rw [(parseDocument_iff _ _).mpr (render_document (writable_results r))]
  simp only [resultsOf_value (fun q hq => fitsQuery h hq) h.artifacts h.total]

/-- **C69.** Results are read whatever the layout of the file: white space, the order of the members, members that are not known. -/
theorem C69_any_layout (r : Results) (h : Fits r) (text : Bytes) (v : Value) (hd : JsonDocument text v) (hs : SavedResults r v)
    (hk : ProperKeys v) : readResults text = .ok r := by
  unfold readResults
  rw [(parseDocument_iff _ _).mpr hd]
  simp only [resultsOf_saved hk hs h]

/-- **C69.** A file that is not JSON is refused with an error, not a panic. -/
theorem C69_not_json_refused (text : Bytes) (h : ¬ ∃ v, JsonDocument text v) : ∃ why, readResults text = .error (.err why) := by
  unfold readResults
  cases hp : parseDocument text with
  | none => exact ⟨_, rfl⟩
  | some v => exact absurd ⟨v, (parseDocument_iff _ _).mp hp⟩ h

/-- Comparing saved results is comparing the profiles, whatever format they have, if the results fit: `summarize diff` on a file named `json` that holds what `summarize
--json` wrote for a profile is `summarize diff` on the profile, on either side. -/
theorem diff_of_fitting (env : Env) (order : List Bytes → List Bytes) (profile saved dir name path text : Bytes)
    (hj : summarizeJsonTool env profile = .ok (path, text)) (hp : Names profile dir name) (hne : name ≠ utf8 "json")
    (hs : ∃ d, Names saved d (utf8 "json")) (hf : env.files saved = some text)
    (hfit : ∀ p r, openProfile env.v8New env.fuel env.files profile = .ok p → performAnalysis env.checks p = .ok r → Fits r) (other : Bytes) :
    diffTool env readResults order saved other = diffTool env readResults order profile other ∧
    diffTool env readResults order other saved = diffTool env readResults order other profile := by
  have hsaved := (C52_json_iff readResults (performAnalysis env.checks) env.v8New env.fuel env.files saved).1 hs text hf
  have hprof := (C52_json_iff readResults (performAnalysis env.checks) env.v8New env.fuel env.files profile).2 (by
    rintro ⟨d, hd⟩
    exact hne (Proofs.names_unique hp hd).2)
  have heq : processResults readResults (performAnalysis env.checks) env.v8New env.fuel env.files saved =
      processResults readResults (performAnalysis env.checks) env.v8New env.fuel env.files profile := by
    rw [hsaved, hprof]
    simp only [summarizeJsonTool, bind, Except.bind] at hj ⊢
    cases hop : openProfile env.v8New env.fuel env.files profile with
    | error f => rw [hop] at hj; cases hj
    | ok p =>
      rw [hop] at hj
      simp only [] at hj ⊢
      cases ha : performAnalysis env.checks p with
      | error f => rw [ha] at hj; cases hj
      | ok r =>
        rw [ha] at hj
        cases hj
        exact C69_round_trip r (hfit p r hop ha)
  unfold diffTool
  rw [heq]
  exact ⟨rfl, rfl⟩

/-- What a version 9 file opens as. -/
theorem opened_v9 {v8New : Bytes → Except Fault OldDecoder} {fuel : Nat} {files : Files} {stem data : Bytes} {p : ProfilingData}
    (hf : files (profilerPath stem) = some data) (hv : (data.take 8).drop 4 = [9, 0, 0, 0]) (h : openProfile v8New fuel files stem = .ok p) :
    ∃ d, EventDecoder.new (some (display (profilerPath stem))) fuel data = .ok d ∧ p = v9Data fuel d := by
  change files (withExtension stem fileExtension) = some data at hf
  unfold openProfile at h
  rw [hf] at h
  simp only [fromPagedBuffer, bind, Except.bind] at h
  cases hr : readFileHeader (some (display (withExtension stem fileExtension))) "top-level" data magicTopLevel with
  | error f => rw [hr] at h; cases h
  | ok v =>
    have h9 : v = 9 := by
      unfold readFileHeader at hr
      split at hr
      · cases hr
      · split at hr
        · cases hr
        · injection hr with hr
          rw [← hr, hv]
          decide
    subst h9
    rw [hr] at h
    simp only [] at h
    rw [if_neg (by decide), if_pos (by decide)] at h
    cases hd : EventDecoder.new (some (display (withExtension stem fileExtension))) fuel data with
    | error f => rw [hd] at h; cases h
    | ok d =>
      rw [hd] at h
      simp only [] at h
      injection h with h
      exact ⟨d, hd, h.symm⟩

/-- **C69.** The results of analysing a profile always fit what they are saved as, if the file has at most 2⁵⁰ bytes: whatever the file
contains, labels are UTF-8, counts and sizes are 64-bit numbers, and durations do not exceed 2⁶⁴ seconds. -/
theorem C69_results_fit (env : Env) (profile data : Bytes) (p : ProfilingData) (r : Results) (hf : env.files (profilerPath profile) = some data)
    (hv : (data.take 8).drop 4 = [9, 0, 0, 0]) (hn : data.length ≤ 1125899906842624)
    (ho : openProfile env.v8New env.fuel env.files profile = .ok p) (ha : performAnalysis env.checks p = .ok r) :
    Fits r ∧ readResults (writeResults r) = .ok r := by
  obtain ⟨d, hd, rfl⟩ := opened_v9 hf hv ho
  have h := fits_profile hd hn ha
  exact ⟨h, C69_round_trip r h⟩

/-- **C69.** Comparing saved results is comparing the profiles: `summarize diff` on a file named `json` that holds what `summarize
--json` wrote for a profile of at most 2⁵⁰ bytes is `summarize diff` on the profile, on either side. -/
theorem C69_diff_of_saved (env : Env) (order : List Bytes → List Bytes) (profile saved dir name path text data : Bytes)
    (hj : summarizeJsonTool env profile = .ok (path, text)) (hp : Names profile dir name) (hne : name ≠ utf8 "json")
    (hs : ∃ d, Names saved d (utf8 "json")) (hf : env.files saved = some text)
    (hfile : env.files (profilerPath profile) = some data) (hv : (data.take 8).drop 4 = [9, 0, 0, 0]) (hn : data.length ≤ 1125899906842624)
    (other : Bytes) :
    diffTool env readResults order saved other = diffTool env readResults order profile other ∧
    diffTool env readResults order other saved = diffTool env readResults order other profile :=
  diff_of_fitting env order profile saved dir name path text hj hp hne hs hf
    (fun p r ho ha => (C69_results_fit env profile data p r hfile hv hn ho ha).1) other

theorem results_path_named {p dir name : Bytes} (h : Names p dir name) :
    (∀ stem ext, HasExtension name stem ext → resultsPath p = dir ++ stem ++ utf8 ".json") ∧
    ((∀ stem ext, ¬ HasExtension name stem ext) → resultsPath p = dir ++ name ++ utf8 ".json") := by
  have e : utf8 ".json" = [dot] ++ utf8 "json" := by decide +kernel
  have h1 : resultsPath p = dir ++ fileStem name ++ utf8 ".json" := by
    unfold resultsPath withExtension
    rw [(Proofs.fileName_iff _ _ _).2 h, e]
    simp
  rw [h1]
  constructor
  · intro stem ext hx
    rw [Proofs.fileStem_ext hx]
  · intro hn
    rcases Proofs.fileStem_cases name with ⟨ext, hx⟩ | hx
    · exact absurd hx (hn _ _)
    · rw [hx.1]

/-- **C69.** `summarize --json` works on the file of every scoped session: it writes, next to the profile, results that read back as the
analysis of the events the session recorded. -/
theorem C69_sessions_saved (s : Session) (h : s.Readable) (hs : Scoped .empty s.calls) (hn : s.file.length ≤ 1125899906842624) :
    ∃ es, s.Seen es ∧ ∃ n, ∀ (env : Env) (stem dir name : Bytes), Names stem dir name → n ≤ env.fuel → env.files (profilerPath stem) = some s.file →
      (env.checks = true → integerCount (recorded s.calls) ≤ 65536) →
      ∃ r path text, analyze env.checks es = .ok r ∧ summarizeJsonTool env stem = .ok (path, text) ∧ readResults text = .ok r ∧
        (∀ st ext, HasExtension name st ext → path = dir ++ st ++ utf8 ".json") ∧
        ((∀ st ext, ¬ HasExtension name st ext) → path = dir ++ name ++ utf8 ".json") := by
  obtain ⟨es, d, n, h1, _, h3⟩ := open_session s h
  have hnest := seen_nested s es h1 hs
  refine ⟨es, h1, n, fun env stem dir name hname hf hfile hi => ?_⟩
  obtain ⟨h4, h5, _⟩ := h3 env stem hf hfile
  obtain ⟨r, hr⟩ := C40_nested_never_panics env.checks es hnest (by
    cases hc : env.checks with
    | false => exact .inl rfl
    | true =>
      right
      intro l
      have h6 := artifact_bound s es h1 l
      have h7 : integerCount (recorded s.calls) * 281474976710655 ≤ 65536 * 281474976710655 := Nat.mul_le_mul_right _ (hi hc)
      omega)
  have ha : performAnalysis env.checks (v9Data env.fuel d) = .ok r := by
    simp only [performAnalysis, bind, Except.bind, h5, hr]
  have hfit := C69_results_fit env stem s.file _ r hfile (by
    unfold Session.file savedFile
    rw [C11_header_bytes]
    rfl) hn h4 ha
  refine ⟨r, resultsPath stem, writeResults r, hr, ?_, hfit.2, ?_⟩
  · simp only [summarizeJsonTool, bind, Except.bind, h4, ha]
  · exact results_path_named hname

/-! ## C32 -/

/-- **C32.** Which texts are metadata: the JSON documents that have the start time, the process id and the command line, once each, in
any layout and with anything else besides; or an array of just the three. -/
theorem C32_metadata_text (text : Bytes) (start pid : Nat) (cmd : Bytes) :
    parseMetadata text = .ok ⟨start, pid, cmd⟩ ↔ ∃ v, JsonDocument text v ∧ start < 2 ^ 64 ∧ pid < 2 ^ 32 ∧
      ((Field v "start_time" (.num start) ∧ Field v "process_id" (.num pid) ∧ Field v "cmd" (.str cmd)) ∨
        v = .arr [.num start, .num pid, .str cmd]) := by
  have hfield : ∀ (fs : List (Bytes × Value)) (name : String) (x : Value), fieldValues (utf8 name) fs = [x] → Field (.obj fs) name x := by
    intro fs name x h
    unfold fieldValues at h
    obtain ⟨f, hf, he⟩ := List.map_eq_singleton_iff.mp h
    have hm : f ∈ fs.filter (fun f => f.1 = utf8 name) := by rw [hf]; simp
    refine ⟨fs, rfl, ?_⟩
    rw [hf]
    have h1 := (List.mem_filter.mp hm).2
    simp only [decide_eq_true_eq] at h1
    rw [← h1, ← he]
  unfold parseMetadata
  constructor
  · intro h
    cases hp : parseDocument text with
    | none => rw [hp] at h; cases h
    | some v =>
      rw [hp] at h
      simp only [] at h
      refine ⟨v, (parseDocument_iff _ _).mp hp, ?_⟩
      cases hm : metadataOf v with
      | none => rw [hm] at h; cases h
      | some m =>
        rw [hm] at h
        cases h
        unfold metadataOf at hm
        split at hm
        · rename_i fs
          split at hm
          · rename_i s p c h1 h2 h3
            split at hm
            · rename_i hlt
              cases hm
              exact ⟨hlt.1, hlt.2, .inl ⟨hfield _ _ _ h1, hfield _ _ _ h2, hfield _ _ _ h3⟩⟩
            · cases hm
          · cases hm
        · split at hm
          · rename_i hlt
            cases hm
            exact ⟨hlt.1, hlt.2, .inr rfl⟩
          · cases hm
        · cases hm
  · rintro ⟨v, hd, h1, h2, h3⟩
    rw [(parseDocument_iff _ _).mpr hd]
    have : metadataOf v = some ⟨start, pid, cmd⟩ := by
      rcases h3 with ⟨ha, hb, hc⟩ | rfl
      · obtain ⟨fs, rfl⟩ := field_obj ha
        rw [metadataOf, fieldValues_of_field ha, fieldValues_of_field hb, fieldValues_of_field hc]
        simp only []
        rw [if_pos ⟨h1, h2⟩]
      · rw [metadataOf, if_pos ⟨h1, h2⟩]
    simp only [this]

example : parseMetadata (utf8 " {\"cmd\":\"a\\u0027\\ud83d\\ude00\", \"x\":[1,{}], \"process_id\": 7,\n\"start_time\":18446744073709551615}") =
    .ok ⟨18446744073709551615, 7, utf8 "a'😀"⟩ := by decide +kernel

/-! ## Concrete cases -/

/-- Every scoped session gives a trace (with C68_trace_file: a JSON document that says what it should). -/
theorem C68_sessions_succeed (s : Session) (h : s.Readable) (hs : Scoped .empty s.calls) (opt : Opt)
    (sortEnds sortStarts : List (Nat × UInt32) → List (Nat × UInt32)) (hE : SortsByTime sortEnds) (hS : SortsByTime sortStarts)
    (argOrder : List (Bytes × Bytes) → List (Bytes × Bytes)) :
    ∃ n, ∀ (env : Env) (stem : Bytes), n ≤ env.fuel → env.files (profilerPath stem) = some s.file →
      ∃ file, croxMain env opt sortEnds sortStarts argOrder [stem] none = (.ok (), file) := by
  obtain ⟨es, les, _, _, n, lane, _, _, hc⟩ := C62_crox s h hs opt sortEnds sortStarts hE hS
  refine ⟨n, fun env stem hf hfile => ?_⟩
  have := hc env stem hf hfile
  simp only [croxMain, List.append_nil, croxRun, croxElements, this]
  exact ⟨_, rfl⟩

example : ∃ n, ∀ (env : Env) (stem : Bytes), n ≤ env.fuel → env.files (profilerPath stem) = some exSession.file →
    ∃ file, croxMain env ⟨true, some 1⟩ (fun l => l.insertionSort (fun a b => a.1 ≤ b.1)) (fun l => l.insertionSort (fun a b => a.1 ≤ b.1)) List.reverse
      [stem] none = (.ok (), file) :=
  C68_sessions_succeed exSession exSession_readable exSession_scoped _ _ _ sorts_insertion sorts_insertion _

/-- Nothing at the path that is given. -/
def exNoFiles : Env := { v8New := fun _ => .error (.err "no"), fuel := 100, checks := true, files := fun _ => none }

example : (croxMain exNoFiles ⟨false, none⟩ id id id [utf8 "a"] none).2 = utf8 "[" ∧
    (croxMain exNoFiles ⟨false, none⟩ id id id [] (some (.ok [utf8 "d/a.txt"]))) = (.ok (), utf8 "[]") := by decide +kernel

example : ∃ f, croxMain exNoFiles ⟨false, none⟩ id id id [utf8 "a"] none = (.error f, utf8 "[") := ⟨_, rfl⟩

example : render (eventValue id ⟨utf8 "a\n\"b", utf8 "Query", 5, 2, 4242, 3, some [(utf8 "arg0", utf8 "x")]⟩) =
    utf8 "{\"name\":\"a\\n\\\"b\",\"cat\":\"Query\",\"ph\":\"X\",\"ts\":5,\"dur\":2,\"pid\":4242,\"tid\":3,\"args\":{\"arg0\":\"x\"}}" := by
  decide +kernel

example : profilesInDir [utf8 "d/a.mm_profdata", utf8 "d/b.json", utf8 "d/.mm_profdata", utf8 "d/c.d.mm_profdata"] =
    [utf8 "d/a.mm_profdata", utf8 "d/c.d.mm_profdata"] := by decide +kernel

/-- Results with one row and one artifact. -/
def exSaved : Results :=
  ⟨[(utf8 "a\"b", { time := 1500000002, selfTime := 7, numberOfCacheMisses := 1, invocationCount := 3 })], [(utf8 "o", 4096)], 1500000009⟩

theorem exSaved_fits : Fits exSaved := by
  refine ⟨?_, ?_, ?_, ?_, ?_⟩ <;> unfold exSaved <;> simp only [List.forall_mem_cons, List.forall_mem_nil] <;> decide +kernel

example : writeResults exSaved = utf8 ("{\"query_data\":[{\"label\":\"a\\\"b\",\"time\":{\"secs\":1,\"nanos\":500000002}," ++
    "\"self_time\":{\"secs\":0,\"nanos\":7},\"number_of_cache_misses\":1,\"number_of_cache_hits\":0,\"invocation_count\":3," ++
    "\"blocked_time\":{\"secs\":0,\"nanos\":0},\"incremental_load_time\":{\"secs\":0,\"nanos\":0},\"incremental_hashing_time\":{\"secs\":0,\"nanos\":0}}]," ++
    "\"artifact_sizes\":[{\"label\":\"o\",\"value\":4096}],\"total_time\":{\"secs\":1,\"nanos\":500000009}}") := by decide +kernel

example : readResults (writeResults exSaved) = .ok exSaved := C69_round_trip _ exSaved_fits

/-- Another layout: the members in another order, an unknown member. -/
def exOtherLayout : Value :=
  .obj [(utf8 "total_time", .obj [(utf8 "nanos", .num 9), (utf8 "secs", .num 2)]), (utf8 "x", .bool true), (utf8 "artifact_sizes", .arr []),
    (utf8 "query_data", .arr [])]

example : JsonDocument ([0x20] ++ render exOtherLayout ++ [0x0A]) exOtherLayout ∧ SavedResults ⟨[], [], 2000000009⟩ exOtherLayout ∧ ProperKeys exOtherLayout := by
  refine ⟨⟨_, _, _, rfl, by unfold JsonWs; simp, by unfold JsonWs; simp, render_text ?_⟩, ?_, ?_⟩
  · refine .obj ?_
    simp only [List.forall_mem_cons]
    refine ⟨.obj ?_, .bool _, .arr (fun _ h => by cases h), .arr (fun _ h => by cases h), fun _ h => by cases h⟩
    simp only [List.forall_mem_cons]
    exact ⟨.num _, .num _, fun _ h => by cases h⟩
  · have h : [utf8 "total_time", utf8 "x", utf8 "artifact_sizes", utf8 "query_data"].Nodup := by decide +kernel
    have h' : [utf8 "nanos", utf8 "secs"].Nodup := by decide +kernel
    refine ⟨_, _, _, field_of_mem h (.tail _ (.tail _ (.tail _ (.head _)))), .nil, field_of_mem h (.tail _ (.tail _ (.head _))), .nil, field_of_mem h (.head _),
      field_of_mem h' (.tail _ (.head _)), field_of_mem h' (.head _), _, rfl, ?_⟩
    simp only [List.forall_mem_cons]
    exact ⟨⟨_, by simp, rfl⟩, ⟨_, by simp, rfl⟩, fun _ h => by cases h⟩
  · refine .obj ?_ ?_
    · simp only [List.forall_mem_cons, List.forall_mem_nil]
      decide +kernel
    · simp only [List.forall_mem_cons]
      refine ⟨.obj ?_ ?_, .bool _, .arr (fun _ h => by cases h), .arr (fun _ h => by cases h), fun _ h => by cases h⟩
      · simp only [List.forall_mem_cons, List.forall_mem_nil]
        decide +kernel
      · simp only [List.forall_mem_cons]
        exact ⟨.num _, .num _, fun _ h => by cases h⟩

example : readResults (utf8 "{ \"total_time\": {\"nanos\":9,\"secs\":2},\n \"x\":-1.5e3, \"artifact_sizes\":[ ], \"query_data\":[] }") = .ok ⟨[], [], 2000000009⟩ := by
  decide +kernel

example : ¬ ∃ v, JsonDocument (utf8 "[") v := by
  rintro ⟨v, hv⟩
  exact unclosed_not_json [] (fun _ h => by cases h) v hv

/-- A folder with a profile and, under the name `json`, what `summarize --json` writes for it: the hypotheses of `C69_diff_of_saved` and
`C69_results_fit` are met. -/
example : ∃ (env : Env) (p : ProfilingData) (r : Results) (path text : Bytes),
    openProfile env.v8New env.fuel env.files (utf8 "dir/prof") = .ok p ∧ performAnalysis env.checks p = .ok r ∧
    summarizeJsonTool env (utf8 "dir/prof") = .ok (path, text) ∧ env.files (utf8 "json") = some text ∧
    env.files (profilerPath (utf8 "dir/prof")) = some exSession.file ∧ (exSession.file.take 8).drop 4 = [9, 0, 0, 0] ∧
    diffTool env readResults id (utf8 "json") (utf8 "dir/prof") = diffTool env readResults id (utf8 "dir/prof") (utf8 "dir/prof") := by
  obtain ⟨es, d, n, h1, _, h3⟩ := open_session exSession exSession_readable
  have hnest := seen_nested exSession es h1 exSession_scoped
  obtain ⟨r, hr⟩ := C40_nested_never_panics false es hnest (.inl rfl)
  have hn : exSession.file.length ≤ 1125899906842624 := by decide +kernel
  have hne : utf8 "json" ≠ profilerPath (utf8 "dir/prof") := by decide +kernel
  have hv : (exSession.file.take 8).drop 4 = [9, 0, 0, 0] := by
    unfold Session.file savedFile
    rw [C11_header_bytes]
    rfl
  let env : Env := ⟨fun _ => .error .outOfFuel, n, false, fun p => if p = profilerPath (utf8 "dir/prof") then some exSession.file else
    if p = utf8 "json" then some (writeResults r) else none⟩
  have hfile : env.files (profilerPath (utf8 "dir/prof")) = some exSession.file := by simp [env]
  have hsaved : env.files (utf8 "json") = some (writeResults r) := by simp [env, hne]
  obtain ⟨h4, h5, _⟩ := h3 env (utf8 "dir/prof") le_rfl hfile
  have ha : performAnalysis env.checks (v9Data env.fuel d) = .ok r := by
    simp only [performAnalysis, bind, Except.bind, h5]
    exact hr
  have hj : summarizeJsonTool env (utf8 "dir/prof") = .ok (resultsPath (utf8 "dir/prof"), writeResults r) := by
    simp only [summarizeJsonTool, bind, Except.bind, h4, ha]
  refine ⟨env, _, r, _, _, h4, ha, hj, hsaved, hfile, hv, ?_⟩
  refine (C69_diff_of_saved env id (utf8 "dir/prof") (utf8 "json") (utf8 "dir/") (utf8 "prof") _ _ exSession.file hj ?_ (by decide +kernel) ?_ hsaved hfile hv hn
    (utf8 "dir/prof")).1
  · exact ⟨⟨[], .nil, by decide +kernel⟩, Or.inr (by decide +kernel), by decide +kernel, by decide +kernel, by decide +kernel, by decide +kernel⟩
  · exact ⟨[], ⟨⟨[], .nil, by decide +kernel⟩, Or.inl rfl, by decide +kernel, by decide +kernel, by decide +kernel, by decide +kernel⟩⟩

end Verif.Props
