import Verif.Proofs.EndToEnd
import Verif.Props.Analysis
import Verif.Props.Collapse
import Verif.Props.Crox
import Verif.Props.Aggregate
import Verif.Props.Diff
import Verif.Props.Path
import Verif.Proofs.CollapseLight

/-! # Property C62: from the calls of a program to the output of the tools -/

namespace Verif.Props
open Verif Verif.Mm Verif.Spec Verif.Decode Verif.Analyze Verif.Tools Verif.Paths

theorem open_session (s : Session) (h : s.Readable) :
    ∃ es d n, s.Seen es ∧ d.metadata = ⟨s.start, s.pid, utf8 (commandLine s.args)⟩ ∧
      ∀ (env : Env) (stem : Bytes), n ≤ env.fuel → env.files (profilerPath stem) = some s.file →
        openProfile env.v8New env.fuel env.files stem = .ok (v9Data env.fuel d) ∧
        (v9Data env.fuel d).fullEvents = .ok es ∧ (v9Data env.fuel d).lightEvents = .ok (lightOf s) := by
  obtain ⟨es, d, n, h1, h2, h3⟩ := session_reads s h
  refine ⟨es, d, n, h1, h2, fun env stem hf hfile => ?_⟩
  obtain ⟨h4, h5, h6⟩ := h3 (some (Paths.display (withExtension stem fileExtension))) env.fuel hf
  refine ⟨?_, h5, h6⟩
  have hd := C30_current_dispatch (diag := some (Paths.display (withExtension stem fileExtension))) env.v8New env.fuel (metadataText s.start s.pid s.args s.counter) s.calls
  change env.files (withExtension stem fileExtension) = some s.file at hfile
  change EventDecoder.new _ env.fuel (savedFile _ _) = .ok d at h4
  unfold openProfile
  rw [hfile]
  change fromPagedBuffer _ env.v8New env.fuel (savedFile _ _) = _
  rw [hd, h4]
  rfl

/-- **C62.** What a tool reads from the file a session left under a stem is what the session recorded: all events in order, each
with its thread, its times and its texts. -/
theorem C62_read_back (s : Session) (h : s.Readable) :
    ∃ es, s.Seen es ∧ ∃ n, ∀ (env : Env) (stem : Bytes), n ≤ env.fuel → env.files (profilerPath stem) = some s.file →
      readEvents env stem = .ok es := by
  obtain ⟨es, d, n, h1, _, h3⟩ := open_session s h
  refine ⟨es, h1, n, fun env stem hf hfile => ?_⟩
  obtain ⟨h4, h5, _⟩ := h3 env stem hf hfile
  simp only [readEvents, h4, bind, Except.bind, h5]

/-- **C62.** `summarize` works on the file of every scoped session, whatever its threads did: it never panics, every unit of self
time is time of some outermost interval, and the self times do not exceed the total. -/
theorem C62_summarize (s : Session) (h : s.Readable) (hs : Scoped .empty s.calls) :
    ∃ es, s.Seen es ∧ ProperlyNested es ∧ ∃ n, ∀ (env : Env) (stem : Bytes), n ≤ env.fuel → env.files (profilerPath stem) = some s.file →
      (env.checks = true → integerCount (recorded s.calls) ≤ 65536) →
      ∃ r, analyze env.checks es = .ok r ∧
        (∀ (F : Type) (fl : Summarize.Float64 F) (above : F), summarizeTool env fl above stem = .ok (Summarize.summarize fl above r)) ∧
        (r.queryData.map (·.2.selfTime)).sum = rootTime es ∧ (r.queryData.map (·.2.selfTime)).sum ≤ r.totalTime ∧
        r.totalTime = ∑ t ∈ threadsOf es, spanLength t es := by
  obtain ⟨es, d, n, h1, _, h3⟩ := open_session s h
  have hn := seen_nested s es h1 hs
  refine ⟨es, h1, hn, n, fun env stem hf hfile hi => ?_⟩
  obtain ⟨h4, h5, _⟩ := h3 env stem hf hfile
  obtain ⟨r, hr⟩ := C40_nested_never_panics env.checks es hn (by
    cases hc : env.checks with
    | false => exact .inl rfl
    | true =>
      right
      intro l
      have h6 := artifact_bound s es h1 l
      have h7 : integerCount (recorded s.calls) * 281474976710655 ≤ 65536 * 281474976710655 := Nat.mul_le_mul_right _ (hi hc)
      omega)
  refine ⟨r, hr, fun F fl above => ?_, C35_conserved env.checks es hn r hr, C35_within_total env.checks es hn r hr, C38_total_time env.checks es r hr⟩
  simp only [summarizeTool, performAnalysis, h4, bind, Except.bind, h5, hr]

/-- **C62.** `stack_collapse` works on the file of every scoped session of up to 65536 threads: the file it writes lists, for every
path of labels, the time spent in exactly that path, and the times add up to the time of all threads. -/
theorem C62_stack_collapse (s : Session) (h : s.Readable) (hs : Scoped .empty s.calls) (ht : threadCount (recorded s.calls) ≤ 65536) :
    ∃ es, s.Seen es ∧ ∃ n, ∀ (env : Env) (stem : Bytes), n ≤ env.fuel → env.files (profilerPath stem) = some s.file →
      ∃ text, stackCollapseTool env stem = .ok text ∧
        ((∀ e ∈ es, (0x0A : UInt8) ∉ e.label) → (∀ k v, (k, v) ∈ readFolded text ↔
            (k = utf8 "rustc" ∧ v = allTime es - rootTime es) ∨ ((∃ j, hasPath es k j = true) ∧ v = pathTime es k)) ∧
          ((readFolded text).map (·.2)).sum = allTime es) := by
  obtain ⟨es, d, n, h1, _, h3⟩ := open_session s h
  have hn := seen_nested s es h1 hs
  refine ⟨es, h1, n, fun env stem hf hfile => ?_⟩
  obtain ⟨h4, h5, _⟩ := h3 env stem hf hfile
  obtain ⟨m, hm, _, hm2, hm3⟩ := C41_collapsed env.checks es hn (allTime_bound s es h1 ht)
  refine ⟨foldedText m, by simp only [stackCollapseTool, readCollapsed, h4, bind, Except.bind, collapse_eq env.checks _ es h5 (v9_agree env.fuel d), hm], fun hl => ?_⟩
  have hpath : ∀ (es : List Event), (∀ e ∈ es, (0x0A : UInt8) ∉ e.label) → ∀ j, (0x0A : UInt8) ∉ pathOf es j := by
    intro es
    induction es with
    | nil => intro _ j; simp [pathOf]
    | cons e es ih =>
      intro hl j
      have ih := ih (fun e he => hl e (List.mem_cons_of_mem _ he))
      cases j with
      | zero =>
        simp only [pathOf, List.mem_append, not_or]
        refine ⟨⟨?_, by decide⟩, hl e List.mem_cons_self⟩
        cases es.findIdx? (fun p => encloses p e) with
        | none => simp only [Option.map_none, Option.getD_none]; decide
        | some k => simp only [Option.map_some, Option.getD_some]; exact ih k
      | succ j => exact ih j
  have hr : readFolded (foldedText m) = m := C58_folded_readable m (by
    rintro ⟨k, v⟩ hx
    rcases (hm2 k v).mp hx with ⟨rfl, _⟩ | ⟨⟨j, hj⟩, _⟩
    · show (0x0A : UInt8) ∉ utf8 "rustc"
      decide
    · simp only [hasPath, Bool.and_eq_true, decide_eq_true_eq] at hj
      show (0x0A : UInt8) ∉ k
      rw [← hj.2]
      exact hpath es hl j)
  rw [hr]
  exact ⟨hm2, hm3⟩

/-- **C62.** `crox` works on the file of every scoped session: it emits one record for every interval that is long enough, in
order, with the process id of the session and lanes that never put two threads with a common moment together. -/
theorem C62_crox (s : Session) (h : s.Readable) (hs : Scoped .empty s.calls) (opt : Crox.Opt)
    (sortEnds sortStarts : List (Nat × UInt32) → List (Nat × UInt32)) (hE : Crox.SortsByTime sortEnds) (hS : Crox.SortsByTime sortStarts) :
    ∃ es les, s.Seen es ∧ les.map (fun e => (e.threadId, e.payload)) = es.map (fun e => (e.threadId, e.payload)) ∧
      ∃ n lane, (opt.collapseThreads = true → ValidLanes les lane) ∧ (opt.collapseThreads = false → ∀ t, lane t = t.toNat) ∧
      ∀ (env : Env) (stem : Bytes), n ≤ env.fuel → env.files (profilerPath stem) = some s.file →
        croxTool env opt sortEnds sortStarts stem =
          ((es.filter (longEnough opt.minimumDuration)).map (croxRecord s.pid lane),
            .ok (s.pid, (Crox.crateName (utf8 (commandLine s.args))).map (fun n => (s.pid, n)), s.start / 1000)) := by
  obtain ⟨es, d, n, h1, h2, h3⟩ := open_session s h
  have hn := seen_nested s es h1 hs
  obtain ⟨lane, hc, hi, hl⟩ := C45_profile opt sortEnds sortStarts hE hS (lightOf s)
  refine ⟨es, lightOf s, h1, ?_, n, lane, hc, hi, fun env stem hf hfile => ?_⟩
  · have hlt : (lightOf s).map (fun e => (e.threadId, e.payload)) = (recorded s.calls).map fun r => (r.thread, seen s.start r.what) := by
      unfold lightOf
      rw [List.map_map]
      have : ((fun e : LightweightEvent => (e.threadId, e.payload)) ∘ fun x : Recorded × Nat => (⟨x.2, x.1.thread, seen s.start x.1.what⟩ : LightweightEvent)) =
          (fun r : Recorded => (r.thread, seen s.start r.what)) ∘ Prod.fst := by funext x; rfl
      rw [this, ← List.map_map, List.zipIdx_map_fst]
    rw [hlt]
    have h1' := h1
    unfold Session.Seen at h1'
    clear hlt hl hs h3 h2 h hn hc hi h1
    generalize recorded s.calls = rs at h1'
    induction h1' with
    | nil => rfl
    | cons hre _ ih => rw [List.map_cons, List.map_cons, ih, hre.1, hre.2.1]
  · obtain ⟨h4, h5, h6⟩ := h3 env stem hf hfile
    have h7 : (v9Data env.fuel d).metadata = ⟨s.start, s.pid, utf8 (commandLine s.args)⟩ := h2
    have := hl env stem _ es h4 h6 h5 (v9_agree env.fuel d) hn.1 (by rw [h7]; exact h.start)
    rw [h7] at this
    exact this

/-- **C62.** The preconditions of `summarize aggregate` hold of every scoped session that uses one thread and whose counter never
goes backwards: its events are in post-order, the iterator gives their points, and the times between them are not negative. -/
theorem C62_aggregate_ready (s : Session) (h : s.Readable) (hs : Scoped .empty s.calls) (hc : Steady s.calls)
    (h1 : SingleThreaded (recorded s.calls)) :
    ∃ es, s.Seen es ∧ PostOrdered es ∧ ∃ tr, Emits (Aggregate.SamplePoints.new es) tr ∧
      ∃ n, ∀ (env : Env) (stem : Bytes), n ≤ env.fuel → env.files (profilerPath stem) = some s.file →
        readEvents env stem = .ok es ∧ ∃ r, aggregateTool env [stem] = .ok r := by
  obtain ⟨es, hes, n, hn⟩ := C62_read_back s h
  have hpo := seen_postOrdered s es hes hs hc h1
  obtain ⟨tr, htr⟩ := (C47_points es).1.mpr (seen_oneThread s es hes h1)
  refine ⟨es, hes, hpo, tr, htr, n, fun env stem hf hfile => ⟨hn env stem hf hfile, ?_⟩⟩
  obtain ⟨r, hr, _⟩ := C49_report es [] tr [] (.cons htr .nil) (by simpa using hpo) (by simp)
  refine ⟨r, ?_⟩
  simp only [aggregateTool, readAll, hn env stem hf hfile, bind, Except.bind, hr]

/-- **C62.** `summarize diff` of the files of two scoped sessions compares their analyses (neither file being called `json`). -/
theorem C62_diff (a b : Session) (ha : a.Readable) (hb : b.Readable) (hsa : Scoped .empty a.calls) (hsb : Scoped .empty b.calls) :
    ∃ ea eb, a.Seen ea ∧ b.Seen eb ∧ ∃ n, ∀ (env : Env) (stemA stemB : Bytes), n ≤ env.fuel →
      env.files (profilerPath stemA) = some a.file → env.files (profilerPath stemB) = some b.file →
      endsWithName stemA (utf8 "json") = false → endsWithName stemB (utf8 "json") = false →
      (env.checks = true → integerCount (recorded a.calls) ≤ 65536 ∧ integerCount (recorded b.calls) ≤ 65536) →
      ∃ ra rb, analyze env.checks ea = .ok ra ∧ analyze env.checks eb = .ok rb ∧
        ∀ (readJson : Bytes → Except Fault Results) (order : List Bytes → List Bytes), (∀ l, (order l).Perm l) → Modest ra → Modest rb →
          ∃ d, diffTool env readJson order stemA stemB = .ok d ∧ IsDiff ra rb d := by
  obtain ⟨ea, da, na, hea, _, h3a⟩ := open_session a ha
  obtain ⟨eb, db, nb, heb, _, h3b⟩ := open_session b hb
  refine ⟨ea, eb, hea, heb, max na nb, fun env stemA stemB hf hfa hfb hja hjb hi => ?_⟩
  have ok : ∀ (s : Session) (es : List Event), s.Seen es → Scoped .empty s.calls → (env.checks = true → integerCount (recorded s.calls) ≤ 65536) →
      ∃ r, analyze env.checks es = .ok r := by
    intro s es hes hs hi
    refine C40_nested_never_panics env.checks es (seen_nested s es hes hs) ?_
    cases hc : env.checks with
    | false => exact .inl rfl
    | true =>
      right
      intro l
      have h6 := artifact_bound s es hes l
      have h7 : integerCount (recorded s.calls) * 281474976710655 ≤ 65536 * 281474976710655 := Nat.mul_le_mul_right _ (hi hc)
      omega
  obtain ⟨ra, hra⟩ := ok a ea hea hsa (fun hc => (hi hc).1)
  obtain ⟨rb, hrb⟩ := ok b eb heb hsb (fun hc => (hi hc).2)
  obtain ⟨a4, a5, _⟩ := h3a env stemA (by omega) hfa
  obtain ⟨b4, b5, _⟩ := h3b env stemB (by omega) hfb
  refine ⟨ra, rb, hra, hrb, fun readJson order ho hma hmb => ?_⟩
  obtain ⟨d, hd, hdd⟩ := C50_difference env.checks order ho ra rb hma hmb
  refine ⟨d, ?_, hdd⟩
  simp only [diffTool, processResults, hja, hjb, Bool.false_eq_true, if_false, a4, b4, performAnalysis, a5, b5, bind, Except.bind, hra, hrb, hd]

/-! ### A session -/

/-- One thread: two nested intervals, an instant, an artifact size. -/
def exSession : Session :=
  { start := 1000, pid := 42, args := ["rustc", "a.rs"], counter := .wallTime
    calls := [.allocString (.str "Query"), .allocString (.str "type_of"), .allocString (.str "u32"), .allocString (labelAndArgs 100000189 [100000197]),
      .start 0 100000183 100000201 7 10, .start 1 100000183 100000189 7 20, .instant 100000183 100000189 7 21, .finish 1 30,
      .finish 0 500, .integer 100000183 100000189 7 4096] }

theorem exSession_recorded : recorded exSession.calls =
    [⟨100000183, 100000189, 7, .instant 21⟩, ⟨100000183, 100000189, 7, .interval 20 30⟩, ⟨100000183, 100000201, 7, .interval 10 500⟩,
     ⟨100000183, 100000189, 7, .integer 4096⟩] := by
  decide +kernel

theorem exSession_strings : (exSession.calls.zip (profOutcomes exMetadata exSession.calls)).take 4 =
    [(.allocString (.str "Query"), .ok (some 100000183)), (.allocString (.str "type_of"), .ok (some 100000189)),
     (.allocString (.str "u32"), .ok (some 100000197)), (.allocString (labelAndArgs 100000189 [100000197]), .ok (some 100000201))] := by
  have h : (profOutcomes exMetadata exSession.calls).take 4 =
      [.ok (some 100000183), .ok (some 100000189), .ok (some 100000197), .ok (some 100000201)] := by decide +kernel
  rw [List.zip, List.take_zipWith, h]
  rfl

theorem exSession_readable : exSession.Readable := by
  have mem : ∀ x ∈ (exSession.calls.zip (profOutcomes exMetadata exSession.calls)).take 4,
      x ∈ exSession.calls.zip (profOutcomes exMetadata exSession.calls) := fun x hx => List.mem_of_mem_take hx
  rw [exSession_strings] at mem
  have str : ∀ s id, (ProfCall.allocString (.str s), .ok (some id)) ∈ exSession.calls.zip (profOutcomes exMetadata exSession.calls) →
      Means exSession.log id s := fun s id h =>
    entry_means (.inl ⟨.table (.alloc (.str s)), rfl, List.mem_cons_of_mem _ (List.mem_filterMap.mpr ⟨_, h, rfl⟩)⟩) (reads_str _ _)
  have h1 := str "Query" 100000183 (mem _ (by simp))
  have h2 := str "type_of" 100000189 (mem _ (by simp))
  have h3 := str "u32" 100000197 (mem _ (by simp))
  have h4 : Means exSession.log 100000201 (joined "type_of" ["u32"]) :=
    entry_means (.inl ⟨.table (.alloc (labelAndArgs 100000189 [100000197])), rfl, List.mem_cons_of_mem _ (List.mem_filterMap.mpr
      ⟨(ProfCall.allocString (labelAndArgs 100000189 [100000197]), .ok (some 100000201)), mem _ (by simp), rfl⟩)⟩) (reads_event_id h2 ⟨h3, trivial⟩)
  refine ⟨by decide, by decide, by decide, ?_, ?_⟩
  · rw [exSession_recorded]
    intro r hr
    simp only [List.mem_cons, List.not_mem_nil, or_false] at hr
    rcases hr with rfl | rfl | rfl | rfl <;> exact ⟨_, h1⟩
  · rw [exSession_recorded]
    intro r hr
    simp only [List.mem_cons, List.not_mem_nil, or_false] at hr
    rcases hr with rfl | rfl | rfl | rfl
    · exact ⟨_, h2⟩
    · exact ⟨_, h2⟩
    · exact ⟨_, h4⟩
    · exact ⟨_, h2⟩

theorem exSession_scoped : Scoped .empty exSession.calls := by
  refine ⟨by simp [Scopes.empty], by decide, ?_, by decide, 7, by decide, by decide, 7, by decide, by decide, trivial⟩
  intro u
  simp only [Scopes.empty, Scopes.enter]
  split <;> simp

example : ∃ es, exSession.Seen es ∧ PostOrdered es ∧ ∃ tr, Emits (Aggregate.SamplePoints.new es) tr ∧
    ∃ n, ∀ (env : Env) (stem : Bytes), n ≤ env.fuel → env.files (profilerPath stem) = some exSession.file →
      readEvents env stem = .ok es ∧ ∃ r, aggregateTool env [stem] = .ok r :=
  C62_aggregate_ready exSession exSession_readable exSession_scoped (by unfold Steady; decide) (by
    intro a ha b hb _ _
    rw [exSession_recorded] at ha hb
    simp only [List.mem_cons, List.not_mem_nil, or_false] at ha hb
    rcases ha with rfl | rfl | rfl | rfl <;> rcases hb with rfl | rfl | rfl | rfl <;> rfl)

example : ∃ es, exSession.Seen es ∧ ProperlyNested es ∧ ∃ n, ∀ (env : Env) (stem : Bytes), n ≤ env.fuel →
    env.files (profilerPath stem) = some exSession.file →
    (env.checks = true → integerCount (recorded exSession.calls) ≤ 65536) → ∃ r, analyze env.checks es = .ok r := by
  obtain ⟨es, h1, h2, n, h3⟩ := C62_summarize exSession exSession_readable exSession_scoped
  exact ⟨es, h1, h2, n, fun env stem a b c => (h3 env stem a b c).elim fun r h => ⟨r, h.1⟩⟩

/-- A file system that holds the session's file where the tools look for it. -/
example : ∃ env : Env, env.files (profilerPath (utf8 "dir/prof")) = some exSession.file :=
  ⟨⟨fun _ => .error .outOfFuel, 0, true, fun p => if p = profilerPath (utf8 "dir/prof") then some exSession.file else none⟩, by simp⟩

end Verif.Props
