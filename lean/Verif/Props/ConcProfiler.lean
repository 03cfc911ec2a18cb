import Verif.Proofs.ConcDenotes
import Verif.Props.EndToEnd

/-! # Property C63: a profiler used by several threads -/

namespace Verif.Props
open Verif Verif.Mm Verif.Spec Verif.Decode Verif.Analyze Verif.Tools Verif.Paths Verif.Conc

/-- **C63.** Whatever the threads do and however they are scheduled, there is one order of all their calls, agreeing with each
thread's own order and with real time, such that the file reads like the file of a single thread making the calls in that order,
and every thread gets the answers that the single thread gets. -/
theorem C63_as_one_thread {n : Nat} (p : Program n) (hn : OwnNames p) (σ : Conc (n + 1)) (h : Executes p σ) :
    ∃ L, Orders p L ∧ RealTime p σ L ∧ ReadsLike (fileOf σ) (savedFile p.metadata (L.map Prod.snd)) ∧
      ∀ t, answersOf p σ t = ofThread t ((L.map Prod.fst).zip (profOutcomes p.metadata (L.map Prod.snd))) :=
  serialize hn h

/-- **C63.** Every program can be executed to its end (no deadlock between creation, use and drop). -/
theorem C63_executes {n : Nat} (p : Program n) : ∃ σ, Executes p σ := executes p

/-- **C63.** Files that read alike are the same to all tools. -/
theorem C63_tools (file file' : Bytes) (h : ReadsLike file file') : ToolsAgree file file' := by
  intro env env' stem h1 h2 h3 hf hf'
  have e : openProfile env.v8New env.fuel env.files stem = openProfile env'.v8New env'.fuel env'.files stem := by
    change env.files (withExtension stem fileExtension) = some file at hf
    change env'.files (withExtension stem fileExtension) = some file' at hf'
    unfold openProfile
    rw [hf, hf', h1, h2]
    exact h _ _ _
  have e2 : readEvents env stem = readEvents env' stem := by unfold readEvents; rw [e]
  refine ⟨e, e2, fun F fl above => ?_, ?_, fun opt a b => ?_, ?_⟩
  · unfold summarizeTool; rw [e, h3]
  · unfold stackCollapseTool readCollapsed; rw [e, h3]
  · unfold croxTool; rw [e]
  · unfold aggregateTool readAll; rw [e2]; rfl

/-- **C63.** In every order of the calls, each thread's events are recorded under its id in its order, and nothing else is. -/
theorem C63_recorded {n : Nat} (p : Program n) (tid : Fin (n + 1) → UInt32) (hn : OwnNames p) (ht : OwnThreadIds p tid)
    (L : List (Fin (n + 1) × ProfCall)) (ho : Orders p L) (t : Fin (n + 1)) :
    (recorded (L.map Prod.snd)).filter (fun r => r.thread = tid t) = recorded (p.calls t) ∧ ∀ r ∈ recorded (L.map Prod.snd), ∃ t, r.thread = tid t := by
  refine ⟨?_, recorded_thread (P := fun u => ∃ t, u = tid t) (L.map Prod.snd) (fun c hc u hu => ?_)⟩
  rotate_left
  · obtain ⟨t, hc⟩ := (mem_ofThread L c).mpr hc
    rw [ho t] at hc
    exact ⟨t, ht.2 t c hc u hu⟩
  have := recorded_merge tid ht.1 L .empty (fun _ => .empty) (fun t c hc => ht.2 t c (by rw [← ho t]; exact hc))
    (fun t t' hne c hc c' hc' => hn t t' hne c (by rw [← ho t]; exact hc) c' (by rw [← ho t']; exact hc'))
    (fun _ _ _ _ _ => ⟨rfl, rfl⟩) (by simp [Ledger.empty]) (fun _ => rfl) t
  rw [ho t] at this
  exact this

/-- **C63.** If every thread on its own is scoped, so is every order of the calls. -/
theorem C63_scoped {n : Nat} (p : Program n) (tid : Fin (n + 1) → UInt32) (hn : OwnNames p) (ht : OwnThreadIds p tid)
    (hs : ∀ t, Scoped .empty (p.calls t)) (L : List (Fin (n + 1) × ProfCall)) (ho : Orders p L) : Scoped .empty (L.map Prod.snd) :=
  scoped_merge tid ht.1 L .empty (fun _ => .empty) (fun t c hc => ht.2 t c (by rw [← ho t]; exact hc))
    (fun t t' hne c hc c' hc' => hn t t' hne c (by rw [← ho t]; exact hc) c' (by rw [← ho t']; exact hc'))
    (by simp [Scopes.empty]) (fun _ => ⟨rfl, rfl⟩) (fun _ _ => rfl) (fun _ _ _ => rfl) (fun t => by rw [ho t]; exact hs t)

/-- **C63.** A program whose threads are each scoped, record under ids of their own and put into events only ids that denote texts
(whichever thread allocated them) leaves a file that all tools treat like the file of a readable, scoped session of one thread,
in which each thread's events appear in its order. -/
theorem C63_session {n : Nat} (p : Program n) (tid : Fin (n + 1) → UInt32) (start pid : Nat) (args : List String) (counter : CounterKind)
    (hm : p.metadata = metadataText start pid args counter) (hstart : start < 18446744073709551616) (hpid : pid < 4294967296) (hargs : PlainArgs args)
    (hn : OwnNames p) (ht : OwnThreadIds p tid) (hs : ∀ t, Scoped .empty (p.calls t)) (σ : Conc (n + 1)) (h : Executes p σ)
    (hd : ∀ t, ∀ c ∈ p.calls t, ∀ i ∈ usedIds c, Denotes p σ i) :
    ∃ s : Session, s.start = start ∧ s.pid = pid ∧ s.args = args ∧ s.counter = counter ∧ s.Readable ∧ Scoped .empty s.calls ∧
      (∃ L, Orders p L ∧ RealTime p σ L ∧ s.calls = L.map Prod.snd) ∧
      (∀ t, (recorded s.calls).filter (fun r => r.thread = tid t) = recorded (p.calls t)) ∧ (∀ r ∈ recorded s.calls, ∃ t, r.thread = tid t) ∧
      ToolsAgree (fileOf σ) s.file := by
  obtain ⟨L, l1, l2, l3, l4⟩ := C63_as_one_thread p hn σ h
  have hu : ∀ r ∈ recorded (L.map Prod.snd), Denotes p σ r.kind ∧ Denotes p σ r.id := by
    refine recorded_used (L.map Prod.snd) (fun c hc => ?_)
    obtain ⟨t, hc⟩ := (mem_ofThread L c).mpr hc
    rw [l1 t] at hc
    exact hd t c hc
  refine ⟨⟨start, pid, args, counter, L.map Prod.snd⟩, rfl, rfl, rfl, rfl, ⟨hstart, hpid, hargs, fun r hr => ?_, fun r hr => ?_⟩,
    C63_scoped p tid hn ht hs L l1, ⟨L, l1, l2, rfl⟩, fun t => (C63_recorded p tid hn ht L l1 t).1, (C63_recorded p tid hn ht L l1 0).2, ?_⟩
  · have := denotes_means l1 l4 (hu r hr).1
    rw [hm] at this
    exact this
  · have := denotes_means l1 l4 (hu r hr).2
    rw [hm] at this
    exact this
  · rw [hm] at l3
    exact C63_tools _ _ l3

theorem seen_pairs (s : Session) (es : List Event) (h : s.Seen es) :
    es.map (fun e => (e.threadId, e.payload)) = (recorded s.calls).map fun r => (r.thread, seen s.start r.what) := by
  unfold Session.Seen at h
  generalize recorded s.calls = rs at h
  induction h with
  | nil => rfl
  | cons h _ ih => rw [List.map_cons, List.map_cons, ih, h.1, h.2.1]

theorem filter_pairs (u : UInt32) (f : Recorded → EventPayload) (es : List Event) : ∀ (rs : List Recorded),
    es.map (fun e => (e.threadId, e.payload)) = rs.map (fun r => (r.thread, f r)) →
    (es.filter fun e => e.threadId = u).map (·.payload) = (rs.filter fun r => r.thread = u).map f := by
  induction es with
  | nil => intro rs h; cases rs with
    | nil => rfl
    | cons r rs => cases h
  | cons e es ih =>
    intro rs h
    cases rs with
    | nil => cases h
    | cons r rs =>
      simp only [List.map_cons, List.cons.injEq, Prod.mk.injEq] at h
      obtain ⟨⟨h1, h2⟩, h3⟩ := h
      rw [List.filter_cons, List.filter_cons, h1]
      split
      · rw [List.map_cons, List.map_cons, ih rs h3, h2]
      · exact ih rs h3

theorem integerCount_threads {m : Nat} (tid : Fin m → UInt32) (hinj : ∀ t t', tid t = tid t' → t = t') (rs : List Recorded) (h : ∀ r ∈ rs, ∃ t, r.thread = tid t) :
    integerCount rs = ∑ t, integerCount (rs.filter fun r => r.thread = tid t) := by
  induction rs with
  | nil => simp [integerCount]
  | cons r rs ih =>
    have ih := ih (fun r hr => h r (List.mem_cons_of_mem _ hr))
    obtain ⟨t0, h0⟩ := h r List.mem_cons_self
    have e : ∀ t, integerCount ((r :: rs).filter fun r => r.thread = tid t) =
        (if t = t0 then integerCount [r] else 0) + integerCount (rs.filter fun r => r.thread = tid t) := by
      intro t
      rw [List.filter_cons]
      by_cases ht : t = t0
      · subst ht
        rw [if_pos (by simpa using h0), if_pos rfl]
        unfold integerCount
        rw [List.filter_cons, List.filter_cons]
        split <;> simp <;> omega
      · have : ¬ r.thread = tid t := fun e => ht (hinj _ _ (e.symm.trans h0))
        rw [if_neg (by simpa using this), if_neg ht, Nat.zero_add]
    rw [Finset.sum_congr rfl (fun t _ => e t), Finset.sum_add_distrib, ← ih]
    simp only [Finset.sum_ite_eq', Finset.mem_univ, if_true]
    unfold integerCount
    rw [List.filter_cons, List.filter_cons]
    split <;> simp <;> omega

/-- **C63.** So `summarize` works on the file of a multi-threaded program, whatever the schedule: it does not panic, it sees each
thread's events in order, and the self times it computes are the time covered by outermost intervals. -/
theorem C63_summarize {n : Nat} (p : Program n) (tid : Fin (n + 1) → UInt32) (start pid : Nat) (args : List String) (counter : CounterKind)
    (hm : p.metadata = metadataText start pid args counter) (hstart : start < 18446744073709551616) (hpid : pid < 4294967296) (hargs : PlainArgs args)
    (hn : OwnNames p) (ht : OwnThreadIds p tid) (hs : ∀ t, Scoped .empty (p.calls t)) (σ : Conc (n + 1)) (h : Executes p σ)
    (hd : ∀ t, ∀ c ∈ p.calls t, ∀ i ∈ usedIds c, Denotes p σ i) :
    ∃ es, (∀ t, (es.filter fun e => e.threadId = tid t).map (·.payload) = (recorded (p.calls t)).map fun r => seen start r.what) ∧
      ∃ m, ∀ (env : Env) (stem : Bytes), m ≤ env.fuel → env.files (profilerPath stem) = some (fileOf σ) →
        readEvents env stem = .ok es ∧
        ((env.checks = true → ∑ t, integerCount (recorded (p.calls t)) ≤ 65536) →
          ∃ r, analyze env.checks es = .ok r ∧
            (∀ (F : Type) (fl : Summarize.Float64 F) (above : F), summarizeTool env fl above stem = .ok (Summarize.summarize fl above r)) ∧
            (r.queryData.map (·.2.selfTime)).sum = rootTime es ∧ (r.queryData.map (·.2.selfTime)).sum ≤ r.totalTime) := by
  obtain ⟨s, h1, _, _, _, h5, h6, _, h8, h9, h10⟩ := C63_session p tid start pid args counter hm hstart hpid hargs hn ht hs σ h hd
  subst h1
  obtain ⟨es, d, m, e1, _, e3⟩ := open_session s h5
  have hnest := seen_nested s es e1 h6
  refine ⟨es, fun t => ?_, m, fun env stem hf hfile => ?_⟩
  · rw [← h8 t]
    exact filter_pairs (tid t) (fun r => seen s.start r.what) es _ (seen_pairs s es e1)
  · obtain ⟨a1, a2, a3, _⟩ := h10 env { env with files := fun _ => some s.file } stem rfl rfl rfl hfile rfl
    obtain ⟨b1, b2, _⟩ := e3 { env with files := fun _ => some s.file } stem hf rfl
    have hread : readEvents env stem = .ok es := by
      rw [a2]
      simp only [readEvents, bind, Except.bind]
      rw [b1]
      exact b2
    refine ⟨hread, fun hi => ?_⟩
    obtain ⟨r, hr⟩ := C40_nested_never_panics env.checks es hnest (by
      cases hc : env.checks with
      | false => exact .inl rfl
      | true =>
        right
        intro l
        have h11 := artifact_bound s es e1 l
        have h12 : integerCount (recorded s.calls) ≤ 65536 := by
          rw [integerCount_threads tid ht.1 _ h9, Finset.sum_congr rfl (fun t _ => by rw [h8 t])]
          exact hi hc
        have h13 : integerCount (recorded s.calls) * 281474976710655 ≤ 65536 * 281474976710655 := Nat.mul_le_mul_right _ h12
        omega)
    refine ⟨r, hr, fun F fl above => ?_, C35_conserved env.checks es hnest r hr, C35_within_total env.checks es hnest r hr⟩
    rw [a3]
    simp only [summarizeTool, performAnalysis, bind, Except.bind]
    rw [b1]
    simp only
    rw [b2]
    simp only
    rw [hr]

theorem threadCount_threads {m : Nat} (tid : Fin m → UInt32) (rs : List Recorded) (h : ∀ r ∈ rs, ∃ t, r.thread = tid t) : threadCount rs ≤ m := by
  have h1 : (rs.map (·.thread)).dedup ⊆ (List.finRange m).map tid := by
    intro x hx
    rw [List.mem_dedup, List.mem_map] at hx
    obtain ⟨r, hr, rfl⟩ := hx
    obtain ⟨t, ht⟩ := h r hr
    rw [ht]
    exact List.mem_map_of_mem (List.mem_finRange t)
  have h2 := ((List.nodup_dedup (rs.map (·.thread))).subperm h1).length_le
  rw [List.length_map, List.length_finRange] at h2
  exact h2

/-- **C63.** So does `stack_collapse`, for a program of up to 65536 threads: the file it writes lists, for every path of labels, the
time spent in exactly that path, and the times add up to the time of all threads. -/
theorem C63_stack_collapse {n : Nat} (p : Program n) (tid : Fin (n + 1) → UInt32) (start pid : Nat) (args : List String) (counter : CounterKind)
    (hm : p.metadata = metadataText start pid args counter) (hstart : start < 18446744073709551616) (hpid : pid < 4294967296) (hargs : PlainArgs args)
    (hn : OwnNames p) (ht : OwnThreadIds p tid) (hs : ∀ t, Scoped .empty (p.calls t)) (σ : Conc (n + 1)) (h : Executes p σ)
    (hd : ∀ t, ∀ c ∈ p.calls t, ∀ i ∈ usedIds c, Denotes p σ i) (hthreads : n + 1 ≤ 65536) :
    ∃ es, (∀ t, (es.filter fun e => e.threadId = tid t).map (·.payload) = (recorded (p.calls t)).map fun r => seen start r.what) ∧
      ∃ m, ∀ (env : Env) (stem : Bytes), m ≤ env.fuel → env.files (profilerPath stem) = some (fileOf σ) →
        ∃ text, stackCollapseTool env stem = .ok text ∧
          ((∀ e ∈ es, (0x0A : UInt8) ∉ e.label) → (∀ k v, (k, v) ∈ readFolded text ↔
              (k = utf8 "rustc" ∧ v = allTime es - rootTime es) ∨ ((∃ j, hasPath es k j = true) ∧ v = pathTime es k)) ∧
            ((readFolded text).map (·.2)).sum = allTime es) := by
  obtain ⟨s, h1, _, _, _, h5, h6, _, h8, h9, h10⟩ := C63_session p tid start pid args counter hm hstart hpid hargs hn ht hs σ h hd
  subst h1
  obtain ⟨es, e1, m, e2⟩ := C62_stack_collapse s h5 h6 (le_trans (threadCount_threads tid _ h9) hthreads)
  refine ⟨es, fun t => ?_, m, fun env stem hf hfile => ?_⟩
  · rw [← h8 t]
    exact filter_pairs (tid t) (fun r => seen s.start r.what) es _ (seen_pairs s es e1)
  · obtain ⟨_, _, _, a4, _⟩ := h10 env { env with files := fun _ => some s.file } stem rfl rfl rfl hfile rfl
    rw [a4]
    exact e2 { env with files := fun _ => some s.file } stem hf rfl

/-- **C63.** And `crox`: it emits one record for every interval that is long enough, with the process id and the start of the
session, in an order in which each thread's events come as it recorded them, and never puts two threads with a common moment on the
same lane. -/
theorem C63_crox {n : Nat} (p : Program n) (tid : Fin (n + 1) → UInt32) (start pid : Nat) (args : List String) (counter : CounterKind)
    (hm : p.metadata = metadataText start pid args counter) (hstart : start < 18446744073709551616) (hpid : pid < 4294967296) (hargs : PlainArgs args)
    (hn : OwnNames p) (ht : OwnThreadIds p tid) (hs : ∀ t, Scoped .empty (p.calls t)) (σ : Conc (n + 1)) (h : Executes p σ)
    (hd : ∀ t, ∀ c ∈ p.calls t, ∀ i ∈ usedIds c, Denotes p σ i) (opt : Crox.Opt)
    (sortEnds sortStarts : List (Nat × UInt32) → List (Nat × UInt32)) (hE : Crox.SortsByTime sortEnds) (hS : Crox.SortsByTime sortStarts) :
    ∃ (es : List Event) (les : List LightweightEvent), (∀ t, (es.filter fun e => e.threadId = tid t).map (·.payload) = (recorded (p.calls t)).map fun r => seen start r.what) ∧
      les.map (fun e => (e.threadId, e.payload)) = es.map (fun e => (e.threadId, e.payload)) ∧
      ∃ m lane, (opt.collapseThreads = true → ValidLanes les lane) ∧ (opt.collapseThreads = false → ∀ t, lane t = t.toNat) ∧
      ∀ (env : Env) (stem : Bytes), m ≤ env.fuel → env.files (profilerPath stem) = some (fileOf σ) →
        croxTool env opt sortEnds sortStarts stem =
          ((es.filter (longEnough opt.minimumDuration)).map (croxRecord pid lane),
            .ok (pid, (Crox.crateName (utf8 (commandLine args))).map (fun n => (pid, n)), start / 1000)) := by
  obtain ⟨s, h1, h2, h3, _, h5, h6, _, h8, h9, h10⟩ := C63_session p tid start pid args counter hm hstart hpid hargs hn ht hs σ h hd
  subst h1 h2 h3
  obtain ⟨es, les, e1, e2, m, lane, e3, e4, e5⟩ := C62_crox s h5 h6 opt sortEnds sortStarts hE hS
  refine ⟨es, les, fun t => ?_, e2, m, lane, e3, e4, fun env stem hf hfile => ?_⟩
  · rw [← h8 t]
    exact filter_pairs (tid t) (fun r => seen s.start r.what) es _ (seen_pairs s es e1)
  · obtain ⟨_, _, _, _, a5, _⟩ := h10 env { env with files := fun _ => some s.file } stem rfl rfl rfl hfile rfl
    rw [a5]
    exact e5 { env with files := fun _ => some s.file } stem hf rfl

/-! ### A program with two threads -/

/-- Thread 0 allocates the string that both use, and times something; thread 1 times something else. -/
def exProgram : Program 1 where
  metadata := exMetadata
  calls := fun t => if t = 0 then [.allocString (.str "Query"), .start 0 100000183 100000183 7 10, .finish 0 500]
    else [.start 1 100000183 100000183 8 20, .finish 1 30]

theorem exProgram_names : OwnNames exProgram := by
  intro t t' h c hc c' hc' g hg
  match t, t' with
  | 0, 0 => exact absurd rfl h
  | 1, 1 => exact absurd rfl h
  | 0, 1 =>
    simp [exProgram] at hc hc'
    rcases hc with rfl | rfl | rfl <;> rcases hc' with rfl | rfl <;> simp [nameOf] at hg ⊢ <;> omega
  | 1, 0 =>
    simp [exProgram] at hc hc'
    rcases hc with rfl | rfl <;> rcases hc' with rfl | rfl | rfl <;> simp [nameOf] at hg ⊢ <;> omega

theorem exProgram_ids : OwnThreadIds exProgram (fun t => if t = 0 then 7 else 8) := by
  refine ⟨by decide, fun t c hc u hu => ?_⟩
  match t with
  | 0 =>
    simp [exProgram] at hc
    rcases hc with rfl | rfl | rfl <;> simp [recordsAs] at hu
    rw [← hu]; rfl
  | 1 =>
    simp [exProgram] at hc
    rcases hc with rfl | rfl <;> simp [recordsAs] at hu
    rw [← hu]; rfl

theorem exProgram_scoped (t : Fin 2) : Scoped .empty (exProgram.calls t) := by
  match t with
  | 0 => exact ⟨by simp [Scopes.empty], by decide, 7, by decide, by decide, trivial⟩
  | 1 => exact ⟨by simp [Scopes.empty], by decide, 8, by decide, by decide, trivial⟩

theorem runProf_append (a b : List ProfCall) : ∀ s, runProf (a ++ b) s = ((runProf a s).1 ++ (runProf b (runProf a s).2).1, (runProf b (runProf a s).2).2) := by
  induction a with
  | nil => intro s; rfl
  | cons c a ih => intro s; simp only [List.cons_append, runProf, ih]

/-- Whatever the schedule, thread 0 gets the id that both threads use. -/
theorem exProgram_denotes (σ : Conc 2) (h : Executes exProgram σ) : Denotes exProgram σ 100000183 := by
  obtain ⟨L, l1, l2, l3, l4⟩ := C63_as_one_thread exProgram exProgram_names σ h
  refine .string _ [.value "Query"] (.inl ⟨.str "Query", rfl, (made_iff l1 l4 _ _).mpr ?_⟩) (by simp)
  obtain ⟨pre, post, hL, hp⟩ : ∃ pre post, L = pre ++ (0, .allocString (.str "Query")) :: post ∧ ofThread 0 pre = [] := by
    have h0 : ofThread 0 L = .allocString (.str "Query") :: [.start 0 100000183 100000183 7 10, .finish 0 500] := l1 0
    revert h0
    generalize [ProfCall.start 0 100000183 100000183 7 10, .finish 0 500] = rest
    clear l1 l2 l3 l4
    induction L with
    | nil => intro h; cases h
    | cons e L ih =>
      obtain ⟨t, c⟩ := e
      intro h
      rw [ofThread_cons] at h
      split at h
      · rename_i ht
        subst ht
        injection h with h1 h2
        subst h1
        exact ⟨[], L, rfl, rfl⟩
      · rename_i ht
        obtain ⟨pre, post, h1, h2⟩ := ih h
        exact ⟨(t, c) :: pre, post, by rw [h1]; rfl, by rw [ofThread_cons, if_neg ht]; exact h2⟩
  have hpre : pre.map Prod.snd <+: [.start 1 100000183 100000183 8 20, .finish 1 30] := by
    have h1 : ofThread 1 L = [.start 1 100000183 100000183 8 20, .finish 1 30] := l1 1
    have : pre.map Prod.snd = ofThread 1 pre := by
      clear hL h1 l1 l4
      induction pre with
      | nil => rfl
      | cons e pre ih =>
        obtain ⟨t, c⟩ := e
        rw [ofThread_cons] at hp
        split at hp
        · cases hp
        · rename_i ht
          have : t = 1 := by
            match t, ht with
            | 0, ht => exact absurd rfl ht
            | 1, _ => rfl
          subst this
          rw [ofThread_cons, if_pos rfl, ← ih hp]
          rfl
    rw [this, ← h1, hL]
    exact ⟨ofThread 1 ((0, .allocString (.str "Query")) :: post), by simp [ofThread]⟩
  rw [hL, List.map_append, List.map_cons]
  change (ProfCall.allocString (.str "Query"), _) ∈ (pre.map Prod.snd ++ .allocString (.str "Query") :: post.map Prod.snd).zip (profOutcomes exMetadata (pre.map Prod.snd ++ .allocString (.str "Query") :: post.map Prod.snd))
  unfold profOutcomes
  rw [runProf_append, List.zip_append (runProf_length _ _).symm]
  refine List.mem_append_right _ ?_
  simp only [runProf, List.zip_cons_cons]
  refine List.mem_cons.mpr (.inl ?_)
  congr 1
  generalize pre.map Prod.snd = xs at hpre
  have hx : xs = [] ∨ xs = [.start 1 100000183 100000183 8 20] ∨ xs = [.start 1 100000183 100000183 8 20, .finish 1 30] := by
    match xs, hpre with
    | [], _ => exact .inl rfl
    | [a], h => rw [List.cons_prefix_cons] at h; obtain ⟨rfl, _⟩ := h; exact .inr (.inl rfl)
    | [a, b], h =>
      rw [List.cons_prefix_cons, List.cons_prefix_cons] at h
      obtain ⟨rfl, rfl, _⟩ := h
      exact .inr (.inr rfl)
    | a :: b :: c :: d, h => have := h.length_le; simp at this
  rcases hx with rfl | rfl | rfl <;> decide +kernel

theorem exProgram_used (σ : Conc 2) (h : Executes exProgram σ) : ∀ t, ∀ c ∈ exProgram.calls t, ∀ i ∈ usedIds c, Denotes exProgram σ i := by
  intro t c hc i hi
  have : i = 100000183 := by
    match t with
    | 0 =>
      simp [exProgram] at hc
      rcases hc with rfl | rfl | rfl <;> simp [usedIds] at hi <;> exact hi
    | 1 =>
      simp [exProgram] at hc
      rcases hc with rfl | rfl <;> simp [usedIds] at hi <;> exact hi
  rw [this]
  exact exProgram_denotes σ h

/-- The hypotheses are met: the program has executions, and all of them lead to a file `summarize` can work with. -/
example : (∃ σ, Executes exProgram σ) ∧ ∀ σ, Executes exProgram σ → ∃ es : List Event, ∃ m, ∀ (env : Env) (stem : Bytes), m ≤ env.fuel →
    env.files (profilerPath stem) = some (fileOf σ) → readEvents env stem = .ok es ∧ ∃ r, analyze env.checks es = .ok r := by
  refine ⟨C63_executes _, fun σ h => ?_⟩
  obtain ⟨es, _, m, hm⟩ := C63_summarize exProgram _ 1000 42 ["rustc", "a.rs"] .wallTime rfl (by decide) (by decide) (by decide)
    exProgram_names exProgram_ids exProgram_scoped σ h (exProgram_used σ h)
  refine ⟨es, m, fun env stem h1 h2 => ?_⟩
  obtain ⟨a, b⟩ := hm env stem h1 h2
  obtain ⟨r, hr, _⟩ := b (fun _ => by decide +kernel)
  exact ⟨a, r, hr⟩

/-- Every execution of the two threads gives a file from which `stack_collapse` makes its own and which `crox` converts. -/
example : ∀ σ, Executes exProgram σ → ∃ m, ∀ (env : Env) (stem : Bytes), m ≤ env.fuel → env.files (profilerPath stem) = some (fileOf σ) →
    (∃ text, stackCollapseTool env stem = .ok text) ∧
    ∃ x, croxTool env ⟨false, none⟩ (fun l => l.insertionSort (fun a b => a.1 ≤ b.1)) (fun l => l.insertionSort (fun a b => a.1 ≤ b.1)) stem = (x, .ok (42, none, 1)) := by
  intro σ h
  obtain ⟨es, _, m, hm⟩ := C63_stack_collapse exProgram _ 1000 42 ["rustc", "a.rs"] .wallTime rfl (by decide) (by decide) (by decide)
    exProgram_names exProgram_ids exProgram_scoped σ h (exProgram_used σ h) (by decide)
  obtain ⟨es', les, _, _, m', lane, _, _, hm'⟩ := C63_crox exProgram _ 1000 42 ["rustc", "a.rs"] .wallTime rfl (by decide) (by decide) (by decide)
    exProgram_names exProgram_ids exProgram_scoped σ h (exProgram_used σ h) ⟨false, none⟩ _ _ Crox.sorts_insertion Crox.sorts_insertion
  refine ⟨max m m', fun env stem h1 h2 => ?_⟩
  obtain ⟨text, ht, _⟩ := hm env stem (le_trans (le_max_left _ _) h1) h2
  have h3 := hm' env stem (le_trans (le_max_right _ _) h1) h2
  have h4 : Crox.crateName (utf8 (commandLine ["rustc", "a.rs"])) = none := by decide +kernel
  rw [h4] at h3
  exact ⟨⟨text, ht⟩, _, h3⟩

end Verif.Props
