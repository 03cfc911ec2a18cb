import Verif.Proofs.ActThreads
import Verif.Props.ConcProfiler
import Verif.Props.ProfPanics

/-!
# C82, continued: threads that share a profiler and catch the panics of their values
-/

namespace Verif.Props

open Verif Verif.Mm Verif.Spec Verif.Decode Verif.Conc Verif.Json

/-- **C82** (threads sharing a profiler: one order). Whatever the threads do, whichever of their values panic and however the threads are scheduled, there is one order of all their calls, agreeing with each
thread's own order and with real time, such that the file reads like that of a single thread making the calls, the panicking ones included, in that order, and every thread gets the answers that the single thread gets. -/
theorem C82_profiler_threads {n : Nat} (p : ActProgram n) (hn : ActsOwnNames p) (σ : Conc (n + 1)) (h : ActsExecute p σ) :
    ∃ L, ActOrders p L ∧ ActsRealTime p σ L ∧ ReadsLike (fileOf σ) (savedActs p.metadata (L.map Prod.snd)) ∧
      ∀ t, actAnswersOf p σ t = ofThread t ((L.map Prod.fst).zip (runActs (L.map Prod.snd) (profInit p.metadata)).1) :=
  serialize_acts hn h

/-- **C82** (threads sharing a profiler: no deadlock). A panic leaves no lock held: every such program can be executed to its end, and from every state any schedule reaches it can be finished. -/
theorem C82_profiler_threads_execute {n : Nat} (p : ActProgram n) :
    (∃ σ, ActsExecute p σ) ∧ ∀ k σ, Conc.Run profTags (Conc.init p.threads) k σ → ∃ k' σ', Conc.Run profTags σ k' σ' ∧ σ'.Finished :=
  ⟨acts_execute p, fun _ _ h => continue_run h⟩

/-- **C82** (threads sharing a profiler: answers). There is an order of the calls that do not panic, agreeing with each thread's own order, such that these calls get, on every thread, exactly the answers (string ids
included) of a single thread that makes only them, in that order; the others panic with their value's own panic, on the thread that made them. If the values that panicked had asked for no space, or for more than
a page, the file reads like that of this single thread. -/
theorem C82_profiler_threads_answers {n : Nat} (p : ActProgram n) (hn : ActsOwnNames p) (σ : Conc (n + 1)) (h : ActsExecute p σ) :
    ∃ L, Orders p.calm L ∧
      (∀ t, callAnswers (p.acts t) (actAnswersOf p σ t) = ofThread t ((L.map Prod.fst).zip (profOutcomes p.metadata (L.map Prod.snd)))) ∧
      (∀ t (k : Nat) (e : Fault) (part : Bytes), (p.acts t)[k]? = some (.panics e part) → (actAnswersOf p σ t)[k]? = some (.error e)) ∧
      ((∀ t e part, ProfAct.panics e part ∈ p.acts t → part = [] ∨ 262144 < part.length) →
        ReadsLike (fileOf σ) (savedFile p.metadata (L.map Prod.snd))) := by
  obtain ⟨L, ho, _, hr, ha⟩ := serialize_acts hn h
  obtain ⟨c1, c2, c3⟩ := C82_profiler_answers p.metadata (L.map Prod.snd)
  rw [List.length_map] at c1
  refine ⟨calmOrder L, calm_orders ho, fun t => ?_, fun t k e part hk => ?_, fun hs => ?_⟩
  · rw [ha, calmOrder_snd, ← c2, ← calm_zip t L _ c1, ho t]
  · rw [ha]
    exact panic_zip t L _ c1 c3 k e part (by rw [ho t]; exact hk)
  · rw [calmOrder_snd]
    have := C82_profiler_harmless p.metadata (L.map Prod.snd) (fun e part hm => by
      obtain ⟨t, ht⟩ := (mem_ofThread L _).mpr hm
      rw [ho t] at ht
      exact hs t e part ht)
    exact fun diag v8 fuel => (hr diag v8 fuel).trans (this diag v8 fuel)

theorem shows_transport {start pid : Nat} {args : List String} {counter : CounterKind} {calls : List ProfCall} {file file' : Bytes} {i : Nat}
    (h : ∀ (diag : Option String) (fuel : Nat), EventDecoder.new diag fuel file = EventDecoder.new diag fuel file')
    (hs : ShowsEvents start pid args counter calls file' i) : ShowsEvents start pid args counter calls file i := by
  obtain ⟨d, ⟨n, hn⟩, rest⟩ := hs
  exact ⟨d, ⟨n, fun diag fuel hf => (h diag fuel).trans (hn diag fuel hf)⟩, rest⟩

/-- **C82** (threads sharing a profiler: what can be relied on). Whichever values panic, on whichever threads: the file opens and shows the metadata and all events of all threads, each thread's under its id in its
order, with their values; of the strings, those stored before the first panic (in the order of the calls), and everything made of them, read as ever. -/
theorem C82_profiler_threads_shows {n : Nat} (p : ActProgram n) (tid : Fin (n + 1) → UInt32) (hn : ActsOwnNames p) (ht : OwnThreadIds p.calm tid)
    (start pid : Nat) (hs : start < 2 ^ 64) (hp : pid < 2 ^ 32) (args : List String) (plain : PlainArgs args) (counter : CounterKind)
    (hmd : p.metadata = metadataText start pid args counter) (σ : Conc (n + 1)) (h : ActsExecute p σ) :
    ∃ L, ActOrders p L ∧ ActsRealTime p σ L ∧
      (∀ before rest, L.map Prod.snd = before.map ProfAct.call ++ rest →
        ShowsEvents start pid args counter (before ++ callsOf rest) (fileOf σ) (strings (stringLog p.metadata before)).length) ∧
      (∀ t, (recorded (callsOf (L.map Prod.snd))).filter (fun r => r.thread = tid t) = recorded (callsOf (p.acts t))) ∧
      ∀ r ∈ recorded (callsOf (L.map Prod.snd)), ∃ t, r.thread = tid t := by
  obtain ⟨L, ho, hrt, ⟨pages, pages', e, e', b, b', hf⟩, _⟩ := serialize_acts_pages hn h
  have hrec := fun t => C63_recorded p.calm tid (calm_names hn) ht (calmOrder L) (calm_orders ho) t
  rw [calmOrder_snd] at hrec
  refine ⟨L, ho, hrt, fun before rest hL => ?_, fun t => (hrec t).1, (hrec 0).2⟩
  have hsh := C82_profiler_shows start pid hs hp args plain counter before rest
  rw [← hL, ← hmd] at hsh
  refine shows_transport (fun diag fuel => ?_) hsh
  rw [e, e']
  exact decoder_pages fuel b b' hf

/-- **C82** (threads sharing a profiler: streams). In every such execution there is an order of the calls for which the file's events and index are those of a single thread making only the calls that did not panic; the
string data is the strings of all threads in this order, with what the panicking values had written (if they asked for at most a page) in between. -/
theorem C82_profiler_threads_streams {n : Nat} (p : ActProgram n) (hn : ActsOwnNames p) (σ : Conc (n + 1)) (h : ActsExecute p σ) :
    ∃ L, ActOrders p L ∧ ActsRealTime p σ L ∧ ∃ (store store' : Bytes) (m m' : Streams),
      fileOf σ = utf8 "MMPD" ++ [9, 0, 0, 0] ++ store ∧ savedFile p.metadata (callsOf (L.map Prod.snd)) = utf8 "MMPD" ++ [9, 0, 0, 0] ++ store' ∧
      splitStreams store = .ok m ∧ splitStreams store' = .ok m' ∧
      m .events = m' .events ∧ m .stringIndex = m' .stringIndex ∧
      m .stringData = some (utf8 "MMSD" ++ [9, 0, 0, 0] ++ utf8 p.metadata ++ [0xFF] ++ (L.map Prod.snd).flatMap textLeft) := by
  obtain ⟨L, ho, hrt, ⟨pages, pages', e, e', b, b', hf⟩, _⟩ := serialize_acts_pages hn h
  obtain ⟨store, store', m, m', f, f', s, s', e0, e2, d, _⟩ := C82_profiler_streams p.metadata (L.map Prod.snd)
  have hst : store = storeOf pages' := List.append_cancel_left (f.symm.trans e')
  rw [hst, splitStreams_storeOf _ fun p hp => split_of_writer (b' p hp)] at s
  injection s with s
  have al := merge_alike hf
  refine ⟨L, ho, hrt, storeOf pages, store', mergePages (fun _ => none) pages, m', e, f',
    splitStreams_storeOf _ fun p hp => split_of_writer (b p hp), s', ?_, ?_, ?_⟩
  · exact ((al 0 (by decide)).trans (congrFun s .events)).trans e0
  · exact ((al 2 (by decide)).trans (congrFun s .stringIndex)).trans e2
  · exact ((al 1 (by decide)).trans (congrFun s .stringData)).trans d

/-- A thread that stores a string, has a value panic after three bytes, and records an interval; another whose value panics while it holds an interval of its own. -/
def exActProgram : ActProgram 1 where
  metadata := metadataText 5 6 ["rustc"] .wallTime
  acts := fun t => if t = 0 then [.call (.allocString (.str "Query")), .panics (.panic "user") [120, 121, 0], .call (.start 0 100000183 100000183 7 10), .call (.finish 0 500)]
    else [.call (.start 1 100000001 100000001 8 20), .panics (.panic "other") [], .call (.finish 1 30)]

theorem exActProgram_names : ActsOwnNames exActProgram := by
  intro t t' hne c hc c' hc' g hg
  have h01 : ∀ t : Fin 2, t = 0 ∨ t = 1 := by decide
  rcases h01 t with rfl | rfl <;> rcases h01 t' with rfl | rfl
  · exact absurd rfl hne
  · simp [exActProgram] at hc hc'
    rcases hc with rfl | rfl | rfl | rfl <;> rcases hc' with rfl | rfl | rfl <;> simp [actName, nameOf] at hg ⊢ <;> omega
  · simp [exActProgram] at hc hc'
    rcases hc with rfl | rfl | rfl <;> rcases hc' with rfl | rfl | rfl | rfl <;> simp [actName, nameOf] at hg ⊢ <;> omega
  · exact absurd rfl hne

theorem exActProgram_ids : OwnThreadIds exActProgram.calm (fun t => if t = 0 then 7 else 8) := by
  have h01 : ∀ t : Fin 2, t = 0 ∨ t = 1 := by decide
  refine ⟨by decide, fun t c hc u hu => ?_⟩
  rcases h01 t with rfl | rfl
  · simp [exActProgram, ActProgram.calm, callsOf] at hc
    rcases hc with rfl | rfl | rfl <;> simp [recordsAs] at hu ⊢ <;> exact hu.symm
  · simp [exActProgram, ActProgram.calm, callsOf] at hc
    rcases hc with rfl | rfl <;> simp [recordsAs] at hu ⊢ <;> exact hu.symm

/-- It can be executed, and whenever it is, the panics are those of the values, and both intervals are in the file. -/
example : (∃ σ, ActsExecute exActProgram σ) ∧ ∀ σ, ActsExecute exActProgram σ →
    (actAnswersOf exActProgram σ 0)[1]? = some (.error (.panic "user")) ∧ (actAnswersOf exActProgram σ 1)[1]? = some (.error (.panic "other")) ∧
    ∃ L, ActOrders exActProgram L ∧
      (recorded (callsOf (L.map Prod.snd))).filter (fun r => r.thread = 7) = [⟨100000183, 100000183, 7, .interval 10 500⟩] ∧
      (recorded (callsOf (L.map Prod.snd))).filter (fun r => r.thread = 8) = [⟨100000001, 100000001, 8, .interval 20 30⟩] := by
  refine ⟨(C82_profiler_threads_execute exActProgram).1, fun σ h => ?_⟩
  obtain ⟨_, _, _, hp, _⟩ := C82_profiler_threads_answers exActProgram exActProgram_names σ h
  obtain ⟨L, ho, _, _, hr, _⟩ := C82_profiler_threads_shows exActProgram _ exActProgram_names exActProgram_ids 5 6 (by decide) (by decide) ["rustc"]
    (by decide) .wallTime rfl σ h
  refine ⟨hp 0 1 _ [120, 121, 0] rfl, hp 1 1 _ [] rfl, L, ho, ?_, ?_⟩
  · have := hr 0
    exact this.trans (by decide +kernel)
  · have := hr 1
    exact this.trans (by decide +kernel)

end Verif.Props
