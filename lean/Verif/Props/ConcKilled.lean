import Verif.Proofs.ConcKilled
import Verif.Props.Killed
import Verif.Props.ConcProfiler

/-! # Property C67 for processes with several threads -/

namespace Verif.Props
open Verif Verif.Mm Verif.Spec Verif.Decode Verif.Json Verif.Conc

/-- **C67.** Every moment of every execution is one the theorems below speak of. -/
theorem C67_threads_every_moment {n : Nat} (p : Program n) {k₀ k₁ k₂ : Nat} {σ₀ σ₁ σ₂ : Conc (n + 1)}
    (q0 : Quiet σ₀ (creationOf p)) (q1 : Quiet σ₁ (fun t => creationOf p t ++ sinkCalls .empty (p.calls t))) (σ : Conc (n + 1)) :
    (Conc.Run profTags (Conc.init p.threads) k₀ σ → Conc.Run profTags σ k₁ σ₀ → Underway p σ) ∧
    (Conc.Run profTags (Conc.init p.threads) k₀ σ₀ → Conc.Run profTags σ₀ k₁ σ → Conc.Run profTags σ k₂ σ₁ → Underway p σ) ∧
    (Conc.Run profTags (Conc.init p.threads) k₀ σ₀ → Conc.Run profTags σ₀ k₁ σ₁ → Conc.Run profTags σ₁ k₂ σ → Underway p σ) := by
  refine ⟨fun r0 r1 => .creating r0 fun t => ?_, fun r0 r1 r2 => .inUse r0 q0 r1 fun t => ?_, fun r0 r1 r2 => .dropping r0 q0 r1 q1 r2⟩
  · rw [← (q0 t).2]
    exact (run_log r1).filterMap _
  · have : started t σ.log <+: started t σ₁.log := (run_log r2).filterMap _
    rw [(q1 t).2] at this
    exact this

/-- **C67** (several threads). Whatever the threads do, however they are scheduled and wherever in their code they are when the process is killed, and
wherever the file is cut: there is one order of the calls that had been started, agreeing with each thread's own order, with real time, and with the
answers the threads had got, such that the file either does not open or shows an initial part of what one thread making the calls in this order records. -/
theorem C67_threads_cut (start pid : Nat) (hs : start < 2 ^ 64) (hp : pid < 2 ^ 32) (args : List String) (plain : PlainArgs args) (counter : CounterKind)
    {n : Nat} (p : Program n) (hm : p.metadata = metadataText start pid args counter) (hn : OwnNames p) (σ : Conc (n + 1)) (h : Underway p σ) :
    ∃ q L, StartedPart p σ q ∧ Orders q L ∧ RealTime q σ L ∧ AnsweredLike q σ L ∧ ∀ file, file <+: fileOf σ →
      (∃ i j k, ShowsPart start pid args counter (L.map Prod.snd) file i j k) ∨ ∀ fuel d, EventDecoder.new diag fuel file ≠ .ok d := by
  obtain ⟨q, σ', hq, hex, hst, hlog⟩ := finish_started h
  have hnq : OwnNames q := fun t t' hne c hc c' hc' g hg => hn t t' hne c ((hq.2 t).1.subset hc) c' ((hq.2 t').1.subset hc') g hg
  obtain ⟨L, l1, l2, ⟨pages, pages', e, e', b, b', hf⟩, l4⟩ := serialize_pages hnq hex
  refine ⟨q, L, hq, l1, fun log hl => l2 log (hl.trans hlog), fun t => ?_, fun file hfile => ?_⟩
  · rw [← l4 t]
    unfold answersOf
    refine answers_mono _ _ ?_
    have h1 : returned t σ.log <+: returned t σ'.log := hlog.filterMap _
    exact (h1.map _).drop _
  · rw [hq.1, hm] at e'
    obtain ⟨pages'', raws, P⟩ := parts_exist (metadataText start pid args counter) (L.map Prod.snd)
    have hpp : pages'' = pages' := by
      have := P.file
      rw [e'] at this
      exact storeOf_inj (fun p hp => split_of_writer (P.bodies p hp)) (fun p hp => split_of_writer (b' p hp)) (List.append_cancel_left this).symm
    subst hpp
    have P' := parts_alike P e b hf
    have hpre : file <+: fileOf σ' := hfile.trans ((List.prefix_append_right_inj _).mpr hst)
    rw [List.prefix_iff_eq_take.mp hpre]
    exact parts_cut start pid hs hp args plain counter P' file.length

/-- **C67** (several threads, between calls). If no call is in progress when the process is killed, the file reads like the file of a killed process of
one thread that made the calls in some order, as above; so what `C67_killed_early`, `C67_killed_late` and `C67_killed_loses_at_most` say about
such files holds for it. -/
theorem C67_threads_killed {n : Nat} (p : Program n) (hn : OwnNames p) {k₀ k₁ : Nat} {σ₀ σ : Conc (n + 1)} (hr : Conc.Run profTags (Conc.init p.threads) k₀ σ₀)
    (q0 : Quiet σ₀ (creationOf p)) (hr1 : Conc.Run profTags σ₀ k₁ σ) (hs : ∀ t, started t σ.log <+: creationOf p t ++ sinkCalls .empty (p.calls t))
    (hq : ∀ t, started t σ.log = (returned t σ.log).map Prod.fst) :
    ∃ q L, StartedPart p σ q ∧ Orders q L ∧ RealTime q σ L ∧
      (∀ t, answersOf q σ t = ofThread t ((L.map Prod.fst).zip (profOutcomes q.metadata (L.map Prod.snd)))) ∧
      ReadsLike (fileOf σ) (killedFile p.metadata (L.map Prod.snd)) ∧
      ∀ (diag : Option String) (fuel : Nat), EventDecoder.new diag fuel (fileOf σ) = EventDecoder.new diag fuel (killedFile p.metadata (L.map Prod.snd)) := by
  obtain ⟨q, L, l1, l2, l3, l4, pages, pages', e, e', b, b', hf⟩ := killed_quiet hn hr q0 hr1 hs hq
  refine ⟨q, L, l1, l2, l3, l4, ?_, fun diag fuel => ?_⟩
  · rw [← l1.1, e, e']
    exact readsLike_pages b b' hf
  · rw [← l1.1, e, e']
    exact decoder_pages fuel b b' hf

/-- **C67** (several threads, between calls): how much is lost. If the file opens it shows all but the last 8192 events, all but the last 16384 mappings, and
all strings but those that end in the last 262144 bytes; and it does not open unless 8192 events, 8191 mappings and 131072 bytes of strings were written. -/
theorem C67_threads_lose_at_most (start pid : Nat) (hstart : start < 2 ^ 64) (hpid : pid < 2 ^ 32) (args : List String) (plain : PlainArgs args) (counter : CounterKind)
    {n : Nat} (p : Program n) (hm : p.metadata = metadataText start pid args counter) (hn : OwnNames p) {k₀ k₁ : Nat} {σ₀ σ : Conc (n + 1)}
    (hr : Conc.Run profTags (Conc.init p.threads) k₀ σ₀)
    (q0 : Quiet σ₀ (creationOf p)) (hr1 : Conc.Run profTags σ₀ k₁ σ) (hs : ∀ t, started t σ.log <+: creationOf p t ++ sinkCalls .empty (p.calls t))
    (hq : ∀ t, started t σ.log = (returned t σ.log).map Prod.fst) :
    ∃ q L, StartedPart p σ q ∧ Orders q L ∧ RealTime q σ L ∧
      ((∃ fuel d, EventDecoder.new diag fuel (fileOf σ) = .ok d) →
        ∃ i j k, ShowsPart start pid args counter (L.map Prod.snd) (fileOf σ) i j k ∧
          (recorded (L.map Prod.snd)).length ≤ k + 8192 ∧ (mappings (profileLog start pid args counter (L.map Prod.snd))).length ≤ j + 16384 ∧
          ∀ s ∈ (strings (profileLog start pid args counter (L.map Prod.snd))).drop i,
            nextAddr (profileLog start pid args counter (L.map Prod.snd)) < s.1.toNat - 100000003 + s.2.length + 262144) ∧
      ((recorded (L.map Prod.snd)).length < 8192 ∨ (mappings (profileLog start pid args counter (L.map Prod.snd))).length < 8191 ∨
          nextAddr (profileLog start pid args counter (L.map Prod.snd)) ≤ 131072 → ∀ fuel, IsErr (EventDecoder.new diag fuel (fileOf σ))) := by
  obtain ⟨q, L, l1, l2, l3, _, _, l5⟩ := C67_threads_killed p hn hr q0 hr1 hs hq
  rw [hm] at l5
  refine ⟨q, L, l1, l2, l3, ?_, ?_⟩
  · rintro ⟨fuel, d, ho⟩
    rw [l5] at ho
    obtain ⟨i, j, k, ⟨d, ⟨m, hd⟩, rest⟩, h2⟩ := C67_killed_loses_at_most start pid hstart hpid args plain counter (L.map Prod.snd) ⟨fuel, d, ho⟩
    exact ⟨i, j, k, ⟨d, ⟨m, fun diag fuel hf => by rw [l5]; exact hd diag fuel hf⟩, rest⟩, h2⟩
  · intro h fuel
    rw [l5]
    exact C67_killed_early _ _ h fuel

/-- Such moments exist, with calls in progress: in an execution of `exProgram` (two threads), after the creation the second thread starts a call. -/
example : ∃ σ, Underway exProgram σ ∧ OwnNames exProgram ∧ started 1 σ.log ≠ (returned 1 σ.log).map Prod.fst := by
  obtain ⟨σ', k₀, k₁, k₂, σ₀, σ₁, r0, q0, _⟩ := C63_executes exProgram
  obtain ⟨H, P, Q, w, inv, _⟩ := (Inv.init profTags exProgram.threads).run r0
  have hq : Quiet σ₀ (creationOf exProgram) := fun t => ⟨(q0 t).1, (q0 t).2.trans (q0 t).1⟩
  have hs1 : started 1 σ₀.log = [] := (hq 1).2
  have htodo : (σ₀.threads 1).todo = exProgram.threads 1 := by have := inv.prog 1; rw [hs1] at this; exact this.symm
  have hth : exProgram.threads 1 = sinkCalls .empty (exProgram.calls 1) := rfl
  have hcur : (σ₀.threads 1).cur = none := by
    have hq1 := (q0 1).2
    cases inv.stage 1 with
    | idle h => exact h
    | ready c k _ _ _ _ _ h6 => rw [hq1] at h6; simp at h6
    | inData c p bl r _ _ _ _ _ _ _ h8 => rw [hq1] at h8; simp at h8
    | inStore c p part bl r _ _ _ _ _ _ _ _ h9 => rw [hq1] at h9; simp at h9
    | leaving c r _ _ _ _ h5 => rw [hq1] at h5; simp at h5
  obtain ⟨c, rest, hc⟩ : ∃ c rest, sinkCalls .empty (exProgram.calls 1) = c :: rest := ⟨_, _, rfl⟩
  have hstep : Conc.step profTags σ₀ 1 = some { σ₀ with
        threads := upd σ₀.threads 1 ⟨rest, some (c, code (profTags c.1) c.2)⟩
        log := σ₀.log ++ [.inv 1 c] } := by
    unfold Conc.step
    rw [hcur, htodo, hth, hc]
  refine ⟨_, .inUse r0 hq ((Conc.Run.refl σ₀).step hstep) fun t => ?_, exProgram_names, ?_⟩
  · simp only [started_append]
    match t with
    | 0 =>
      rw [started_inv_other (by decide), List.append_nil, (hq 0).2]
      exact List.prefix_append _ _
    | 1 =>
      rw [started_inv_same, (hq 1).2, hc]
      exact (List.prefix_append_right_inj _).mpr ⟨rest, rfl⟩
  · simp only [started_append, returned_append, started_inv_same, returned_inv, List.append_nil, ← (q0 1).2]
    simp

end Verif.Props
