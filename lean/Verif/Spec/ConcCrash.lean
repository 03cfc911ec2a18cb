import Verif.Spec.ConcProfiler
import Verif.Spec.Crash

/-! # Specification vocabulary for processes with several threads that are killed -/

namespace Verif.Spec

open Verif Verif.Mm Verif.Conc

/-- The sink calls of the creation of the profiler, which are thread 0's. -/
def creationOf {n : Nat} (p : Program n) (t : Fin (n + 1)) : List Call := if t = 0 then creation p.metadata else []

/-- No call is in progress, and the calls on the sinks made so far are `calls`. -/
def Quiet {n : Nat} (σ : Conc n) (calls : Fin n → List Call) : Prop :=
  ∀ t, (returned t σ.log).map Prod.fst = calls t ∧ started t σ.log = calls t

/-- A moment in the execution of a program, under any schedule in which no thread uses the profiler before it is created and it is dropped after all
threads have made their last call: it is being created, or in use, or being dropped.  Any number of calls can be in progress, anywhere in their code. -/
inductive Underway {n : Nat} (p : Program n) : Conc (n + 1) → Prop where
  | creating {k σ} : Conc.Run profTags (Conc.init p.threads) k σ → (∀ t, started t σ.log <+: creationOf p t) → Underway p σ
  | inUse {k₀ k₁ σ₀ σ} : Conc.Run profTags (Conc.init p.threads) k₀ σ₀ → Quiet σ₀ (creationOf p) → Conc.Run profTags σ₀ k₁ σ →
      (∀ t, started t σ.log <+: creationOf p t ++ sinkCalls .empty (p.calls t)) → Underway p σ
  | dropping {k₀ k₁ k₂ σ₀ σ₁ σ} : Conc.Run profTags (Conc.init p.threads) k₀ σ₀ → Quiet σ₀ (creationOf p) → Conc.Run profTags σ₀ k₁ σ₁ →
      Quiet σ₁ (fun t => creationOf p t ++ sinkCalls .empty (p.calls t)) → Conc.Run profTags σ₁ k₂ σ → Underway p σ

/-- `q` is the part of the program `p` that has been started: each thread's calls up to the last one that had called a sink. -/
def StartedPart {n : Nat} (p : Program n) (σ : Conc (n + 1)) (q : Program n) : Prop :=
  q.metadata = p.metadata ∧ ∀ t, q.calls t <+: p.calls t ∧ sinkCalls .empty (q.calls t) = ownCalls p t (started t σ.log)

/-- The threads have so far got the first of the answers that one thread gets that makes the calls in the order `L`. -/
def AnsweredLike {n : Nat} (q : Program n) (σ : Conc (n + 1)) (L : List (Fin (n + 1) × ProfCall)) : Prop :=
  ∀ t, answersOf q σ t <+: ofThread t ((L.map Prod.fst).zip (profOutcomes q.metadata (L.map Prod.snd)))

end Verif.Spec
