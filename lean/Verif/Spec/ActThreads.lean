import Verif.Model.ActThreads
import Verif.Spec.ConcProfiler
import Verif.Spec.ProfPanics

/-! # Specification vocabulary for a profiler used by several threads that catch the panics of their values -/

namespace Verif.Spec

open Verif Verif.Mm Verif.Conc

/-- The name of the guard or timing a call starts or finishes. -/
def actName : ProfAct → Option Nat
  | .call c => nameOf c
  | .panics _ _ => none

/-- Different threads use different names for what they hold. -/
def ActsOwnNames {n : Nat} (p : ActProgram n) : Prop :=
  ∀ t t', t ≠ t' → ∀ c ∈ p.acts t, ∀ c' ∈ p.acts t', ∀ g, actName c = some g → actName c' ≠ some g

/-- An execution of the program to its end, by any schedule in which no thread uses the profiler before it is created and it is
dropped after all threads have made their last call: at `σ₀` thread 0 has created it and no call has started since, at `σ₁` all
calls of all threads have returned and the drops have not started. -/
def ActsExecute {n : Nat} (p : ActProgram n) (σ : Conc (n + 1)) : Prop :=
  ∃ k₀ k₁ k₂ σ₀ σ₁, Conc.Run profTags (Conc.init p.threads) k₀ σ₀ ∧
    (∀ t, (returned t σ₀.log).map Prod.fst = (if t = 0 then creation p.metadata else []) ∧ started t σ₀.log = (returned t σ₀.log).map Prod.fst) ∧
    Conc.Run profTags σ₀ k₁ σ₁ ∧
    (∀ t, (returned t σ₁.log).map Prod.fst = (if t = 0 then creation p.metadata else []) ++ actSinkCalls .empty (p.acts t) ∧
      started t σ₁.log = (returned t σ₁.log).map Prod.fst) ∧
    Conc.Run profTags σ₁ k₂ σ ∧ σ.Finished

/-- The answers thread `t` got. -/
def actAnswersOf {n : Nat} (p : ActProgram n) (σ : Conc (n + 1)) (t : Fin (n + 1)) : List Answer :=
  actAnswers .empty (p.acts t) (((returned t σ.log).map Prod.snd).drop (if t = 0 then (creation p.metadata).length else 0))

/-- `L` is an order of all calls of all threads that every thread agrees with. -/
def ActOrders {n : Nat} (p : ActProgram n) (L : List (Fin (n + 1) × ProfAct)) : Prop := ∀ t, ofThread t L = p.acts t

/-- Of the calls on the sinks a thread made, those made by its calls on the profiler, not by its creation and its drop. -/
def ownActCalls {n : Nat} (p : ActProgram n) (t : Fin (n + 1)) (calls : List Call) : List Call :=
  (calls.drop (if t = 0 then (creation p.metadata).length else 0)).take (actSinkCalls .empty (p.acts t)).length

/-- The order respects real time: at every moment of the execution, some first part of the order contains the calls that had
returned by then and none that had not started (for calls that use the shared state). -/
def ActsRealTime {n : Nat} (p : ActProgram n) (σ : Conc (n + 1)) (L : List (Fin (n + 1) × ProfAct)) : Prop :=
  ∀ log, log <+: σ.log → ∃ L', L' <+: L ∧ ∀ t,
    ownActCalls p t ((returned t log).map Prod.fst) <+: actSinkCalls .empty (ofThread t L') ∧
    actSinkCalls .empty (ofThread t L') <+: ownActCalls p t (started t log)

/-- The program without the calls that panic. -/
def _root_.Verif.Conc.ActProgram.calm {n : Nat} (p : ActProgram n) : Program n := ⟨p.metadata, fun t => callsOf (p.acts t)⟩

/-- Of an order of calls, those that do not panic. -/
def calmOrder {n : Nat} (L : List (Fin (n + 1) × ProfAct)) : List (Fin (n + 1) × ProfCall) :=
  L.filterMap fun
    | (t, .call c) => some (t, c)
    | (_, .panics _ _) => none

end Verif.Spec
