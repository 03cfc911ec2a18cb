import Verif.Model.ConcProfiler
import Verif.Spec.Concurrent
import Verif.Spec.EndToEnd

/-! # Specification vocabulary for a profiler used by several threads -/

namespace Verif.Spec

open Verif Verif.Mm Verif.Conc

/-- The name of the guard or timing a call starts or finishes. -/
def nameOf : ProfCall → Option Nat
  | .start g _ _ _ _ => some g
  | .finish g _ => some g
  | .finishOverride g _ _ => some g
  | .startDetached g _ _ _ _ => some g
  | .finishDetached g _ => some g
  | _ => none

/-- Different threads use different names for what they hold. -/
def OwnNames {n : Nat} (p : Program n) : Prop :=
  ∀ t t', t ≠ t' → ∀ c ∈ p.calls t, ∀ c' ∈ p.calls t', ∀ g, nameOf c = some g → nameOf c' ≠ some g

/-- An execution of the program to its end, by any schedule in which no thread uses the profiler before it is created and it is
dropped after all threads have made their last call: at `σ₀` thread 0 has created it and no call has started since, at `σ₁` all
calls of all threads have returned and the drops have not started. -/
def Executes {n : Nat} (p : Program n) (σ : Conc (n + 1)) : Prop :=
  ∃ k₀ k₁ k₂ σ₀ σ₁, Conc.Run profTags (Conc.init p.threads) k₀ σ₀ ∧
    (∀ t, (returned t σ₀.log).map Prod.fst = (if t = 0 then creation p.metadata else []) ∧ started t σ₀.log = (returned t σ₀.log).map Prod.fst) ∧
    Conc.Run profTags σ₀ k₁ σ₁ ∧
    (∀ t, (returned t σ₁.log).map Prod.fst = (if t = 0 then creation p.metadata else []) ++ sinkCalls .empty (p.calls t) ∧
      started t σ₁.log = (returned t σ₁.log).map Prod.fst) ∧
    Conc.Run profTags σ₁ k₂ σ ∧ σ.Finished

/-- The answers thread `t` got. -/
def answersOf {n : Nat} (p : Program n) (σ : Conc (n + 1)) (t : Fin (n + 1)) : List Answer :=
  answers .empty (p.calls t) (((returned t σ.log).map Prod.snd).drop (if t = 0 then (creation p.metadata).length else 0))

/-- What belongs to thread `t`. -/
def ofThread {n : Nat} {α : Type} (t : Fin n) (L : List (Fin n × α)) : List α := (L.filter fun x => x.1 = t).map Prod.snd

/-- `L` is an order of all calls of all threads that every thread agrees with. -/
def Orders {n : Nat} (p : Program n) (L : List (Fin (n + 1) × ProfCall)) : Prop := ∀ t, ofThread t L = p.calls t

/-- Of the calls on the sinks a thread made, those made by its calls on the profiler, not by its creation and its drop. -/
def ownCalls {n : Nat} (p : Program n) (t : Fin (n + 1)) (calls : List Call) : List Call :=
  (calls.drop (if t = 0 then (creation p.metadata).length else 0)).take (sinkCalls .empty (p.calls t)).length

/-- The order respects real time: at every moment of the execution, some first part of the order contains the calls that had
returned by then and none that had not started (for calls that use the shared state). -/
def RealTime {n : Nat} (p : Program n) (σ : Conc (n + 1)) (L : List (Fin (n + 1) × ProfCall)) : Prop :=
  ∀ log, log <+: σ.log → ∃ L', L' <+: L ∧ ∀ t,
    ownCalls p t ((returned t log).map Prod.fst) <+: sinkCalls .empty (ofThread t L') ∧
    sinkCalls .empty (ofThread t L') <+: ownCalls p t (started t log)

/-- A file that every reader of profiles reads like another one. -/
def ReadsLike (file file' : Bytes) : Prop :=
  ∀ (diag : Option String) (v8New : Bytes → Except Fault Decode.OldDecoder) (fuel : Nat), Decode.fromPagedBuffer diag v8New fuel file = Decode.fromPagedBuffer diag v8New fuel file'

/-- The thread id a call records. -/
def recordsAs : ProfCall → Option UInt32
  | .instant _ _ t _ => some t
  | .integer _ _ t _ => some t
  | .start _ _ _ t _ => some t
  | .startDetached _ _ _ t _ => some t
  | _ => none

/-- Every thread of the program has a thread id of its own, under which it records. -/
def OwnThreadIds {n : Nat} (p : Program n) (tid : Fin (n + 1) → UInt32) : Prop :=
  (∀ t t', tid t = tid t' → t = t') ∧ ∀ t, ∀ c ∈ p.calls t, ∀ u, recordsAs c = some u → u = tid t

/-- In the execution some thread made the call `c` and got the answer `a`. -/
def Answered {n : Nat} (p : Program n) (σ : Conc (n + 1)) (c : ProfCall) (a : Answer) : Prop :=
  ∃ t, (c, a) ∈ (p.calls t).zip (answersOf p σ t)

/-- Some thread successfully mapped the virtual id `v` to `c`. -/
def MappedTo {n : Nat} (p : Program n) (σ : Conc (n + 1)) (v c : StringId) : Prop :=
  ∃ r, Answered p σ (.mapVirtual v c) (.ok r) ∨ ∃ vs, v ∈ vs ∧ Answered p σ (.bulkMapVirtual vs c) (.ok r)

/-- Some thread got `id` for a string with the components `cs`, or for a value of one of the program's own types that writes their documented encoding. -/
def GotFor {n : Nat} (p : Program n) (σ : Conc (n + 1)) (id : StringId) (cs : List StringComponent) : Prop :=
  (∃ t, components t = cs ∧ Answered p σ (.allocString t) (.ok (some id))) ∨ ∃ junk, Answered p σ (.allocForeign (encText cs ++ junk)) (.ok (some id))

/-- The id denotes a text, whatever the order of the calls: some thread got it for a string whose references denote texts, or it
is a virtual id that some thread mapped, and every id that any thread mapped it to is such a string's. -/
inductive Denotes {n : Nat} (p : Program n) (σ : Conc (n + 1)) : StringId → Prop where
  | string (id : StringId) (cs : List StringComponent) : GotFor p σ id cs →
      (∀ r, StringComponent.ref r ∈ cs → Denotes p σ r) → Denotes p σ id
  | mapped (v : StringId) : (∃ c, MappedTo p σ v c) →
      (∀ c, MappedTo p σ v c → ∃ cs, GotFor p σ c cs) → (∀ c, MappedTo p σ v c → Denotes p σ c) → Denotes p σ v

/-- The ids a call puts into events. -/
def usedIds : ProfCall → List StringId
  | .instant k id _ _ => [k, id]
  | .integer k id _ _ => [k, id]
  | .start _ k id _ _ => [k, id]
  | .finishOverride _ id _ => [id]
  | .startDetached _ k id _ _ => [k, id]
  | _ => []

/-- The tools see the same in `file` as in `file'`. -/
def ToolsAgree (file file' : Bytes) : Prop :=
  ∀ (env env' : Tools.Env) (stem : Bytes), env'.v8New = env.v8New → env'.fuel = env.fuel → env'.checks = env.checks →
    env.files (Paths.profilerPath stem) = some file → env'.files (Paths.profilerPath stem) = some file' →
    Paths.openProfile env.v8New env.fuel env.files stem = Paths.openProfile env'.v8New env'.fuel env'.files stem ∧
    Tools.readEvents env stem = Tools.readEvents env' stem ∧
    (∀ (F : Type) (fl : Summarize.Float64 F) (above : F), Tools.summarizeTool env fl above stem = Tools.summarizeTool env' fl above stem) ∧
    Tools.stackCollapseTool env stem = Tools.stackCollapseTool env' stem ∧
    (∀ opt sortEnds sortStarts, Tools.croxTool env opt sortEnds sortStarts stem = Tools.croxTool env' opt sortEnds sortStarts stem) ∧
    Tools.aggregateTool env [stem] = Tools.aggregateTool env' [stem]

end Verif.Spec
