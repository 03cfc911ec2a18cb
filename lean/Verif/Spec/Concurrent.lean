import Verif.Spec.Container
import Verif.Model.Concurrent
import Mathlib.Algebra.BigOperators.Fin

/-!
# Specification vocabulary for concurrent executions

`Linearization` is Herlihy and Wing's notion: a sequential history, consistent with what every thread observed and with
real time, that the sequential sinks (`Spec.run`) produce with the same results.
-/

namespace Verif.Spec

open Verif Verif.Mm Verif.Conc

/-- The calls thread `t` has started, in order. -/
def started {n : Nat} (t : Fin n) (log : List (Ev n)) : List Call :=
  log.filterMap fun
    | .inv t' c => if t' = t then some c else none
    | .res _ _ _ => none

/-- The calls thread `t` has seen return, with their results, in order. -/
def returned {n : Nat} (t : Fin n) (log : List (Ev n)) : List (Call × Res) :=
  log.filterMap fun
    | .inv _ _ => none
    | .res t' c r => if t' = t then some (c, r) else none

/-- One entry of a sequential order: who made the call, the call, its result. -/
structure LinEntry (n : Nat) where
  thread : Fin n
  call : Call
  res : Res

/-- The entries of thread `t`. -/
def entriesOf {n : Nat} (t : Fin n) (H : List (LinEntry n)) : List (Call × Res) :=
  (H.filter (fun e => e.thread = t)).map (fun e => (e.call, e.res))

/-- The calls of a sequential order, to be run on the sequential sinks. -/
def historyOf {n : Nat} (H : List (LinEntry n)) : History := H.map LinEntry.call

/-- `H` accounts for exactly the calls that returned, plus possibly some that were started and have not returned. -/
def Between {n : Nat} (log : List (Ev n)) (H : List (LinEntry n)) : Prop :=
  ∀ t, returned t log <+: entriesOf t H ∧ (entriesOf t H).map Prod.fst <+: started t log

/-- `H` is a linearization of the observed log. -/
structure Linearization {n : Nat} (tagOf : Nat → PageTag) (log : List (Ev n)) (H : List (LinEntry n)) : Prop where
  /-- run one after the other, the calls have the results in `H` -/
  legal : outcomes tagOf (historyOf H) = H.map LinEntry.res
  /-- every thread sees its calls in order with these results -/
  threads : Between log H
  /-- real time: at every moment of the execution the calls before some point of `H` include all calls that had
  returned by then and none that had not started by then -/
  realTime : ∀ L, L <+: log → ∃ H', H' <+: H ∧ Between L H'

/-- Every call of a program is well-behaved. -/
def ProgsGood {n : Nat} (progs : Fin n → List Call) : Prop := ∀ t, ∀ c ∈ progs t, Good c.2

/-- No other sink used by any thread has the tag of sink `i`. -/
def ProgsTagUnshared {n : Nat} (tagOf : Nat → PageTag) (i : Nat) (progs : Fin n → List Call) : Prop :=
  ∀ t, ∀ c ∈ progs t, tagOf c.1 = tagOf i → c.1 = i

/-- An upper bound on the number of steps of one call. -/
def callBudget (c : SinkCall) : Nat := 20 + 5 * (payload c).length

/-- Upper bound for all calls of all threads. -/
def budget {n : Nat} (progs : Fin n → List Call) : Nat :=
  ∑ t, ((progs t).map fun c => callBudget c.2).sum

end Verif.Spec
