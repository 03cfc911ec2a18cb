import Verif.Spec.EndToEnd
import Verif.Spec.Aggregate

/-! # Specification vocabulary for runs of the same program -/

namespace Verif.Spec

open Verif Verif.Mm Verif.Decode

/-- The calls are the same up to the texts, the ids, the threads and the values of the counter. -/
def SameCall : ProfCall → ProfCall → Prop
  | .allocString _, .allocString _ => True
  | .allocForeign _, .allocForeign _ => True
  | .mapVirtual _ _, .mapVirtual _ _ => True
  | .bulkMapVirtual _ _, .bulkMapVirtual _ _ => True
  | .instant _ _ _ _, .instant _ _ _ _ => True
  | .integer _ _ _ _, .integer _ _ _ _ => True
  | .start g _ _ _ _, .start g' _ _ _ _ => g = g'
  | .finish g _, .finish g' _ => g = g'
  | .finishOverride g _ _, .finishOverride g' _ _ => g = g'
  | .startDetached g _ _ _ _, .startDetached g' _ _ _ _ => g = g'
  | .finishDetached g _, .finishDetached g' _ => g = g'
  | _, _ => False

/-- The counter goes forward with every reading, and readings (and integers) fit the event format. -/
structure Ticking (calls : List ProfCall) : Prop where
  forward : (calls.filterMap counterRead).Pairwise (· < ·)
  fits : ∀ x ∈ calls.filterMap counterRead, x ≤ 281474976710653
  integers : ∀ k id t v, .integer k id t v ∈ calls → v.toNat ≤ 281474976710655

/-- Two sessions of one program: the same calls, and at every position the kinds and the ids of the recorded events are shown as
the same texts. -/
structure SameProgram (a b : Session) : Prop where
  calls : List.Forall₂ SameCall a.calls b.calls
  kinds : ∀ (i : Nat) (r r' : Recorded), (recorded a.calls)[i]? = some r → (recorded b.calls)[i]? = some r' →
    ∀ text, Shown a.log r.kind text ↔ Shown b.log r'.kind text
  ids : ∀ (i : Nat) (r r' : Recorded), (recorded a.calls)[i]? = some r → (recorded b.calls)[i]? = some r' →
    ∀ text, Shown a.log r.id text ↔ Shown b.log r'.id text

/-- The events have the same texts and are of the same sort. -/
def Alike (e e' : Event) : Prop :=
  e.eventKind = e'.eventKind ∧ e.label = e'.label ∧ e.additionalData = e'.additionalData ∧
  ((times e).isSome = (times e').isSome) ∧ ((span e).isSome = (span e').isSome)

/-- `p` is an interval and spans `e`. -/
def Spans (p e : Event) : Prop :=
  ∃ s t s' t', times p = some (s, t) ∧ span e = some (s', t') ∧ s ≤ s' ∧ t' ≤ t

/-- Two streams have the same structure: event by event they are alike, and an event spans an earlier one in one stream iff it
does in the other. -/
def SameStructure (es es' : List Event) : Prop :=
  List.Forall₂ Alike es es' ∧
  ∀ (i j : Nat) (e p e' p' : Event), i < j → es[i]? = some e → es[j]? = some p → es'[i]? = some e' → es'[j]? = some p' → (Spans p e ↔ Spans p' e')

end Verif.Spec
