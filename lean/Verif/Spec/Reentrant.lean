import Verif.Model.Reentrant
import Verif.Spec.Panics

/-!
# Specification vocabulary for callbacks that use sinks themselves
-/

namespace Verif.Spec

open Verif Verif.Mm Verif.Conc Verif.Reentrant

/-- Calls are made on sink `i` in a callback that has sink `j` locked only if `R j i`. A callback has its sink locked if it asked for at most a page; `held` are
the sinks locked by the callbacks around the code. -/
def Nests (R : Nat → Nat → Prop) : List Nat → Script → Prop
  | _, .fill _ => True
  | held, .call i _ next => (∀ j ∈ held, R j i) ∧ ∀ r, Nests R held (next r)
  | held, .atomic i num cb next => (∀ j ∈ held, R j i) ∧ Nests R (if num ≤ 262144 then i :: held else held) cb ∧ ∀ r, Nests R held (next r)

/-- All calls but a `write_atomic` of more than a page whose callback panics use the sink. -/
def UsesSink : SinkCall → Prop
  | .writeAtomic num f => num ≤ 262144 ∨ ∃ b, f (List.replicate num 0) = .ok b
  | _ => True

/-- Whatever answers it gets, the code makes a call on a sink that is locked by a callback around it. -/
def CallsOwnSink : List Nat → Script → Prop
  | _, .fill _ => False
  | held, .call i c next => (i ∈ held ∧ UsesSink c) ∨ ∀ r, CallsOwnSink held (next r)
  | held, .atomic i num cb next =>
    (num ≤ 262144 ∧ (i ∈ held ∨ CallsOwnSink (i :: held) cb)) ∨ (262144 < num ∧ CallsOwnSink held cb) ∨ ∀ r, CallsOwnSink held (next r)

/-- The calls made when the code runs, with their outcomes, the calls of a callback *before* the call it belongs to, and the contents of the slice at the end. A
`write_atomic` may have had to make room in its sink before its callback ran. -/
inductive Makes : Script → List ((Nat × SinkCall) × Res) → Fill → Prop where
  | fill (f : Fill) : Makes (.fill f) [] f
  | call {i : Nat} {c : SinkCall} {next : Res → Script} {r : Res} {L : List ((Nat × SinkCall) × Res)} {f : Fill} :
      Makes (next r) L f → Makes (.call i c next) (((i, c), r) :: L) f
  | atomic {i num : Nat} {cb : Script} {next : Res → Script} {r : Res} {L₁ L₂ : List ((Nat × SinkCall) × Res)} {f₁ f : Fill} :
      Makes cb L₁ f₁ → Makes (next r) L₂ f → Makes (.atomic i num cb next) (L₁ ++ ((i, .writeAtomic num f₁), r) :: L₂) f
  | madeRoom {i num : Nat} {cb : Script} {next : Res → Script} {r : Res} {L₁ L₂ : List ((Nat × SinkCall) × Res)} {f₁ f : Fill} :
      Makes cb L₁ f₁ → Makes (next r) L₂ f →
      Makes (.atomic i num cb next) (((i, .stdFlush), .ok none) :: (L₁ ++ ((i, .writeAtomic num f₁), r) :: L₂)) f

/-- A callback panics or fills its slice, whose length it cannot change. -/
def LengthKept (num : Nat) (f : Fill) : Prop :=
  ∀ out, (f (List.replicate num 0) = .ok out → out.length = num) ∧ ∀ e, f (List.replicate num 0) = .error (e, out) → out.length = num

/-- All callbacks of the code do; `P` is what the code's own slice is filled with. -/
def KeepsLengths (P : Fill → Prop) : Script → Prop
  | .fill f => P f
  | .call _ c next => (∀ num f, c = .writeAtomic num f → LengthKept num f) ∧ ∀ r, KeepsLengths P (next r)
  | .atomic _ num cb next => KeepsLengths (LengthKept num) cb ∧ ∀ r, KeepsLengths P (next r)

end Verif.Spec
