import Verif.Spec.Profiler

/-!
# Specification vocabulary for scoped timing

A program holds guards and detached timings by name.  It is *scoped* if on every thread they are finished in the reverse of
the order they were started, with the counter never going backwards on a thread.
-/

namespace Verif.Spec

open Verif Verif.Mm

/-- A held timing: a guard or a detached timing, with its name. -/
inductive Held where
  | guard (g : Nat)
  | detached (g : Nat)
  deriving DecidableEq, Repr

/-- What each thread holds (innermost first) and the last counter value it saw. -/
structure Scopes where
  open_ : UInt32 → List Held
  clock : UInt32 → Nat

/-- Nothing held. -/
def Scopes.empty : Scopes := ⟨fun _ => [], fun _ => 0⟩

/-- Thread `t` starts holding `x` at `now`. -/
def Scopes.enter (s : Scopes) (t : UInt32) (x : Held) (now : Nat) : Scopes :=
  ⟨fun u => if u = t then x :: s.open_ t else s.open_ u, fun u => if u = t then now else s.clock u⟩

/-- Thread `t` finishes its innermost timing at `now`. -/
def Scopes.leave (s : Scopes) (t : UInt32) (now : Nat) : Scopes :=
  ⟨fun u => if u = t then (s.open_ t).tail else s.open_ u, fun u => if u = t then now else s.clock u⟩

/-- The program is scoped, starting from what is held in `s`. -/
def Scoped : Scopes → List ProfCall → Prop
  | _, [] => True
  | s, .start g _ _ t now :: cs => (∀ u, Held.guard g ∉ s.open_ u) ∧ s.clock t ≤ now.toNat ∧ Scoped (s.enter t (.guard g) now.toNat) cs
  | s, .startDetached g _ _ t now :: cs =>
    (∀ u, Held.detached g ∉ s.open_ u) ∧ s.clock t ≤ now.toNat ∧ Scoped (s.enter t (.detached g) now.toNat) cs
  | s, .finish g now :: cs => ∃ t, (s.open_ t).head? = some (.guard g) ∧ s.clock t ≤ now.toNat ∧ Scoped (s.leave t now.toNat) cs
  | s, .finishOverride g _ now :: cs => ∃ t, (s.open_ t).head? = some (.guard g) ∧ s.clock t ≤ now.toNat ∧ Scoped (s.leave t now.toNat) cs
  | s, .finishDetached g now :: cs => ∃ t, (s.open_ t).head? = some (.detached g) ∧ s.clock t ≤ now.toNat ∧ Scoped (s.leave t now.toNat) cs
  | s, _ :: cs => Scoped s cs

/-- The intervals recorded on a thread, in recording order. -/
def intervalsOf (t : UInt32) (rs : List Recorded) : List (Nat × Nat) :=
  rs.filterMap (fun r => match r.what with
    | .interval s e => if r.thread = t then some (s, e) else none
    | _ => none)

/-- The earlier of two recorded intervals ended no later, and lies inside the later one or before its start. -/
def Nested (a b : Nat × Nat) : Prop := a.2 ≤ b.2 ∧ (b.1 ≤ a.1 ∨ a.2 ≤ b.1)

/-- A call that finishes a timing, and the counter value it reads. -/
def finishTime : ProfCall → Option UInt64
  | .finish _ now => some now
  | .finishOverride _ _ now => some now
  | .finishDetached _ now => some now
  | _ => none

end Verif.Spec
