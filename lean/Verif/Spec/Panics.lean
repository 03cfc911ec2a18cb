import Verif.Spec.Container

/-!
# Specification vocabulary for callbacks that panic
-/

namespace Verif.Spec

open Verif Verif.Mm

/-- The callback of a call (if it has one) panics with `e`. -/
def CallbackPanics (c : SinkCall) (e : Fault) : Prop :=
  ∃ num fill part, c = .writeAtomic num fill ∧ fill (List.replicate num 0) = .error (e, part)

/-- A callback panics or fills its slice, whose length it cannot change. -/
def AllLengthsKept (h : History) : Prop :=
  ∀ x ∈ h, ∀ num fill, x.2 = .writeAtomic num fill → ∀ out, 
    (fill (List.replicate num 0) = .ok out → out.length = num) ∧ ∀ e, fill (List.replicate num 0) = .error (e, out) → out.length = num

/-- What a call leaves in the stream of its sink: what it was given; if the callback panicked, what it had written to the slice until then if the
slice was part of the sink's buffer (at most a page), nothing if it was not. -/
def leaves : SinkCall → Bytes
  | .writeAtomic num fill => match fill (List.replicate num 0) with
    | .ok out => out
    | .error (_, part) => if num ≤ 262144 then part else []
  | .writeBytes b => b
  | .stdWrite b => b
  | .stdFlush => []
  | .drop => []

/-- What a history leaves in the stream of sink `i`. -/
def leftBehind (i : Nat) (h : History) : Bytes :=
  (h.filter (fun x => x.1 = i)).flatMap (fun x => leaves x.2)

/-- The bytes by which the addresses of sink `i` are wrong after a history: the sizes of the slices (of at most a page) whose callbacks panicked. -/
def drift (i : Nat) (h : History) : Nat :=
  (h.map fun x => if x.1 = i then
    match x.2 with
    | .writeAtomic num fill => match fill (List.replicate num 0) with
      | .ok _ => 0
      | .error _ => if num ≤ 262144 then num else 0
    | _ => 0
  else 0).sum

end Verif.Spec
