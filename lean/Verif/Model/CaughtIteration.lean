import Verif.Model.Decoder

/-!
# Iterating over a profile and catching the panics of decoding

`Iter.next`/`Iter.nextBack` of `Verif.Model.Decoder` stop at the first panic. Here is what a program sees that catches it (`catch_unwind` around the call) and goes
on with the same iterator: each call has an answer, and the iterator is left in a state.
-/

namespace Verif.Decode

open Verif Verif.Mm

/-- `analyzeme/src/profiling_data.rs:145-156` `next`: the index is advanced after the event has been read, so a panic leaves it as it was. -/
def Iter.nextKept {α : Type} (decode : Nat → Except Fault α) (it : Iter) : Except Fault (Option α) × Iter :=
  if it.forward = it.backward then (.ok none, it)
  else match decode it.forward with
    | .error e => (.error e, it)
    | .ok ev => (.ok (some ev), { it with forward := it.forward + 1 })

/-- `analyzeme/src/profiling_data.rs:168-177` `next_back`: the index is moved before the event is read, so it stays moved when that panics. -/
def Iter.nextBackKept {α : Type} (decode : Nat → Except Fault α) (it : Iter) : Except Fault (Option α) × Iter :=
  if it.forward = it.backward then (.ok none, it)
  else if it.backward = 0 then (.error (.panic "called `Option::unwrap()` on a `None` value"), it)
  else ((decode (it.backward - 1)).map some, { it with backward := it.backward - 1 })

/-- Calls of `next` (`true`) and `next_back` (`false`) on the iterator (`analyzeme/src/profiling_data.rs:145-177`). -/
def Iter.pattern {α : Type} (decode : Nat → Except Fault α) : List Bool → Iter → List (Except Fault (Option α)) × Iter
  | [], it => ([], it)
  | b :: p, it =>
    let (a, it1) := if b then it.nextKept decode else it.nextBackKept decode
    let (as, it2) := Iter.pattern decode p it1
    (a :: as, it2)

/-- `analyzeme/src/profiling_data.rs:103-107` `iter_full`: `Iterator::map` (standard library) takes the next item of the inner iterator and then applies the closure,
`to_full_event` (`profiling_data.rs:113-119`), which uses the item's index only. -/
def mapFull {β : Type} (full : Nat → Except Fault β) : Except Fault (Option LightweightEvent) × Iter → Except Fault (Option β) × Iter
  | (.error e, it) => (.error e, it)
  | (.ok none, it) => (.ok none, it)
  | (.ok (some l), it) => ((full l.eventIndex).map some, it)

/-- Calls of `next` and `next_back` on `iter_full()` (`analyzeme/src/profiling_data.rs:103-107`), for any decoders. -/
def fullPattern {β : Type} (light : Nat → Except Fault LightweightEvent) (full : Nat → Except Fault β) : List Bool → Iter → List (Except Fault (Option β)) × Iter
  | [], it => ([], it)
  | b :: p, it =>
    let (a, it1) := mapFull full (if b then it.nextKept light else it.nextBackKept light)
    let (as, it2) := fullPattern light full p it1
    (a :: as, it2)

end Verif.Decode
