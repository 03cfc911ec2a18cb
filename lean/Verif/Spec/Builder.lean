import Verif.Model.Builder
import Verif.Spec.Profiler

/-!
# Specification vocabulary for built profiles
-/

namespace Verif.Spec

open Verif Verif.Mm Verif.Decode

/-- An event asked for. -/
structure Asked where
  kind : String
  label : String
  thread : UInt32
  what : What

mutual
/-- The events a call asks for: first those of its closure, then its own. -/
def asked : Build → List Asked
  | .interval kind id tid start stop inner => askedAll inner ++ [⟨kind, id, tid, .interval start.toNat stop.toNat⟩]
  | .instant kind id tid t => [⟨kind, id, tid, .instant t.toNat⟩]
  | .integer kind id tid v => [⟨kind, id, tid, .integer v.toNat⟩]
/-- The events some calls ask for. -/
def askedAll : List Build → List Asked
  | [] => []
  | b :: bs => asked b ++ askedAll bs
end

/-- The values of an event are representable: intervals end no earlier than they start and by 2⁴⁸ − 3, single values are less
than 2⁴⁸. -/
def InRange : What → Prop
  | .interval s e => s ≤ e ∧ e ≤ 281474976710653
  | .instant t => t ≤ 281474976710655
  | .integer v => v ≤ 281474976710655

instance : DecidablePred InRange := fun w => by cases w <;> (unfold InRange; infer_instance)

/-- The bytes of text the calls store. -/
def textBytes (as : List Asked) : Nat := (as.map (fun a => (utf8 a.kind).length + (utf8 a.label).length + 2)).sum

end Verif.Spec
