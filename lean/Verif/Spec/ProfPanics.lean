import Verif.Spec.Panics
import Verif.Spec.Crash

/-!
# Specification vocabulary for profilers given values whose `serialize` panics
-/

namespace Verif.Spec

open Verif Verif.Mm Verif.Decode

/-- The calls that did not panic by the program's own fault. -/
def callsOf (acts : List ProfAct) : List ProfCall :=
  acts.filterMap fun
    | .call c => some c
    | .panics _ _ => none

/-- The answers to these calls, among the answers to all. -/
def callAnswers (acts : List ProfAct) (answers : List (Except Fault (Option StringId))) : List (Except Fault (Option StringId)) :=
  (acts.zip answers).filterMap fun
    | (.call _, r) => some r
    | (.panics _ _, _) => none

/-- What a call leaves in the string data: a string, in the documented encoding; the bytes of a foreign value; what a panicking `serialize` had written, if the
value asked for at most a page. -/
def textLeft : ProfAct → Bytes
  | .call (.allocString t) => encText (components t)
  | .call (.allocForeign b) => b
  | .call _ => []
  | .panics _ part => if part.length ≤ 262144 then part else []

/-- The file opens and shows the metadata, all recorded events, and of the string table what the first `i` strings and all mappings give. -/
def ShowsEvents (start pid : Nat) (args : List String) (counter : CounterKind) (calls : List ProfCall) (file : Bytes) (i : Nat) : Prop :=
  ∃ d : EventDecoder, (∃ n, ∀ (diag : Option String) (fuel : Nat), n ≤ fuel → EventDecoder.new diag fuel file = .ok d) ∧
    d.metadata = ⟨start, pid, utf8 (commandLine args)⟩ ∧
    d.numEvents = .ok (recorded calls).length ∧
    let log := remaining (metadataText start pid args counter) calls i (mappings (stringLog (metadataText start pid args counter) calls)).length
    (∀ x r, (recorded calls)[x]? = some r →
      d.decodeLightweight x = .ok ⟨x, r.thread, seen start r.what⟩ ∧
      ∀ kind label as, Shown log r.kind kind → Shown log r.id (joined label as) → SepFree label → (∀ a ∈ as, SepFree a) →
        ∃ n, ∀ fuel, n ≤ fuel → d.decodeFull fuel x =
          .ok ⟨utf8 kind, utf8 (decodedId label as).1, (decodedId label as).2.map utf8, seen start r.what, r.thread⟩) ∧
    ∀ id s, Shown log id s → ToString d.table id (utf8 s)

end Verif.Spec
