import Verif.Model.Json
import Verif.Model.Decoder

/-! # Specification vocabulary: well-formed text -/

namespace Verif.Spec

open Verif Verif.Mm Verif.Json Verif.Decode

/-- The bytes are the UTF-8 encoding of some string of Unicode scalar values. -/
def IsText (b : Bytes) : Prop := ∃ s : String, s.toByteArray.data.toList = b

/-- All strings in a JSON value, names of members included, are text. -/
inductive AllText : Value → Prop
  | null : AllText .null
  | bool (b : Bool) : AllText (.bool b)
  | num (n : Nat) : AllText (.num n)
  | real {t : Bytes} (h : IsText t) : AllText (.real t)
  | str {s : Bytes} (h : IsText s) : AllText (.str s)
  | arr {vs : List Value} (h : ∀ v ∈ vs, AllText v) : AllText (.arr vs)
  | obj {fs : List (Bytes × Value)} (hk : ∀ f ∈ fs, IsText f.1) (h : ∀ f ∈ fs, AllText f.2) : AllText (.obj fs)

/-- The texts of an event. -/
structure EventText (e : Event) : Prop where
  kind : IsText e.eventKind
  label : IsText e.label
  args : ∀ a ∈ e.additionalData, IsText a

/-- The texts of a profile: the command line and the texts of every event that can be decoded. -/
structure ProfileText (p : ProfilingData) : Prop where
  cmd : IsText p.metadata.cmd
  events : ∀ i e, p.decodeFull i = .ok e → EventText e

/-- What the external decoder of version 8 returns is text (in Rust its type says so). -/
structure OldText (d : OldDecoder) : Prop where
  cmd : IsText d.metadata.cmd
  events : ∀ i e, d.decodeFull i = .ok e → IsText e.eventKind ∧ IsText e.label ∧ ∀ a ∈ e.additionalData, IsText a

end Verif.Spec
