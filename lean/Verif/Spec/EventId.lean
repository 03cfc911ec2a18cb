import Verif.Model.EventId

/-!
# Specification vocabulary for event ids

The grammar is documented at `measureme/src/event_id.rs:5-17`: a label followed by arguments, each argument introduced by
the character U+001E; texts are non-empty and contain no ASCII control character except white space.
-/

namespace Verif.Spec

/-- A label followed by arguments, each preceded by U+001E. -/
def joined (label : String) : List String → String
  | [] => label
  | a :: as => joined (label ++ "\x1e" ++ a) as

/-- No U+001E in the text. -/
def SepFree (s : String) : Prop := Char.ofNat 0x1E ∉ s.toList

/-- ASCII control characters. -/
def ControlChar (c : Char) : Prop := c.toNat < 32 ∨ c.toNat = 127

/-- Tab, line feed, form feed, carriage return and space: white space as Rust's `is_ascii_whitespace` has it. -/
def RustSpace (c : Char) : Prop := c.toNat = 9 ∨ c.toNat = 10 ∨ c.toNat = 12 ∨ c.toNat = 13 ∨ c.toNat = 32

/-- The POSIX class `[:space:]` named by the grammar: additionally vertical tab. -/
def PosixSpace (c : Char) : Prop := RustSpace c ∨ c.toNat = 11

/-- A `<text>` as the parser accepts it. -/
def TextOk (s : String) : Prop := s ≠ "" ∧ ∀ c ∈ s.toList, ControlChar c → RustSpace c

/-- A `<text>` as the grammar documents it. -/
def TextDocumented (s : String) : Prop := s ≠ "" ∧ ∀ c ∈ s.toList, ControlChar c → PosixSpace c

/-- What the reader of a profile says on standard error about an event id's text: `field` is the first field (the label or an
argument) that is not a proper text, and it begins at byte `start`.  The byte number in the message is that of the field's end. -/
def idComplaint (text field : String) (start : Nat) : String :=
  "Could not parse `event_id`. " ++ (if field = "" then "Zero-length <text>" else "Found ASCII control character in <text>") ++
    " at " ++ toString (start + field.utf8ByteSize) ++ " in \"" ++ text ++ "\""

instance (c : Char) : Decidable (ControlChar c) := by unfold ControlChar; infer_instance
instance (c : Char) : Decidable (RustSpace c) := by unfold RustSpace; infer_instance
instance (s : String) : Decidable (SepFree s) := by unfold SepFree; infer_instance
instance (s : String) : Decidable (TextOk s) := by unfold TextOk; infer_instance

end Verif.Spec
