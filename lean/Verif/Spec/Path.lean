import Verif.Basic

/-! # Specification vocabulary for file names -/

namespace Verif.Spec

open Verif

/-- Trailing separators and `.` components: any sequence of `/` and `/.`. -/
inductive Trailing : Bytes → Prop
  | nil : Trailing []
  | sep {t : Bytes} (h : Trailing t) : Trailing (t ++ [0x2F])
  | cur {t : Bytes} (h : Trailing t) : Trailing (t ++ [0x2F, 0x2E])

/-- The path is `dir` followed by a plain file name (not empty, `.` or `..`, without `/`), up to trailing separators. -/
def Names (p dir name : Bytes) : Prop :=
  (∃ t, Trailing t ∧ p = dir ++ name ++ t) ∧ (dir = [] ∨ dir.getLast? = some 0x2F) ∧ (0x2F : UInt8) ∉ name ∧
    name ≠ [] ∧ name ≠ [0x2E] ∧ name ≠ [0x2E, 0x2E]

/-- The name has a dot with something before it. -/
def HasExtension (name stem ext : Bytes) : Prop := name = stem ++ [0x2E] ++ ext ∧ stem ≠ [] ∧ (0x2E : UInt8) ∉ ext

/-- `d` is the directory of a file whose path is `dir` followed by a name: nothing if `dir` is empty, the root if `dir` has only
separators and `.` components, otherwise `dir` without those at its end. -/
def DirectoryOf (dir d : Bytes) : Prop :=
  (dir = [] ∧ d = []) ∨ (Trailing dir ∧ dir ≠ [] ∧ d = [0x2F]) ∨
    (∃ t, Trailing t ∧ dir = d ++ t ∧ d ≠ [] ∧ d.getLast? ≠ some 0x2F ∧ ∀ x, d ≠ x ++ [0x2F, 0x2E])

end Verif.Spec
