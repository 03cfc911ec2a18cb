import Verif.Spec.Damaged

/-!
# Specification vocabulary for what is said about a file or stream without its header

The format of the messages is that of `measureme/src/file_header.rs:50-88` and `decodeme/src/lib.rs:63-86`.
-/

namespace Verif.Spec

open Verif Verif.Mm

/-- What is said about the bytes of a stream that do not begin with the header of their kind (four letters, then version 9): how
many bytes there are if fewer than eight, else which four bytes there are instead of the letters, else which version is there. -/
inductive Complaint (file stream kind : String) : Bytes → String → Prop
  | short {bytes : Bytes} : bytes.length < 8 →
      Complaint file stream kind bytes ("Error reading " ++ stream ++ " stream in file `" ++ file ++
        "`: Expected file to contain at least `8` bytes but found `" ++ toString bytes.length ++ "` bytes")
  | letters {k0 k1 k2 k3 a b c d e f g h : UInt8} {rest : Bytes} : utf8 kind = [k0, k1, k2, k3] → [a, b, c, d] ≠ utf8 kind →
      Complaint file stream kind ([a, b, c, d, e, f, g, h] ++ rest) ("Error reading " ++ stream ++ " stream in file `" ++ file ++
        "`: Expected file magic `[" ++ toString k0.toNat ++ ", " ++ toString k1.toNat ++ ", " ++ toString k2.toNat ++ ", " ++ toString k3.toNat ++
        "]` but found `[" ++ toString a.toNat ++ ", " ++ toString b.toNat ++ ", " ++ toString c.toNat ++ ", " ++ toString d.toNat ++ "]`")
  | version {e f g h : UInt8} {rest : Bytes} {v : Nat} : v = e.toNat + 256 * f.toNat + 65536 * g.toNat + 16777216 * h.toNat → v ≠ 9 →
      Complaint file stream kind (utf8 kind ++ [e, f, g, h] ++ rest) ("Error reading " ++ stream ++ " stream in file `" ++ file ++
        "`: Expected file format version 9 but found `" ++ toString v ++ "`")

end Verif.Spec
