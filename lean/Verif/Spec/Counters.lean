import Verif.Model.Counters

/-!
# Specification vocabulary for counters

A hardware counter counts events; its register holds the count modulo 2^48.
-/

namespace Verif.Spec

open Verif Verif.Mm

/-- The low 48 bits of `v` are those of the number of events `n` (the rest is whatever the instruction returns). -/
def Shows (v : UInt64) (n : Nat) : Prop := v.toNat % 2 ^ 48 = n % 2 ^ 48

/-- How often a counter has passed a value with the 48-bit sign bit set anew (2^47, 2^47 + 2^48, …) on its way to `n`. -/
def passes (n : Nat) : Nat := (n + 2 ^ 47) / 2 ^ 48

/-- On the way from `a` to `b` events the counter does not pass 2^47 modulo 2^48. -/
def NoPass (a b : Nat) : Prop := ∀ m, a < m → m ≤ b → m % 2 ^ 48 ≠ 2 ^ 47

/-- The documented names. -/
def documentedNames : List (String × CounterKind) :=
  [("wall-time", .wallTime), ("instructions:u", .instructions), ("instructions-minus-irqs:u", .instructionsMinusIrqs),
   ("instructions-minus-r0420:u", .instructionsMinusRaw0420)]

/-- The vendor text of a CPU: three registers of four characters. -/
def vendorText (ebx edx ecx : UInt32) : Bytes :=
  [ebx, edx, ecx].flatMap fun r => (List.range 4).map fun i => UInt8.ofNat (r.toNat / 256 ^ i % 256)

/-- The family in a `cpuid` version: bits 8-11, plus bits 20-27 if those are all set. -/
def family (version : UInt32) : Nat :=
  version.toNat / 2 ^ 8 % 2 ^ 4 + if version.toNat / 2 ^ 8 % 2 ^ 4 = 15 then version.toNat / 2 ^ 20 % 2 ^ 8 else 0

/-- The full model number in a `cpuid` version: bits 4-7, and bits 16-19 above them. -/
def fullModel (version : UInt32) : Nat := version.toNat / 2 ^ 4 % 2 ^ 4 + 16 * (version.toNat / 2 ^ 16 % 2 ^ 4)

/-- Models of family 6 after 41 that are older than Sandy Bridge: Westmere and Nehalem servers, Atoms, Xeon Phi. -/
def olderModels : List Nat := [44, 46, 47, 53, 54, 55, 74, 76, 77, 87, 90, 93, 133]

/-- The event that counts interrupts on this CPU, if there is one: on AMD since K8, on Intel since Sandy Bridge. -/
def interruptEvent (vendor : Bytes) (version : UInt32) : Option Nat :=
  if vendor = utf8 "AuthenticAMD" then
    if family version < 15 ∨ family version = 19 then none
    else if family version < 23 then some 0xCF
    else some 0x2C
  else if vendor = utf8 "GenuineIntel" then
    if family version < 6 ∨ family version = 15 then none
    else if family version = 6 ∧ (fullModel version < 42 ∨ fullModel version ∈ olderModels) then none
    else some 0x1CB
  else none

/-- Family 23 of AMD: Naples, Pinnacle Ridge, Raven Ridge, Banded Kestrel, Rome, Matisse. -/
def zenModels : List Nat := [1, 8, 17, 24, 49, 113]

/-- Family 6 of Intel since Sandy Bridge: Sandy Bridge and Ivy Bridge; Haswell and Broadwell; Skylake, Kaby Lake and their kin. -/
def namedModels : List Nat := [42, 45, 58, 62] ++ [60, 63, 69, 70, 61, 71, 79, 86] ++ [78, 94, 85, 142, 158]

/-- The CPU is one of AMD's Zen family that the library knows. -/
def IsZen (vendor : Bytes) (version : UInt32) : Prop :=
  vendor = utf8 "AuthenticAMD" ∧ family version = 23 ∧ fullModel version ∈ zenModels

/-- The CPU is from AMD, made after the families the library knows, or one of the last of them it does not know. -/
def NewAmd (vendor : Bytes) (version : UInt32) : Prop :=
  vendor = utf8 "AuthenticAMD" ∧ 23 ≤ family version ∧ ¬ IsZen vendor version

/-- The CPU is from Intel and none that the library knows. -/
def NewIntel (vendor : Bytes) (version : UInt32) : Prop :=
  vendor = utf8 "GenuineIntel" ∧ 6 ≤ family version ∧ family version ≠ 15 ∧
    ¬ (family version = 6 ∧ (fullModel version < 42 ∨ fullModel version ∈ olderModels ∨ fullModel version ∈ namedModels))

/-- The CPU is one on which instructions can be counted: any of Intel's, and AMD's since K8 (there is no family 19). -/
def KnownVendor (vendor : Bytes) (version : UInt32) : Prop :=
  vendor = utf8 "GenuineIntel" ∨ (vendor = utf8 "AuthenticAMD" ∧ 15 ≤ family version ∧ family version ≠ 19)

/-- The kernel grants the event with a 48-bit counter that can be read by the program. -/
def Granted (granted : Nat → Nat → Option Counters.PerfPage) (type_ event register : Nat) : Prop :=
  ∃ page, granted type_ event = some page ∧ page.capUserRdpmc = true ∧ page.pmcWidth = 48 ∧ page.index = register + 1

end Verif.Spec
