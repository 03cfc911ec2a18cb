import Verif.Model.Profiler

/-!
# Counters (`measureme/src/counters.rs`)

The hardware is a parameter: what `rdpmc` returns for a register at the time of a call, whether the kernel grants the counter
(`perf_event_open`, `mmap`) and what `cpuid` returns.
-/

namespace Verif.Counters

open Verif Verif.Mm

/-- `measureme/src/counters.rs:135-147` `Counter::by_name`; `new k` is the outcome of the constructor of counter `k`. -/
def byName (new : CounterKind → Except Fault Unit) (name : String) : Except Fault CounterKind :=
  if name = CounterKind.wallTime.name then .ok .wallTime
  else if name = CounterKind.instructions.name then (new .instructions).map fun _ => .instructions
  else if name = CounterKind.instructionsMinusIrqs.name then (new .instructionsMinusIrqs).map fun _ => .instructionsMinusIrqs
  else if name = CounterKind.instructionsMinusRaw0420.name then
    (new .instructionsMinusRaw0420).map fun _ => .instructionsMinusRaw0420
  else .error (.err "not a valid counter name")

/-- `measureme/src/counters.rs:475-497` `read` for one counter (and 504-520 for each of a pair): sign-extend the low 48 bits of
what `rdpmc` returned.  Only the branch the compiler keeps is modelled (`&& false` disables the other). -/
def signExtend48 (counter : UInt64) : UInt64 := ⟨(counter.toBitVec <<< (64 - 48)).sshiftRight (64 - 48)⟩

/-- `measureme/src/counters.rs:589-606` `unserialized_rdpmc`: the two halves returned by the instruction. -/
def rdpmcValue (lo hi : UInt32) : UInt64 := lo.toUInt64 ||| (hi.toUInt64 <<< (32 : UInt64))

/-- What `rdpmc` returns for the two registers of a counter at one moment (the second only for counters that subtract). -/
structure Reading where
  instructions : UInt64
  irqs : UInt64

/-- The value of `start` in each hardware counter: `measureme/src/counters.rs:213,242-243,276-277`. -/
def startOf (k : CounterKind) (r : Reading) : UInt64 :=
  match k with
  | .wallTime => 0
  | .instructions => signExtend48 r.instructions
  | .instructionsMinusIrqs => signExtend48 r.instructions - signExtend48 r.irqs
  | .instructionsMinusRaw0420 => signExtend48 r.instructions - signExtend48 r.irqs

/-- `measureme/src/counters.rs:167-174,193-195,221-223,253-256,287-289` `since_start`: `elapsed` is the nanoseconds of the monotonic clock
since the counter was made, `r` the registers now. -/
def sinceStart (k : CounterKind) (start : UInt64) (elapsed : Nat) (r : Reading) : UInt64 :=
  match k with
  | .wallTime => UInt64.ofNat elapsed
  | .instructions => signExtend48 r.instructions - start
  | .instructionsMinusIrqs => signExtend48 r.instructions - signExtend48 r.irqs - start
  | .instructionsMinusRaw0420 => signExtend48 r.instructions - signExtend48 r.irqs - start

/-! ## Recognising the CPU -/

/-- `measureme/src/counters.rs:610-687` `AmdGen`, `IntelGen`, `CpuModel`. -/
inductive CpuModel where
  | amdPreZen
  | amdZen
  | amdUnknownMaybeZenLike
  | intelPreBridge
  | intelBridge
  | intelWell
  | intelLake
  | intelUnknownMaybeLakeLike
  deriving DecidableEq, Repr

/-- `measureme/src/counters.rs:708-712`: the family. -/
def cpuFamily (version : UInt32) : UInt32 :=
  let family := (version >>> 8) &&& 0xf
  if family = 15 then family + ((version >>> 20) &&& 0xff) else family

/-- `measureme/src/counters.rs:714-718`: the model. -/
def cpuModelNumber (vendor : Bytes) (version : UInt32) : UInt32 :=
  let model := (version >>> 4) &&& 0xf
  if cpuFamily version ≥ 15 ∨ (vendor = utf8 "GenuineIntel" ∧ cpuFamily version = 6) then
    model + (((version >>> 16) &&& 0xf) <<< 4)
  else model

/-- `measureme/src/counters.rs:729-766`: the table of AMD CPUs. -/
def detectAmd (family model : Nat) : Except Fault CpuModel :=
  if family ≤ 14 ∨ family = 19 then .error (.err "impossible AMD64 CPU detected")
  else if family ∈ [15, 16, 17, 18, 20, 21, 22] then .ok .amdPreZen
  else if family = 23 ∧ model ∈ [1, 17, 24, 8, 49, 113] then .ok .amdZen
  else .ok .amdUnknownMaybeZenLike

/-- `measureme/src/counters.rs:842-896`: the table of Intel CPUs. -/
def detectIntel (family model : Nat) : CpuModel :=
  if family ≤ 5 then .intelPreBridge
  else if family = 15 then .intelPreBridge
  else if family = 6 ∧ model ≤ 41 then .intelPreBridge
  else if family = 6 ∧ model ∈ [87, 133, 53, 54, 55, 74, 77, 90, 93, 76, 44, 46, 47] then .intelPreBridge
  else if family = 6 ∧ model ∈ [42, 45, 58, 62] then .intelBridge
  else if family = 6 ∧ model ∈ [60, 61, 63, 69, 70, 71, 79, 86] then .intelWell
  else if family = 6 ∧ model ∈ [78, 85, 94, 142, 158] then .intelLake
  else .intelUnknownMaybeLakeLike

/-- `measureme/src/counters.rs:691-911` `CpuModel::detect`, from the registers `cpuid` returns (the check for `SpecLockMap` only
logs). -/
def detect (ebx edx ecx version : UInt32) : Except Fault CpuModel :=
  let vendor := leBytes 4 ebx.toNat ++ leBytes 4 edx.toNat ++ leBytes 4 ecx.toNat
  let family := cpuFamily version
  let model := cpuModelNumber vendor version
  if vendor = utf8 "AuthenticAMD" then detectAmd family.toNat model.toNat
  else if vendor = utf8 "GenuineIntel" then .ok (detectIntel family.toNat model.toNat)
  else .error (.err "unknown CPU vendor")

/-- `measureme/src/counters.rs:915-934` `irqs_counter_config`. -/
def irqsConfig : CpuModel → Except Fault Nat
  | .amdPreZen => .ok 0x00cf
  | .amdZen | .amdUnknownMaybeZenLike => .ok 0x002c
  | .intelPreBridge => .error (.err "counting IRQs not yet supported")
  | .intelBridge | .intelWell | .intelLake | .intelUnknownMaybeLakeLike => .ok 0x01cb

/-- What the kernel says about a performance counter: `measureme/src/counters.rs:392-401`, the fields read from the mapped page. -/
structure PerfPage where
  capUserRdpmc : Bool
  index : Nat
  pmcWidth : Nat

/-- `measureme/src/counters.rs:348-437` `with_type_and_hw_id`; `granted` is what `perf_event_open` and `mmap` return for a
configuration: the page or nothing. The result is the register to read. -/
def newHwCounter (granted : Nat → Nat → Option PerfPage) (type_ config : Nat) : Except Fault Nat :=
  match granted type_ config with
  | none => .error (.err "perf_event_open failed")
  | some page =>
    if page.capUserRdpmc = false then .error (.err "missing cap_user_rdpmc")
    else if page.index = 0 then .error (.err "no allocated hardware register")
    else if page.pmcWidth ≠ 48 then .error (.err "only 48-bit supported")
    else .ok (page.index - 1)

/-- The registers a counter reads: `measureme/src/counters.rs:210-219,238-250,272-284` and 323-346 (`PERF_TYPE_HARDWARE` is 0,
`PERF_COUNT_HW_INSTRUCTIONS` is 1, `PERF_TYPE_RAW` is 4). -/
def newCounter (cpu : Except Fault CpuModel) (granted : Nat → Nat → Option PerfPage) : CounterKind → Except Fault (List Nat)
  | .wallTime => .ok []
  | .instructions =>
    cpu.bind fun _ => (newHwCounter granted 0 1).bind fun i => .ok [i]
  | .instructionsMinusIrqs =>
    cpu.bind fun m => (newHwCounter granted 0 1).bind fun i =>
      (irqsConfig m).bind fun c => (newHwCounter granted 4 c).bind fun j => .ok [i, j]
  | .instructionsMinusRaw0420 =>
    cpu.bind fun _ => (newHwCounter granted 0 1).bind fun i => (newHwCounter granted 4 0x0420).bind fun j => .ok [i, j]

/-- Warnings that do not stop the program (`really_warn!`, `measureme/src/counters.rs:121-125`).  The warning about `SpecLockMap` (819-828)
is not modelled. -/
inductive Warning where
  | unknownAmd
  | unknownIntel
  | raw0420
  deriving DecidableEq, Repr

/-- `measureme/src/counters.rs:755-764,885-894`: what `CpuModel::detect` warns about. -/
def detectWarnings : Except Fault CpuModel → List Warning
  | .ok .amdUnknownMaybeZenLike => [.unknownAmd]
  | .ok .intelUnknownMaybeLakeLike => [.unknownIntel]
  | _ => []

/-- The warnings while a counter is made, in order: `measureme/src/counters.rs:210-219,238-250,272-284` and 332-343 (the register of
`r0420` is asked for after that of the instructions, and only if that was granted). -/
def newWarnings (cpu : Except Fault CpuModel) (granted : Nat → Nat → Option PerfPage) : CounterKind → List Warning
  | .wallTime => []
  | .instructions => detectWarnings cpu
  | .instructionsMinusIrqs => detectWarnings cpu
  | .instructionsMinusRaw0420 => detectWarnings cpu ++
      match cpu, newHwCounter granted 0 1 with
      | .ok .amdZen, .ok _ => []
      | .ok _, .ok _ => [.raw0420]
      | _, _ => []

/-- `measureme/src/counters.rs:981-986`: the closure `add_error`. -/
def addError (msg s : String) : String := (if msg ≠ "" then msg ++ "; " else msg) ++ s

/-- `measureme/src/counters.rs:973-1001` `CpuModel::detect` where hardware counters are not supported (the `cfg` of line 939); there `CpuModel` has no values, so
only the message is kept.  `arch`, `os` and `environment` are `target_arch`, `target_os` and `target_env`. -/
def detectElsewhere (arch os environment : String) : Fault :=
  let msg := ""
  let msg := if arch ≠ "x86_64" then addError msg "only supported architecture is x86_64" else msg
  let msg := if os ≠ "linux" then addError msg "only supported OS is Linux" else msg
  let msg := if environment = "ohos" then addError msg "unsupported OHOS environment" else msg
  .err msg

/-- `CpuModel::detect` on any platform (the `cfg`s of `measureme/src/counters.rs:306` and 939 choose the module); the registers are what `cpuid` returns. -/
def detectOn (arch os environment : String) (ebx edx ecx version : UInt32) : Except Fault CpuModel :=
  if arch = "x86_64" ∧ os = "linux" ∧ environment ≠ "ohos" then detect ebx edx ecx version
  else .error (detectElsewhere arch os environment)

end Verif.Counters
