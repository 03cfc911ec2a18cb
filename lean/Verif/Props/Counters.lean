import Mathlib.Tactic.Ring
import Mathlib.Tactic.Linarith
import Mathlib.Algebra.Order.Ring.Int
import Verif.Spec.Counters
import Verif.Model.RawEvent

/-! # C57, C61: counters -/

namespace Verif.Props

open Verif Verif.Mm Verif.Counters Verif.Spec

theorem signExtend48_toInt (v : UInt64) : (signExtend48 v).toBitVec.toInt = Int.bmod v.toNat (2 ^ 48) := by
  unfold signExtend48
  simp only [BitVec.toInt_sshiftRight, BitVec.toInt_shiftLeft]
  have hv : v.toBitVec.toNat = v.toNat := rfl
  rw [hv, Nat.shiftLeft_eq, Int.shiftRight_eq_div_pow]
  have : v.toNat < 2 ^ 64 := v.toNat_lt
  simp only [Int.bmod]
  omega

/-- The signed reading of a register that shows `n`. -/
theorem shows_reading {v : UInt64} {n : Nat} (h : Shows v n) :
    (signExtend48 v).toBitVec.toInt = (n : Int) - 2 ^ 48 * (passes n : Int) := by
  rw [signExtend48_toInt]
  unfold Shows at h
  unfold passes
  simp only [Int.bmod]
  omega

theorem toInt_cases (a : UInt64) :
    a.toBitVec.toInt = (a.toNat : Int) ∨ a.toBitVec.toInt = (a.toNat : Int) - 18446744073709551616 := by
  rw [BitVec.toInt_eq_toNat_cond]
  have : a.toBitVec.toNat = a.toNat := rfl
  split
  · left; rw [this]
  · right; rw [this]; rfl

theorem toInt_emod (a : UInt64) : a.toBitVec.toInt % 2 ^ 64 = (a.toNat : Int) := by
  have ha : a.toNat < 2 ^ 64 := a.toNat_lt
  rcases toInt_cases a with h | h <;> rw [h] <;> omega

theorem toNat_sub_int (a b : UInt64) :
    (((a - b).toNat : Nat) : Int) = (a.toBitVec.toInt - b.toBitVec.toInt) % 2 ^ 64 := by
  have h : (a - b).toNat = (2 ^ 64 - b.toNat + a.toNat) % 2 ^ 64 := UInt64.toNat_sub a b
  have ha : a.toNat < 2 ^ 64 := a.toNat_lt
  have hb : b.toNat < 2 ^ 64 := b.toNat_lt
  rw [h]
  rcases toInt_cases a with ha' | ha' <;> rcases toInt_cases b with hb' | hb' <;> rw [ha', hb'] <;> omega

/-- The exact value of a plain hardware counter. -/
theorem since_plain (n0 n1 : Nat) (v0 v1 : UInt64) (h0 : Shows v0 n0) (h1 : Shows v1 n1) :
    (((signExtend48 v1 - signExtend48 v0).toNat : Nat) : Int) =
      (((n1 : Int) - n0) - 2 ^ 48 * ((passes n1 : Int) - passes n0)) % 2 ^ 64 := by
  rw [toNat_sub_int, shows_reading h0, shows_reading h1]
  exact congrArg (fun x : Int => x % 2 ^ 64) (by ring)

/-- The exact value of a subtracting counter. -/
theorem since_minus (n0 n1 k0 k1 : Nat) (v0 v1 w0 w1 : UInt64) (h0 : Shows v0 n0) (h1 : Shows v1 n1) (g0 : Shows w0 k0) (g1 : Shows w1 k1) :
    (((signExtend48 v1 - signExtend48 w1 - (signExtend48 v0 - signExtend48 w0)).toNat : Nat) : Int) =
      ((((n1 : Int) - n0) - ((k1 : Int) - k0)) -
        2 ^ 48 * (((passes n1 : Int) - passes n0) - ((passes k1 : Int) - passes k0))) % 2 ^ 64 := by
  have p1 := toNat_sub_int (signExtend48 v1) (signExtend48 w1)
  have p2 := toNat_sub_int (signExtend48 v0) (signExtend48 w0)
  have p3 := toNat_sub_int (signExtend48 v1 - signExtend48 w1) (signExtend48 v0 - signExtend48 w0)
  have q1 := toInt_emod (signExtend48 v1 - signExtend48 w1)
  have q2 := toInt_emod (signExtend48 v0 - signExtend48 w0)
  rw [shows_reading h1, shows_reading g1] at p1
  rw [shows_reading h0, shows_reading g0] at p2
  rw [p3, Int.sub_emod, q1, q2, p1, p2, ← Int.sub_emod]
  exact congrArg (fun x : Int => x % 2 ^ 64) (by ring)

theorem passes_of_noPass {a b : Nat} (hab : a ≤ b) (h : NoPass a b) : passes a = passes b := by
  by_contra hne
  have hlt : passes a < passes b := by unfold passes at hne ⊢; omega
  refine h (2 ^ 48 * passes b - 2 ^ 47) ?_ ?_ ?_ <;> unfold passes at * <;> omega

/-- **C57.** Whatever the registers do in between, every hardware counter is right modulo 2^48. -/
theorem C57_modulo (n0 n1 k0 k1 : Nat) (r0 r1 : Reading) (h0 : Shows r0.instructions n0) (h1 : Shows r1.instructions n1)
    (g0 : Shows r0.irqs k0) (g1 : Shows r1.irqs k1) (t : Nat) :
    ((sinceStart .instructions (startOf .instructions r0) t r1).toNat : Int) % 2 ^ 48 = ((n1 : Int) - n0) % 2 ^ 48 ∧
    ((sinceStart .instructionsMinusIrqs (startOf .instructionsMinusIrqs r0) t r1).toNat : Int) % 2 ^ 48 =
      (((n1 : Int) - n0) - ((k1 : Int) - k0)) % 2 ^ 48 ∧
    ((sinceStart .instructionsMinusRaw0420 (startOf .instructionsMinusRaw0420 r0) t r1).toNat : Int) % 2 ^ 48 =
      (((n1 : Int) - n0) - ((k1 : Int) - k0)) % 2 ^ 48 := by
  have p := since_plain n0 n1 _ _ h0 h1
  have q := since_minus n0 n1 k0 k1 _ _ _ _ h0 h1 g0 g1
  simp only [sinceStart, startOf]
  rw [p, q]
  omega

/-- **C57.** As long as no register passes 2^47 (modulo 2^48) the counters are exact: the events since the start, minus the
interrupts since the start (of which there are not more). -/
theorem C57_exact (n0 n1 k0 k1 : Nat) (r0 r1 : Reading) (h0 : Shows r0.instructions n0) (h1 : Shows r1.instructions n1)
    (g0 : Shows r0.irqs k0) (g1 : Shows r1.irqs k1) (t : Nat) (hn : n0 ≤ n1) (hk : k0 ≤ k1) (hle : k1 - k0 ≤ n1 - n0)
    (pn : NoPass n0 n1) (pk : NoPass k0 k1) :
    (sinceStart .instructions (startOf .instructions r0) t r1).toNat = n1 - n0 ∧
    (sinceStart .instructionsMinusIrqs (startOf .instructionsMinusIrqs r0) t r1).toNat = (n1 - n0) - (k1 - k0) ∧
    (sinceStart .instructionsMinusRaw0420 (startOf .instructionsMinusRaw0420 r0) t r1).toNat = (n1 - n0) - (k1 - k0) := by
  have p := since_plain n0 n1 _ _ h0 h1
  have q := since_minus n0 n1 k0 k1 _ _ _ _ h0 h1 g0 g1
  have e1 := passes_of_noPass hn pn
  have e2 := passes_of_noPass hk pk
  have hsmall : n1 - n0 < 2 ^ 48 := by unfold passes at e1; omega
  simp only [sinceStart, startOf]
  rw [e1] at p q
  rw [e2] at q
  omega

/-- **C57.** A plain counter is never silently wrong: within 2^48 events of the start it is exact, or its value cannot be recorded —
every event that would end with it panics. The latter happens exactly if the register passed 2^47 on the way. -/
theorem C57_exact_or_refused (n0 n1 : Nat) (r0 r1 : Reading) (h0 : Shows r0.instructions n0) (h1 : Shows r1.instructions n1)
    (t : Nat) (hn : n0 ≤ n1) (hs : n1 - n0 < 2 ^ 48) :
    (NoPass n0 n1 ∧ (sinceStart .instructions (startOf .instructions r0) t r1).toNat = n1 - n0) ∨
    (¬ NoPass n0 n1 ∧ 2 ^ 48 < (sinceStart .instructions (startOf .instructions r0) t r1).toNat ∧
      ∀ kind id tid s, IsPanic (RawEvent.newInstant kind id tid (sinceStart .instructions (startOf .instructions r0) t r1)) ∧
        IsPanic (RawEvent.newInterval kind id tid s (sinceStart .instructions (startOf .instructions r0) t r1))) := by
  have p := since_plain n0 n1 _ _ h0 h1
  simp only [sinceStart, startOf]
  by_cases hp : NoPass n0 n1
  · left
    refine ⟨hp, ?_⟩
    rw [passes_of_noPass hn hp] at p
    omega
  · right
    have hd : passes n1 = passes n0 + 1 := by
      by_contra hne
      apply hp
      intro m hm1 hm2 hm3
      unfold passes at hne
      omega
    rw [hd] at p
    have hbig : 2 ^ 48 < (signExtend48 r1.instructions - signExtend48 r0.instructions).toNat := by omega
    refine ⟨hp, hbig, fun kind id tid s => ⟨?_, ?_⟩⟩
    · unfold RawEvent.newInstant
      rw [if_pos]
      · trivial
      · rw [UInt64.le_iff_toNat_le]
        have : maxSingleValue.toNat = 2 ^ 48 - 1 := by decide
        omega
    · unfold RawEvent.newInterval
      split
      · trivial
      · rw [if_pos]
        · trivial
        · rw [UInt64.le_iff_toNat_le]
          have : maxIntervalValue.toNat = 2 ^ 48 - 3 := by decide
          omega

/-- **C57.** The clock counts nanoseconds, exactly for the first 2^64 of them. -/
theorem C57_wall_time (t : Nat) (ht : t < 2 ^ 64) (r0 r1 : Reading) :
    (sinceStart .wallTime (startOf .wallTime r0) t r1).toNat = t := by
  simp only [sinceStart]
  rw [UInt64.toNat_ofNat']
  exact Nat.mod_eq_of_lt ht

/-- **C57.** Halves of a register are put together in order. -/
theorem C57_register (lo hi : UInt32) : (rdpmcValue lo hi).toNat = lo.toNat + 2 ^ 32 * hi.toNat := by
  have hl : lo.toNat < 2 ^ 32 := lo.toNat_lt
  have hh : hi.toNat < 2 ^ 32 := hi.toNat_lt
  unfold rdpmcValue
  rw [UInt64.toNat_or, UInt64.toNat_shiftLeft, UInt32.toNat_toUInt64, UInt32.toNat_toUInt64]
  have e : (32 : UInt64).toNat % 64 = 32 := by decide
  rw [e, Nat.shiftLeft_eq, Nat.mod_eq_of_lt (by omega), Nat.or_comm, ← Nat.shiftLeft_eq, ← Nat.shiftLeft_add_eq_or_of_lt hl,
    Nat.shiftLeft_eq]
  omega

/-- A register that wraps around its 48 bits (but not past the sign bit). -/
example : Shows 281474976710650 281474976710650 ∧ Shows 0xFFFF000000000010 281474976710672 ∧ NoPass 281474976710650 281474976710672 ∧
    (sinceStart .instructions (startOf .instructions ⟨281474976710650, 0⟩) 0 ⟨0xFFFF000000000010, 0⟩).toNat = 22 := by
  refine ⟨rfl, by unfold Shows; decide, ?_, by decide⟩
  intro m h1 h2
  omega

/-- A register that passes the sign bit: one event later the counter says 2^64 - 2^48 + 1. -/
example : Shows 140737488355327 140737488355327 ∧ Shows 140737488355328 140737488355328 ∧
    ¬ NoPass 140737488355327 140737488355328 ∧
    (sinceStart .instructions (startOf .instructions ⟨140737488355327, 0⟩) 0 ⟨140737488355328, 0⟩).toNat = 18446462598732840961 := by
  refine ⟨rfl, rfl, ?_, by decide⟩
  intro h
  exact h 140737488355328 (by decide) (by decide) (by decide)

/-! ## C61 -/

/-- **C61.** A counter is found under its documented name exactly, and only if its constructor succeeds; every other name is an
error. -/
theorem C61_names (new : CounterKind → Except Fault Unit) (name : String) (k : CounterKind) :
    (byName new name = .ok k ↔ (name, k) ∈ documentedNames ∧ (k = .wallTime ∨ new k = .ok ())) ∧
    ((∀ k, (name, k) ∉ documentedNames) → ∃ msg, byName new name = .error (.err msg)) := by
  have key : ∀ (x : Except Fault Unit) (c : CounterKind), (x.map fun _ => c) = .ok k ↔ k = c ∧ x = .ok () := by
    intro x c
    cases x with
    | error e => simp [Except.map]
    | ok u => simp [Except.map, eq_comm]
  constructor
  · unfold byName documentedNames
    simp only [List.mem_cons, Prod.mk.injEq, List.not_mem_nil, or_false]
    by_cases h0 : name = CounterKind.wallTime.name
    · rw [if_pos h0, h0]; cases k <;> simp [CounterKind.name]
    rw [if_neg h0]
    by_cases h1 : name = CounterKind.instructions.name
    · rw [if_pos h1, h1, key]; cases k <;> simp [CounterKind.name]
    rw [if_neg h1]
    by_cases h2 : name = CounterKind.instructionsMinusIrqs.name
    · rw [if_pos h2, h2, key]; cases k <;> simp [CounterKind.name]
    rw [if_neg h2]
    by_cases h3 : name = CounterKind.instructionsMinusRaw0420.name
    · rw [if_pos h3, h3, key]; cases k <;> simp [CounterKind.name]
    rw [if_neg h3]
    simp only [CounterKind.name] at h0 h1 h2 h3
    simp [h0, h1, h2, h3]
  · intro h
    unfold byName documentedNames at *
    simp only [List.mem_cons, Prod.mk.injEq, List.not_mem_nil, or_false, not_or, not_and] at h
    have m0 : name ≠ CounterKind.wallTime.name := fun e => (h .wallTime).1 e rfl
    have m1 : name ≠ CounterKind.instructions.name := fun e => (h .instructions).2.1 e rfl
    have m2 : name ≠ CounterKind.instructionsMinusIrqs.name := fun e => (h .instructionsMinusIrqs).2.2.1 e rfl
    have m3 : name ≠ CounterKind.instructionsMinusRaw0420.name := fun e => (h .instructionsMinusRaw0420).2.2.2 e rfl
    rw [if_neg m0, if_neg m1, if_neg m2, if_neg m3]
    exact ⟨_, rfl⟩

theorem cpuFamily_eq (v : UInt32) : (cpuFamily v).toNat = family v := by
  unfold cpuFamily family
  have hv : v.toNat < 2 ^ 32 := v.toNat_lt
  have e1 : ((v >>> 8) &&& 0xf).toNat = v.toNat / 2 ^ 8 % 2 ^ 4 := by
    rw [UInt32.toNat_and, UInt32.toNat_shiftRight]
    have : (0xf : UInt32).toNat = 2 ^ 4 - 1 := by decide
    rw [this, Nat.and_two_pow_sub_one_eq_mod]
    have : (8 : UInt32).toNat % 32 = 8 := by decide
    rw [this, Nat.shiftRight_eq_div_pow]
  have e2 : ((v >>> 20) &&& 0xff).toNat = v.toNat / 2 ^ 20 % 2 ^ 8 := by
    rw [UInt32.toNat_and, UInt32.toNat_shiftRight]
    have : (0xff : UInt32).toNat = 2 ^ 8 - 1 := by decide
    rw [this, Nat.and_two_pow_sub_one_eq_mod]
    have : (20 : UInt32).toNat % 32 = 20 := by decide
    rw [this, Nat.shiftRight_eq_div_pow]
  have e3 : (v >>> 8) &&& 0xf = 15 ↔ v.toNat / 2 ^ 8 % 2 ^ 4 = 15 := by
    rw [← e1, ← UInt32.toNat_inj]; rfl
  simp only
  by_cases h : (v >>> 8) &&& 0xf = 15
  · rw [if_pos h, if_pos (e3.1 h), UInt32.toNat_add, e1, e2]
    omega
  · rw [if_neg h, if_neg (fun hh => h (e3.2 hh)), e1]
    rfl

theorem cpuModelNumber_full (vendor : Bytes) (v : UInt32)
    (h : cpuFamily v ≥ 15 ∨ (vendor = utf8 "GenuineIntel" ∧ cpuFamily v = 6)) :
    (cpuModelNumber vendor v).toNat = fullModel v := by
  unfold cpuModelNumber fullModel
  have hv : v.toNat < 2 ^ 32 := v.toNat_lt
  have hf : (0xf : UInt32).toNat = 2 ^ 4 - 1 := by decide
  have e1 : ((v >>> 4) &&& 0xf).toNat = v.toNat / 2 ^ 4 % 2 ^ 4 := by
    rw [UInt32.toNat_and, UInt32.toNat_shiftRight, hf, Nat.and_two_pow_sub_one_eq_mod]
    have : (4 : UInt32).toNat % 32 = 4 := by decide
    rw [this, Nat.shiftRight_eq_div_pow]
  have e2 : (((v >>> 16) &&& 0xf) <<< 4).toNat = 16 * (v.toNat / 2 ^ 16 % 2 ^ 4) := by
    rw [UInt32.toNat_shiftLeft, UInt32.toNat_and, UInt32.toNat_shiftRight, hf, Nat.and_two_pow_sub_one_eq_mod]
    have h4 : (4 : UInt32).toNat % 32 = 4 := by decide
    have h16 : (16 : UInt32).toNat % 32 = 16 := by decide
    rw [h4, h16, Nat.shiftRight_eq_div_pow, Nat.shiftLeft_eq]
    omega
  simp only
  rw [if_pos h, UInt32.toNat_add, e1, e2]
  omega

theorem irqs_of_detect (ebx edx ecx version : UInt32) :
    ((detect ebx edx ecx version).bind irqsConfig).toOption = interruptEvent (vendorText ebx edx ecx) version := by
  have hv : leBytes 4 ebx.toNat ++ leBytes 4 edx.toNat ++ leBytes 4 ecx.toNat = vendorText ebx edx ecx := by
    simp [vendorText, leBytes, List.range, List.range.loop, Nat.div_div_eq_div_mul]
  unfold detect interruptEvent
  simp only [hv]
  generalize vendorText ebx edx ecx = vendor
  rw [cpuFamily_eq]
  by_cases ha : vendor = utf8 "AuthenticAMD"
  · rw [if_pos ha, if_pos ha]
    unfold detectAmd
    by_cases h1 : family version ≤ 14 ∨ family version = 19
    · have h1' : family version < 15 ∨ family version = 19 := by omega
      rw [if_pos h1, if_pos h1']; rfl
    have h1' : ¬ (family version < 15 ∨ family version = 19) := by omega
    rw [if_neg h1, if_neg h1']
    by_cases h2 : family version < 23
    · have h3 : family version ∈ [15, 16, 17, 18, 20, 21, 22] := by
        simp only [List.mem_cons, List.not_mem_nil, or_false]; omega
      rw [if_pos h2, if_pos h3]; rfl
    have h3 : family version ∉ [15, 16, 17, 18, 20, 21, 22] := by
      simp only [List.mem_cons, List.not_mem_nil, or_false]; omega
    rw [if_neg h2, if_neg h3]
    split <;> rfl
  rw [if_neg ha, if_neg ha]
  by_cases hi : vendor = utf8 "GenuineIntel"
  · rw [if_pos hi, if_pos hi]
    unfold detectIntel
    by_cases h1 : family version < 6 ∨ family version = 15
    · rw [if_pos h1]
      by_cases h2 : family version ≤ 5
      · rw [if_pos h2]; rfl
      · have h3 : family version = 15 := by omega
        rw [if_neg h2, if_pos h3]; rfl
    have h2 : ¬ family version ≤ 5 := by omega
    have h3 : ¬ family version = 15 := by omega
    rw [if_neg h1, if_neg h2, if_neg h3]
    by_cases h6 : family version = 6
    · have hm : (cpuModelNumber vendor version).toNat = fullModel version := by
        apply cpuModelNumber_full
        right
        refine ⟨hi, ?_⟩
        rw [← UInt32.toNat_inj, cpuFamily_eq, h6]; rfl
      rw [hm]
      simp only [h6, true_and]
      by_cases h7 : fullModel version ≤ 41
      · have h8 : fullModel version < 42 ∨ fullModel version ∈ olderModels := by left; omega
        rw [if_pos h7, if_pos h8]; rfl
      rw [if_neg h7]
      by_cases h8 : fullModel version ∈ olderModels
      · have h9 : fullModel version < 42 ∨ fullModel version ∈ olderModels := Or.inr h8
        have h10 : fullModel version ∈ [87, 133, 53, 54, 55, 74, 77, 90, 93, 76, 44, 46, 47] := by
          simp only [olderModels, List.mem_cons, List.not_mem_nil, or_false] at h8 ⊢
          omega
        rw [if_pos h9, if_pos h10]; rfl
      have h9 : ¬ (fullModel version < 42 ∨ fullModel version ∈ olderModels) := by
        rintro (h | h)
        · omega
        · exact h8 h
      have h10 : fullModel version ∉ [87, 133, 53, 54, 55, 74, 77, 90, 93, 76, 44, 46, 47] := by
        simp only [olderModels, List.mem_cons, List.not_mem_nil, or_false] at h8 ⊢
        omega
      rw [if_neg h9, if_neg h10]
      split
      · rfl
      · split
        · rfl
        · split <;> rfl
    · simp only [h6, false_and, if_false]
      rfl
  · rw [if_neg hi, if_neg hi]; rfl

/-- **C61.** `instructions-minus-irqs` is available exactly if the CPU is one on which interrupts can be counted and the kernel
grants both events with readable 48-bit counters; it then reads the registers of those events. -/
theorem C61_interrupts (ebx edx ecx version : UInt32) (granted : Nat → Nat → Option PerfPage) (regs : List Nat) :
    newCounter (detect ebx edx ecx version) granted .instructionsMinusIrqs = .ok regs ↔
      ∃ i j event, regs = [i, j] ∧ interruptEvent (vendorText ebx edx ecx) version = some event ∧
        Granted granted 0 1 i ∧ Granted granted 4 event j := by
  have hw : ∀ t c r, newHwCounter granted t c = .ok r ↔ Granted granted t c r := by
    intro t c r
    unfold newHwCounter Granted
    cases hg : granted t c with
    | none => simp
    | some page =>
      simp only [Option.some.injEq]
      constructor
      · intro h
        split at h
        · simp at h
        · split at h
          · simp at h
          · split at h
            · simp at h
            · simp only [Except.ok.injEq] at h
              refine ⟨page, rfl, ?_, ?_, ?_⟩
              · simpa using ‹¬ page.capUserRdpmc = false›
              · omega
              · omega
      · rintro ⟨p, rfl, h1, h2, h3⟩
        simp [h1, h2, h3]
  rw [← irqs_of_detect]
  unfold newCounter
  cases hd : detect ebx edx ecx version with
  | error e => simp [Except.bind, Except.toOption]
  | ok m =>
    simp only [Except.bind]
    constructor
    · intro h
      cases h1 : newHwCounter granted 0 1 with
      | error e => rw [h1] at h; simp at h
      | ok i =>
        rw [h1] at h
        simp only at h
        cases h2 : irqsConfig m with
        | error e => rw [h2] at h; simp at h
        | ok c =>
          rw [h2] at h
          simp only at h
          cases h3 : newHwCounter granted 4 c with
          | error e => rw [h3] at h; simp at h
          | ok j =>
            rw [h3] at h
            simp only [Except.ok.injEq] at h
            exact ⟨i, j, c, h.symm, rfl, (hw _ _ _).1 h1, (hw _ _ _).1 h3⟩
    · rintro ⟨i, j, c, rfl, hc, h1, h3⟩
      rw [(hw _ _ _).2 h1]
      simp only
      cases h2 : irqsConfig m with
      | error e => rw [h2] at hc; simp [Except.toOption] at hc
      | ok c' =>
        rw [h2] at hc
        simp only [Except.toOption, Option.some.injEq] at hc
        subst hc
        simp only
        rw [(hw _ _ _).2 h3]

/-- A Skylake CPU (family 6, model 94). -/
example : vendorText 0x756E6547 0x49656E69 0x6C65746E = utf8 "GenuineIntel" ∧ family 0x506E3 = 6 ∧ fullModel 0x506E3 = 94 ∧
    newCounter (detect 0x756E6547 0x49656E69 0x6C65746E 0x506E3) (fun t c => some ⟨true, t + c, 48⟩) .instructionsMinusIrqs =
      .ok [0, 462] := by decide +kernel

end Verif.Props
