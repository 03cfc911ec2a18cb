import Verif.Props.Counters

/-!
# C61, continued: which counters can be made on which CPU, and what the user is told
-/

namespace Verif.Props

open Verif Verif.Mm Verif.Counters Verif.Spec

theorem newHwCounter_iff (granted : Nat → Nat → Option PerfPage) (t c r : Nat) : newHwCounter granted t c = .ok r ↔ Granted granted t c r := by
  unfold newHwCounter Granted
  cases hg : granted t c with
  | none => simp
  | some page =>
    simp only [Option.some.injEq]
    constructor
    · intro h
      split at h
      · simp at h
      · split at h
        · simp at h
        · split at h
          · simp at h
          · simp only [Except.ok.injEq] at h
            refine ⟨page, rfl, ?_, ?_, ?_⟩
            · simpa using ‹¬ page.capUserRdpmc = false›
            · omega
            · omega
    · rintro ⟨p, rfl, h1, h2, h3⟩
      simp [h1, h2, h3]

theorem vendorText_eq (ebx edx ecx : UInt32) : leBytes 4 ebx.toNat ++ leBytes 4 edx.toNat ++ leBytes 4 ecx.toNat = vendorText ebx edx ecx := by
  simp [vendorText, leBytes, List.range, List.range.loop, Nat.div_div_eq_div_mul]

theorem amd_intel : utf8 "GenuineIntel" ≠ utf8 "AuthenticAMD" := by decide +kernel

/-- What `detect` finds, in terms of family and model. -/
theorem detect_cases (ebx edx ecx version : UInt32) :
    ((∃ m, detect ebx edx ecx version = .ok m) ↔ KnownVendor (vendorText ebx edx ecx) version) ∧
    (detect ebx edx ecx version = .ok .amdZen ↔ IsZen (vendorText ebx edx ecx) version) ∧
    (detect ebx edx ecx version = .ok .amdUnknownMaybeZenLike ↔ NewAmd (vendorText ebx edx ecx) version) ∧
    (detect ebx edx ecx version = .ok .intelUnknownMaybeLakeLike ↔ NewIntel (vendorText ebx edx ecx) version) ∧
    (∀ f, detect ebx edx ecx version = .error f → ∃ msg, f = .err msg) := by
  unfold detect
  simp only [vendorText_eq]
  generalize vendorText ebx edx ecx = vendor
  rw [cpuFamily_eq]
  unfold NewAmd NewIntel IsZen KnownVendor
  by_cases ha : vendor = utf8 "AuthenticAMD"
  · subst ha
    have hni : ¬ utf8 "AuthenticAMD" = utf8 "GenuineIntel" := fun h => amd_intel h.symm
    have hm : 15 ≤ family version → (cpuModelNumber (utf8 "AuthenticAMD") version).toNat = fullModel version := by
      intro h
      apply cpuModelNumber_full
      left
      rw [ge_iff_le, UInt32.le_iff_toNat_le, cpuFamily_eq]
      exact h
    simp only [if_true, hni, false_and, false_or, true_and, if_false]
    unfold detectAmd
    generalize (cpuModelNumber (utf8 "AuthenticAMD") version).toNat = model at hm
    simp only [List.mem_cons, List.not_mem_nil, or_false, zenModels]
    generalize family version = fam at *
    generalize fullModel version = fm at *
    split
    · refine ⟨by simp; omega, by simp; omega, by simp; omega, by simp, by intro f h; exact ⟨_, (Except.error.inj h).symm⟩⟩
    · split
      · refine ⟨by simp; omega, by simp; omega, by simp; omega, by simp, by simp⟩
      · have := hm (by omega)
        subst this
        split
        · refine ⟨by simp; omega, by simp; omega, by simp; omega, by simp, by simp⟩
        · refine ⟨by simp; omega, by simp; omega, by simp; omega, by simp, by simp⟩
  · by_cases hi : vendor = utf8 "GenuineIntel"
    · subst hi
      simp only [if_true, ha, false_and, or_false, true_and, if_false]
      unfold detectIntel
      have hm : family version = 6 → (cpuModelNumber (utf8 "GenuineIntel") version).toNat = fullModel version := by
        intro h
        apply cpuModelNumber_full
        right
        refine ⟨rfl, ?_⟩
        rw [← UInt32.toNat_inj, cpuFamily_eq, h]; rfl
      generalize (cpuModelNumber (utf8 "GenuineIntel") version).toNat = model at hm
      simp only [List.mem_cons, List.not_mem_nil, or_false, olderModels, namedModels, List.cons_append, List.nil_append]
      generalize family version = fam at *
      generalize fullModel version = fm at *
      by_cases h6 : fam = 6
      · have := hm h6
        subst this
        subst h6
        simp only [true_and]
        refine ⟨by simp, ?_, ?_, ?_, by simp⟩
        · repeat' split
          all_goals simp
        · repeat' split
          all_goals simp
        · repeat' split
          all_goals simp
          all_goals omega
      · simp only [h6, false_and, if_false]
        refine ⟨by simp, ?_, ?_, ?_, by simp⟩
        · repeat' split
          all_goals simp
        · repeat' split
          all_goals simp
        · repeat' split
          all_goals simp
          all_goals omega
    · simp [ha, hi]

/-- **C61.** `instructions:u` is available exactly on Intel CPUs and AMD CPUs since K8 whose kernel grants the event with a readable 48-bit
counter; it then reads the register of that event. -/
theorem C61_instructions (ebx edx ecx version : UInt32) (granted : Nat → Nat → Option PerfPage) (regs : List Nat) :
    newCounter (detect ebx edx ecx version) granted .instructions = .ok regs ↔
      ∃ i, regs = [i] ∧ KnownVendor (vendorText ebx edx ecx) version ∧ Granted granted 0 1 i := by
  rw [← (detect_cases ebx edx ecx version).1]
  unfold newCounter
  simp only [← newHwCounter_iff]
  cases detect ebx edx ecx version with
  | error e => simp [Except.bind]
  | ok m =>
    cases newHwCounter granted 0 1 with
    | error e => simp [Except.bind]
    | ok i => simp [Except.bind, eq_comm]

/-- **C61.** `instructions-minus-r0420:u` is available on the same CPUs if the kernel also grants the raw event 0x420. -/
theorem C61_raw0420 (ebx edx ecx version : UInt32) (granted : Nat → Nat → Option PerfPage) (regs : List Nat) :
    newCounter (detect ebx edx ecx version) granted .instructionsMinusRaw0420 = .ok regs ↔
      ∃ i j, regs = [i, j] ∧ KnownVendor (vendorText ebx edx ecx) version ∧ Granted granted 0 1 i ∧ Granted granted 4 1056 j := by
  rw [← (detect_cases ebx edx ecx version).1]
  unfold newCounter
  simp only [← newHwCounter_iff]
  cases detect ebx edx ecx version with
  | error e => simp [Except.bind]
  | ok m =>
    cases newHwCounter granted 0 1 with
    | error e => simp [Except.bind]
    | ok i =>
      cases h : newHwCounter granted 4 0x0420 with
      | error e => simp [Except.bind, h]
      | ok j => simp [Except.bind, h, eq_comm]

/-- **C61.** A counter that cannot be had is always an error that the caller can handle, never a panic; the clock is always available. -/
theorem C61_never_panics (ebx edx ecx version : UInt32) (granted : Nat → Nat → Option PerfPage) (name : String) (f : Fault)
    (h : byName (fun k => (newCounter (detect ebx edx ecx version) granted k).map fun _ => ()) name = .error f) :
    (∃ msg, f = .err msg) ∧ name ≠ "wall-time" := by
  have hd := (detect_cases ebx edx ecx version).2.2.2.2
  have hw : ∀ t c f, newHwCounter granted t c = .error f → ∃ msg, f = .err msg := by
    intro t c f h
    unfold newHwCounter at h
    repeat' split at h
    all_goals first | exact ⟨_, (Except.error.inj h).symm⟩ | cases h
  have hi : ∀ m f, irqsConfig m = .error f → ∃ msg, f = .err msg := by
    intro m f h
    cases m <;> simp only [irqsConfig] at h <;> first | exact ⟨_, (Except.error.inj h).symm⟩ | cases h
  have bind : ∀ {α β : Type} (x : Except Fault α) (g : α → Except Fault β), (∀ f, x = .error f → ∃ msg, f = .err msg) →
      (∀ a f, g a = .error f → ∃ msg, f = .err msg) → ∀ f, x.bind g = .error f → ∃ msg, f = .err msg := by
    intro α β x g hx hg f h
    cases x with
    | error e => exact hx f (by rw [Except.error.inj (show Except.error (α := β) e = .error f from h)])
    | ok a => exact hg a f h
  have hn : ∀ k f, newCounter (detect ebx edx ecx version) granted k = .error f → ∃ msg, f = .err msg := by
    intro k
    cases k with
    | wallTime => intro f h; cases h
    | instructions => exact bind _ _ hd (fun _ => bind _ _ (hw _ _) (fun _ f h => by cases h))
    | instructionsMinusIrqs =>
      exact bind _ _ hd (fun m => bind _ _ (hw _ _) (fun _ => bind _ _ (hi m) (fun _ => bind _ _ (hw _ _) (fun _ f h => by cases h))))
    | instructionsMinusRaw0420 =>
      exact bind _ _ hd (fun m => bind _ _ (hw _ _) (fun _ => bind _ _ (hw _ _) (fun _ f h => by cases h)))
  have hm : ∀ {α β : Type} (x : Except Fault α) (g : α → β) f, x.map g = .error f → x = .error f := by
    intro α β x g f h
    cases x with
    | error e => rw [Except.error.inj (show Except.error (α := β) e = .error f from h)]
    | ok a => cases h
  unfold byName at h
  split at h
  · cases h
  · refine ⟨?_, fun e => ‹¬ name = _› (e.trans rfl)⟩
    split at h
    · exact hn _ _ (hm _ _ _ (hm _ _ _ h))
    · split at h
      · exact hn _ _ (hm _ _ _ (hm _ _ _ h))
      · split at h
        · exact hn _ _ (hm _ _ _ (hm _ _ _ h))
        · exact ⟨_, (Except.error.inj h).symm⟩

/-- **C61.** Whoever asks for a hardware counter is warned exactly if the CPU is newer than those the library knows; whoever asks for
`instructions-minus-r0420:u` is also warned exactly if instructions can be counted but the CPU is not known to be a Zen. -/
theorem C61_warned (ebx edx ecx version : UInt32) (granted : Nat → Nat → Option PerfPage) (k : CounterKind) :
    (Warning.unknownAmd ∈ newWarnings (detect ebx edx ecx version) granted k ↔ k ≠ .wallTime ∧ NewAmd (vendorText ebx edx ecx) version) ∧
    (Warning.unknownIntel ∈ newWarnings (detect ebx edx ecx version) granted k ↔ k ≠ .wallTime ∧ NewIntel (vendorText ebx edx ecx) version) ∧
    (Warning.raw0420 ∈ newWarnings (detect ebx edx ecx version) granted k ↔ k = .instructionsMinusRaw0420 ∧
      KnownVendor (vendorText ebx edx ecx) version ∧ ¬ IsZen (vendorText ebx edx ecx) version ∧ ∃ i, Granted granted 0 1 i) ∧
    (newWarnings (detect ebx edx ecx version) granted k).Nodup := by
  obtain ⟨h1, h2, h3, h4, _⟩ := detect_cases ebx edx ecx version
  rw [← h1, ← h2, ← h3, ← h4]
  simp only [← newHwCounter_iff]
  clear h1 h2 h3 h4
  cases detect ebx edx ecx version with
  | error e => cases k <;> simp [newWarnings, detectWarnings]
  | ok m =>
    cases hg : newHwCounter granted 0 1 with
    | error e => cases k <;> cases m <;> simp [newWarnings, detectWarnings, hg]
    | ok i => cases k <;> cases m <;> simp [newWarnings, detectWarnings, hg]

/-- A Skylake CPU is known, and no Zen; model 95 is not known. -/
example : KnownVendor (utf8 "GenuineIntel") 0x506E3 ∧ ¬ NewIntel (utf8 "GenuineIntel") 0x506E3 ∧ NewIntel (utf8 "GenuineIntel") 0x506F3 ∧
    newWarnings (detect 0x756E6547 0x49656E69 0x6C65746E 0x506E3) (fun t c => some ⟨true, t + c, 48⟩) .instructionsMinusRaw0420 = [.raw0420] ∧
    newWarnings (detect 0x756E6547 0x49656E69 0x6C65746E 0x506F3) (fun t c => some ⟨true, t + c, 48⟩) .instructions = [.unknownIntel] ∧
    newCounter (detect 0x756E6547 0x49656E69 0x6C65746E 0x506E3) (fun t c => some ⟨true, t + c, 48⟩) .instructionsMinusRaw0420 = .ok [0, 1059] ∧
    byName (fun k => (newCounter (detect 0x756E6547 0x49656E69 0x6C65746E 0x506E3) (fun _ _ => none) k).map fun _ => ()) "instructions:u" =
      .error (.err "perf_event_open failed") := by
  unfold KnownVendor NewIntel
  refine ⟨?_, ?_, ?_, ?_, ?_, ?_, ?_⟩ <;> decide +kernel

/-! ## Other platforms -/

/-- What a platform lacks for hardware counters, in words, one line per requirement. -/
def lacking (arch os environment : String) : List String :=
  (if arch = "x86_64" then [] else ["only supported architecture is x86_64"]) ++
  (if os = "linux" then [] else ["only supported OS is Linux"]) ++
  (if environment = "ohos" then ["unsupported OHOS environment"] else [])

/-- **C61** (other platforms). Hardware counters are supported exactly on x86_64 Linux outside OHOS; everywhere else the clock is still available, and asking for any of
the hardware counters is an error (never a panic) that lists exactly what the platform lacks. -/
theorem C61_elsewhere (arch os environment : String) (ebx edx ecx version : UInt32) (granted : Nat → Nat → Option PerfPage) (k : CounterKind) :
    (lacking arch os environment = [] ↔ arch = "x86_64" ∧ os = "linux" ∧ environment ≠ "ohos") ∧
    (lacking arch os environment = [] → detectOn arch os environment ebx edx ecx version = detect ebx edx ecx version) ∧
    (lacking arch os environment ≠ [] →
      newCounter (detectOn arch os environment ebx edx ecx version) granted k =
        if k = .wallTime then .ok [] else .error (.err (String.intercalate "; " (lacking arch os environment)))) := by
  by_cases h1 : arch = "x86_64" <;> by_cases h2 : os = "linux" <;> by_cases h3 : environment = "ohos" <;>
    cases k <;> simp [lacking, detectOn, detectElsewhere, addError, newCounter, Except.bind, h1, h2, h3] <;> rfl

example : lacking "aarch64" "macos" "" = ["only supported architecture is x86_64", "only supported OS is Linux"] ∧
    lacking "x86_64" "linux" "gnu" = [] ∧ String.intercalate "; " (lacking "aarch64" "linux" "ohos") =
      "only supported architecture is x86_64; unsupported OHOS environment" := by decide +kernel

end Verif.Props
