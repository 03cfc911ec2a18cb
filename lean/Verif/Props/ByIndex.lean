import Verif.Model.ByIndex
import Verif.Props.Iteration

/-!
# Property C79: decoding one event by its number
-/

namespace Verif.Props
open Verif Verif.Mm Verif.Spec Verif.Decode

theorem size32 : rawEventSize = 32 := rfl
theorem header8 : fileHeaderSize = 8 := rfl

theorem inUsize_small {checks : Bool} {n : Nat} (h : n < 18446744073709551616) (what : String) : inUsize checks n what = .ok n := by
  unfold inUsize; rw [if_pos h]

theorem numEvents_length {d : EventDecoder} {n : Nat} (h : d.numEvents = .ok n) : d.eventData.length = 8 + 32 * n := by
  unfold EventDecoder.numEvents at h
  split at h
  · cases h
  · split at h
    · cases h
    · rename_i h1 h2
      injection h with h
      simp only [fileHeaderSize, rawEventSize, RawEvent.size] at h h1 h2
      omega

/-- Below 2^59 nothing wraps around. -/
theorem rawEventAt_small (checks : Bool) (d : EventDecoder) (i : Nat) (h : 8 + 32 * i + 32 < 18446744073709551616) :
    d.rawEventAt checks i = d.rawEvent i := by
  unfold EventDecoder.rawEventAt eventAddr EventDecoder.rawEvent eventIndexToAddr
  simp only []
  rw [size32, header8]
  rw [inUsize_small (by omega)]
  simp only [bind, Except.bind]
  rw [inUsize_small (by omega)]
  simp only []
  rw [if_neg (by omega)]

theorem rawEvent_beyond {d : EventDecoder} {n i : Nat} (hn : d.numEvents = .ok n) (h : n ≤ i) : IsPanic (d.rawEvent i) := by
  have hl := numEvents_length hn
  unfold EventDecoder.rawEvent eventIndexToAddr
  simp only []
  rw [size32, header8]
  rw [if_pos (by omega)]
  trivial

/-- What the raw event at any 64-bit number is. -/
theorem rawEventAt_cases (checks : Bool) (d : EventDecoder) (n i : Nat) (hn : d.numEvents = .ok n) (hm : d.eventData.length < 9223372036854775808)
    (hi : i < 18446744073709551616) :
    (i < n → d.rawEventAt checks i = d.rawEvent i) ∧
    (n ≤ i → checks = true → IsPanic (d.rawEventAt checks i)) ∧
    (checks = false → (i % 576460752303423488 < n → d.rawEventAt checks i = d.rawEvent (i % 576460752303423488)) ∧
      (n ≤ i % 576460752303423488 → IsPanic (d.rawEventAt checks i))) := by
  have hl := numEvents_length hn
  refine ⟨fun h => rawEventAt_small checks d i (by omega), fun h hc => ?_, fun hc => ?_⟩
  · subst hc
    unfold EventDecoder.rawEventAt eventAddr
    rw [size32, header8]
    by_cases h1 : i * 32 < 18446744073709551616
    · rw [inUsize_small h1]
      simp only [bind, Except.bind]
      by_cases h2 : 8 + i * 32 < 18446744073709551616
      · rw [inUsize_small h2]
        simp only []
        split
        · trivial
        · rw [if_pos (by omega)]; trivial
      · unfold inUsize
        simp only [if_neg h2, if_true]
        trivial
    · unfold inUsize
      simp only [if_neg h1, if_true, bind, Except.bind]
      trivial
  · subst hc
    have e : d.rawEventAt false i = d.rawEventAt false (i % 576460752303423488) := by
      have : inUsize false (i * 32) "multiply" = inUsize false (i % 576460752303423488 * 32) "multiply" := by
        rw [inUsize_small (n := i % 576460752303423488 * 32) (by omega)]
        unfold inUsize
        split
        · rw [Nat.mod_eq_of_lt (by omega)]
        · simp only [Bool.false_eq_true, if_false]
          congr 1
          omega
      unfold EventDecoder.rawEventAt eventAddr
      rw [size32, this]
    rw [e]
    generalize hj : i % 576460752303423488 = j at *
    have hj' : j < 576460752303423488 := by omega
    refine ⟨fun h => rawEventAt_small false d j (by omega), fun h => ?_⟩
    unfold EventDecoder.rawEventAt eventAddr
    rw [size32, header8]
    rw [inUsize_small (by omega)]
    simp only [bind, Except.bind]
    by_cases h2 : 8 + j * 32 < 18446744073709551616
    · rw [inUsize_small h2]
      simp only []
      split
      · trivial
      · rw [if_pos (by omega)]; trivial
    · omega

theorem decodeFullAt_of {checks : Bool} {fuel : Nat} {d : EventDecoder} {i j : Nat} (h : d.rawEventAt checks i = d.rawEvent j) :
    d.decodeFullAt checks fuel i = d.decodeFull fuel j := by
  unfold EventDecoder.decodeFullAt EventDecoder.decodeFull
  rw [h]

theorem panic_bind {α β : Type} {x : Except Fault α} (f : α → Except Fault β) (h : IsPanic x) : IsPanic (x >>= f) := by
  cases x with
  | ok a => exact h.elim
  | error e => cases e <;> first | exact h.elim | trivial

/-- **C79.** Decoding by number gives the event of that number as iteration does (C28, C29); with overflow checks every number that is not
below the number of events panics. -/
theorem C79_by_number (checks : Bool) (fuel : Nat) (d : EventDecoder) (n i : Nat) (hn : d.numEvents = .ok n)
    (hm : d.eventData.length < 9223372036854775808) (hi : i < 18446744073709551616) :
    (i < n → d.decodeFullAt checks fuel i = (v9Data fuel d).decodeFull i ∧
      d.decodeLightweightAt checks i = (v9Data fuel d).decodeLightweight i) ∧
    (n ≤ i → checks = true → IsPanic (d.decodeFullAt checks fuel i) ∧ IsPanic (d.decodeLightweightAt checks i)) := by
  obtain ⟨h1, h2, _⟩ := rawEventAt_cases checks d n i hn hm hi
  refine ⟨fun h => ⟨decodeFullAt_of (h1 h), ?_⟩, fun h hc => ⟨?_, ?_⟩⟩
  · show d.decodeLightweightAt checks i = d.decodeLightweight i
    unfold EventDecoder.decodeLightweightAt EventDecoder.decodeLightweight
    rw [h1 h]
  · exact panic_bind _ (h2 h hc)
  · exact panic_bind _ (h2 h hc)

/-- **C79.** Without overflow checks numbers count modulo 2^59: a number too large by a multiple of 2^59 gives an event instead of a panic;
all others that are not below the number of events panic. -/
theorem C79_wraps_around (fuel : Nat) (d : EventDecoder) (n i : Nat) (hn : d.numEvents = .ok n)
    (hm : d.eventData.length < 9223372036854775808) (hi : i < 18446744073709551616) :
    (i % 576460752303423488 < n → d.decodeFullAt false fuel i = (v9Data fuel d).decodeFull (i % 576460752303423488)) ∧
    (n ≤ i % 576460752303423488 → IsPanic (d.decodeFullAt false fuel i) ∧ IsPanic (d.decodeLightweightAt false i)) := by
  obtain ⟨h1, h2⟩ := (rawEventAt_cases false d n i hn hm hi).2.2 rfl
  exact ⟨fun h => decodeFullAt_of (h1 h), fun h => ⟨panic_bind _ (h2 h), panic_bind _ (h2 h)⟩⟩

/-- One instant event. -/
def oneEvent : EventDecoder := ⟨List.replicate 8 0 ++ List.replicate 32 255, ⟨[], fun _ => none⟩, ⟨0, 0, []⟩⟩

theorem oneEvent_count : oneEvent.numEvents = .ok 1 := by decide +kernel

example : oneEvent.decodeLightweightAt true 0 = (v9Data 5 oneEvent).decodeLightweight 0 ∧ IsOk (oneEvent.decodeLightweightAt true 0) ∧
    IsPanic (oneEvent.decodeLightweightAt true 576460752303423488) :=
  ⟨((C79_by_number true 5 oneEvent 1 0 oneEvent_count (by decide +kernel) (by decide)).1 (by decide)).2, by decide +kernel,
    ((C79_by_number true 5 oneEvent 1 576460752303423488 oneEvent_count (by decide +kernel) (by decide)).2 (by decide) rfl).2⟩

example : IsOk (oneEvent.decodeLightweightAt false 576460752303423488) ∧
    oneEvent.decodeFullAt false 5 576460752303423488 = (v9Data 5 oneEvent).decodeFull 0 ∧
    IsPanic (oneEvent.decodeLightweightAt false 576460752303423489) :=
  ⟨by decide +kernel, (C79_wraps_around 5 oneEvent 1 576460752303423488 oneEvent_count (by decide +kernel) (by decide)).1 (by decide),
    ((C79_wraps_around 5 oneEvent 1 576460752303423489 oneEvent_count (by decide +kernel) (by decide)).2 (by decide)).2⟩

end Verif.Props
