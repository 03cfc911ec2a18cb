import Verif.Proofs.InterleaveCollapse
import Verif.Props.AnyCollapse

/-! # Property C85: collapsed stacks and the interleaving of threads -/

namespace Verif.Props
open Verif Verif.Mm Verif.Spec Verif.Decode Verif.Analyze

/-- **C85.** Two streams of any shape with the same events in the same order on each thread: if the tool returns on both, it
reports the same stacks with the same values, in debug and release builds. -/
theorem C85_interleaving (checks checks' : Bool) (a b : List Event) (hs : SameThreads a b) (ma mb : List (Bytes × Nat))
    (ha : collapse checks a = .ok ma) (hb : collapse checks' b = .ok mb) (k : Bytes) (v : Nat) : (k, v) ∈ ma ↔ (k, v) ∈ mb := by
  obtain ⟨-, ka, va, -⟩ := C41_any_stream checks a ma ha
  obtain ⟨-, kb, vb, -⟩ := C41_any_stream checks' b mb hb
  have hkeys : k ∈ ma.map (·.1) ↔ k ∈ mb.map (·.1) := by rw [ka, kb, present_same hs]
  have hval : ∀ v w, (k, v) ∈ ma → (k, w) ∈ mb → v = w := by
    intro v w hv hw
    obtain ⟨a1, a2, a3⟩ := va k v hv
    obtain ⟨b1, b2, b3⟩ := vb k w hw
    by_cases hk : k = utf8 "rustc"
    · have h1 := a3 hk
      have h2 := b3 hk
      rw [← unheld_same hs, ← recorded_same hs] at h2
      omega
    · have h1 := a2 hk
      have h2 := b2 hk
      rw [← pathHeld_same hs, ← pathLength_same hs] at h2
      omega
  constructor
  · intro h
    obtain ⟨⟨k', w⟩, hw, rfl⟩ := List.mem_map.1 (hkeys.1 (List.mem_map.2 ⟨_, h, rfl⟩))
    rw [hval v w h hw]
    exact hw
  · intro h
    obtain ⟨⟨k', w⟩, hw, rfl⟩ := List.mem_map.1 (hkeys.2 (List.mem_map.2 ⟨_, h, rfl⟩))
    rw [← hval w v hw h]
    exact hw

/-- **C85.** In a release build the tool returns on every interleaving if it does on one. -/
theorem C85_release_returns (a b : List Event) (hs : SameThreads a b) (h : ∃ m, collapse false a = .ok m) :
    ∃ m, collapse false b = .ok m := by
  rw [C41_release_returns_iff] at h ⊢
  exact forward_same hs h

/-- **C85.** With overflow checks that is so for properly nested streams. -/
theorem C85_nested (checks : Bool) (a b : List Event) (hs : SameThreads a b) (hn : ProperlyNested a) (hb : allTime a < 2 ^ 64) :
    ∃ ma mb, collapse checks a = .ok ma ∧ collapse checks b = .ok mb ∧ ∀ k v, (k, v) ∈ ma ↔ (k, v) ∈ mb := by
  have hall : allTime b = allTime a := (total_same hs).symm
  obtain ⟨ma, h1, -⟩ := C41_collapsed checks a hn hb
  obtain ⟨mb, h2, -⟩ := C41_collapsed checks b (nested_same hs hn) (by rw [hall]; exact hb)
  exact ⟨ma, mb, h1, h2, C85_interleaving checks checks a b hs ma mb h1 h2⟩

/-- Two interleavings of a thread with overlapping intervals and a thread with an interval of the same name. -/
def late : List Event := [ev "Query" "a" 0 0 8, ev "Query" "b" 0 2 10, ev "Query" "p" 0 0 10, ev "Query" "p" 1 0 10]
def early : List Event := [ev "Query" "p" 1 0 10, ev "Query" "a" 0 0 8, ev "Query" "b" 0 2 10, ev "Query" "p" 0 0 10]

/-- **C85.** For other streams the debug build may panic on one interleaving and return on another, since the threads share the
counters of their paths; the release build reports the same on both. -/
theorem C85_panic_depends : SameThreads late early ∧ IsPanic (collapse true early) ∧
    collapse true late = .ok [(utf8 "rustc;p", 4), (utf8 "rustc;p;b", 8), (utf8 "rustc;p;a", 8), (utf8 "rustc", 0)] ∧
    collapse false early = .ok [(utf8 "rustc;p", 4), (utf8 "rustc;p;b", 8), (utf8 "rustc;p;a", 8), (utf8 "rustc", 0)] := by
  refine ⟨?_, ?_, by decide +kernel, by decide +kernel⟩
  · intro t
    by_cases h0 : t = 0
    · subst h0; rfl
    · by_cases h1 : t = 1
      · subst h1; rfl
      · have e0 : ¬ (0 : UInt32) = t := fun h => h0 h.symm
        have e1 : ¬ (1 : UInt32) = t := fun h => h1 h.symm
        simp [late, early, ev, e0, e1]
  · have h : collapse true early = .error (.panic "attempt to subtract with overflow") := by decide +kernel
    rw [h]
    trivial

/-- Non-vacuity: two interleavings on which both builds return. -/
example : SameThreads late early ∧ (∃ m, collapse true late = .ok m) ∧ ∃ m, collapse false early = .ok m :=
  ⟨C85_panic_depends.1, ⟨_, C85_panic_depends.2.2.1⟩, _, C85_panic_depends.2.2.2⟩

end Verif.Props
