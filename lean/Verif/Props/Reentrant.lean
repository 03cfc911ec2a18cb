import Verif.Props.Panics
import Verif.Proofs.Reentrant

/-!
# Property C84: callbacks that use sinks themselves

A callback of `write_atomic` (and a string that serializes itself) is the program's own code; it may record events, allocate strings, write to sinks.
-/

namespace Verif.Props

open Verif Verif.Mm Verif.Conc Verif.Spec Verif.Reentrant

/-- **C84** (an order of the sinks). If the sinks have an order such that calls are only ever made on sinks that come after those whose callbacks are running, then
however the threads' steps interleave, they do not deadlock: every execution can go on to the end, and does, since no execution is infinite. -/
theorem C84_ordered {n : Nat} (tagOf : Nat → PageTag) (progs : Fin n → Script) (rank : Nat → Nat) (h : ∀ t, Nests (fun j i => rank j < rank i) [] (progs t)) :
    (∀ σ, State.Run (State.init tagOf progs) σ → ∃ σ', State.Run σ σ' ∧ σ'.Finished) ∧
    (∀ σ, State.Run (State.init tagOf progs) σ → (∀ t, σ.step t = none) → σ.Finished) ∧
    ¬ ∃ σs : Nat → State n, ∀ k, ∃ t, (σs k).step t = some (σs (k + 1)) := by
  have hp : ∀ σ, State.Run (State.init tagOf progs) σ → ¬ σ.Finished → ∃ t σ', σ.step t = some σ' := fun σ hr hf => by
    obtain ⟨_, _, L⟩ := locks_run (locks_init tagOf progs h) hr
    exact progress_ranked L hf
  refine ⟨finishes hp, fun σ hr hs => ?_, ?_⟩
  · by_contra hf
    obtain ⟨t, σ', hst⟩ := hp σ hr hf
    rw [hs t] at hst
    cases hst
  · exact no_infinite

/-- **C84** (one thread). If no callback uses a sink that is locked by a callback around it, a single thread runs to the end, whatever the order of the sinks. -/
theorem C84_one_thread_ends (tagOf : Nat → PageTag) (prog : Script) (h : Nests (fun j i => j ≠ i) [] prog) :
    (∀ σ, State.Run (State.init (n := 1) tagOf fun _ => prog) σ → ∃ σ', State.Run σ σ' ∧ σ'.Finished) ∧
    (∀ σ, State.Run (State.init (n := 1) tagOf fun _ => prog) σ → (∀ t, σ.step t = none) → σ.Finished) := by
  have hp : ∀ σ, State.Run (State.init (n := 1) tagOf fun _ => prog) σ → ¬ σ.Finished → ∃ t σ', σ.step t = some σ' := fun σ hr hf => by
    obtain ⟨_, _, L⟩ := locks_run (locks_init tagOf _ fun _ => h) hr
    exact progress_alone L hf
  refine ⟨finishes hp, fun σ hr hs => ?_⟩
  by_contra hf
  obtain ⟨t, σ', hst⟩ := hp σ hr hf
  rw [hs t] at hst
  cases hst

/-- **C84** (one thread, what is written). Then everything is as if the calls had been made one after the other, those of a callback before the call it belongs to
(and, where a callback had to wait for room in its buffer, a flush before them): same answers, same sinks, same store. So the store splits, and the stream of every
flushed sink with its own tag is what its calls left, in that order. -/
theorem C84_one_thread (tagOf : Nat → PageTag) (prog : Script) (h : Nests (fun j i => j ≠ i) [] prog) (hk : KeepsLengths (fun _ => True) prog)
    {σ : State 1} (hr : State.Run (State.init tagOf fun _ => prog) σ) (hf : σ.Finished) :
    ∃ (L : List ((Nat × SinkCall) × Res)) (f : Fill), Makes prog L f ∧
      outcomes tagOf (L.map Prod.fst) = L.map Prod.snd ∧ σ.store = storeAfter tagOf (L.map Prod.fst) ∧
      (∀ i, σ.data i = (run tagOf (L.map Prod.fst)).2.sinks i) ∧
      ∃ m, splitStreams σ.store = .ok m ∧
        ∀ i, TagUnshared tagOf i (L.map Prod.fst) → Flushed i (L.map Prod.fst) → (m (tagOf i)).getD [] = leftBehind i (L.map Prod.fst) := by
  have h0 : Sim [] World.init (fun _ => ⟨[], 0⟩) [] := ⟨rfl, fun _ _ => rfl, fun _ => Nat.zero_le _⟩
  obtain ⟨L, f, D', w', st', m, _, kp, he, hs, _, ha⟩ := script_alone (tagOf := tagOf) prog (fun _ => .done) h hk h0
  have e := alone_run hr
  rw [hf 0] at e
  have e' : (σ.data, σ.store) = (D', st') := e.trans ha
  injection e' with e1 e2
  have hw : (run tagOf (L.map Prod.fst)) = (L.map Prod.snd, w') := he
  have hst : σ.store = storeAfter tagOf (L.map Prod.fst) := by
    unfold storeAfter
    rw [hw, e2]
    simp only [hs.store]
  refine ⟨L, f, m, by unfold outcomes; rw [hw], hst, fun i => by rw [hw, e1]; exact hs.agree i (List.not_mem_nil), ?_⟩
  obtain ⟨m', hm1, hm2⟩ := C82_streams tagOf (L.map Prod.fst) (by
    intro x hx num fill hc out
    obtain ⟨y, hy, rfl⟩ := List.mem_map.mp hx
    exact kp y hy num fill hc out)
  exact ⟨m', by rw [hst]; exact hm1, hm2⟩

/-- **C84** (its own sink). A thread that, whatever answers it gets, makes a call on a sink that a callback around the call has locked never comes to its end,
whatever the other threads do. -/
theorem C84_own_sink {n : Nat} (tagOf : Nat → PageTag) (progs : Fin n → Script) (hk : ∀ t, KeepsLengths (fun _ => True) (progs t)) (t : Fin n)
    (h : CallsOwnSink [] (progs t)) {σ : State n} (hr : State.Run (State.init tagOf progs) σ) : σ.threads t ≠ .done :=
  stuck_run (locks_init tagOf progs fun t => nested_any (progs t) []) (small_init tagOf progs hk) (stuck_compile (progs t) h) hr

/-- **C84** (its own sink, the others). A thread that waits for a sink it has locked itself waits for ever, and so does every thread that comes to need that sink: no
later state has the sink unlocked. -/
theorem C84_locked_out {n : Nat} (tagOf : Nat → PageTag) (progs : Fin n → Script) {σ σ' : State n} (hr : State.Run (State.init tagOf progs) σ) {t : Fin n} {i : Nat}
    {k : Inner → Task} (ht : σ.threads t = .lock i k) (hl : σ.dataLock i = some t) (hr' : State.Run σ σ') :
    σ'.threads t = .lock i k ∧ σ'.dataLock i = some t ∧ ∀ t' k', σ'.threads t' = .lock i k' → σ'.step t' = none := by
  obtain ⟨_, _, L⟩ := locks_run (locks_init tagOf progs fun t => nested_any (progs t) []) hr
  obtain ⟨h1, h2⟩ := locked_out L ht hl hr'
  refine ⟨h1, h2, fun t' k' h' => ?_⟩
  unfold State.step
  rw [h']
  simp only [h2]

/-! ## Cases -/

/-- A callback that copies `b`. -/
def copies (b : Bytes) : Fill := fun _ => .ok b

/-- `serialize` of a 30-byte string that records an event first: `alloc_string` writes it to the string data sink, 1, the event goes to sink 0. -/
def tellingString : Script :=
  .atomic 1 30 (.call 0 (.writeAtomic 24 (copies (List.replicate 24 7))) fun _ => .fill (copies (List.replicate 30 65))) fun _ => .fill (copies [])

/-- `serialize` of a 30-byte string that allocates another string. -/
def nestingString : Script :=
  .atomic 1 30 (.atomic 1 5 (.fill (copies (List.replicate 5 66))) fun _ => .fill (copies (List.replicate 30 65))) fun _ => .fill (copies [])

/-- Two threads that allocate such strings and record events. -/
example : ∀ t : Fin 2, Nests (fun j i => 2 - j < 2 - i) [] ((fun _ => tellingString) t) := by
  intro t
  refine ⟨fun _ h => (List.not_mem_nil h).elim, ⟨?_, fun _ => trivial⟩, fun _ => trivial⟩
  intro j hj
  rw [if_pos (by decide)] at hj
  have : j = 1 := by simpa using hj
  subst this
  decide

/-- One such thread: its calls, and that their callbacks keep the lengths of their slices. -/
example : Nests (fun j i => j ≠ i) [] tellingString ∧ KeepsLengths (fun _ => True) tellingString := by
  refine ⟨⟨fun _ h => (List.not_mem_nil h).elim, ⟨?_, fun _ => trivial⟩, fun _ => trivial⟩, ⟨⟨?_, fun _ => ?_⟩, fun _ => trivial⟩⟩
  · intro j hj
    rw [if_pos (by decide)] at hj
    have : j = 1 := by simpa using hj
    subst this
    decide
  · rintro num f ⟨⟩ out
    refine ⟨?_, fun e h => nomatch h⟩
    rintro ⟨⟩; rfl
  · intro out
    refine ⟨?_, fun e h => nomatch h⟩
    rintro ⟨⟩; rfl

/-- A string whose `serialize` allocates a string. -/
example : CallsOwnSink [] nestingString ∧ KeepsLengths (fun _ => True) nestingString := by
  refine ⟨.inl ⟨by decide, .inr (.inl ⟨by decide, .inl (List.mem_singleton.mpr rfl)⟩)⟩, ⟨⟨?_, fun _ => ?_⟩, fun _ => trivial⟩⟩
  all_goals
    intro out
    refine ⟨?_, fun e h => nomatch h⟩
    rintro ⟨⟩; rfl

/-- If it is larger than a page, it may. -/
example (n : Nat) (h : 262144 < n) :
    Nests (fun j i => j ≠ i) [] (.atomic 1 n (.atomic 1 5 (.fill (copies (List.replicate 5 66))) fun _ => .fill (copies [])) fun _ => .fill (copies [])) := by
  refine ⟨fun _ h => (List.not_mem_nil h).elim, ?_, fun _ => trivial⟩
  rw [if_neg (by omega)]
  exact ⟨fun _ h => (List.not_mem_nil h).elim, trivial, fun _ => trivial⟩

/-- One thread writes to sink 1 in a callback on sink 0, the other to sink 0 in a callback on sink 1. -/
def crossed (t : Fin 2) : Script :=
  if t = 0 then .atomic 0 1 (.call 1 (.writeBytes [65]) fun _ => .fill (copies [1])) fun _ => .fill (copies [])
  else .atomic 1 1 (.call 0 (.writeBytes [66]) fun _ => .fill (copies [2])) fun _ => .fill (copies [])

/-- **C84** (why an order). With several threads it is not enough that no callback uses a sink locked around it: these two threads may block each other for ever. -/
theorem C84_crossed_orders (tagOf : Nat → PageTag) :
    (∀ t, Nests (fun j i => j ≠ i) [] (crossed t)) ∧
    ∃ σ, State.Run (State.init tagOf crossed) σ ∧ (∀ t, σ.step t = none) ∧ ¬ σ.Finished := by
  constructor
  · intro t
    unfold crossed
    split
    all_goals
      refine ⟨fun _ h => (List.not_mem_nil h).elim, ⟨?_, fun _ => trivial⟩, fun _ => trivial⟩
      intro j hj
      rw [if_pos (by decide)] at hj
      obtain rfl := List.mem_singleton.mp hj
      decide
  · have e0 : crossed 0 = .atomic 0 1 (.call 1 (.writeBytes [65]) fun _ => .fill (copies [1])) fun _ => .fill (copies []) := rfl
    have e1 : crossed 1 = .atomic 1 1 (.call 0 (.writeBytes [66]) fun _ => .fill (copies [2])) fun _ => .fill (copies []) := rfl
    obtain ⟨k0, a0, k0', b0⟩ := two_locks (tagOf := tagOf) (i := 0) (num := 1) (j := 1) (b := [65]) (f := copies [1]) (next := fun _ => .fill (copies []))
      (k := fun _ => .done) (by decide)
    obtain ⟨k1, a1, k1', b1⟩ := two_locks (tagOf := tagOf) (i := 1) (num := 1) (j := 0) (b := [66]) (f := copies [2]) (next := fun _ => .fill (copies []))
      (k := fun _ => .done) (by decide)
    rw [← e0] at a0
    rw [← e1] at a1
    obtain ⟨σ₁, s₁, t₁, d₁, v₁⟩ := takes_lock (σ := State.init tagOf crossed) (t := 0) a0 rfl
    have h₁ : σ₁.threads 1 = .lock 1 k1 := by rw [t₁]; exact a1
    obtain ⟨σ₂, s₂, t₂, d₂, v₂⟩ := takes_lock h₁ (by rw [d₁]; rfl)
    have w0 : σ₂.threads 0 = .lock 1 k0' := by rw [t₂, t₁]; exact b0
    have w1 : σ₂.threads 1 = .lock 0 k1' := by rw [t₂, v₁]; exact b1
    refine ⟨σ₂, .step (.step (.refl _) s₁) s₂, ?_, fun hf => ?_⟩
    · intro t
      match t with
      | 0 => exact waits w0 (t' := 1) (by rw [d₂]; rfl)
      | 1 => exact waits w1 (t' := 0) (by rw [d₂, d₁]; rfl)
    · have := hf 0
      rw [w0] at this
      cases this

/-- That two such threads wait for each other meets the conditions of neither `C84_ordered` nor `C84_own_sink`. -/
example : (¬ ∃ rank : Nat → Nat, ∀ t, Nests (fun j i => rank j < rank i) [] (crossed t)) ∧ ∀ t, ¬ CallsOwnSink [] (crossed t) := by
  constructor
  · rintro ⟨rank, h⟩
    have h0 := (h 0).2.1.1 0 (by decide)
    have h1 := (h 1).2.1.1 1 (by decide)
    omega
  · intro t
    unfold crossed
    split
    all_goals
      rintro (⟨_, h | ⟨h, _⟩ | h⟩ | ⟨h, _⟩ | h)
      · exact absurd h (by decide)
      · exact absurd h (by decide)
      · exact h default
      · exact absurd h (by decide)
      · exact h default

end Verif.Props
