import Verif.Model.ReadBack
import Verif.Props.Panics
import Verif.Proofs.Builder

/-!
# Property C83: reading a sink back with `into_bytes`
-/

namespace Verif.Props

open Verif Verif.Mm Verif.Spec

/-- Writing a page neither looks at the sink's data nor changes it. -/
theorem writePage_store (tag : PageTag) (b : Bytes) : ∃ G : Store → Except Fault Unit × Store, ∀ x st, writePage tag b ⟨x, st⟩ = ((G st).1, ⟨x, (G st).2⟩) := by
  refine ⟨fun st => ((writePage tag b ⟨⟨[], 0⟩, st⟩).1, (writePage tag b ⟨⟨[], 0⟩, st⟩).2.store), fun x st => ?_⟩
  unfold writePage
  by_cases h : b.length > 0
  · simp only [h, if_true]
    have a1 : ∀ (y : Inner) (st : Store), (Act.assert (b.length ≤ maxPageSize) "bytes.len() <= MAX_PAGE_SIZE" : Act SinkState Unit) ⟨y, st⟩ =
        if b.length ≤ maxPageSize then (.ok (), ⟨y, st⟩) else (.error (.panic "bytes.len() <= MAX_PAGE_SIZE"), ⟨y, st⟩) := fun _ _ => rfl
    have a2 : ∀ (c : Bytes) (y : Inner) (st : Store), onStore (Store.writeAll c) ⟨y, st⟩ = ((Store.writeAll c st).1, ⟨y, (Store.writeAll c st).2⟩) := fun _ _ _ => rfl
    simp only [Act.bind_apply, a1]
    split <;> rename_i heq
    · split at heq
      · rename_i hle
        cases heq
        simp only [hle, if_true, a2]
        rcases h1 : Store.writeAll [tag.toByte] st with ⟨r1, st1⟩
        cases r1 with
        | error e => rfl
        | ok u =>
          simp only
          rcases h2 : Store.writeAll (leBytes 4 b.length) st1 with ⟨r2, st2⟩
          cases r2 with
          | error e => rfl
          | ok u => rfl
      · cases heq
    · split at heq
      · cases heq
      · rename_i hle
        cases heq
        simp only [hle, if_false]
  · simp only [h, if_false]
    rfl

theorem flush_empty (tag : PageTag) (n : Nat) (st : Store) : flushBuffer tag ⟨⟨[], n⟩, st⟩ = (.ok (), ⟨⟨[], n⟩, st⟩) := rfl

/-- `into_bytes`, once the page writer `G` is known. -/
theorem intoBytesOn_run (file : Bool) (tag : PageTag) (s : SinkState) {G : Store → Except Fault Unit × Store}
    (hG : ∀ x st, writePage tag s.inner.buffer ⟨x, st⟩ = ((G st).1, ⟨x, (G st).2⟩)) :
    intoBytesOn file tag s = (match (G s.store).1 with
      | .error e => .error e
      | .ok _ => copyBytesOf file tag (G s.store).2.data, ⟨⟨[], 0⟩, (G s.store).2⟩) := by
  unfold intoBytesOn
  simp only [Act.bind_apply, hG]
  cases h : (G s.store).1 with
  | error e => simp only [flush_empty]
  | ok u =>
    simp only [Act.get_apply]
    cases hc : copyBytesOf file tag (G s.store).2.data with
    | error e => simp only [Act.fail_apply, flush_empty]
    | ok b => simp only [Act.pure_apply, flush_empty]

theorem drop_run (tag : PageTag) (s : SinkState) {G : Store → Except Fault Unit × Store}
    (hG : ∀ x st, writePage tag s.inner.buffer ⟨x, st⟩ = ((G st).1, ⟨x, (G st).2⟩)) :
    (SinkCall.run tag .drop s).1 = (G s.store).1.map (fun _ => none) ∧ (SinkCall.run tag .drop s).2.store = (G s.store).2 := by
  unfold SinkCall.run flushBuffer
  obtain ⟨inner, st⟩ := s
  simp only [Act.bind_apply, Act.get_apply, hG]
  cases h : (G st).1 with
  | error e => exact ⟨rfl, rfl⟩
  | ok u => exact ⟨rfl, rfl⟩

/-- **C83** (the store). Whatever state the sinks are in and whatever the store does (any write may fail, after any number of bytes), `into_bytes` leaves in the store, file or memory,
exactly what dropping the sink would leave, fails if that would fail, with the same error, does not touch other sinks, and nothing of this sink remains to be written later. -/
theorem C83_like_dropping (file : Bool) (tagOf : Nat → PageTag) (i : Nat) (w : World) :
    (World.intoBytesOn file tagOf i w).2.store = (World.call tagOf i .drop w).2.store ∧
    (∀ e, (World.call tagOf i .drop w).1 = .error e → (World.intoBytesOn file tagOf i w).1 = .error e) ∧
    (∀ j, j ≠ i → (World.intoBytesOn file tagOf i w).2.sinks j = w.sinks j) ∧
    ((World.intoBytesOn file tagOf i w).2.sinks i).buffer = [] := by
  obtain ⟨G, hG⟩ := writePage_store (tagOf i) (w.sinks i).buffer
  have h1 := intoBytesOn_run file (tagOf i) ⟨w.sinks i, w.store⟩ hG
  obtain ⟨h2, h3⟩ := drop_run (tagOf i) ⟨w.sinks i, w.store⟩ hG
  simp only at h1 h2 h3
  refine ⟨?_, ?_, ?_, ?_⟩
  · simp only [World.intoBytesOn, World.call, h1, h3]
  · intro e he
    simp only [World.call, h2] at he
    simp only [World.intoBytesOn, h1]
    cases hg : (G w.store).1 with
    | ok u => rw [hg] at he; cases he
    | error e' => rw [hg] at he; simpa [Except.map] using he
  · intro j hj
    simp [World.intoBytesOn, h1, hj]
  · simp [World.intoBytesOn, h1]

example : (World.intoBytesOn true exTags 0 (World.call exTags 0 (.writeBytes [5, 6]) (World.init [some 0])).2).1 = .error (.panic "write_all failed") := by decide

/-- **C83** (files). On a file it always panics; if the store does not fail, the data is in the file all the same. -/
theorem C83_file (tagOf : Nat → PageTag) (i : Nat) (w : World) (r : Option Nat) (h : (World.call tagOf i .drop w).1 = .ok r) :
    (World.intoBytesOn true tagOf i w).1 = .error (.panic "explicit panic") := by
  obtain ⟨G, hG⟩ := writePage_store (tagOf i) (w.sinks i).buffer
  have h1 := intoBytesOn_run true (tagOf i) ⟨w.sinks i, w.store⟩ hG
  obtain ⟨h2, _⟩ := drop_run (tagOf i) ⟨w.sinks i, w.store⟩ hG
  simp only at h1 h2
  simp only [World.call, h2] at h
  simp only [World.intoBytesOn, h1]
  cases hg : (G w.store).1 with
  | error e => rw [hg] at h; cases h
  | ok u => rfl

example : (World.intoBytesOn true exTags 0 (World.call exTags 0 (.writeBytes [5, 6]) World.init).2).1 = .error (.panic "explicit panic") ∧
    (World.intoBytesOn true exTags 0 (World.call exTags 0 (.writeBytes [5, 6]) World.init).2).2.store.data = [0, 2, 0, 0, 0, 5, 6] := by decide

/-- **C83** (memory). In memory, after any history of calls on any number of sinks (callbacks that panicked included), `into_bytes` gives what the calls on this sink left, if no other sink shares its tag,
whether it had been flushed or not; and in any case what splitting the store then gives for its tag. -/
theorem C83_memory (tagOf : Nat → PageTag) (h : History) (hk : AllLengthsKept h) (i : Nat) :
    ∃ bytes, (World.intoBytesOn false tagOf i (run tagOf h).2).1 = .ok bytes ∧
      (TagUnshared tagOf i (h ++ [(i, .drop)]) → bytes = leftBehind i h) ∧
      Recovers (storeAfter tagOf (h ++ [(i, .drop)])) (tagOf i) bytes := by
  have hk' : AllLengthsKept (h ++ [(i, .drop)]) := by
    intro x hx num fill hc
    rw [List.mem_append] at hx
    rcases hx with hx | hx
    · exact hk x hx num fill hc
    · simp at hx; subst hx; cases hc
  obtain ⟨m, hm, hs⟩ := C82_streams tagOf _ hk'
  have hout := (C82_outcomes tagOf h [] i .drop hk').2 (by rintro e ⟨n, f, p, hc, _⟩; cases hc)
  obtain ⟨a, ho, _⟩ := hout
  have hcall : (World.call tagOf i .drop (run tagOf h).2).1 = .ok a := by
    rw [outcome_at] at ho
    exact Option.some.inj ho
  have hst : storeAfter tagOf (h ++ [(i, .drop)]) = (World.call tagOf i .drop (run tagOf h).2).2.store.data := by
    unfold storeAfter run
    rw [exec_append]
    rfl
  obtain ⟨G, hG⟩ := writePage_store (tagOf i) ((run tagOf h).2.sinks i).buffer
  have h1 := intoBytesOn_run false (tagOf i) ⟨(run tagOf h).2.sinks i, (run tagOf h).2.store⟩ hG
  obtain ⟨h2, h3⟩ := drop_run (tagOf i) ⟨(run tagOf h).2.sinks i, (run tagOf h).2.store⟩ hG
  simp only at h1 h2 h3
  refine ⟨(m (tagOf i)).getD [], ?_, ?_, m, hm, rfl⟩
  · simp only [World.intoBytesOn, h1]
    simp only [World.call, h2] at hcall
    cases hg : (G (run tagOf h).2.store).1 with
    | error e => rw [hg] at hcall; cases hcall
    | ok u =>
      simp only [copyBytesOf, copyBytesWithPageTag]
      rw [hst] at hm
      simp only [World.call, h3] at hm
      rw [hm]
      rfl
  · intro hun
    rw [hs i hun (.inr ⟨h, .drop, [], rfl, trivial, by simp⟩), leftBehind_append, leftBehind_same]
    simp [leaves]

/-- Two sinks, one with a callback that panics; nothing has been flushed. -/
example : AllLengthsKept (exPanics.take 4) ∧ TagUnshared exTags 0 (exPanics.take 4 ++ [(0, .drop)]) ∧
    (World.intoBytesOn false exTags 0 (run exTags (exPanics.take 4)).2).1 = .ok [9, 3, 0, 5, 6] := by
  refine ⟨?_, ?_, by decide⟩
  · simp [AllLengthsKept, exPanics]
  · simp [TagUnshared, exPanics, exTags]

/-- What the model of the profile builder uses for `into_bytes` is this, on an in-memory store. -/
theorem intoBytes_agrees (tag : PageTag) (s : SinkState) :
    (intoBytes tag s).1 = (intoBytesOn false tag s).1 ∧ (intoBytes tag s).2.store = (intoBytesOn false tag s).2.store := by
  obtain ⟨G, hG⟩ := writePage_store tag s.inner.buffer
  rw [intoBytesOn_run false tag s hG]
  obtain ⟨inner, st⟩ := s
  unfold intoBytes flushBuffer
  simp only [Act.bind_apply, Act.get_apply, hG]
  simp only at hG
  cases h : (G st).1 with
  | error e => exact ⟨rfl, rfl⟩
  | ok u =>
    simp only [setBuffer, Act.modify_apply]
    have hd : copyBytesOf false tag (G st).2.data = copyBytesWithPageTag tag (G st).2.data := rfl
    rw [hd]
    cases hc : copyBytesWithPageTag tag (G st).2.data with
    | error e => exact ⟨rfl, rfl⟩
    | ok b => exact ⟨rfl, rfl⟩

example : (intoBytes .events ⟨⟨[5, 6], 2⟩, ⟨[], []⟩⟩).1 = .ok [5, 6] := by decide

end Verif.Props
