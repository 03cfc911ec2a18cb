import Verif.Spec.ConcFaults
import Verif.Proofs.Linearize
import Verif.Proofs.ConcProgress

/-!
# I/O errors under concurrency: what a call does alone, the invariant
-/

namespace Verif.Conc

open Verif Verif.Mm Verif.Spec

/-- Run a program without interruption, on a store whose writes may fail. -/
def Prog.aloneF : Prog → SinkState → Res × SinkState
  | .ret r, s => (r, s)
  | .lockData k, s => (k s.inner).aloneF s
  | .unlockData i k, s => k.aloneF ⟨i, s.store⟩
  | .lockStore k, s => k.aloneF s
  | .write b o k, s =>
    match Store.writeAll b s.store with
    | (.ok _, st) => k.aloneF ⟨s.inner, st⟩
    | (.error _, st) => o.aloneF ⟨s.inner, st⟩
  | .unlockStore k, s => k.aloneF s

/-- Unwinding: whatever happens, the call ends with an error. -/
inductive Dead : Prog → Prop where
  | ret (e) : Dead (.ret (.error e))
  | unlockData {k} (s) : Dead k → Dead (.unlockData s k)
  | unlockStore {k} : Dead k → Dead (.unlockStore k)

/-- The rest of a call that holds the data lock; `held`: it holds the store lock as well. -/
inductive Sh : Bool → Prog → Prop where
  | fin (s r) : Sh false (.unlockData s (.ret r))
  | lock {k} : Sh true k → Sh false (.lockStore k)
  | unlock {k} : Sh false k → Sh true (.unlockStore k)
  | write {o k} (b) : Dead o → Sh true o → Sh true k → Sh true (.write b o k)

theorem Sh.page {tag : PageTag} {b : Bytes} {s : Inner} {k : Prog} (h : Sh false k) :
    Sh false (writePageC tag b (fun e => .unlockData s (.ret (.error e))) k) := by
  unfold writePageC
  split
  · split
    · have d : ∀ e, Dead (.unlockStore (.unlockData s (.ret (.error e)))) := fun e => .unlockStore (.unlockData s (.ret e))
      have o : ∀ e : Fault, Sh true (.unlockStore (.unlockData s (.ret (.error e)))) := fun e => .unlock (.fin s _)
      exact .lock (.write _ (d _) (o _) (.write _ (d _) (o _) (.write _ (d _) (o _) (.unlock h))))
    · exact .fin _ _
  · exact h

theorem Sh.flush {tag : PageTag} {s : Inner} {k : Inner → Prog} (h : ∀ s, Sh false (k s)) : Sh false (flushC tag s k) := Sh.page (h _)

theorem Sh.assertEmpty {s : Inner} {k : Prog} (h : Sh false k) : Sh false (assertEmptyC s k) := by
  unfold assertEmptyC
  split
  · exact h
  · exact .fin _ _

theorem Sh.chunks {tag : PageTag} {k : Inner → Prog} (h : ∀ s, Sh false (k s)) (cs : List Bytes) (s : Inner) :
    Sh false (writeChunksC tag k cs s) := by
  induction cs generalizing s with
  | nil => exact h s
  | cons c cs ih =>
    unfold writeChunksC
    split
    · exact Sh.page (ih s)
    · split
      · exact Sh.page (ih s)
      · exact Sh.assertEmpty (ih _)

/-- A call either returns at once or takes the data lock and then has the shape above. -/
def CallSh (p : Prog) : Prop := (∃ r, p = .ret r) ∨ ∃ k, p = .lockData k ∧ ∀ s, Sh false (k s)

theorem CallSh.buffered (tag : PageTag) (num : Nat) (fill : Fill) (mk : Nat → Option Nat) : CallSh (writeBufferedC tag num fill mk) := by
  refine Or.inr ⟨_, rfl, fun s => ?_⟩
  have hc : ∀ s : Inner, Sh false (fillC num fill mk s) := by
    intro s
    unfold fillC
    cases fill (List.replicate num 0) with
    | error e => exact .fin _ _
    | ok out => exact .fin _ _
  split
  · exact Sh.flush fun s' => Sh.assertEmpty (hc s')
  · exact hc s

theorem CallSh.bytes (tag : PageTag) (bytes : Bytes) (mk : Nat → Option Nat) : CallSh (writeBytesC tag bytes mk) := by
  unfold writeBytesC
  split
  · exact CallSh.buffered _ _ _ _
  · refine Or.inr ⟨_, rfl, fun s => ?_⟩
    have hf : ∀ s' : Inner, Sh false (Prog.unlockData s' (.ret (.ok (mk s.addr)))) := fun s' => .fin _ _
    simp only
    generalize (if s.buffer.length < minPageSize then min (minPageSize - s.buffer.length) bytes.length else 0) = take
    split
    · exact hf _
    · exact Sh.flush fun s2 => Sh.chunks hf _ s2

theorem code_sh (tag : PageTag) (c : SinkCall) : CallSh (code tag c) := by
  cases c with
  | writeAtomic num fill =>
    simp only [code, writeAtomicC]
    split
    · cases fill (List.replicate num 0) with
      | error e => exact Or.inl ⟨_, rfl⟩
      | ok b => exact CallSh.bytes _ _ _
    · exact CallSh.buffered _ _ _ _
  | writeBytes b => exact CallSh.bytes _ _ _
  | stdWrite b => exact CallSh.bytes _ _ _
  | stdFlush => exact Or.inr ⟨_, rfl, fun s => Sh.flush fun s' => .lock (.unlock (.fin _ _))⟩
  | drop => exact Or.inr ⟨_, rfl, fun s => Sh.flush fun s' => .fin _ _⟩

/-! ## Running alone is the sequential call, whatever fails -/

/-- The outcome of a sequential action. -/
def projF {α : Type} (f : α → Option Nat) (x : Except Fault α × SinkState) : Res × SinkState :=
  (match x.1 with
   | .ok a => .ok (f a)
   | .error e => .error e, x.2)

theorem writePageC_aloneF {tag : PageTag} {b : Bytes} {s : Inner} {st : Store} {k : Prog} :
    (∃ st', writePage tag b ⟨s, st⟩ = (.ok (), ⟨s, st'⟩) ∧
      ∀ s0, (writePageC tag b (fun e => .unlockData s (.ret (.error e))) k).aloneF ⟨s0, st⟩ = k.aloneF ⟨s0, st'⟩) ∨
    (∃ e st', writePage tag b ⟨s, st⟩ = (.error e, ⟨s, st'⟩) ∧
      ∀ s0, (writePageC tag b (fun e => .unlockData s (.ret (.error e))) k).aloneF ⟨s0, st⟩ = (.error e, ⟨s, st'⟩)) := by
  have herr : ∀ (x : Bytes) (st st' : Store) e, Store.writeAll x st = (.error e, st') → e = .panic "write_all failed" := by
    intro x st st' e h
    unfold Store.writeAll at h
    split at h
    · injection h with h1 _; injection h1 with h1; exact h1.symm
    · injection h with h1 _; cases h1
    · injection h with h1 _; cases h1
  have hon : ∀ (x : Bytes) (st : Store), onStore (Store.writeAll x) ⟨s, st⟩ = ((Store.writeAll x st).1, ⟨s, (Store.writeAll x st).2⟩) := by
    intro x st; rfl
  unfold writePageC writePage
  split
  · split
    · rename_i h
      rw [Act.bind_ok (Act.assert_true h)]
      simp only [Prog.aloneF]
      rcases h1 : Store.writeAll [tag.toByte] st with ⟨r1, st1⟩
      cases r1 with
      | error e =>
        right
        refine ⟨e, st1, ?_, fun s0 => ?_⟩
        · rw [Act.bind_error (by rw [hon, h1])]
        · rw [herr _ _ _ _ h1]
      | ok u =>
        rw [Act.bind_ok (by rw [hon, h1])]
        rcases h2 : Store.writeAll (leBytes 4 b.length) st1 with ⟨r2, st2⟩
        cases r2 with
        | error e =>
          right
          refine ⟨e, st2, ?_, fun s0 => ?_⟩
          · rw [Act.bind_error (by rw [hon, h2])]
          · simp only [h2]
            rw [herr _ _ _ _ h2]
        | ok u =>
          rw [Act.bind_ok (by rw [hon, h2])]
          rcases h3 : Store.writeAll b st2 with ⟨r3, st3⟩
          cases r3 with
          | error e =>
            right
            refine ⟨e, st3, ?_, fun s0 => ?_⟩
            · rw [hon, h3]
            · simp only [h2, h3]
              rw [herr _ _ _ _ h3]
          | ok u =>
            left
            refine ⟨st3, ?_, fun s0 => ?_⟩
            · rw [hon, h3]
            · simp only [h2, h3]
    · rename_i h
      right
      refine ⟨_, st, ?_, fun s0 => rfl⟩
      rw [Act.bind_error (by simp only [Act.assert_apply, h, if_false]; rfl)]
  · left
    exact ⟨st, rfl, fun s0 => rfl⟩

theorem flushC_aloneF {tag : PageTag} {s : Inner} {st : Store} {k : Inner → Prog} :
    (∃ st', flushBuffer tag ⟨s, st⟩ = (.ok (), ⟨⟨[], s.addr⟩, st'⟩) ∧
      ∀ s0, (flushC tag s k).aloneF ⟨s0, st⟩ = (k ⟨[], s.addr⟩).aloneF ⟨s0, st'⟩) ∨
    (∃ e st', flushBuffer tag ⟨s, st⟩ = (.error e, ⟨s, st'⟩) ∧
      ∀ s0, (flushC tag s k).aloneF ⟨s0, st⟩ = (.error e, ⟨s, st'⟩)) := by
  unfold flushBuffer flushC
  rw [Act.bind_ok (Act.get_apply _)]
  rcases @writePageC_aloneF tag s.buffer s st (k { s with buffer := [] }) with ⟨st', h1, h2⟩ | ⟨e, st', h1, h2⟩
  · left
    refine ⟨st', ?_, h2⟩
    simp only
    rw [Act.bind_ok h1]
    rfl
  · right
    refine ⟨e, st', ?_, h2⟩
    simp only
    rw [Act.bind_error h1]

theorem writeBufferedC_aloneF (tag : PageTag) (num : Nat) (fill : Fill) (mk : Nat → Option Nat) (s : Inner) (st : Store) :
    (writeBufferedC tag num fill mk).aloneF ⟨s, st⟩ = projF mk (writeBuffered tag num fill ⟨s, st⟩) := by
  unfold writeBufferedC writeBuffered
  rw [Act.bind_ok (Act.get_apply _)]
  simp only [Prog.aloneF]
  split
  · rcases @flushC_aloneF tag s st (fun s' => assertEmptyC s' (fillC num fill mk s')) with ⟨st', h1, h2⟩ | ⟨e, st', h1, h2⟩
    · rw [h2, Act.bind_ok h1, Act.bind_ok (Act.get_apply _), Act.bind_ok (by simp only [Act.assert_apply, if_true]; rfl),
        Act.bind_ok (Act.get_apply _)]
      simp only [setBuffer, assertEmptyC, if_true]
      rw [Act.bind_ok (Act.modify_apply _ _)]
      unfold fillC
      cases fill (List.replicate num 0) with
      | error e => rfl
      | ok out => rfl
    · rw [h2, Act.bind_error h1]
      rfl
  · rw [Act.bind_ok (Act.get_apply _)]
    simp only [setBuffer]
    rw [Act.bind_ok (Act.modify_apply _ _)]
    unfold fillC
    cases fill (List.replicate num 0) with
    | error e => rfl
    | ok out => rfl

theorem writeChunksC_aloneF (tag : PageTag) (k : Inner → Prog) (cs : List Bytes) (s : Inner) (st : Store) :
    (∃ s' st', writeChunks tag cs ⟨s, st⟩ = (.ok (), ⟨s', st'⟩) ∧
      ∀ s0, (writeChunksC tag k cs s).aloneF ⟨s0, st⟩ = (k s').aloneF ⟨s0, st'⟩) ∨
    (∃ e s' st', writeChunks tag cs ⟨s, st⟩ = (.error e, ⟨s', st'⟩) ∧
      ∀ s0, (writeChunksC tag k cs s).aloneF ⟨s0, st⟩ = (.error e, ⟨s', st'⟩)) := by
  induction cs generalizing s st with
  | nil => left; exact ⟨s, st, rfl, fun _ => rfl⟩
  | cons c cs ih =>
    have hpage : (∃ s' st', (writePage tag c >>= fun _ => writeChunks tag cs) ⟨s, st⟩ = (.ok (), ⟨s', st'⟩) ∧
        ∀ s0, (writePageC tag c (fun e => .unlockData s (.ret (.error e))) (writeChunksC tag k cs s)).aloneF ⟨s0, st⟩ =
          (k s').aloneF ⟨s0, st'⟩) ∨
      (∃ e s' st', (writePage tag c >>= fun _ => writeChunks tag cs) ⟨s, st⟩ = (.error e, ⟨s', st'⟩) ∧
        ∀ s0, (writePageC tag c (fun e => .unlockData s (.ret (.error e))) (writeChunksC tag k cs s)).aloneF ⟨s0, st⟩ =
          (.error e, ⟨s', st'⟩)) := by
      rcases @writePageC_aloneF tag c s st (writeChunksC tag k cs s) with ⟨st', h1, h2⟩ | ⟨e, st', h1, h2⟩
      · rw [Act.bind_ok h1]
        rcases ih s st' with ⟨s', st'', h3, h4⟩ | ⟨e, s', st'', h3, h4⟩
        · left; exact ⟨s', st'', h3, fun s0 => by rw [h2, h4]⟩
        · right; exact ⟨e, s', st'', h3, fun s0 => by rw [h2, h4]⟩
      · right
        exact ⟨e, s, st', by rw [Act.bind_error h1], fun s0 => h2 s0⟩
    unfold writeChunks writeChunksC
    by_cases h1 : c.length = maxPageSize
    · simp only [h1, if_true]
      exact hpage
    · by_cases h2 : c.length ≥ minPageSize
      · simp only [h1, h2, if_true, if_false]
        exact hpage
      · simp only [h1, h2, if_false]
        rw [Act.bind_ok (Act.get_apply _)]
        unfold assertEmptyC
        by_cases hb : s.buffer = []
        · rw [Act.bind_ok (by simp only [Act.assert_apply, hb, if_true]; rfl), if_pos hb]
          exact ih _ st
        · right
          refine ⟨_, s, st, by rw [Act.bind_error (by simp only [Act.assert_apply, hb, if_false]; rfl)], fun s0 => ?_⟩
          rw [if_neg hb]
          rfl

theorem writeDirectC_aloneF (tag : PageTag) (bytes : Bytes) (mk : Nat → Option Nat) (s : Inner) (st : Store) :
    (writeDirectC tag bytes mk).aloneF ⟨s, st⟩ = projF mk (writeDirect tag bytes ⟨s, st⟩) := by
  unfold writeDirectC writeDirect
  rw [Act.bind_ok (Act.get_apply _)]
  simp only [addAddr, setBuffer, Prog.aloneF]
  rw [Act.bind_ok (Act.modify_apply _ _), Act.bind_ok (Act.modify_apply _ _)]
  simp only
  generalize (if s.buffer.length < minPageSize then min (minPageSize - s.buffer.length) bytes.length else 0) = take
  split
  · rfl
  · rcases @flushC_aloneF tag ⟨s.buffer ++ bytes.take take, s.addr + bytes.length⟩ st
      (fun s2 => writeChunksC tag (fun s' : Inner => Prog.unlockData s' (.ret (.ok (mk s.addr))))
        (chunks maxPageSize (bytes.drop take)) s2) with ⟨st', h1, h2⟩ | ⟨e, st', h1, h2⟩
    · rw [h2, Act.bind_ok h1]
      rcases writeChunksC_aloneF tag (fun s' : Inner => Prog.unlockData s' (.ret (.ok (mk s.addr))))
        (chunks maxPageSize (bytes.drop take)) ⟨[], s.addr + bytes.length⟩ st' with ⟨s', st'', h3, h4⟩ | ⟨e, s', st'', h3, h4⟩
      · rw [h4, Act.bind_ok h3]; rfl
      · rw [h4, Act.bind_error h3]; rfl
    · rw [h2, Act.bind_error h1]; rfl

theorem writeBytesC_aloneF (tag : PageTag) (bytes : Bytes) (mk : Nat → Option Nat) (s : Inner) (st : Store) :
    (writeBytesC tag bytes mk).aloneF ⟨s, st⟩ = projF mk (writeBytesAtomic tag bytes ⟨s, st⟩) := by
  unfold writeBytesC writeBytesAtomic
  split
  · exact writeBufferedC_aloneF _ _ _ _ _ _
  · exact writeDirectC_aloneF _ _ _ _ _

theorem projF_map {α : Type} (f : α → Option Nat) (x : Act SinkState α) (s : SinkState) :
    (x >>= fun a => (pure (f a) : Act SinkState (Option Nat))) s = projF f (x s) := by
  rw [Act.bind_apply]
  generalize x s = y
  obtain ⟨r, s'⟩ := y
  cases r <;> rfl

/-- Alone, the program of a call does what the sequential model of the call does, whatever fails. -/
theorem code_aloneF (tag : PageTag) (c : SinkCall) (s : Inner) (st : Store) : (code tag c).aloneF ⟨s, st⟩ = c.run tag ⟨s, st⟩ := by
  cases c with
  | writeAtomic num fill =>
    simp only [SinkCall.run, code]
    rw [projF_map some (Mm.writeAtomic tag num fill) ⟨s, st⟩]
    unfold writeAtomicC Mm.writeAtomic
    split
    · cases fill (List.replicate num 0) with
      | error e => rfl
      | ok b => exact writeBytesC_aloneF _ _ _ _ _
    · exact writeBufferedC_aloneF _ _ _ _ _ _
  | writeBytes b =>
    simp only [SinkCall.run, code]
    rw [projF_map some (writeBytesAtomic tag b) ⟨s, st⟩]
    exact writeBytesC_aloneF _ _ _ _ _
  | stdWrite b =>
    simp only [SinkCall.run, code]
    rw [projF_map (fun _ => none) (writeBytesAtomic tag b) ⟨s, st⟩]
    exact writeBytesC_aloneF _ _ _ _ _
  | stdFlush =>
    simp only [SinkCall.run, code]
    rw [projF_map (fun _ => none) (flushBuffer tag) ⟨s, st⟩]
    rcases @flushC_aloneF tag s st fun s' => .lockStore (.unlockStore (.unlockData s' (.ret (.ok none)))) with
      ⟨st', h3, h4⟩ | ⟨e, st', h3, h4⟩
    · simp only [Prog.aloneF]; rw [h4, h3]; rfl
    · simp only [Prog.aloneF]; rw [h4, h3]; rfl
  | drop =>
    simp only [SinkCall.run, code]
    rw [projF_map (fun _ => none) (flushBuffer tag) ⟨s, st⟩]
    rcases @flushC_aloneF tag s st fun s' => .unlockData s' (.ret (.ok none)) with ⟨st', h3, h4⟩ | ⟨e, st', h3, h4⟩
    · simp only [Prog.aloneF]; rw [h4, h3]; rfl
    · simp only [Prog.aloneF]; rw [h4, h3]; rfl

end Verif.Conc
