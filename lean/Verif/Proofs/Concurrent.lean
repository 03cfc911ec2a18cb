import Verif.Spec.Concurrent
import Verif.Proofs.Container
import Mathlib.Data.List.Basic

/-!
# Linearizability of the sinks: shape of a call, invariant, preservation
-/

namespace Verif.Conc

open Verif Verif.Mm Verif.Spec

/-! ## What a call does when it runs alone -/

/-- Run a program without interruption. -/
def Prog.alone : Prog → Inner → Bytes → Res × Inner × Bytes
  | .ret r, s, st => (r, s, st)
  | .lockData k, s, st => (k s).alone s st
  | .unlockData s' k, _, st => k.alone s' st
  | .lockStore k, s, st => k.alone s st
  | .write b _ k, s, st => k.alone s (st ++ b)
  | .unlockStore k, s, st => k.alone s st

/-- With the data lock held and the store lock not held: what remains is a list of pages (and empty critical
sections), then the release of the data lock with data `s`, then the return of `r`. -/
inductive InData (tag : PageTag) : Prog → Inner → List Bytes → Res → Prop where
  | fin (s r) : InData tag (.unlockData s (.ret r)) s [] r
  | touch {k s bl r} : InData tag k s bl r → InData tag (.lockStore (.unlockStore k)) s bl r
  | page {k s bl r} (b : Bytes) (o : Prog) : 0 < b.length → b.length ≤ 262144 → InData tag k s bl r →
      InData tag (.lockStore (.write [tag.toByte] o (.write (leBytes 4 b.length) o (.write b o (.unlockStore k))))) s (b :: bl) r

/-- With both locks held: `part` is what has been written since the store lock was taken. -/
inductive InStore (tag : PageTag) : Prog → Bytes → Inner → List Bytes → Res → Prop where
  | touch {k s bl r} : InData tag k s bl r → InStore tag (.unlockStore k) [] s bl r
  | p0 {k s bl r} (b : Bytes) (o : Prog) : 0 < b.length → b.length ≤ 262144 → InData tag k s bl r →
      InStore tag (.write [tag.toByte] o (.write (leBytes 4 b.length) o (.write b o (.unlockStore k)))) [] s (b :: bl) r
  | p1 {k s bl r} (b : Bytes) (o : Prog) : 0 < b.length → b.length ≤ 262144 → InData tag k s bl r →
      InStore tag (.write (leBytes 4 b.length) o (.write b o (.unlockStore k))) [tag.toByte] s (b :: bl) r
  | p2 {k s bl r} (b : Bytes) (o : Prog) : 0 < b.length → b.length ≤ 262144 → InData tag k s bl r →
      InStore tag (.write b o (.unlockStore k)) ([tag.toByte] ++ leBytes 4 b.length) s (b :: bl) r
  | p3 {k s bl r} (b : Bytes) : 0 < b.length → b.length ≤ 262144 → InData tag k s bl r →
      InStore tag (.unlockStore k) ([tag.toByte] ++ leBytes 4 b.length ++ b) s (b :: bl) r

theorem InData.bodies {tag : PageTag} {p : Prog} {s : Inner} {bl : List Bytes} {r : Res} (h : InData tag p s bl r) :
    ∀ b ∈ bl, 0 < b.length ∧ b.length ≤ 262144 := by
  induction h with
  | fin => simp
  | touch _ ih => exact ih
  | page b _ h1 h2 _ ih =>
    intro x hx
    rcases List.mem_cons.mp hx with rfl | hx
    · exact ⟨h1, h2⟩
    · exact ih x hx

theorem InData.alone {tag : PageTag} {p : Prog} {s : Inner} {bl : List Bytes} {r : Res} (h : InData tag p s bl r)
    (s0 : Inner) (st : Bytes) : p.alone s0 st = (r, s, st ++ storeOf (bl.map (Page.mk tag))) := by
  induction h generalizing st with
  | fin => simp [Prog.alone, storeOf]
  | touch _ ih => simp only [Prog.alone]; exact ih st
  | page b _ _ _ _ ih =>
    simp only [Prog.alone]
    rw [ih]
    have := header_eq tag b
    simp only [List.map_cons, Prod.mk.injEq, true_and]
    have hc : ∀ l, storeOf (Page.mk tag b :: l) = Page.bytes ⟨tag, b⟩ ++ storeOf l := fun _ => rfl
    rw [hc, ← this]
    simp

/-- The shape is determined by the program. -/
def HasShape (tag : PageTag) (p : Prog) : Prop := ∃ s bl r, InData tag p s bl r

theorem HasShape.writePageC {tag : PageTag} {b : Bytes} {s : Inner} {k : Prog} (h : HasShape tag k) :
    HasShape tag (writePageC tag b (fun e => .unlockData s (.ret (.error e))) k) := by
  unfold Conc.writePageC
  split
  · split
    · obtain ⟨s', bl, r, hk⟩ := h
      exact ⟨s', b :: bl, r, InData.page b _ (by assumption) (by rw [← maxPageSize_eq]; assumption) hk⟩
    · exact ⟨_, _, _, InData.fin _ _⟩
  · exact h

theorem HasShape.flushC {tag : PageTag} {s : Inner} {k : Inner → Prog} (h : ∀ s, HasShape tag (k s)) :
    HasShape tag (flushC tag s k) := HasShape.writePageC (h _)

theorem HasShape.assertEmptyC {tag : PageTag} {s : Inner} {k : Prog} (h : HasShape tag k) : HasShape tag (assertEmptyC s k) := by
  unfold Conc.assertEmptyC
  split
  · exact h
  · exact ⟨_, _, _, InData.fin _ _⟩

theorem HasShape.writeChunksC {tag : PageTag} {k : Inner → Prog} (h : ∀ s, HasShape tag (k s)) (cs : List Bytes)
    (s : Inner) : HasShape tag (writeChunksC tag k cs s) := by
  induction cs generalizing s with
  | nil => exact h s
  | cons c cs ih =>
    unfold Conc.writeChunksC
    split
    · exact HasShape.writePageC (ih s)
    · split
      · exact HasShape.writePageC (ih s)
      · exact HasShape.assertEmptyC (ih _)

/-- A call either returns at once or takes the data lock and then has the shape above. -/
def CallShape (tag : PageTag) (p : Prog) : Prop :=
  (∃ r, p = .ret r) ∨ ∃ k, p = .lockData k ∧ ∀ s, HasShape tag (k s)

theorem CallShape.writeBufferedC (tag : PageTag) (num : Nat) (fill : Fill) (mk : Nat → Option Nat) :
    CallShape tag (writeBufferedC tag num fill mk) := by
  refine Or.inr ⟨_, rfl, fun s => ?_⟩
  have hc : ∀ s : Inner, HasShape tag (fillC num fill mk s) := by
    intro s
    unfold fillC
    cases fill (List.replicate num 0) with
    | error e => exact ⟨_, _, _, InData.fin _ _⟩
    | ok out => exact ⟨_, _, _, InData.fin _ _⟩
  split
  · exact HasShape.flushC fun s' => HasShape.assertEmptyC (hc s')
  · exact hc s

theorem CallShape.writeDirectC (tag : PageTag) (bytes : Bytes) (mk : Nat → Option Nat) :
    CallShape tag (writeDirectC tag bytes mk) := by
  refine Or.inr ⟨_, rfl, fun s => ?_⟩
  have hf : ∀ s' : Inner, HasShape tag (Prog.unlockData s' (.ret (.ok (mk s.addr)))) :=
    fun s' => ⟨_, _, _, InData.fin _ _⟩
  simp only
  generalize (if s.buffer.length < minPageSize then min (minPageSize - s.buffer.length) bytes.length else 0) = take
  split
  · exact hf _
  · exact HasShape.flushC fun s2 => HasShape.writeChunksC hf _ s2

theorem CallShape.writeBytesC (tag : PageTag) (bytes : Bytes) (mk : Nat → Option Nat) :
    CallShape tag (writeBytesC tag bytes mk) := by
  unfold Conc.writeBytesC
  split
  · exact CallShape.writeBufferedC _ _ _ _
  · exact CallShape.writeDirectC _ _ _

theorem code_shape (tag : PageTag) (c : SinkCall) : CallShape tag (code tag c) := by
  cases c with
  | writeAtomic num fill =>
    simp only [code, writeAtomicC]
    split
    · cases fill (List.replicate num 0) with
      | error e => exact Or.inl ⟨_, rfl⟩
      | ok b => exact CallShape.writeBytesC _ _ _
    · exact CallShape.writeBufferedC _ _ _ _
  | writeBytes b => exact CallShape.writeBytesC _ _ _
  | stdWrite b => exact CallShape.writeBytesC _ _ _
  | stdFlush =>
    exact Or.inr ⟨_, rfl, fun s => HasShape.flushC fun s' => ⟨_, _, _, InData.touch (InData.fin _ _)⟩⟩
  | drop => exact Or.inr ⟨_, rfl, fun s => HasShape.flushC fun s' => ⟨_, _, _, InData.fin _ _⟩⟩

/-! ## Running alone is the sequential call -/

/-- The outcome of a sequential action, store projected to its bytes. -/
def proj {α : Type} (f : α → Option Nat) (x : Except Fault α × SinkState) : Res × Inner × Bytes :=
  (match x.1 with
   | .ok a => .ok (f a)
   | .error e => .error e, x.2.inner, x.2.store.data)

/-- No fault is pending after a fault-free action, and the program `p` behaves as `x` followed by `k`. -/
theorem writePageC_alone {tag : PageTag} {b : Bytes} {s : Inner} {st : Bytes} {k : Prog} :
    (∃ st', writePage tag b ⟨s, ⟨st, []⟩⟩ = (.ok (), ⟨s, ⟨st', []⟩⟩) ∧
      ∀ s0, (writePageC tag b (fun e => .unlockData s (.ret (.error e))) k).alone s0 st = k.alone s0 st') ∨
    (∃ e, writePage tag b ⟨s, ⟨st, []⟩⟩ = (.error e, ⟨s, ⟨st, []⟩⟩) ∧
      ∀ s0, (writePageC tag b (fun e => .unlockData s (.ret (.error e))) k).alone s0 st = (.error e, s, st)) := by
  unfold Conc.writePageC writePage
  split
  · split
    · rename_i h
      left
      refine ⟨st ++ [tag.toByte] ++ leBytes 4 b.length ++ b, ?_, ?_⟩
      · rw [Act.bind_ok (Act.assert_true h)]
        simp only [Act.bind_apply, onStore, Store.writeAll]
      · intro s0; simp [Prog.alone]
    · rename_i h
      right
      refine ⟨_, ?_, fun s0 => rfl⟩
      rw [Act.bind_error (by simp only [Act.assert_apply, h, if_false]; rfl)]
  · left
    exact ⟨st, rfl, fun s0 => rfl⟩

theorem flushC_alone {tag : PageTag} {s : Inner} {st : Bytes} {k : Inner → Prog} :
    (∃ st', flushBuffer tag ⟨s, ⟨st, []⟩⟩ = (.ok (), ⟨⟨[], s.addr⟩, ⟨st', []⟩⟩) ∧
      ∀ s0, (flushC tag s k).alone s0 st = (k ⟨[], s.addr⟩).alone s0 st') ∨
    (∃ e, flushBuffer tag ⟨s, ⟨st, []⟩⟩ = (.error e, ⟨s, ⟨st, []⟩⟩) ∧
      ∀ s0, (flushC tag s k).alone s0 st = (.error e, s, st)) := by
  unfold flushBuffer flushC
  rw [Act.bind_ok (Act.get_apply _)]
  rcases @writePageC_alone tag s.buffer s st (k { s with buffer := [] }) with ⟨st', h1, h2⟩ | ⟨e, h1, h2⟩
  · left
    refine ⟨st', ?_, h2⟩
    simp only
    rw [Act.bind_ok h1]
    rfl
  · right
    refine ⟨e, ?_, h2⟩
    simp only
    rw [Act.bind_error h1]

theorem writeBufferedC_alone (tag : PageTag) (num : Nat) (fill : Fill) (mk : Nat → Option Nat) (s : Inner) (st : Bytes) :
    (writeBufferedC tag num fill mk).alone s st = proj mk (writeBuffered tag num fill ⟨s, ⟨st, []⟩⟩) ∧
    (writeBuffered tag num fill ⟨s, ⟨st, []⟩⟩).2.store.faults = [] := by
  unfold writeBufferedC writeBuffered
  rw [Act.bind_ok (Act.get_apply _)]
  simp only [Prog.alone]
  split
  · rcases @flushC_alone tag s st (fun s' => assertEmptyC s' (fillC num fill mk s')) with ⟨st', h1, h2⟩ | ⟨e, h1, h2⟩
    · rw [h2, Act.bind_ok h1, Act.bind_ok (Act.get_apply _), Act.bind_ok (by simp only [Act.assert_apply, if_true]; rfl),
        Act.bind_ok (Act.get_apply _)]
      simp only [setBuffer, assertEmptyC, if_true]
      rw [Act.bind_ok (Act.modify_apply _ _)]
      unfold fillC
      cases fill (List.replicate num 0) with
      | error e => exact ⟨rfl, rfl⟩
      | ok out => exact ⟨rfl, rfl⟩
    · rw [h2, Act.bind_error h1]
      exact ⟨rfl, rfl⟩
  · rw [Act.bind_ok (Act.get_apply _)]
    simp only [setBuffer]
    rw [Act.bind_ok (Act.modify_apply _ _)]
    unfold fillC
    cases fill (List.replicate num 0) with
    | error e => exact ⟨rfl, rfl⟩
    | ok out => exact ⟨rfl, rfl⟩

theorem writeChunksC_alone (tag : PageTag) (k : Inner → Prog) (cs : List Bytes) (s : Inner) (st : Bytes) :
    (∃ s' st', writeChunks tag cs ⟨s, ⟨st, []⟩⟩ = (.ok (), ⟨s', ⟨st', []⟩⟩) ∧
      ∀ s0, (writeChunksC tag k cs s).alone s0 st = (k s').alone s0 st') ∨
    (∃ e s' st', writeChunks tag cs ⟨s, ⟨st, []⟩⟩ = (.error e, ⟨s', ⟨st', []⟩⟩) ∧
      ∀ s0, (writeChunksC tag k cs s).alone s0 st = (.error e, s', st')) := by
  induction cs generalizing s st with
  | nil => left; exact ⟨s, st, rfl, fun _ => rfl⟩
  | cons c cs ih =>
    have hpage : (∃ s' st', (writePage tag c >>= fun _ => writeChunks tag cs) ⟨s, ⟨st, []⟩⟩ = (.ok (), ⟨s', ⟨st', []⟩⟩) ∧
        ∀ s0, (writePageC tag c (fun e => .unlockData s (.ret (.error e))) (writeChunksC tag k cs s)).alone s0 st =
          (k s').alone s0 st') ∨
      (∃ e s' st', (writePage tag c >>= fun _ => writeChunks tag cs) ⟨s, ⟨st, []⟩⟩ = (.error e, ⟨s', ⟨st', []⟩⟩) ∧
        ∀ s0, (writePageC tag c (fun e => .unlockData s (.ret (.error e))) (writeChunksC tag k cs s)).alone s0 st =
          (.error e, s', st')) := by
      rcases @writePageC_alone tag c s st (writeChunksC tag k cs s) with ⟨st', h1, h2⟩ | ⟨e, h1, h2⟩
      · rw [Act.bind_ok h1]
        rcases ih s st' with ⟨s', st'', h3, h4⟩ | ⟨e, s', st'', h3, h4⟩
        · left; exact ⟨s', st'', h3, fun s0 => by rw [h2, h4]⟩
        · right; exact ⟨e, s', st'', h3, fun s0 => by rw [h2, h4]⟩
      · right
        exact ⟨e, s, st, by rw [Act.bind_error h1], fun s0 => h2 s0⟩
    unfold writeChunks writeChunksC
    by_cases h1 : c.length = maxPageSize
    · simp only [h1, if_true]
      exact hpage
    · by_cases h2 : c.length ≥ minPageSize
      · simp only [h1, h2, if_true, if_false]
        exact hpage
      · simp only [h1, h2, if_false]
        rw [Act.bind_ok (Act.get_apply _)]
        unfold assertEmptyC
        by_cases hb : s.buffer = []
        · rw [Act.bind_ok (by simp only [Act.assert_apply, hb, if_true]; rfl), if_pos hb]
          exact ih _ st
        · right
          refine ⟨_, s, st, by rw [Act.bind_error (by simp only [Act.assert_apply, hb, if_false]; rfl)], fun s0 => ?_⟩
          rw [if_neg hb]
          rfl

theorem writeDirectC_alone (tag : PageTag) (bytes : Bytes) (mk : Nat → Option Nat) (s : Inner) (st : Bytes) :
    (writeDirectC tag bytes mk).alone s st = proj mk (writeDirect tag bytes ⟨s, ⟨st, []⟩⟩) ∧
    (writeDirect tag bytes ⟨s, ⟨st, []⟩⟩).2.store.faults = [] := by
  unfold writeDirectC writeDirect
  rw [Act.bind_ok (Act.get_apply _)]
  simp only [addAddr, setBuffer, Prog.alone]
  rw [Act.bind_ok (Act.modify_apply _ _), Act.bind_ok (Act.modify_apply _ _)]
  simp only
  generalize (if s.buffer.length < minPageSize then min (minPageSize - s.buffer.length) bytes.length else 0) = take
  split
  · exact ⟨rfl, rfl⟩
  · rcases @flushC_alone tag ⟨s.buffer ++ bytes.take take, s.addr + bytes.length⟩ st
      (fun s2 => writeChunksC tag (fun s' : Inner => Prog.unlockData s' (.ret (.ok (mk s.addr))))
        (chunks maxPageSize (bytes.drop take)) s2) with ⟨st', h1, h2⟩ | ⟨e, h1, h2⟩
    · rw [h2, Act.bind_ok h1]
      rcases writeChunksC_alone tag (fun s' : Inner => Prog.unlockData s' (.ret (.ok (mk s.addr))))
        (chunks maxPageSize (bytes.drop take)) ⟨[], s.addr + bytes.length⟩ st' with ⟨s', st'', h3, h4⟩ | ⟨e, s', st'', h3, h4⟩
      · rw [h4, Act.bind_ok h3]; exact ⟨rfl, rfl⟩
      · rw [h4, Act.bind_error h3]; exact ⟨rfl, rfl⟩
    · rw [h2, Act.bind_error h1]; exact ⟨rfl, rfl⟩

theorem writeBytesC_alone (tag : PageTag) (bytes : Bytes) (mk : Nat → Option Nat) (s : Inner) (st : Bytes) :
    (writeBytesC tag bytes mk).alone s st = proj mk (writeBytesAtomic tag bytes ⟨s, ⟨st, []⟩⟩) ∧
    (writeBytesAtomic tag bytes ⟨s, ⟨st, []⟩⟩).2.store.faults = [] := by
  unfold writeBytesC writeBytesAtomic
  split
  · exact writeBufferedC_alone _ _ _ _ _ _
  · exact writeDirectC_alone _ _ _ _ _

theorem proj_map {α : Type} (f : α → Option Nat) (x : Act SinkState α) (s : SinkState) :
    proj id ((x >>= fun a => (pure (f a) : Act SinkState (Option Nat))) s) = proj f (x s) ∧
    ((x >>= fun a => (pure (f a) : Act SinkState (Option Nat))) s).2 = (x s).2 := by
  rw [Act.bind_apply]
  generalize x s = y
  obtain ⟨r, s'⟩ := y
  cases r <;> exact ⟨rfl, rfl⟩

/-- Alone, the program of a call does what the sequential model of the call does. -/
theorem code_alone (tag : PageTag) (c : SinkCall) (s : Inner) (st : Bytes) :
    (code tag c).alone s st = proj id (c.run tag ⟨s, ⟨st, []⟩⟩) ∧ (c.run tag ⟨s, ⟨st, []⟩⟩).2.store.faults = [] := by
  cases c with
  | writeAtomic num fill =>
    obtain ⟨h1, h2⟩ := proj_map some (Mm.writeAtomic tag num fill) ⟨s, ⟨st, []⟩⟩
    simp only [SinkCall.run, code]
    rw [h1, h2]
    unfold writeAtomicC Mm.writeAtomic
    split
    · cases fill (List.replicate num 0) with
      | error e => exact ⟨rfl, rfl⟩
      | ok b => exact writeBytesC_alone _ _ _ _ _
    · exact writeBufferedC_alone _ _ _ _ _ _
  | writeBytes b =>
    obtain ⟨h1, h2⟩ := proj_map some (writeBytesAtomic tag b) ⟨s, ⟨st, []⟩⟩
    simp only [SinkCall.run, code]
    rw [h1, h2]
    exact writeBytesC_alone _ _ _ _ _
  | stdWrite b =>
    obtain ⟨h1, h2⟩ := proj_map (fun _ => none) (writeBytesAtomic tag b) ⟨s, ⟨st, []⟩⟩
    simp only [SinkCall.run, code]
    rw [h1, h2]
    exact writeBytesC_alone _ _ _ _ _
  | stdFlush =>
    obtain ⟨h1, h2⟩ := proj_map (fun _ => none) (flushBuffer tag) ⟨s, ⟨st, []⟩⟩
    simp only [SinkCall.run, code]
    rw [h1, h2]
    rcases @flushC_alone tag s st fun s' => .lockStore (.unlockStore (.unlockData s' (.ret (.ok none)))) with
      ⟨st', h3, h4⟩ | ⟨e, h3, h4⟩
    · simp only [Prog.alone]; rw [h4, h3]; exact ⟨rfl, rfl⟩
    · simp only [Prog.alone]; rw [h4, h3]; exact ⟨rfl, rfl⟩
  | drop =>
    obtain ⟨h1, h2⟩ := proj_map (fun _ => none) (flushBuffer tag) ⟨s, ⟨st, []⟩⟩
    simp only [SinkCall.run, code]
    rw [h1, h2]
    rcases @flushC_alone tag s st fun s' => .unlockData s' (.ret (.ok none)) with ⟨st', h3, h4⟩ | ⟨e, h3, h4⟩
    · simp only [Prog.alone]; rw [h4, h3]; exact ⟨rfl, rfl⟩
    · simp only [Prog.alone]; rw [h4, h3]; exact ⟨rfl, rfl⟩

end Verif.Conc
