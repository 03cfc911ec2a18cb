import Verif.Proofs.Split

namespace Verif.Mm
open Verif Verif.Spec

theorem exec_length (tagOf : Nat → PageTag) (h : History) (w : World) :
    (World.exec tagOf h w).1.length = h.length := by
  induction h generalizing w with
  | nil => rfl
  | cons x h ih => obtain ⟨i, c⟩ := x; simp [World.exec, ih]

theorem split_of_writer {p : Page} (h : 0 < p.body.length ∧ p.body.length ≤ 262144) : SplitPage p :=
  ⟨h.1, by omega⟩

theorem outcome_at (tagOf : Nat → PageTag) (h1 h2 : History) (i : Nat) (c : SinkCall) :
    (outcomes tagOf (h1 ++ (i, c) :: h2))[h1.length]? =
      some (World.call tagOf i c (run tagOf h1).2).1 := by
  simp only [outcomes, run, exec_append, World.exec]
  rw [List.getElem?_append_right (by rw [exec_length]; exact Nat.le_refl _), exec_length]
  simp

/-- A store that is a prefix of another one consists of a prefix of its pages. -/
theorem storeOf_prefix {a b : List Page} (ha : ∀ p ∈ a, SplitPage p) (hb : ∀ p ∈ b, SplitPage p)
    (h : storeOf a <+: storeOf b) : a <+: b := by
  induction a generalizing b with
  | nil => exact List.nil_prefix
  | cons p ps ih =>
    cases b with
    | nil =>
      rw [storeOf_cons] at h
      simp [storeOf, Page.bytes] at h
    | cons q qs =>
      obtain ⟨rest, h⟩ := h
      rw [storeOf_cons, storeOf_cons] at h
      obtain ⟨hp1, hp2⟩ := ha p (by simp)
      obtain ⟨hq1, hq2⟩ := hb q (by simp)
      rw [← header_eq p.tag p.body, ← header_eq q.tag q.body] at h
      simp only [List.append_assoc] at h
      obtain ⟨ht, h⟩ := List.append_inj h rfl
      obtain ⟨hlen, h⟩ := List.append_inj h (by simp)
      have hlen' := leBytes_inj (n := 4) (by omega) (by omega) hlen
      obtain ⟨hbody, h⟩ := List.append_inj h hlen'
      have hps := ih (fun r hr => ha r (by simp [hr])) (fun r hr => hb r (by simp [hr])) ⟨rest, h⟩
      have htag : p.tag = q.tag := by
        revert ht; cases p.tag <;> cases q.tag <;> simp [PageTag.toByte]
      have : p = q := by
        obtain ⟨pt, pb⟩ := p
        obtain ⟨qt, qb⟩ := q
        simp only at htag hbody
        rw [htag, hbody]
      rw [this]
      exact List.cons_prefix_cons.mpr ⟨rfl, hps⟩

theorem streamOf_prefix {a b : List Page} (h : a <+: b) (t : PageTag) : streamOf t a <+: streamOf t b := by
  obtain ⟨r, rfl⟩ := h
  rw [streamOf_append]
  exact List.prefix_append _ _

/-- Where an atomic record ends up: either still wholly inside the buffer, or wholly inside one page. -/
def Located (t : PageTag) (a : Nat) (P : Bytes) (pages : List Page) (buffer : Bytes) : Prop :=
  (∃ x y, buffer = x ++ P ++ y ∧ (streamOf t pages).length + x.length = a) ∨
  (∃ before p after x y, pages = before ++ p :: after ∧ p.tag = t ∧ p.body = x ++ P ++ y ∧
    (streamOf t before).length + x.length = a)

theorem located_exec {tagOf : Nat → PageTag} {i : Nat} {a : Nat} {P : Bytes} (hP : P ≠ []) (h2 : History)
    {h : History} {w : World} {pages : List Page} (inv : WInv tagOf h w pages) (hg : AllGood h2)
    (hun : TagUnshared tagOf i (h ++ h2))
    (hloc : Located (tagOf i) a P pages (w.sinks i).buffer) :
    ∃ pages', WInv tagOf (h ++ h2) (World.exec tagOf h2 w).2 pages' ∧
      Located (tagOf i) a P pages' ((World.exec tagOf h2 w).2.sinks i).buffer := by
  induction h2 generalizing h w pages with
  | nil => exact ⟨pages, by simpa [World.exec] using inv, by simpa [World.exec] using hloc⟩
  | cons x h2 ih =>
    obtain ⟨j, c⟩ := x
    obtain ⟨r, w', new, hcall, hinv, _, _, he, hoth, _⟩ := inv.step j c (hg (j, c) (by simp))
    have hloc' : Located (tagOf i) a P (pages ++ new.map (Page.mk (tagOf j))) (w'.sinks i).buffer := by
      rcases hloc with ⟨x, y, hb, ha⟩ | ⟨before, p, after, x, y, hpg, ht, hbody, ha⟩
      · by_cases hj : j = i
        · subst hj
          obtain ⟨q, qs, r, hq, hqr⟩ := he.keep
          simp only at hqr
          cases new with
          | nil =>
            simp only [List.nil_append, List.cons.injEq] at hq
            left
            refine ⟨x, y ++ r, ?_, by simpa using ha⟩
            rw [hq.1, hqr, hb]; simp
          | cons n ns =>
            simp only [List.cons_append, List.cons.injEq] at hq
            right
            refine ⟨pages, ⟨tagOf j, n⟩, ns.map (Page.mk (tagOf j)), x, y ++ r, by simp, rfl, ?_, ha⟩
            rw [hq.1, hqr, hb]; simp
        · left
          have hne : tagOf j ≠ tagOf i := fun heq => hj (hun (j, c) (by simp) heq)
          refine ⟨x, y, by rw [hoth i (Ne.symm hj)]; exact hb, ?_⟩
          rw [streamOf_append, streamOf_map_other hne, List.append_nil]; exact ha
      · right
        exact ⟨before, p, after ++ new.map (Page.mk (tagOf j)), x, y, by rw [hpg]; simp, ht, hbody, ha⟩
    have := ih hinv (fun x hx => hg x (by simp [hx])) (by simpa using hun) hloc'
    simpa [World.exec, hcall] using this

/-! ## Runs with I/O faults, up to the first failure -/

/-- The same state on a healthy disk. -/
def SinkState.healthy (s : SinkState) : SinkState := { s with store := { s.store with faults := [] } }

/-- An action behaves, under I/O faults, like on a healthy disk until a fault strikes; then what has been
written is a prefix of what the healthy run would have written.  It only ever appends to the store. -/
structure Sim {α : Type} (x : Act SinkState α) : Prop where
  mono : ∀ s, s.store.data <+: (x s).2.store.data
  ok : ∀ s a s', x s = (.ok a, s') → x s.healthy = (.ok a, s'.healthy)
  err : ∀ s e s', x s = (.error e, s') → s'.store.data <+: (x s.healthy).2.store.data

theorem Sim.pure {α : Type} (a : α) : Sim (Pure.pure a : Act SinkState α) where
  mono s := by simp
  ok s a' s' h := by
    simp only [Act.pure_apply, Prod.mk.injEq, Except.ok.injEq] at h ⊢
    exact ⟨h.1, by rw [h.2]⟩
  err s e s' h := by simp [Act.pure_apply] at h

theorem Sim.fail {α : Type} (e : Fault) : Sim (Act.fail e : Act SinkState α) where
  mono s := by simp
  ok s a' s' h := by simp at h
  err s e' s' h := by
    simp only [Act.fail_apply, Prod.mk.injEq] at h
    simp [← h.2, SinkState.healthy]

theorem Sim.assert (p : Prop) [Decidable p] (w : String) : Sim (Act.assert p w : Act SinkState Unit) where
  mono s := by simp only [Act.assert_apply]; split <;> simp
  ok s a' s' h := by
    simp only [Act.assert_apply] at h ⊢
    split at h
    · simp only [Prod.mk.injEq, true_and] at h; rename_i hp; simp [hp, h]
    · simp at h
  err s e' s' h := by
    simp only [Act.assert_apply] at h ⊢
    split at h
    · simp at h
    · simp only [Prod.mk.injEq] at h; rename_i hp; simp [hp, ← h.2, SinkState.healthy]

theorem Sim.modify (f : Inner → Inner) : Sim (Act.modify fun (s : SinkState) => { s with inner := f s.inner }) where
  mono s := by simp
  ok s a s' h := by
    simp only [Act.modify_apply, Prod.mk.injEq, true_and] at h ⊢
    rw [← h]; rfl
  err s e s' h := by simp at h

theorem Sim.setBuffer (b : Bytes) : Sim (setBuffer b) := Sim.modify (fun i => { i with buffer := b })
theorem Sim.addAddr (n : Nat) : Sim (addAddr n) := Sim.modify (fun i => { i with addr := i.addr + n })

theorem Sim.bind {α β : Type} {x : Act SinkState α} {f : α → Act SinkState β} (hx : Sim x)
    (hf : ∀ a, Sim (f a)) : Sim (x >>= f) where
  mono s := by
    rw [Act.bind_apply]
    have h1 := hx.mono s
    cases hr : x s with
    | mk r s1 =>
      rw [hr] at h1
      cases r with
      | ok a => exact h1.trans ((hf a).mono s1)
      | error e => exact h1
  ok s b s' h := by
    rw [Act.bind_apply] at h
    cases hr : x s with
    | mk r s1 =>
      rw [hr] at h
      cases r with
      | ok a => rw [Act.bind_ok (hx.ok s a s1 hr)]; exact (hf a).ok s1 b s' h
      | error e => simp at h
  err s e s' h := by
    rw [Act.bind_apply] at h
    cases hr : x s with
    | mk r s1 =>
      rw [hr] at h
      cases r with
      | ok a => rw [Act.bind_ok (hx.ok s a s1 hr)]; exact (hf a).err s1 e s' h
      | error e1 =>
        simp only [Prod.mk.injEq] at h
        rw [← h.2]
        have h1 := hx.err s e1 s1 hr
        rw [Act.bind_apply]
        cases hr0 : x s.healthy with
        | mk r0 s0 =>
          rw [hr0] at h1
          cases r0 with
          | ok a => exact h1.trans ((hf a).mono s0)
          | error e => exact h1

/-- Reading the locked inner state (which the fault environment does not affect). -/
theorem Sim.getInner {β : Type} {f : SinkState → Act SinkState β} (g : Inner → Act SinkState β)
    (hg : ∀ s, f s = g s.inner) (hf : ∀ i, Sim (g i)) : Sim (Act.get >>= f) where
  mono s := by
    rw [Act.bind_ok (Act.get_apply s), hg]; exact (hf s.inner).mono s
  ok s a s' h := by
    rw [Act.bind_ok (Act.get_apply s), hg] at h
    rw [Act.bind_ok (Act.get_apply s.healthy), hg]
    exact (hf s.inner).ok s a s' h
  err s e s' h := by
    rw [Act.bind_ok (Act.get_apply s), hg] at h
    rw [Act.bind_ok (Act.get_apply s.healthy), hg]
    exact (hf s.inner).err s e s' h

theorem Sim.writeAll (b : Bytes) : Sim (onStore (Store.writeAll b)) where
  mono s := by
    simp only [onStore, Store.writeAll]
    split
    · exact List.prefix_append _ _
    · exact List.prefix_append _ _
    · exact List.prefix_append _ _
  ok s a s' h := by
    simp only [onStore, Store.writeAll] at h ⊢
    split at h
    · simp at h
    · simp only [Prod.mk.injEq, true_and] at h; simp [← h, SinkState.healthy]
    · simp only [Prod.mk.injEq, true_and] at h; simp [← h, SinkState.healthy]
  err s e s' h := by
    simp only [onStore, Store.writeAll] at h ⊢
    split at h
    · simp only [Prod.mk.injEq] at h
      simp only [← h.2, SinkState.healthy]
      rename_i k fs _
      exact (List.prefix_append_right_inj _).mpr (List.take_prefix k b)
    · simp at h
    · simp at h

theorem Sim.writePage (tag : PageTag) (b : Bytes) : Sim (writePage tag b) := by
  unfold Verif.Mm.writePage
  split
  · refine Sim.bind (Sim.assert _ _) fun _ => Sim.bind (Sim.writeAll _) fun _ =>
      Sim.bind (Sim.writeAll _) fun _ => Sim.writeAll _
  · exact Sim.pure ()

theorem Sim.flushBuffer (tag : PageTag) : Sim (flushBuffer tag) := by
  unfold Verif.Mm.flushBuffer
  exact Sim.getInner (fun i => do Verif.Mm.writePage tag i.buffer; Verif.Mm.setBuffer []) (fun _ => rfl)
    fun i => Sim.bind (Sim.writePage _ _) fun _ => Sim.setBuffer _

theorem Sim.ite {α : Type} {p : Prop} [Decidable p] {x y : Act SinkState α} (hx : Sim x) (hy : Sim y) :
    Sim (if p then x else y) := by split <;> assumption

theorem Sim.writeBuffered (tag : PageTag) (num : Nat) (fill : Fill) : Sim (writeBuffered tag num fill) := by
  unfold Verif.Mm.writeBuffered
  have inner : ∀ i : Inner, Sim (do
      Verif.Mm.setBuffer (i.buffer ++ List.replicate num 0)
      match fill (List.replicate num 0) with
      | .error (e, part) => do
        Verif.Mm.setBuffer (i.buffer ++ part)
        Act.fail e
      | .ok out => do
        Verif.Mm.setBuffer (i.buffer ++ out)
        Verif.Mm.addAddr num
        (Pure.pure i.addr : Act SinkState Nat)) := by
    intro i
    refine Sim.bind (Sim.setBuffer _) fun _ => ?_
    split
    · exact Sim.bind (Sim.setBuffer _) fun _ => Sim.fail _
    · exact Sim.bind (Sim.setBuffer _) fun _ => Sim.bind (Sim.addAddr _) fun _ => Sim.pure _
  refine Sim.getInner (fun i => (if i.buffer.length + num > maxPageSize then (do
      Verif.Mm.flushBuffer tag
      Act.get >>= fun s => Act.assert (s.inner.buffer = []) "assertion failed: buffer.is_empty()" >>= fun _ =>
      Act.get >>= fun s => (do
      Verif.Mm.setBuffer (s.inner.buffer ++ List.replicate num 0)
      match fill (List.replicate num 0) with
      | .error (e, part) => do
        Verif.Mm.setBuffer (s.inner.buffer ++ part)
        Act.fail e
      | .ok out => do
        Verif.Mm.setBuffer (s.inner.buffer ++ out)
        Verif.Mm.addAddr num
        Pure.pure s.inner.addr)) else do
      Act.get >>= fun s => (do
      Verif.Mm.setBuffer (s.inner.buffer ++ List.replicate num 0)
      match fill (List.replicate num 0) with
      | .error (e, part) => do
        Verif.Mm.setBuffer (s.inner.buffer ++ part)
        Act.fail e
      | .ok out => do
        Verif.Mm.setBuffer (s.inner.buffer ++ out)
        Verif.Mm.addAddr num
        Pure.pure s.inner.addr))) ?_ fun i => ?_
  · intro s
    rfl
  · apply Sim.ite
    · refine Sim.bind (Sim.flushBuffer tag) fun _ => ?_
      refine Sim.getInner (fun i => Act.assert (i.buffer = []) "assertion failed: buffer.is_empty()" >>= fun _ => _) (fun _ => rfl)
        fun i => Sim.bind (Sim.assert _ _) fun _ => ?_
      exact Sim.getInner _ (fun _ => rfl) inner
    · exact Sim.getInner _ (fun _ => rfl) inner

theorem Sim.writeChunks (tag : PageTag) (cs : List Bytes) : Sim (writeChunks tag cs) := by
  induction cs with
  | nil => exact Sim.pure ()
  | cons c cs ih =>
    unfold Verif.Mm.writeChunks
    split
    · exact Sim.bind (Sim.writePage _ _) fun _ => ih
    · split
      · exact Sim.bind (Sim.writePage _ _) fun _ => ih
      · exact Sim.getInner (fun i => do
          Act.assert (i.buffer = []) "assertion failed: buffer.is_empty()"
          Verif.Mm.setBuffer (i.buffer ++ c)
          Verif.Mm.writeChunks tag cs) (fun _ => rfl) fun i => Sim.bind (Sim.assert _ _) fun _ => Sim.bind (Sim.setBuffer _) fun _ => ih

theorem Sim.writeDirect (tag : PageTag) (bytes : Bytes) : Sim (writeDirect tag bytes) := by
  unfold Verif.Mm.writeDirect
  refine Sim.getInner (fun i => do
    Verif.Mm.addAddr bytes.length
    Verif.Mm.setBuffer (i.buffer ++ bytes.take (if i.buffer.length < minPageSize then
      min (minPageSize - i.buffer.length) bytes.length else 0))
    if bytes.drop (if i.buffer.length < minPageSize then
      min (minPageSize - i.buffer.length) bytes.length else 0) = [] then Pure.pure i.addr
    else do
      Verif.Mm.flushBuffer tag
      Verif.Mm.writeChunks tag (chunks maxPageSize (bytes.drop (if i.buffer.length < minPageSize then
        min (minPageSize - i.buffer.length) bytes.length else 0)))
      Pure.pure i.addr) (fun _ => rfl) fun i => ?_
  refine Sim.bind (Sim.addAddr _) fun _ => Sim.bind (Sim.setBuffer _) fun _ => Sim.ite (Sim.pure _) ?_
  exact Sim.bind (Sim.flushBuffer _) fun _ => Sim.bind (Sim.writeChunks _ _) fun _ => Sim.pure _

theorem Sim.writeBytesAtomic (tag : PageTag) (bytes : Bytes) : Sim (writeBytesAtomic tag bytes) :=
  Sim.ite (Sim.writeBuffered _ _ _) (Sim.writeDirect _ _)

theorem Sim.writeAtomic (tag : PageTag) (num : Nat) (fill : Fill) : Sim (writeAtomic tag num fill) := by
  unfold Verif.Mm.writeAtomic
  split
  · split
    · exact Sim.fail _
    · exact Sim.writeBytesAtomic _ _
  · exact Sim.writeBuffered _ _ _

theorem Sim.run (tag : PageTag) (c : SinkCall) : Sim (c.run tag) := by
  cases c <;> unfold SinkCall.run
  · exact Sim.bind (Sim.writeAtomic _ _ _) fun _ => Sim.pure _
  · exact Sim.bind (Sim.writeBytesAtomic _ _) fun _ => Sim.pure _
  · exact Sim.bind (Sim.writeBytesAtomic _ _) fun _ => Sim.pure _
  · exact Sim.bind (Sim.flushBuffer _) fun _ => Sim.pure _
  · exact Sim.bind (Sim.flushBuffer _) fun _ => Sim.pure _

/-- The same world on a healthy disk. -/
def World.healthy (w : World) : World := { w with store := { w.store with faults := [] } }

theorem call_healthy (tagOf : Nat → PageTag) (i : Nat) (c : SinkCall) (w w' : World) (r : Option Nat)
    (h : World.call tagOf i c w = (.ok r, w')) : World.call tagOf i c w.healthy = (.ok r, w'.healthy) := by
  simp only [World.call] at h ⊢
  cases hr : c.run (tagOf i) ⟨w.sinks i, w.store⟩ with
  | mk x s1 =>
    rw [hr] at h
    simp only [Prod.mk.injEq] at h
    obtain ⟨rfl, rfl⟩ := h
    have := (Sim.run (tagOf i) c).ok _ _ _ hr
    simp only [SinkState.healthy] at this
    simp only [World.healthy, this]

theorem exec_healthy (tagOf : Nat → PageTag) (h : History) (w : World)
    (hok : ∀ r ∈ (World.exec tagOf h w).1, IsOk r) :
    World.exec tagOf h w.healthy = ((World.exec tagOf h w).1, (World.exec tagOf h w).2.healthy) := by
  induction h generalizing w with
  | nil => rfl
  | cons x h ih =>
    obtain ⟨i, c⟩ := x
    simp only [World.exec] at hok ⊢
    cases hr : World.call tagOf i c w with
    | mk r w1 =>
      simp only [hr, List.mem_cons, forall_eq_or_imp] at hok
      obtain ⟨h1, h2⟩ := hok
      cases r with
      | error e => simp [IsOk] at h1
      | ok a =>
        rw [call_healthy tagOf i c w w1 a hr]
        simp only [ih w1 h2]

/-- Up to and including the first failing call, what is on disk is a prefix of what a healthy run writes. -/
theorem fault_prefix (tagOf : Nat → PageTag) (h : History) (i : Nat) (c : SinkCall) (faults : List (Option Nat))
    (hok : ∀ r ∈ (World.exec tagOf h (World.init faults)).1, IsOk r) :
    (World.exec tagOf (h ++ [(i, c)]) (World.init faults)).2.store.data <+:
      (World.exec tagOf (h ++ [(i, c)]) World.init).2.store.data := by
  have hh := exec_healthy tagOf h (World.init faults) hok
  have hi : (World.init faults).healthy = World.init := rfl
  rw [hi] at hh
  rw [exec_append, exec_append, hh]
  simp only [World.exec]
  generalize (World.exec tagOf h (World.init faults)).2 = w
  cases hr : World.call tagOf i c w with
  | mk r w1 =>
    cases r with
    | ok a =>
      rw [call_healthy tagOf i c w w1 a hr]
      exact List.prefix_rfl
    | error e =>
      simp only [World.call] at hr ⊢
      cases hr' : c.run (tagOf i) ⟨w.sinks i, w.store⟩ with
      | mk x s1 =>
        rw [hr'] at hr
        simp only [Prod.mk.injEq] at hr
        obtain ⟨rfl, rfl⟩ := hr
        exact (Sim.run (tagOf i) c).err _ _ _ hr'

end Verif.Mm
