import Verif.Props.Reentrant
import Verif.Props.Concurrent
import Verif.Proofs.ReentrantThreads

/-!
# Property C84, continued: what several threads whose callbacks use sinks write
-/

namespace Verif.Props

open Verif Verif.Mm Verif.Conc Verif.Spec Verif.Reentrant

/-- What the invariant says at the end. -/
theorem threads_end {n : Nat} {tagOf : Nat → PageTag} {progs : Fin n → Script} (hk : ∀ t, KeepsLengths (fun _ => True) (progs t)) {σ : State n}
    {H : List (LinEntry n)} {P Q : List (Nat × Bytes)} {w : World} (inv : NInv tagOf (fun t L => ∃ f, Makes (progs t) L f) σ H P Q w)
    (hm : ∀ t, ∃ f, Makes (progs t) (entriesOf t H) f) (hl : ∀ i, σ.dataLock i = none) (hs : σ.storeLock = none) :
    (∀ t, ∃ f, Makes (progs t) (entriesOf t H) f) ∧ outcomes tagOf (historyOf H) = H.map LinEntry.res ∧
      (∀ i, σ.data i = (run tagOf (historyOf H)).2.sinks i) ∧
      (∃ pages pages', σ.store = storeOf pages ∧ storeAfter tagOf (historyOf H) = storeOf pages' ∧
        (∀ p ∈ pages, 0 < p.body.length ∧ p.body.length ≤ 262144) ∧ (∀ p ∈ pages', 0 < p.body.length ∧ p.body.length ≤ 262144) ∧
        ∀ i, TagUnshared tagOf i (historyOf H) → pages.filter (fun p => p.tag = tagOf i) = pages'.filter (fun p => p.tag = tagOf i)) ∧
      ∃ m, splitStreams σ.store = .ok m ∧
        ∀ i, TagUnshared tagOf i (historyOf H) → Flushed i (historyOf H) → (m (tagOf i)).getD [] = leftBehind i (historyOf H) := by
  have hw : (run tagOf (historyOf H)) = (H.map LinEntry.res, w) := inv.exec
  have hst : storeAfter tagOf (historyOf H) = storeOf (pagesOf tagOf Q) := by unfold storeAfter; rw [hw, inv.wstore]
  have hP : ∀ p ∈ pagesOf tagOf P, 0 < p.body.length ∧ p.body.length ≤ 262144 := by
    intro p hp
    obtain ⟨x, hx, rfl⟩ := List.mem_map.mp hp
    exact (inv.wrote x hx).1
  have hQ : ∀ p ∈ pagesOf tagOf Q, 0 < p.body.length ∧ p.body.length ≤ 262144 := by
    intro p hp
    obtain ⟨x, hx, rfl⟩ := List.mem_map.mp hp
    exact (inv.bounds x hx).1
  have uP : ∀ i, TagUnshared tagOf i (historyOf H) → ∀ q ∈ P, tagOf q.1 = tagOf i → q.1 = i := by
    intro i hun q hq e
    obtain ⟨_, y, hy, e'⟩ := inv.wrote q hq
    rw [← e'] at e ⊢
    exact hun y hy e
  have uQ : ∀ i, TagUnshared tagOf i (historyOf H) → ∀ q ∈ Q, tagOf q.1 = tagOf i → q.1 = i := by
    intro i hun q hq e
    obtain ⟨_, y, hy, e'⟩ := inv.bounds q hq
    rw [← e'] at e ⊢
    exact hun y hy e
  have hkept : AllLengthsKept (historyOf H) := by
    intro x hx num fill hc out
    obtain ⟨e, he, rfl⟩ := List.mem_map.mp hx
    obtain ⟨f, m⟩ := hm e.thread
    refine (makes_keeps m (hk e.thread)).2 (e.call, e.res) ?_ num fill hc out
    unfold entriesOf
    exact List.mem_map.mpr ⟨e, List.mem_filter.mpr ⟨he, by simp⟩, rfl⟩
  refine ⟨hm, by unfold outcomes; rw [hw], fun i => by rw [hw]; exact (inv.free i (hl i)).1,
    ⟨pagesOf tagOf P, pagesOf tagOf Q, inv.sfree hs, hst, hP, hQ, fun i hun => ?_⟩, ?_⟩
  · rw [filter_pagesOf (uP i hun), filter_pagesOf (uQ i hun), (inv.free i (hl i)).2]
  · obtain ⟨m', hm1, hm2⟩ := C82_streams tagOf (historyOf H) hkept
    have e' : splitStreams (storeOf (pagesOf tagOf Q)) = _ := splitStreams_storeOf _ fun p hp => split_of_writer (hQ p hp)
    rw [hst, e'] at hm1
    injection hm1 with hm1
    refine ⟨_, by rw [inv.sfree hs]; exact splitStreams_storeOf _ fun p hp => split_of_writer (hP p hp), fun i hun hfl => ?_⟩
    rw [← hm2 i hun hfl, ← hm1, mergePages_getD, mergePages_getD, streamOf_pagesOf (uP i hun), streamOf_pagesOf (uQ i hun), (inv.free i (hl i)).2]

/-- **C84** (several threads, what is written). If all threads have come to their end, everything is as if all calls had been made one after the other in some order
`H` in which every thread's calls are those its program makes, in its order, those of a callback before the call it belongs to: same answers, same sinks, and for
every sink with its own tag the same pages; so the store splits, and the stream of every flushed sink is what its calls left, in this order. -/
theorem C84_threads {n : Nat} (tagOf : Nat → PageTag) (progs : Fin n → Script) (hk : ∀ t, KeepsLengths (fun _ => True) (progs t)) {σ : State n}
    (hr : State.Run (State.init tagOf progs) σ) (hf : σ.Finished) :
    ∃ H : List (LinEntry n), (∀ t, ∃ f, Makes (progs t) (entriesOf t H) f) ∧ outcomes tagOf (historyOf H) = H.map LinEntry.res ∧
      (∀ i, σ.data i = (run tagOf (historyOf H)).2.sinks i) ∧
      (∃ pages pages', σ.store = storeOf pages ∧ storeAfter tagOf (historyOf H) = storeOf pages' ∧
        (∀ p ∈ pages, 0 < p.body.length ∧ p.body.length ≤ 262144) ∧ (∀ p ∈ pages', 0 < p.body.length ∧ p.body.length ≤ 262144) ∧
        ∀ i, TagUnshared tagOf i (historyOf H) → pages.filter (fun p => p.tag = tagOf i) = pages'.filter (fun p => p.tag = tagOf i)) ∧
      ∃ m, splitStreams σ.store = .ok m ∧
        ∀ i, TagUnshared tagOf i (historyOf H) → Flushed i (historyOf H) → (m (tagOf i)).getD [] = leftBehind i (historyOf H) := by
  obtain ⟨H0, P, Q, w, inv0, -⟩ := (NInv.init tagOf progs hk).run hr
  obtain ⟨H, inv, hm, hl, hs⟩ := inv0.ended hf
  exact ⟨H, threads_end hk inv hm hl hs⟩

/-- **C84** (in real time). The order can be chosen such that it only grows while the threads run: at any moment on the way, `σ₁`, the calls so far (`H₁`) account for what the
sinks that are not locked hold and for all calls of the threads that have come to their end, and the calls of threads that have not begun come later. So a thread
that is started after another has ended is after it in the order. -/
theorem C84_in_real_time {n : Nat} (tagOf : Nat → PageTag) (progs : Fin n → Script) (hk : ∀ t, KeepsLengths (fun _ => True) (progs t)) {σ₁ σ₂ : State n}
    (hr₁ : State.Run (State.init tagOf progs) σ₁) (hr₂ : State.Run σ₁ σ₂) (hf : σ₂.Finished) :
    ∃ H₁ H₂ : List (LinEntry n),
      ((∀ t, ∃ f, Makes (progs t) (entriesOf t (H₁ ++ H₂)) f) ∧ outcomes tagOf (historyOf (H₁ ++ H₂)) = (H₁ ++ H₂).map LinEntry.res ∧
        (∀ i, σ₂.data i = (run tagOf (historyOf (H₁ ++ H₂))).2.sinks i) ∧
        (∃ pages pages', σ₂.store = storeOf pages ∧ storeAfter tagOf (historyOf (H₁ ++ H₂)) = storeOf pages' ∧
          (∀ p ∈ pages, 0 < p.body.length ∧ p.body.length ≤ 262144) ∧ (∀ p ∈ pages', 0 < p.body.length ∧ p.body.length ≤ 262144) ∧
          ∀ i, TagUnshared tagOf i (historyOf (H₁ ++ H₂)) → pages.filter (fun p => p.tag = tagOf i) = pages'.filter (fun p => p.tag = tagOf i)) ∧
        ∃ m, splitStreams σ₂.store = .ok m ∧
          ∀ i, TagUnshared tagOf i (historyOf (H₁ ++ H₂)) → Flushed i (historyOf (H₁ ++ H₂)) → (m (tagOf i)).getD [] = leftBehind i (historyOf (H₁ ++ H₂))) ∧
      (∀ i, σ₁.dataLock i = none → σ₁.data i = (run tagOf (historyOf H₁)).2.sinks i) ∧
      (∀ t, σ₁.threads t = .done → entriesOf t H₂ = []) ∧
      (∀ t, σ₁.threads t = (State.init tagOf progs).threads t → σ₁.threads t ≠ .done → entriesOf t H₁ = []) := by
  obtain ⟨H0, P0, Q0, w0, inv0, D0, e0, d0⟩ := (NInv.init tagOf progs hk).run hr₁
  obtain ⟨H₁, inv1, k1, ⟨D1, e1, d1⟩, -, -⟩ := inv0.endedOf fun t => σ₁.threads t = .done
  obtain ⟨H', P, Q, w, inv2, D2, e2, d2⟩ := inv1.run hr₂
  obtain ⟨H, inv, k, ⟨D3, e3, d3⟩, hl, hs⟩ := inv2.endedOf fun t => σ₁.threads t ≠ .done
  have none_of : ∀ {D : List (LinEntry n)} {t : Fin n}, (∀ e ∈ D, e.thread ≠ t) → entriesOf t D = [] := by
    intro D t h
    unfold entriesOf
    rw [List.filter_eq_nil_iff.mpr fun e he => by simp [h e he]]
    rfl
  have app : ∀ (A B : List (LinEntry n)) t, entriesOf t (A ++ B) = entriesOf t A ++ entriesOf t B := by
    intro A B t; unfold entriesOf; rw [List.filter_append, List.map_append]
  have hlate : ∀ t, σ₁.threads t = .done → entriesOf t (D2 ++ D3) = [] := by
    intro t hd
    refine none_of fun e he et => ?_
    rcases List.mem_append.mp he with he | he
    · have := d2 e he
      rw [et, hd] at this
      exact not_below_done this
    · exact d3 e he (by rw [et]; exact hd)
  have hH : H = H₁ ++ (D2 ++ D3) := by rw [e3, e2, List.append_assoc]
  have hm : ∀ t, ∃ f, Makes (progs t) (entriesOf t H) f := by
    intro t
    by_cases hd : σ₁.threads t = .done
    · rw [hH, app, hlate t hd, List.append_nil]
      exact k1 t hd hd
    · exact k t hd (hf t)
  have hfree : ∀ i, σ₂.dataLock i = none := by
    intro i
    cases h : σ₂.dataLock i with
    | none => rfl
    | some t => exact (hl t (hf t) i h).elim
  have hsfree : σ₂.storeLock = none := by
    cases h : σ₂.storeLock with
    | none => rfl
    | some t => exact (hs t (hf t) h).elim
  have hend := threads_end hk inv hm hfree hsfree
  rw [hH] at hend
  refine ⟨H₁, D2 ++ D3, hend, fun i hi => ?_, hlate, fun t ht hnd => ?_⟩
  · have hw : run tagOf (historyOf H₁) = (H₁.map LinEntry.res, w0) := inv1.exec
    rw [hw]
    exact (inv1.free i hi).1
  · rw [e1, e0]
    refine none_of fun e he et => ?_
    rcases List.mem_append.mp he with he | he
    · have := d0 e (by simpa using he)
      rw [et, ht] at this
      exact child_irrefl _ this
    · have := d1 e he
      rw [et] at this
      exact hnd this

/-- **C84** (at any moment). Whatever callbacks do, also when threads are blocked for ever, the store is complete well-formed pages, followed by the beginning of at
most one that is being written; for every sink the complete pages are the first of those of a sequential order of calls that the threads' programs make first. -/
theorem C84_never_torn {n : Nat} (tagOf : Nat → PageTag) (progs : Fin n → Script) (hk : ∀ t, KeepsLengths (fun _ => True) (progs t)) {σ : State n}
    (hr : State.Run (State.init tagOf progs) σ) :
    ∃ (H : List (LinEntry n)) (pages pages' : List Page) (part : Bytes), (∀ t, ∃ L f, Makes (progs t) L f ∧ entriesOf t H <+: L) ∧ outcomes tagOf (historyOf H) = H.map LinEntry.res ∧
      storeAfter tagOf (historyOf H) = storeOf pages' ∧ σ.store = storeOf pages ++ part ∧
      (∀ p ∈ pages, 0 < p.body.length ∧ p.body.length ≤ 262144) ∧
      (part = [] ∨ σ.storeLock ≠ none ∧ ∃ p : Page, p.body.length ≤ 262144 ∧ part <+: p.bytes) ∧
      ∀ i, TagUnshared tagOf i (historyOf H) → pages.filter (fun p => p.tag = tagOf i) <+: pages'.filter (fun p => p.tag = tagOf i) := by
  obtain ⟨H, P, Q, w, inv, -⟩ := (NInv.init tagOf progs hk).run hr
  have hw : (run tagOf (historyOf H)) = (H.map LinEntry.res, w) := inv.exec
  obtain ⟨part, h1, h2⟩ := inv.form
  refine ⟨H, pagesOf tagOf P, pagesOf tagOf Q, part, fun t => by obtain ⟨L, a, f, b⟩ := inv.extends t; exact ⟨L, f, b, a⟩, by unfold outcomes; rw [hw], by unfold storeAfter; rw [hw, inv.wstore], h1, ?_, h2, ?_⟩
  · intro p hp
    obtain ⟨x, hx, rfl⟩ := List.mem_map.mp hp
    exact (inv.wrote x hx).1
  · intro i hun
    rw [filter_pagesOf, filter_pagesOf]
    · obtain ⟨t, ht⟩ := inv.pages i
      rw [← ht, List.map_append]
      exact List.prefix_append _ _
    · intro q hq e
      obtain ⟨_, y, hy, e'⟩ := inv.bounds q hq
      rw [← e'] at e ⊢
      exact hun y hy e
    · intro q hq e
      obtain ⟨_, y, hy, e'⟩ := inv.wrote q hq
      rw [← e'] at e ⊢
      exact hun y hy e

/-- Two threads that allocate strings that record events: they do come to an end (`C84_ordered`), so both theorems apply. -/
example (tagOf : Nat → PageTag) : ∃ σ : State 2, State.Run (State.init tagOf fun _ => tellingString) σ ∧ σ.Finished := by
  have h : ∀ t : Fin 2, Nests (fun j i => 2 - j < 2 - i) [] ((fun _ => tellingString) t) := by
    intro t
    refine ⟨fun _ h => (List.not_mem_nil h).elim, ⟨?_, fun _ => trivial⟩, fun _ => trivial⟩
    intro j hj
    rw [if_pos (by decide)] at hj
    obtain rfl := List.mem_singleton.mp hj
    decide
  exact (C84_ordered tagOf _ (fun i => 2 - i) h).1 _ (.refl _)

/-- In real time: such an end is reached from the beginning, when both threads have not begun and are not done. -/
example (tagOf : Nat → PageTag) : ∃ σ : State 2, State.Run (State.init tagOf fun _ => tellingString) σ ∧ σ.Finished ∧
    ∀ t, (State.init (n := 2) tagOf fun _ => tellingString).threads t ≠ .done := by
  have h : ∀ t : Fin 2, Nests (fun j i => 2 - j < 2 - i) [] ((fun _ => tellingString) t) := by
    intro t
    refine ⟨fun _ h => (List.not_mem_nil h).elim, ⟨?_, fun _ => trivial⟩, fun _ => trivial⟩
    intro j hj
    rw [if_pos (by decide)] at hj
    obtain rfl := List.mem_singleton.mp hj
    decide
  obtain ⟨σ, h1, h2⟩ := (C84_ordered tagOf _ (fun i => 2 - i) h).1 _ (.refl _)
  refine ⟨σ, h1, h2, fun t => ?_⟩
  unfold State.init tellingString Script.compile
  rw [if_neg (by decide)]
  exact fun h => nomatch h

end Verif.Props
