import Verif.Spec.Panics
import Verif.Proofs.Container
import Mathlib.Data.List.Induction

/-!
# Sinks with callbacks that panic
-/

namespace Verif.Mm

open Verif Verif.Spec

theorem leaves_good {c : SinkCall} (hg : Good c) : leaves c = payload c := by
  cases c with
  | writeAtomic num fill =>
    obtain ⟨out, h, _⟩ := hg
    simp [leaves, payload, h]
  | _ => rfl

/-- A panicking callback of a buffered write: the slice stays in the buffer, the address is not advanced. -/
theorem writeBuffered_panics (tag : PageTag) (num : Nat) (fill : Fill) (e : Fault) (part : Bytes) (s : SinkState)
    (hf : s.store.faults = []) (hb : s.inner.buffer.length ≤ 262144)
    (hfill : fill (List.replicate num 0) = .error (e, part)) (hp : part.length = num) (hnum : num ≤ 262144) :
    ∃ (s' : SinkState) (new : List Bytes), writeBuffered tag num fill s = (.error e, s') ∧
      s'.store = ⟨s.store.data ++ storeOf (new.map (Page.mk tag)), []⟩ ∧ (∀ p ∈ new, 0 < p.length ∧ p.length ≤ 262144) ∧
      new.flatten ++ s'.inner.buffer = s.inner.buffer ++ part ∧ s'.inner.addr = s.inner.addr ∧ s'.inner.buffer.length ≤ 262144 := by
  unfold writeBuffered
  rw [Act.bind_ok (Act.get_apply s)]
  by_cases hfull : s.inner.buffer.length + num > maxPageSize
  · obtain ⟨s1, pages, h1, he, hnil, _⟩ := flush_eff tag s hf hb
    refine ⟨⟨⟨part, s1.inner.addr⟩, s1.store⟩, pages, ?_, he.store, he.bodies, ?_, ?_, ?_⟩
    · simp only [hfull, if_true]
      rw [Act.bind_ok h1]
      rw [Act.bind_ok (Act.get_apply s1)]
      rw [Act.bind_ok (show Act.assert (s1.inner.buffer = []) _ s1 = (.ok (), s1) by simp only [Act.assert_apply, hnil, if_true])]
      rw [Act.bind_ok (Act.get_apply s1)]
      simp only [setBuffer, hfill, Act.bind_apply, Act.modify_apply, hnil, List.nil_append, Act.fail]
    · have := he.content
      rw [hnil] at this
      simp at this
      simp [this]
    · have := he.addr
      simpa using this
    · simpa [hp] using hnum
  · refine ⟨⟨⟨s.inner.buffer ++ part, s.inner.addr⟩, s.store⟩, [], ?_, ?_, by simp, by simp, rfl, ?_⟩
    · simp only [hfull, if_false]
      simp only [setBuffer, hfill, Act.bind_apply, Act.modify_apply, Act.get_apply, Act.fail]
    · obtain ⟨i, ⟨d, f⟩⟩ := s
      simp only at hf
      simp [storeOf, hf]
    · simp only [List.length_append, hp]
      simp only [maxPageSize] at hfull
      omega

/-- Any call on a sound store. -/
theorem call_any (tag : PageTag) (c : SinkCall) (s : SinkState)
    (hk : ∀ num fill, c = .writeAtomic num fill → ∀ out, (fill (List.replicate num 0) = .ok out → out.length = num) ∧
      ∀ e, fill (List.replicate num 0) = .error (e, out) → out.length = num)
    (hf : s.store.faults = []) (hb : s.inner.buffer.length ≤ 262144) :
    ∃ (r : Except Fault (Option Nat)) (s' : SinkState) (new : List Bytes), c.run tag s = (r, s') ∧
      s'.store = ⟨s.store.data ++ storeOf (new.map (Page.mk tag)), []⟩ ∧ (∀ p ∈ new, 0 < p.length ∧ p.length ≤ 262144) ∧
      new.flatten ++ s'.inner.buffer = s.inner.buffer ++ leaves c ∧ s'.inner.addr = s.inner.addr + (payload c).length ∧
      s'.inner.buffer.length ≤ 262144 ∧ (Flushes c → s'.inner.buffer = []) ∧ (∀ e, CallbackPanics c e → r = .error e) ∧
      ((∀ e, ¬ CallbackPanics c e) → ∃ a, r = .ok a ∧ (ReturnsAddr c → a = some s.inner.addr)) := by
  by_cases hg : Good c
  · obtain ⟨r, s', new, hrun, he, hret, hfl, _⟩ := call_eff tag c s hg hf hb
    refine ⟨.ok r, s', new, hrun, he.store, he.bodies, by rw [leaves_good hg]; exact he.content, he.addr, he.buf, hfl, ?_, fun _ => ⟨r, rfl, hret⟩⟩
    rintro e ⟨num, fill, part, rfl, hfill⟩
    obtain ⟨out, ho, _⟩ := hg
    rw [ho] at hfill
    cases hfill
  · cases c with
    | writeAtomic num fill =>
      cases hfill : fill (List.replicate num 0) with
      | ok out => exact absurd ⟨out, hfill, (hk num fill rfl out).1 hfill⟩ hg
      | error ep =>
        obtain ⟨e, part⟩ := ep
        have hpay : payload (.writeAtomic num fill) = [] := by simp [payload, hfill]
        have hp : CallbackPanics (.writeAtomic num fill) e := ⟨num, fill, part, rfl, hfill⟩
        have huniq : ∀ e', CallbackPanics (.writeAtomic num fill) e' → e' = e := by
          rintro e' ⟨num', fill', part', heq, hfill'⟩
          cases heq
          rw [hfill] at hfill'
          cases hfill'
          rfl
        by_cases hnum : num ≤ 262144
        · obtain ⟨s', new, h1, h2, h3, h4, h5, h6⟩ := writeBuffered_panics tag num fill e part s hf hb hfill ((hk num fill rfl part).2 e hfill) hnum
          refine ⟨.error e, s', new, ?_, h2, h3, ?_, by rw [hpay, h5]; rfl, h6, fun h => h.elim, fun e' he' => by rw [huniq e' he'], fun h => absurd hp (h e)⟩
          · have : ¬ num > maxPageSize := by simp only [maxPageSize]; omega
            simp only [SinkCall.run, Mm.writeAtomic, this, if_false, Act.bind_apply, h1]
          · rw [h4]
            simp [leaves, hfill, hnum]
        · refine ⟨.error e, s, [], ?_, ?_, by simp, ?_, by rw [hpay]; rfl, hb, fun h => h.elim, fun e' he' => by rw [huniq e' he'], fun h => absurd hp (h e)⟩
          · have : num > maxPageSize := by simp only [maxPageSize]; omega
            simp only [SinkCall.run, Mm.writeAtomic, this, if_true, hfill, Act.bind_apply, Act.fail]
          · obtain ⟨i, ⟨d, f⟩⟩ := s
            simp only at hf
            simp [storeOf, hf]
          · simp [leaves, hfill, hnum]
    | _ => exact absurd trivial hg

theorem leftBehind_append (i : Nat) (a b : History) : leftBehind i (a ++ b) = leftBehind i a ++ leftBehind i b := by
  simp [leftBehind]

theorem leftBehind_same (i : Nat) (c : SinkCall) : leftBehind i [(i, c)] = leaves c := by simp [leftBehind]

theorem leftBehind_other {i j : Nat} (h : j ≠ i) (c : SinkCall) : leftBehind i [(j, c)] = [] := by simp [leftBehind, h]

/-- The state after a history with callbacks that may panic. -/
structure PanicInv (tagOf : Nat → PageTag) (h : History) (w : World) (pages : List Page) : Prop where
  store : w.store = ⟨storeOf pages, []⟩
  bodies : ∀ p ∈ pages, 0 < p.body.length ∧ p.body.length ≤ 262144
  buf : ∀ i, (w.sinks i).buffer.length ≤ 262144
  addr : ∀ i, (w.sinks i).addr = (written i h).length
  content : ∀ i, TagUnshared tagOf i h → streamOf (tagOf i) pages ++ (w.sinks i).buffer = leftBehind i h
  fresh : ∀ i, Flushed i h → (w.sinks i).buffer = []

theorem flushed_snoc {i j : Nat} {h : History} {c : SinkCall} (hf : Flushed i (h ++ [(j, c)])) :
    (j = i ∧ Flushes c) ∨ (j ≠ i ∧ Flushed i h) := by
  rcases hf with hf | ⟨h1, d, h2, he, hfl, hno⟩
  · exact .inr ⟨hf (j, c) (by simp), .inl fun x hx => hf x (by simp [hx])⟩
  · rcases List.eq_nil_or_concat h2 with rfl | ⟨h2', x, rfl⟩
    · have := List.append_inj' he rfl
      simp only [List.cons.injEq, Prod.mk.injEq, and_true] at this
      obtain ⟨rfl, rfl, rfl⟩ := this
      exact .inl ⟨rfl, hfl⟩
    · rw [List.concat_eq_append, show h1 ++ (i, d) :: (h2' ++ [x]) = (h1 ++ (i, d) :: h2') ++ [x] by simp] at he
      have := List.append_inj' he rfl
      simp only [List.cons.injEq, and_true] at this
      obtain ⟨rfl, rfl⟩ := this
      exact .inr ⟨hno (j, c) (by simp), .inr ⟨h1, d, h2', rfl, hfl, fun x hx => hno x (by simp [hx])⟩⟩

theorem PanicInv.step {tagOf : Nat → PageTag} {h : History} {w : World} {pages : List Page} (inv : PanicInv tagOf h w pages) (i : Nat) (c : SinkCall)
    (hk : ∀ num fill, c = .writeAtomic num fill → ∀ out, (fill (List.replicate num 0) = .ok out → out.length = num) ∧
      ∀ e, fill (List.replicate num 0) = .error (e, out) → out.length = num) :
    ∃ r w' pages', World.call tagOf i c w = (r, w') ∧ PanicInv tagOf (h ++ [(i, c)]) w' pages' ∧ (∀ e, CallbackPanics c e → r = .error e) ∧
      ((∀ e, ¬ CallbackPanics c e) → ∃ a, r = .ok a ∧ (ReturnsAddr c → a = some (written i h).length)) := by
  obtain ⟨r, s', new, hrun, hstore, hbodies, hcontent, haddr, hbuf, hfl, hpan, hret⟩ :=
    call_any (tagOf i) c ⟨w.sinks i, w.store⟩ hk (by rw [inv.store]) (inv.buf i)
  refine ⟨r, ⟨fun j => if j = i then s'.inner else w.sinks j, s'.store⟩, pages ++ new.map (Page.mk (tagOf i)), ?_, ?_, hpan, ?_⟩
  · simp [World.call, hrun]
  · constructor
    · rw [hstore, inv.store]; simp [storeOf_append]
    · intro p hp
      rcases List.mem_append.mp hp with hp | hp
      · exact inv.bodies p hp
      · obtain ⟨b, hb, rfl⟩ := List.mem_map.mp hp
        exact hbodies b hb
    · intro j
      by_cases hj : j = i
      · simp [hj, hbuf]
      · simp [hj, inv.buf]
    · intro j
      by_cases hj : j = i
      · subst hj
        simp only [if_true, written_append, written_single_same, List.length_append]
        rw [haddr, inv.addr]
      · simp only [hj, if_false, written_append, written_single_other (Ne.symm hj), List.append_nil]
        exact inv.addr j
    · intro j hun
      have hun' : TagUnshared tagOf j h := fun x hx => hun x (List.mem_append_left _ hx)
      by_cases hj : j = i
      · subst hj
        simp only [if_true, leftBehind_append, leftBehind_same, streamOf_append, streamOf_map_same]
        rw [← inv.content j hun', List.append_assoc, hcontent, List.append_assoc]
      · have hne : tagOf i ≠ tagOf j := fun heq => hj (hun (i, c) (by simp) heq).symm
        simp only [hj, if_false, leftBehind_append, leftBehind_other (Ne.symm hj), streamOf_append, streamOf_map_other hne, List.append_nil]
        exact inv.content j hun'
    · intro j hj
      rcases flushed_snoc hj with ⟨rfl, h1⟩ | ⟨h1, h2⟩
      · simpa using hfl h1
      · simpa [Ne.symm h1] using inv.fresh j h2
  · intro hn
    obtain ⟨a, h1, h2⟩ := hret hn
    exact ⟨a, h1, fun hr => by rw [h2 hr]; simp [inv.addr]⟩

theorem panics_inv (tagOf : Nat → PageTag) (h : History) (hk : AllLengthsKept h) : ∃ pages, PanicInv tagOf h (run tagOf h).2 pages := by
  induction h using List.reverseRecOn with
  | nil =>
    exact ⟨[], rfl, by simp, by simp [run, World.exec, World.init], by simp [run, World.exec, World.init, written], by simp [run, World.exec, World.init, streamOf, leftBehind],
      by simp [run, World.exec, World.init]⟩
  | append_singleton h x ih =>
    obtain ⟨j, c⟩ := x
    obtain ⟨pages, inv⟩ := ih (fun x hx => hk x (by simp [hx]))
    obtain ⟨r, w', pages', hcall, hinv, _⟩ := inv.step j c (hk (j, c) (by simp))
    have hw : (run tagOf (h ++ [(j, c)])).2 = w' := by
      simp only [run, exec_append, World.exec]
      rw [show (World.exec tagOf h World.init).2 = (run tagOf h).2 from rfl, hcall]
    rw [hw]
    exact ⟨pages', hinv⟩

end Verif.Mm
