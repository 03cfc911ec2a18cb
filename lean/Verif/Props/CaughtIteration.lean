import Verif.Spec.CaughtIteration
import Verif.Props.Iteration

/-!
# C86: iterating over events that cannot be decoded
-/

namespace Verif.Props

open Verif Verif.Mm Verif.Spec Verif.Decode

/-- **C86.** Whatever the event stream holds, once the number of events is known the light-weight form of every event can be had; it carries the event's index, by which it is decoded in full. -/
theorem C86_lightweight_total (d : EventDecoder) (k : Nat) (h : d.numEvents = .ok k) (i : Nat) (hi : i < k) :
    ∃ l, d.decodeLightweight i = .ok l ∧ l.eventIndex = i := by
  have hl := (C28_number_of_events d k).1.mp h
  obtain ⟨records, h1, h2⟩ := C28_every_stream_has_records d.eventData k hl
  have e8 : fileHeaderSize = 8 := by decide
  have e32 : rawEventSize = 32 := by decide
  have ht : (d.eventData.take 8).length = 8 := by rw [List.length_take]; omega
  obtain ⟨s1, s2⟩ := raw_slice _ ht records i (records[i]'(by omega)) (List.getElem?_eq_getElem (by omega))
  have c1 : ¬ d.eventData.length < fileHeaderSize + i * rawEventSize + rawEventSize := by rw [e8, e32, hl]; omega
  have hr : d.rawEvent i = .ok (records[i]'(by omega)) := by
    unfold EventDecoder.rawEvent eventIndexToAddr
    simp only []
    rw [if_neg c1, e8, e32]
    rw [h2]
    rw [s1]
    exact deserialize_serialize _
  unfold EventDecoder.decodeLightweight
  simp only [bind, Except.bind, hr]
  exact ⟨_, rfl, rfl⟩

theorem fullPattern_spec {β : Type} (light : Nat → Except Fault LightweightEvent) (full : Nat → Except Fault β) (p : List Bool) :
    ∀ (l : List (Except Fault β)) (it : Iter), it.backward = it.forward + l.length →
      (∀ i x, l[i]? = some x → full (it.forward + i) = x ∧ ∃ e, light (it.forward + i) = .ok e ∧ e.eventIndex = it.forward + i) →
      (fullPattern light full p it).1 = (takes p l).map seenOf ∧ (fullPattern light full p it).2.backward = (fullPattern light full p it).2.forward + (leftover p l).length := by
  induction p with
  | nil => intro l it h _; exact ⟨rfl, h⟩
  | cons b p ih =>
    intro l it h hd
    have some_map : ∀ x : Except Fault β, x.map some = seenOf (some x) := fun x => by cases x <;> rfl
    cases b with
    | true =>
      cases l with
      | nil =>
        have e : it.forward = it.backward := by simpa using h.symm
        obtain ⟨h1, h2⟩ := ih [] it h hd
        simp only [fullPattern, Iter.nextKept, if_pos e, if_true, mapFull, takes, List.head?_nil, List.tail_nil, List.map_cons, leftover]
        exact ⟨by rw [h1]; rfl, h2⟩
      | cons x l =>
        have e : it.forward ≠ it.backward := by simp at h; omega
        obtain ⟨hx, ev, hev, hidx⟩ := hd 0 x rfl
        rw [Nat.add_zero] at hx hev hidx
        obtain ⟨h1, h2⟩ := ih l { it with forward := it.forward + 1 } (by simp at h ⊢; omega) (by
          intro i y hy
          have := hd (i + 1) y (by simpa using hy)
          rwa [show it.forward + (i + 1) = it.forward + 1 + i by omega] at this)
        simp only [fullPattern, Iter.nextKept, if_neg e, if_true, hev, mapFull, hidx, hx, takes, List.head?_cons, List.tail_cons, List.map_cons, leftover]
        exact ⟨by rw [h1, some_map], h2⟩
    | false =>
      rcases List.eq_nil_or_concat l with rfl | ⟨l', x, rfl⟩
      · have e : it.forward = it.backward := by simpa using h.symm
        obtain ⟨h1, h2⟩ := ih [] it h hd
        simp only [fullPattern, Iter.nextBackKept, if_pos e, Bool.false_eq_true, if_false, mapFull, takes, List.getLast?_nil, List.dropLast_nil, List.map_cons, leftover]
        exact ⟨by rw [h1]; rfl, h2⟩
      · rw [List.concat_eq_append] at h hd ⊢
        rw [List.length_append, List.length_singleton] at h
        have e : it.forward ≠ it.backward := by omega
        have e0 : it.backward ≠ 0 := by omega
        obtain ⟨hx, ev, hev, hidx⟩ := hd l'.length x (by simp)
        rw [show it.forward + l'.length = it.backward - 1 by omega] at hx hev hidx
        obtain ⟨h1, h2⟩ := ih l' { it with backward := it.backward - 1 } (by show it.backward - 1 = it.forward + _; omega) (by
          intro i y hy
          exact hd i y (by rw [List.getElem?_append_left (by exact (List.getElem?_eq_some_iff.mp hy).1)]; exact hy))
        simp only [fullPattern, Iter.nextBackKept, if_neg e, if_neg e0, Bool.false_eq_true, if_false, hev, Except.map, mapFull, hidx, takes,
          List.getLast?_append, List.getLast?_singleton, Option.some_or, List.dropLast_concat, List.map_cons, leftover]
        refine ⟨?_, h2⟩
        rw [h1, hx, ← some_map]
        rfl

/-- **C86.** Whatever the profile holds: a program that iterates over its full events from either end in any pattern, and catches the panics of those that cannot be decoded, gets for every event exactly once either
the event or the panic of its own decoding; an event that cannot be decoded hides no other, and the remaining number is always right. -/
theorem C86_each_event_once (d : EventDecoder) (k fuel : Nat) (h : d.numEvents = .ok k) (p : List Bool) :
    (fullPattern d.decodeLightweight (d.decodeFull fuel) p (Iter.new k)).1 = (takes p ((List.range k).map (d.decodeFull fuel))).map seenOf ∧
    (fullPattern d.decodeLightweight (d.decodeFull fuel) p (Iter.new k)).2.sizeHint = .ok (leftover p (List.range k)).length := by
  obtain ⟨h1, h2⟩ := fullPattern_spec d.decodeLightweight (d.decodeFull fuel) p ((List.range k).map (d.decodeFull fuel)) (Iter.new k) (by simp [Iter.new]) (by
    intro i x hx
    rw [List.getElem?_map] at hx
    cases hr : (List.range k)[i]? with
    | none => rw [hr] at hx; cases hx
    | some j =>
      rw [hr] at hx
      simp only [Option.map_some, Option.some.injEq] at hx
      obtain ⟨hj, he⟩ := List.getElem?_eq_some_iff.mp hr
      simp only [List.getElem_range] at he
      subst he
      rw [List.length_range] at hj
      simp only [Iter.new, Nat.zero_add]
      exact ⟨hx, C86_lightweight_total d k h i hj⟩)
  have hl : ∀ (p : List Bool) (α β : Type) (l : List α) (l' : List β), l.length = l'.length → (leftover p l).length = (leftover p l').length := by
    intro p
    induction p with
    | nil => intro α β l l' h; exact h
    | cons b p ih =>
      intro α β l l' h
      cases b with
      | true => exact ih _ _ _ _ (by simp [h])
      | false => exact ih _ _ _ _ (by simp [h])
  refine ⟨h1, ?_⟩
  rw [hl p _ _ ((List.range k).map (d.decodeFull fuel)) (List.range k) (by simp)] at h2
  rw [Iter.sizeHint, if_neg (by omega)]
  congr 1
  omega

theorem takes_front {α : Type} (l : List α) : takes (List.replicate l.length true) l = l.map some := by
  induction l with
  | nil => rfl
  | cons x l ih => rw [List.length_cons, List.replicate_succ, takes, List.head?_cons, List.tail_cons, ih]; rfl

/-- **C86.** In particular, `k` calls of `next` give the `k` events in recording order, each of them or its panic. -/
theorem C86_all_in_order (d : EventDecoder) (k fuel : Nat) (h : d.numEvents = .ok k) :
    (fullPattern d.decodeLightweight (d.decodeFull fuel) (List.replicate k true) (Iter.new k)).1 = (List.range k).map fun i => (d.decodeFull fuel i).map some := by
  rw [(C86_each_event_once d k fuel h _).1]
  have := takes_front ((List.range k).map (d.decodeFull fuel))
  rw [List.length_map, List.length_range] at this
  rw [this, List.map_map, List.map_map]
  refine List.map_congr_left fun i _ => ?_
  simp only [Function.comp]
  cases d.decodeFull fuel i <;> rfl

theorem pattern_spec {α : Type} (decode : Nat → Except Fault α) (p : List Bool) :
    ∀ (l : List (Except Fault α)) (it : Iter), it.backward = it.forward + l.length → (∀ i x, l[i]? = some x → decode (it.forward + i) = x) →
      (Iter.pattern decode p it).1 = (takesStuck p l).map seenOf := by
  induction p with
  | nil => intro l it h _; rfl
  | cons b p ih =>
    intro l it h hd
    cases b with
    | true =>
      cases l with
      | nil =>
        have e : it.forward = it.backward := by simpa using h.symm
        have h1 := ih [] it h hd
        simp only [Iter.pattern, Iter.nextKept, if_pos e, if_true, takesStuck, List.map_cons]
        rw [h1]; rfl
      | cons x l =>
        have e : it.forward ≠ it.backward := by simp at h; omega
        have hx := hd 0 x rfl
        rw [Nat.add_zero] at hx
        cases x with
        | error f =>
          have h1 := ih (.error f :: l) it h hd
          simp only [Iter.pattern, Iter.nextKept, if_neg e, if_true, hx, takesStuck, List.map_cons]
          rw [h1]; rfl
        | ok x =>
          have h1 := ih l { it with forward := it.forward + 1 } (by simp at h ⊢; omega) (by
            intro i y hy
            have := hd (i + 1) y (by simpa using hy)
            rwa [show it.forward + (i + 1) = it.forward + 1 + i by omega] at this)
          simp only [Iter.pattern, Iter.nextKept, if_neg e, if_true, hx, takesStuck, List.map_cons]
          rw [h1]; rfl
    | false =>
      rcases List.eq_nil_or_concat l with rfl | ⟨l', x, rfl⟩
      · have e : it.forward = it.backward := by simpa using h.symm
        have h1 := ih [] it h hd
        simp only [Iter.pattern, Iter.nextBackKept, if_pos e, Bool.false_eq_true, if_false, takesStuck, List.getLast?_nil, List.dropLast_nil, List.map_cons]
        rw [h1]; rfl
      · rw [List.concat_eq_append] at h hd ⊢
        rw [List.length_append, List.length_singleton] at h
        have e : it.forward ≠ it.backward := by omega
        have e0 : it.backward ≠ 0 := by omega
        have hx := hd l'.length x (by simp)
        rw [show it.forward + l'.length = it.backward - 1 by omega] at hx
        have h1 := ih l' { it with backward := it.backward - 1 } (by show it.backward - 1 = it.forward + _; omega) (by
          intro i y hy
          exact hd i y (by rw [List.getElem?_append_left (by exact (List.getElem?_eq_some_iff.mp hy).1)]; exact hy))
        simp only [Iter.pattern, Iter.nextBackKept, if_neg e, if_neg e0, Bool.false_eq_true, if_false, takesStuck,
          List.getLast?_append, List.getLast?_singleton, Option.some_or, List.dropLast_concat, List.map_cons]
        rw [h1, hx]
        cases x <;> rfl

/-- **C86.** With a decoder whose light-weight form can panic too (as an old format's may), the two ends differ: an event that cannot be decoded is met again by every further `next`, while `next_back` passes over it. -/
theorem C86_any_decoder {α : Type} (decode : Nat → Except Fault α) (k : Nat) (p : List Bool) :
    (Iter.pattern decode p (Iter.new k)).1 = (takesStuck p ((List.range k).map decode)).map seenOf :=
  pattern_spec decode p _ (Iter.new k) (by simp [Iter.new]) (by
    intro i x hx
    rw [List.getElem?_map] at hx
    cases hr : (List.range k)[i]? with
    | none => rw [hr] at hx; cases hx
    | some j =>
      rw [hr] at hx
      simp only [Option.map_some, Option.some.injEq] at hx
      obtain ⟨hj, he⟩ := List.getElem?_eq_some_iff.mp hr
      simp only [List.getElem_range] at he
      subst he
      simpa [Iter.new] using hx)

/-- **C86.** So a loop over `next` never gets past such an event. -/
theorem C86_front_is_stuck {α : Type} (decode : Nat → Except Fault α) (k i : Nat) (hi : i < k) (e : Fault) (he : decode i = .error e)
    (n : Nat) (a : Except Fault (Option α)) (ha : (Iter.pattern decode (List.replicate n true) (Iter.new k)).1[n - 1]? = some a) (hn : i < n) :
    ∃ e', a = .error e' := by
  rw [C86_any_decoder] at ha
  have key : ∀ (n : Nat) (l : List (Except Fault α)) (i : Nat) (e : Fault), l[i]? = some (.error e) → i < n →
      ∃ e', (takesStuck (List.replicate n true) l)[n - 1]? = some (some (.error e')) := by
    intro n
    induction n with
    | zero => intro l i e _ h; omega
    | succ n ih =>
      intro l i e hl h
      cases l with
      | nil => simp at hl
      | cons x l =>
        rw [List.replicate_succ]
        cases x with
        | error f =>
          simp only [takesStuck]
          cases n with
          | zero => exact ⟨f, rfl⟩
          | succ n =>
            obtain ⟨e', h'⟩ := ih (.error f :: l) 0 f rfl (by omega)
            exact ⟨e', by simpa using h'⟩
        | ok x =>
          cases i with
          | zero => simp at hl
          | succ i =>
            simp only [takesStuck]
            obtain ⟨e', h'⟩ := ih l i e (by simpa using hl) (by omega)
            refine ⟨e', ?_⟩
            obtain ⟨m, rfl⟩ : ∃ m, n = m + 1 := ⟨n - 1, by omega⟩
            simpa using h'
  obtain ⟨e', h'⟩ := key n ((List.range k).map decode) i e (by rw [List.getElem?_map, List.getElem?_range hi]; simp [he]) hn
  rw [List.getElem?_map, h'] at ha
  simp only [Option.map_some, seenOf, Option.some.injEq] at ha
  exact ⟨e', ha.symm⟩

/-- Three events, the kind of the middle one beyond the end of the string data: the first and the last are had all the same, from either end. -/
example : ∃ d : EventDecoder, d.numEvents = .ok 3 ∧
    (fullPattern d.decodeLightweight (d.decodeFull 20) [true, true, true, true] (Iter.new 3)).1.map (fun a => match a with | .ok o => some o.isSome | .error _ => none) =
      [some true, none, some true, some false] ∧
    (fullPattern d.decodeLightweight (d.decodeFull 20) [false, false, true] (Iter.new 3)).1.map (fun a => match a with | .ok o => some o.isSome | .error _ => none) =
      [some true, none, some true] := by
  refine ⟨⟨fileHeader magicEventStream ++ [⟨100000003, 100000003, 1, 5, 0, 0⟩, ⟨100000099, 100000003, 1, 5, 0, 0⟩, ⟨100000003, 100000003, 1, 6, 0, 0⟩].flatMap RawEvent.serialize,
    ⟨[97, 98, 0xFF], fun _ => none⟩, ⟨0, 0, []⟩⟩, ?_, ?_, ?_⟩ <;> decide +kernel

example : (Iter.pattern (fun i => if i = 1 then .error (.panic "bad") else .ok i) [true, true, true] (Iter.new 3)).1 = [.ok (some 0), .error (.panic "bad"), .error (.panic "bad")] ∧
    (Iter.pattern (fun i => if i = 1 then .error (.panic "bad") else .ok i) [false, false, false] (Iter.new 3)).1 = [.ok (some 2), .error (.panic "bad"), .ok (some 0)] := by
  decide +kernel

end Verif.Props
