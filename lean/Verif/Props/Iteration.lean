import Verif.Props.Decoder

/-! # Property C28, continued: which events there are -/

namespace Verif.Props
open Verif Verif.Mm Verif.Spec Verif.Decode Verif.Json

/-- **C28.** Whatever bytes the event stream holds (from opening: at least the eight of its header): there are `k` events exactly if 32·`k`
bytes follow the header; otherwise asking for the number of events panics. -/
theorem C28_number_of_events (d : EventDecoder) (k : Nat) :
    (d.numEvents = .ok k ↔ d.eventData.length = 8 + 32 * k) ∧
    ((∀ k, d.eventData.length ≠ 8 + 32 * k) → ∃ msg, d.numEvents = .error (.panic msg)) := by
  have e8 : fileHeaderSize = 8 := by decide
  have e32 : rawEventSize = 32 := by decide
  unfold EventDecoder.numEvents
  rw [e8, e32]
  constructor
  · split
    · constructor
      · intro h; cases h
      · intro h; omega
    · split
      · constructor
        · intro h; cases h
        · intro h; omega
      · rw [Except.ok.injEq]
        constructor <;> intro h <;> omega
  · intro h
    split
    · exact ⟨_, rfl⟩
    · split
      · exact ⟨_, rfl⟩
      · exact absurd (show d.eventData.length = 8 + 32 * ((d.eventData.length - 8) / 32) by omega) (h _)

/-- **C28.** Whatever bytes the event stream holds: the events iteration yields, taken from either end in any pattern, are the records of
32 bytes behind the header in their order, each with its index. -/
theorem C28_events_are_records (d : EventDecoder) (header : Bytes) (records : List RawEvent) (h8 : header.length = 8)
    (hd : d.eventData = header ++ records.flatMap RawEvent.serialize) (p : List Bool) :
    d.numEvents = .ok records.length ∧
    ∃ it, usePattern d.decodeLightweight p (Iter.new records.length) =
        .ok (takes p (records.mapIdx fun i r => ⟨i, r.threadId, EventPayload.fromRawEvent r d.metadata.startTime⟩), it) ∧
      it.sizeHint = .ok (leftover p records).length := by
  have e8 : fileHeaderSize = 8 := by decide
  have e32 : rawEventSize = 32 := by decide
  have hraw : ∀ i e, records[i]? = some e → d.rawEvent i = .ok e := by
    intro i e he
    obtain ⟨h1, h2⟩ := raw_slice _ h8 records i e he
    have c1 : ¬ d.eventData.length < fileHeaderSize + i * rawEventSize + rawEventSize := by rw [hd, e8, e32]; omega
    unfold EventDecoder.rawEvent eventIndexToAddr
    simp only []
    rw [if_neg c1, e8, e32, hd, h1]
    exact deserialize_serialize e
  refine ⟨(C28_number_of_events d _).1.mpr (by rw [hd, List.length_append, h8, serialize_flat_length]), ?_⟩
  have hl : ∀ (p : List Bool) (α β : Type) (l : List α) (l' : List β), l.length = l'.length → (leftover p l).length = (leftover p l').length := by
    intro p
    induction p with
    | nil => intro α β l l' h; exact h
    | cons b p ih =>
      intro α β l l' h
      cases b with
      | true => exact ih _ _ _ _ (by simp [h])
      | false => exact ih _ _ _ _ (by simp [h])
  obtain ⟨it, h1, h2⟩ := C28_iteration_is_list d.decodeLightweight
    (records.mapIdx fun i r => (⟨i, r.threadId, EventPayload.fromRawEvent r d.metadata.startTime⟩ : LightweightEvent)) (by
      intro i x hx
      rw [List.getElem?_mapIdx] at hx
      cases hr : records[i]? with
      | none => rw [hr] at hx; cases hx
      | some r =>
        rw [hr] at hx
        simp only [Option.map_some, Option.some.injEq] at hx
        subst hx
        unfold EventDecoder.decodeLightweight
        simp only [bind, Except.bind]
        rw [hraw i r hr]) p
  rw [List.length_mapIdx] at h1
  exact ⟨it, h1, by rw [h2, hl p _ _ _ records (by simp)]⟩

/-- **C28.** Every stream of a whole number of records is of that form, in one way only (C26). -/
theorem C28_every_stream_has_records (data : Bytes) (k : Nat) (h : data.length = 8 + 32 * k) :
    ∃ records : List RawEvent, records.length = k ∧ data = data.take 8 ++ records.flatMap RawEvent.serialize := by
  suffices H : ∀ k (b : Bytes), b.length = 32 * k → ∃ records : List RawEvent, records.length = k ∧ b = records.flatMap RawEvent.serialize by
    obtain ⟨records, h1, h2⟩ := H k (data.drop 8) (by rw [List.length_drop]; omega)
    exact ⟨records, h1, by rw [← h2, List.take_append_drop]⟩
  intro k
  induction k with
  | zero => intro b hb; exact ⟨[], rfl, by simpa using hb⟩
  | succ k ih =>
    intro b hb
    obtain ⟨records, h1, h2⟩ := ih (b.drop 32) (by rw [List.length_drop]; omega)
    obtain ⟨e, _, he, _⟩ := (C26_bijection (b.take 32)).1 (by rw [List.length_take]; omega)
    refine ⟨e :: records, by simp [h1], ?_⟩
    rw [List.flatMap_cons, he, ← h2, List.take_append_drop]

/-- **C28.** What a program recorded is what iteration yields: each recorded event once, in recording order, from either end in any pattern,
with the remaining number always right. -/
theorem C28_recorded_order (start pid : Nat) (hs : start < 2 ^ 64) (hp : pid < 2 ^ 32) (args : List String) (plain : PlainArgs args)
    (counter : CounterKind) (calls : List ProfCall) (p : List Bool) :
    ∃ d, (∃ n, ∀ (diag : Option String) (fuel : Nat), n ≤ fuel → EventDecoder.new diag fuel (profileFile start pid args counter calls) = .ok d) ∧
      ∃ it, usePattern d.decodeLightweight p (Iter.new (recorded calls).length) =
          .ok (takes p ((recorded calls).mapIdx fun i r => ⟨i, r.thread, seen start r.what⟩), it) ∧
        d.numEvents = .ok (recorded calls).length ∧
        it.sizeHint = .ok (leftover p ((recorded calls).mapIdx fun i r => ((⟨i, r.thread, seen start r.what⟩ : LightweightEvent)))).length := by
  obtain ⟨d, h1, _, h3, h4⟩ := C29_profile_round_trip start pid hs hp args plain counter calls
  obtain ⟨it, h5, h6⟩ := C28_iteration_is_list d.decodeLightweight
    ((recorded calls).mapIdx fun i r => (⟨i, r.thread, seen start r.what⟩ : LightweightEvent)) (by
      intro i x hx
      rw [List.getElem?_mapIdx] at hx
      cases hr : (recorded calls)[i]? with
      | none => rw [hr] at hx; cases hx
      | some r =>
        rw [hr] at hx
        simp only [Option.map_some, Option.some.injEq] at hx
        subst hx
        exact (h4 i r hr).1) p
  rw [List.length_mapIdx] at h5
  exact ⟨d, h1, it, h5, h3, h6⟩

/-- A session with three events, taken from the back, the front, the back, and once too often. -/
example : ∃ (d : EventDecoder) (it : Iter), usePattern d.decodeLightweight [false, true, false, true] (Iter.new 3) =
    .ok ([some ⟨2, 7, .integer 4096⟩, some ⟨0, 8, .timestamp (.instant 1011)⟩, some ⟨1, 7, .timestamp (.interval 1010 1500)⟩, none], it) ∧
    it.sizeHint = .ok 0 := by
  obtain ⟨d, _, it, h, _, h'⟩ := C28_recorded_order 1000 42 (by decide) (by decide) ["rustc", "a.rs"] (by decide) .wallTime exCalls
    [false, true, false, true]
  rw [exCalls_recorded] at h h'
  exact ⟨d, it, h, h'⟩

/-- A stream of one record, and one that ends in the middle of a record. -/
example (t : StringTable) (m : Metadata) :
    (⟨List.replicate 40 0, t, m⟩ : EventDecoder).numEvents = .ok 1 ∧
    ∃ msg, (⟨List.replicate 41 0, t, m⟩ : EventDecoder).numEvents = .error (.panic msg) :=
  ⟨(C28_number_of_events _ 1).1.mpr (by simp), (C28_number_of_events _ 0).2 (by intro k; simp; omega)⟩

end Verif.Props
