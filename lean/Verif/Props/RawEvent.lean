import Verif.Proofs.RawEvent

/-! # Properties C24–C27: raw events, their encoding, and decoded payloads -/

namespace Verif.Props
open Verif Verif.Mm Verif.Decode

/-! ### C25 (guards) -/

/-- **C25.** `new_interval` succeeds iff `start ≤ end ≤ 2^48 - 3`, otherwise it panics. -/
theorem C25_interval_guard (k : StringId) (id : EventId) (t : UInt32) (s e : UInt64) :
    (IsOk (RawEvent.newInterval k id t s e) ↔ s.toNat ≤ e.toNat ∧ e.toNat ≤ 281474976710653) ∧
    (¬ IsOk (RawEvent.newInterval k id t s e) → IsPanic (RawEvent.newInterval k id t s e)) := by
  have hm : maxIntervalValue.toNat = 281474976710653 := by decide
  unfold RawEvent.newInterval
  simp only [UInt64.le_iff_toNat_le, hm]
  by_cases h1 : s.toNat ≤ e.toNat <;> by_cases h2 : e.toNat ≤ 281474976710653 <;> simp [h1, h2, IsOk, IsPanic]

/-- **C25.** `new_instant` succeeds iff the value fits 48 bits, otherwise it panics. -/
theorem C25_instant_guard (k : StringId) (id : EventId) (t : UInt32) (v : UInt64) :
    (IsOk (RawEvent.newInstant k id t v) ↔ v.toNat < 281474976710656) ∧
    (¬ IsOk (RawEvent.newInstant k id t v) → IsPanic (RawEvent.newInstant k id t v)) := by
  have hm : maxSingleValue.toNat = 281474976710655 := by decide
  unfold RawEvent.newInstant
  simp only [UInt64.le_iff_toNat_le, hm]
  by_cases h1 : v.toNat ≤ 281474976710655
  · simp [h1, IsOk]; omega
  · simp [h1, IsOk, IsPanic]; omega

/-- **C25.** `new_integer` succeeds iff the value fits 48 bits, otherwise it panics. -/
theorem C25_integer_guard (k : StringId) (id : EventId) (t : UInt32) (v : UInt64) :
    (IsOk (RawEvent.newInteger k id t v) ↔ v.toNat < 281474976710656) ∧
    (¬ IsOk (RawEvent.newInteger k id t v) → IsPanic (RawEvent.newInteger k id t v)) := by
  have hm : maxSingleValue.toNat = 281474976710655 := by decide
  unfold RawEvent.newInteger
  simp only [UInt64.le_iff_toNat_le, hm]
  by_cases h1 : v.toNat ≤ 281474976710655
  · simp [h1, IsOk]; omega
  · simp [h1, IsOk, IsPanic]; omega

/-! ### C24 -/

/-- **C24.** An accepted interval reads back unchanged and is neither an instant nor an integer. -/
theorem C24_interval_roundtrip (k : StringId) (id : EventId) (t : UInt32) (s e : UInt64) (ev : RawEvent)
    (h : RawEvent.newInterval k id t s e = .ok ev) :
    ev.eventKind = k ∧ ev.eventId = id ∧ ev.threadId = t ∧ ev.startValue = s ∧ ev.endValue = e ∧
      ev.isInstant = false ∧ ev.isInteger = false := by
  have hg := ((C25_interval_guard k id t s e).1).mp (by rw [h]; trivial)
  have hev : ev = RawEvent.packValues k id t s e := by
    unfold RawEvent.newInterval at h
    split at h
    · simp at h
    · split at h
      · simp at h
      · simpa using h.symm
  subst hev
  have he := endValue_pack k id t s e (by omega)
  refine ⟨rfl, rfl, rfl, startValue_pack k id t s e (by omega) (by omega), he, ?_, ?_⟩
  · simp only [RawEvent.isInstant, he, beq_eq_false_iff_ne, ne_eq]
    intro hc
    have : e.toNat = 281474976710655 := by rw [hc]; decide
    omega
  · simp only [RawEvent.isInteger, he, beq_eq_false_iff_ne, ne_eq]
    intro hc
    have : e.toNat = 281474976710654 := by rw [hc]; decide
    omega

/-- **C24.** An accepted instant reads back unchanged and is an instant only. -/
theorem C24_instant_roundtrip (k : StringId) (id : EventId) (t : UInt32) (v : UInt64) (ev : RawEvent)
    (h : RawEvent.newInstant k id t v = .ok ev) :
    ev.eventKind = k ∧ ev.eventId = id ∧ ev.threadId = t ∧ ev.startValue = v ∧
      ev.isInstant = true ∧ ev.isInteger = false := by
  have hg := ((C25_instant_guard k id t v).1).mp (by rw [h]; trivial)
  have hev : ev = RawEvent.packValues k id t v instantMarker := by
    unfold RawEvent.newInstant at h
    split at h
    · simp at h
    · simpa using h.symm
  subst hev
  have he := endValue_pack k id t v instantMarker (by decide)
  refine ⟨rfl, rfl, rfl, startValue_pack k id t v _ (by omega) (by decide), ?_, ?_⟩
  · simp [RawEvent.isInstant, he]
  · simp only [RawEvent.isInteger, he]; decide

/-- **C24.** An accepted integer reads back unchanged and is an integer only. -/
theorem C24_integer_roundtrip (k : StringId) (id : EventId) (t : UInt32) (v : UInt64) (ev : RawEvent)
    (h : RawEvent.newInteger k id t v = .ok ev) :
    ev.eventKind = k ∧ ev.eventId = id ∧ ev.threadId = t ∧ ev.value = v ∧
      ev.isInstant = false ∧ ev.isInteger = true := by
  have hg := ((C25_integer_guard k id t v).1).mp (by rw [h]; trivial)
  have hev : ev = RawEvent.packValues k id t v integerMarker := by
    unfold RawEvent.newInteger at h
    split at h
    · simp at h
    · simpa using h.symm
  subst hev
  have he := endValue_pack k id t v integerMarker (by decide)
  refine ⟨rfl, rfl, rfl, startValue_pack k id t v _ (by omega) (by decide), ?_, ?_⟩
  · simp only [RawEvent.isInstant, he]; decide
  · simp [RawEvent.isInteger, he]

/-- **C24.** Decoding an accepted event relative to a start time gives the payload that was recorded. -/
theorem C24_decode_payload (k : StringId) (id : EventId) (t : UInt32) (base : Nat) :
    (∀ s e ev, RawEvent.newInterval k id t s e = .ok ev →
      EventPayload.fromRawEvent ev base = .timestamp (.interval (base + s.toNat) (base + e.toNat))) ∧
    (∀ v ev, RawEvent.newInstant k id t v = .ok ev →
      EventPayload.fromRawEvent ev base = .timestamp (.instant (base + v.toNat))) ∧
    (∀ v ev, RawEvent.newInteger k id t v = .ok ev →
      EventPayload.fromRawEvent ev base = .integer v.toNat) := by
  refine ⟨?_, ?_, ?_⟩
  · intro s e ev h
    obtain ⟨_, _, _, hs, he, h1, h2⟩ := C24_interval_roundtrip k id t s e ev h
    simp [EventPayload.fromRawEvent, Timestamp.fromRawEvent, h1, h2, hs, he]
  · intro v ev h
    obtain ⟨_, _, _, hs, h1, h2⟩ := C24_instant_roundtrip k id t v ev h
    simp [EventPayload.fromRawEvent, Timestamp.fromRawEvent, h1, h2, hs]
  · intro v ev h
    obtain ⟨_, _, _, hs, h1, h2⟩ := C24_integer_roundtrip k id t v ev h
    simp [EventPayload.fromRawEvent, h2, hs]

/-- **C24.** Every raw event, from whatever bytes, is determined by its ids, thread and two payload values, which are
below 2^48: no bit of the three payload words is unused or shared. -/
theorem C24_payloads_determine_event (a b : RawEvent)
    (hk : a.eventKind = b.eventKind) (hi : a.eventId = b.eventId) (ht : a.threadId = b.threadId)
    (hs : a.startValue = b.startValue) (he : a.endValue = b.endValue) :
    a = b ∧ a.startValue.toNat < 281474976710656 ∧ a.endValue.toNat < 281474976710656 := by
  refine ⟨?_, startValue_lt a, endValue_lt a⟩
  rw [← pack_unpack a, ← pack_unpack b, hk, hi, ht, hs, he]

/-- **C24.** Every 96-bit payload occurs: any two 48-bit values are the payload of some raw event. -/
theorem C24_payloads_surjective (k : StringId) (id : EventId) (t : UInt32) (x y : UInt64)
    (hx : x.toNat < 281474976710656) (hy : y.toNat < 281474976710656) :
    ∃ e : RawEvent, e.eventKind = k ∧ e.eventId = id ∧ e.threadId = t ∧ e.startValue = x ∧ e.endValue = y :=
  ⟨RawEvent.packValues k id t x y, rfl, rfl, rfl, startValue_pack k id t x y hx hy, endValue_pack k id t x y hy⟩

/-- **C24.** No event is both an instant and an integer. -/
theorem C24_kinds_disjoint (e : RawEvent) : ¬ (e.isInstant = true ∧ e.isInteger = true) := by
  simp only [RawEvent.isInstant, RawEvent.isInteger, beq_iff_eq]
  rintro ⟨h1, h2⟩
  rw [h1] at h2
  exact absurd h2 (by decide)

example : ∃ ev, RawEvent.newInterval 7 8 9 0x123456789ABC 0xFFFFFFFFFFFD = .ok ev ∧
    ev.startValue = 0x123456789ABC ∧ ev.endValue = 0xFFFFFFFFFFFD := ⟨_, rfl, by decide, by decide⟩
example : IsPanic (RawEvent.newInterval 7 8 9 0 0xFFFFFFFFFFFE) ∧ IsPanic (RawEvent.newInterval 7 8 9 2 1) ∧
    IsPanic (RawEvent.newInstant 7 8 9 0x1000000000000) ∧ IsOk (RawEvent.newInteger 7 8 9 0xFFFFFFFFFFFF) := by decide

/-! ### C26 -/

/-- **C26.** Serialization yields 32 bytes and deserialization inverts it. -/
theorem C26_roundtrip (e : RawEvent) :
    e.serialize.length = 32 ∧ RawEvent.deserialize e.serialize = .ok e :=
  ⟨serialize_length e, deserialize_serialize e⟩

/-- **C26.** Every 32-byte string is the serialization of exactly one event; other lengths panic. -/
theorem C26_bijection (b : Bytes) :
    (b.length = 32 → ∃ e, RawEvent.deserialize b = .ok e ∧ e.serialize = b ∧ ∀ e', e'.serialize = b → e' = e) ∧
    (b.length ≠ 32 → IsPanic (RawEvent.deserialize b)) := by
  constructor
  · intro hb
    cases h : RawEvent.deserialize b with
    | error f => simp [RawEvent.deserialize, RawEvent.size, hb] at h
    | ok e =>
      refine ⟨e, rfl, (serialize_deserialize b e h).2, ?_⟩
      intro e' he'
      have := deserialize_serialize e'
      rw [he', h] at this
      exact (Except.ok.inj this).symm
  · intro hb
    simp [RawEvent.deserialize, RawEvent.size, hb, IsPanic]

/-- **C26.** The documented layout: byte `j` of each little-endian field sits at the field's offset
(0: kind, 8: id, 16: thread, 20: payload1 low, 24: payload2 low, 28: upper halves). -/
theorem C26_layout (e : RawEvent) :
    (∀ j, j < 8 → e.serialize[j]? = some (UInt8.ofNat (e.eventKind.toNat / 256 ^ j % 256))) ∧
    (∀ j, j < 8 → e.serialize[8 + j]? = some (UInt8.ofNat (e.eventId.toNat / 256 ^ j % 256))) ∧
    (∀ j, j < 4 → e.serialize[16 + j]? = some (UInt8.ofNat (e.threadId.toNat / 256 ^ j % 256))) ∧
    (∀ j, j < 4 → e.serialize[20 + j]? = some (UInt8.ofNat (e.payload1Lower.toNat / 256 ^ j % 256))) ∧
    (∀ j, j < 4 → e.serialize[24 + j]? = some (UInt8.ofNat (e.payload2Lower.toNat / 256 ^ j % 256))) ∧
    (∀ j, j < 4 → e.serialize[28 + j]? = some (UInt8.ofNat (e.payloadsUpper.toNat / 256 ^ j % 256))) := by
  have le : ∀ n x j, j < n → (leBytes n x)[j]? = some (UInt8.ofNat (x / 256 ^ j % 256)) := by
    intro n
    induction n with
    | zero => intro x j h; omega
    | succ n ih =>
      intro x j h
      cases j with
      | zero => simp [leBytes]
      | succ j =>
        simp only [leBytes, List.getElem?_cons_succ]
        rw [ih _ _ (by omega), Nat.div_div_eq_div_mul, Nat.pow_succ, Nat.mul_comm 256]
  have mid : ∀ (a m b : Bytes) (i j : Nat), a.length = i → j < m.length → (a ++ m ++ b)[i + j]? = m[j]? := by
    intro a m b i j hi hj
    rw [List.append_assoc, List.getElem?_append_right (by omega), ← hi, Nat.add_sub_cancel_left,
      List.getElem?_append_left hj]
  simp only [RawEvent.serialize]
  refine ⟨?_, ?_, ?_, ?_, ?_, ?_⟩
  · intro j hj
    have := mid [] (leBytes 8 e.eventKind.toNat) (leBytes 8 e.eventId.toNat ++ leBytes 4 e.threadId.toNat ++
      leBytes 4 e.payload1Lower.toNat ++ leBytes 4 e.payload2Lower.toNat ++ leBytes 4 e.payloadsUpper.toNat) 0 j
      rfl (by simpa using hj)
    rw [le 8 _ j hj] at this
    simpa using this
  · intro j hj
    have := mid (leBytes 8 e.eventKind.toNat) (leBytes 8 e.eventId.toNat) (leBytes 4 e.threadId.toNat ++
      leBytes 4 e.payload1Lower.toNat ++ leBytes 4 e.payload2Lower.toNat ++ leBytes 4 e.payloadsUpper.toNat) 8 j
      (by simp) (by simpa using hj)
    rw [le 8 _ j hj] at this
    simpa using this
  · intro j hj
    have := mid (leBytes 8 e.eventKind.toNat ++ leBytes 8 e.eventId.toNat) (leBytes 4 e.threadId.toNat)
      (leBytes 4 e.payload1Lower.toNat ++ leBytes 4 e.payload2Lower.toNat ++ leBytes 4 e.payloadsUpper.toNat) 16 j
      (by simp) (by simpa using hj)
    rw [le 4 _ j hj] at this
    simpa using this
  · intro j hj
    have := mid (leBytes 8 e.eventKind.toNat ++ leBytes 8 e.eventId.toNat ++ leBytes 4 e.threadId.toNat)
      (leBytes 4 e.payload1Lower.toNat) (leBytes 4 e.payload2Lower.toNat ++ leBytes 4 e.payloadsUpper.toNat) 20 j
      (by simp) (by simpa using hj)
    rw [le 4 _ j hj] at this
    simpa using this
  · intro j hj
    have := mid (leBytes 8 e.eventKind.toNat ++ leBytes 8 e.eventId.toNat ++ leBytes 4 e.threadId.toNat ++
      leBytes 4 e.payload1Lower.toNat) (leBytes 4 e.payload2Lower.toNat) (leBytes 4 e.payloadsUpper.toNat) 24 j
      (by simp) (by simpa using hj)
    rw [le 4 _ j hj] at this
    simpa using this
  · intro j hj
    have := mid (leBytes 8 e.eventKind.toNat ++ leBytes 8 e.eventId.toNat ++ leBytes 4 e.threadId.toNat ++
      leBytes 4 e.payload1Lower.toNat ++ leBytes 4 e.payload2Lower.toNat) (leBytes 4 e.payloadsUpper.toNat) [] 28 j
      (by simp) (by simpa using hj)
    rw [le 4 _ j hj] at this
    simpa using this

example : (RawEvent.mk 0x0102030405060708 9 0xAABBCCDD 1 2 3).serialize =
    [8, 7, 6, 5, 4, 3, 2, 1, 9, 0, 0, 0, 0, 0, 0, 0, 0xDD, 0xCC, 0xBB, 0xAA, 1, 0, 0, 0, 2, 0, 0, 0, 3, 0, 0, 0] := by
  decide

/-! ### C27 -/

/-- **C27.** `contains` on payloads means: an interval contains another interval iff it starts no later and ends no
earlier, an instant iff it lies between start and end (inclusive); nothing else contains or is contained. -/
theorem C27_contains_meaning (p q : EventPayload) :
    p.contains q = true ↔ ∃ s e, p = .timestamp (.interval s e) ∧
      ((∃ s' e', q = .timestamp (.interval s' e') ∧ s ≤ s' ∧ e' ≤ e) ∨
       (∃ t, q = .timestamp (.instant t) ∧ s ≤ t ∧ t ≤ e)) := by
  match p, q with
  | .timestamp (.interval s e), .timestamp (.interval s' e') =>
    simp only [EventPayload.contains, Bool.and_eq_true, decide_eq_true_eq]
    constructor
    · intro h; exact ⟨s, e, rfl, Or.inl ⟨s', e', rfl, h.1, h.2⟩⟩
    · rintro ⟨a, b, hab, ⟨c, d, hcd, h1, h2⟩ | ⟨t, ht, _⟩⟩
      · cases hab; cases hcd; exact ⟨h1, h2⟩
      · cases ht
  | .timestamp (.interval s e), .timestamp (.instant t) =>
    simp only [EventPayload.contains, Bool.and_eq_true, decide_eq_true_eq]
    constructor
    · intro h; exact ⟨s, e, rfl, Or.inr ⟨t, rfl, h.1, h.2⟩⟩
    · rintro ⟨a, b, hab, ⟨c, d, hcd, h1, h2⟩ | ⟨t', ht, h1, h2⟩⟩
      · cases hcd
      · cases hab; cases ht; exact ⟨h1, h2⟩
  | .timestamp (.interval s e), .integer v => simp [EventPayload.contains]
  | .timestamp (.instant _), _ => simp [EventPayload.contains]
  | .integer _, _ => simp [EventPayload.contains]

/-- **C27.** Containment is reflexive on intervals, transitive and antisymmetric. -/
theorem C27_contains_order (p q r : EventPayload) :
    (p.isInterval = true → p.contains p = true) ∧
    (p.contains q = true → q.contains r = true → p.contains r = true) ∧
    (p.contains q = true → q.contains p = true → p = q) := by
  refine ⟨?_, ?_, ?_⟩
  · match p with
    | .timestamp (.interval s e) => simp [EventPayload.contains]
    | .timestamp (.instant _) => simp [EventPayload.isInterval]
    | .integer _ => simp [EventPayload.isInterval]
  · simp only [C27_contains_meaning]
    rintro ⟨s, e, rfl, h1⟩ ⟨s', e', rfl, h2⟩
    refine ⟨s, e, rfl, ?_⟩
    rcases h1 with ⟨a, b, hab, h3, h4⟩ | ⟨t, ht, _⟩
    · simp at hab
      obtain ⟨rfl, rfl⟩ := hab
      rcases h2 with ⟨c, d, hcd, h5, h6⟩ | ⟨t, ht, h5, h6⟩
      · exact Or.inl ⟨c, d, hcd, by omega, by omega⟩
      · exact Or.inr ⟨t, ht, by omega, by omega⟩
    · simp at ht
  · simp only [C27_contains_meaning]
    rintro ⟨s, e, rfl, h1⟩ ⟨s', e', rfl, h2⟩
    rcases h1 with ⟨a, b, hab, h3, h4⟩ | ⟨t, ht, _⟩
    · simp at hab
      obtain ⟨rfl, rfl⟩ := hab
      rcases h2 with ⟨c, d, hcd, h5, h6⟩ | ⟨t, ht, _⟩
      · simp at hcd
        obtain ⟨rfl, rfl⟩ := hcd
        have : s = s' := by omega
        have : e = e' := by omega
        simp [*]
      · simp at ht
    · simp at ht

/-- **C27.** A contained interval is no longer than its container; a recorded interval always has a duration, `end -
start`; instants and integers have none. -/
theorem C27_duration (p q : EventPayload) :
    (∀ dp dq, p.contains q = true → p.duration = some dp → q.duration = some dq → dq ≤ dp) ∧
    (∀ s e, s ≤ e → (EventPayload.timestamp (.interval s e)).duration = some (e - s)) ∧
    (p.isInterval = false → p.duration = none) := by
  refine ⟨?_, ?_, ?_⟩
  · intro dp dq hc hp hq
    obtain ⟨s, e, rfl, h1⟩ := (C27_contains_meaning p q).mp hc
    rcases h1 with ⟨a, b, rfl, h3, h4⟩ | ⟨t, rfl, _⟩
    · simp only [EventPayload.duration, Timestamp.duration] at hp hq
      split at hp <;> split at hq <;> simp at hp hq
      omega
    · simp [EventPayload.duration, Timestamp.duration] at hq
  · intro s e h
    simp [EventPayload.duration, Timestamp.duration, h]
  · match p with
    | .timestamp (.interval s e) => simp [EventPayload.isInterval]
    | .timestamp (.instant _) => simp [EventPayload.duration, Timestamp.duration]
    | .integer _ => simp [EventPayload.duration]

/-- **C27.** `Timestamp::contains` is the half-open interval: it includes the start and excludes the end, so the
intervals `[a,b)` and `[b,c)` never both contain a time. -/
theorem C27_timestamp_half_open (a b c t : Nat) :
    ((Timestamp.interval a b).contains t = true ↔ a ≤ t ∧ t < b) ∧
    ¬ ((Timestamp.interval a b).contains t = true ∧ (Timestamp.interval b c).contains t = true) ∧
    (Timestamp.instant a).contains t = false := by
  simp [Timestamp.contains]
  omega

/-- **C27.** The start and the end a timestamp reports are those it was made from; together with `contains` they bound the same time, and they are all
there is to a timestamp, apart from the kind. -/
theorem C27_start_and_end (T : Timestamp) (s e t : Nat) :
    (Timestamp.interval s e).start = s ∧ (Timestamp.interval s e).stop = e ∧ (Timestamp.instant t).start = t ∧ (Timestamp.instant t).stop = t ∧
    (T.contains t = true ↔ T.start ≤ t ∧ t < T.stop) ∧ (T = .interval T.start T.stop ∨ T = .instant T.start) := by
  refine ⟨rfl, rfl, rfl, rfl, ?_, ?_⟩
  · cases T with
    | interval a b => simp [Timestamp.contains, Timestamp.start, Timestamp.stop]
    | instant a => simp [Timestamp.contains, Timestamp.start, Timestamp.stop]
  · cases T <;> simp [Timestamp.start, Timestamp.stop]

/-- **C27.** Each payload is exactly one of interval, instant, integer. -/
theorem C27_kind_exactly_one (p : EventPayload) :
    (p.isInterval, p.isInstant, p.isInteger) ∈ [(true, false, false), (false, true, false), (false, false, true)] := by
  match p with
  | .timestamp (.interval s e) => simp [EventPayload.isInterval, EventPayload.isInstant, EventPayload.isInteger]
  | .timestamp (.instant _) => simp [EventPayload.isInterval, EventPayload.isInstant, EventPayload.isInteger]
  | .integer _ => simp [EventPayload.isInterval, EventPayload.isInstant, EventPayload.isInteger]

/-- **C27 (malformed data).** A decoded interval that ends before it starts has no duration. -/
theorem C27_reversed_interval_no_duration (s e : Nat) (h : e < s) :
    (EventPayload.timestamp (.interval s e)).duration = none := by
  simp [EventPayload.duration, Timestamp.duration]; omega

example : (EventPayload.timestamp (.interval 1 5)).contains (.timestamp (.interval 1 3)) = true ∧
    (EventPayload.timestamp (.interval 1 5)).contains (.timestamp (.interval 0 3)) = false ∧
    (EventPayload.timestamp (.interval 1 5)).contains (.timestamp (.instant 5)) = true := by decide

end Verif.Props
