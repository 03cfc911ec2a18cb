import Verif.Spec.Profiler
import Verif.Proofs.StringFast
import Verif.Props.RawEvent
import Mathlib.Data.List.Induction
import Mathlib.Data.List.Forall2

namespace Verif.Mm

open Verif Verif.Spec Verif.Decode Verif.Props

/-! ## Logs and their table entries -/

/-- Is this a string table call? -/
def isTab : SessionOp × Except Fault (Option StringId) → Bool
  | (.table _, _) => true
  | (.custom _ _, _) => true
  | _ => false

theorem binds_nontab {x} (h : isTab x = false) (v : StringId) : binds v x = none := by
  obtain ⟨o, r⟩ := x
  cases o with
  | table o => simp [isTab] at h
  | custom size fill => simp [isTab] at h
  | events c => simp [binds]
  | flush i => simp [binds]

theorem unbound_filter {L : TableLog} {v} : Unbound (L.filter isTab) v ↔ Unbound L v := by
  constructor
  · intro h x hx
    cases ht : isTab x with
    | true => exact h x (List.mem_filter.mpr ⟨hx, ht⟩)
    | false => exact binds_nontab ht v
  · intro h x hx
    exact h x (List.mem_filter.mp hx).1

theorem bound_filter {L : TableLog} {v} {b} : Bound (L.filter isTab) v b → Bound L v b := by
  intro h
  induction L using List.reverseRecOn generalizing b with
  | nil => simpa using h
  | append_singleton L x ih =>
    rw [List.filter_append] at h
    cases ht : isTab x with
    | true =>
      rw [List.filter_cons_of_pos ht, List.filter_nil] at h
      rw [bound_snoc] at h ⊢
      exact h.imp id (fun h => ⟨h.1, ih h.2⟩)
    | false =>
      rw [List.filter_cons_of_neg (by simp [ht]), List.filter_nil, List.append_nil] at h
      rw [bound_snoc]
      exact .inr ⟨binds_nontab ht v, ih h⟩

theorem allocated_filter {L : TableLog} {id cs} : Allocated (L.filter isTab) id cs → Allocated L id cs := by
  rintro ⟨t, ht, hm⟩
  exact ⟨t, ht, (List.mem_filter.mp hm).1⟩

theorem nextAddr_filter (L : TableLog) : nextAddr (L.filter isTab) = nextAddr L := by
  unfold nextAddr
  congr 1
  induction L with
  | nil => rfl
  | cons x L ih =>
    cases ht : isTab x with
    | true => simp [ht, ih]
    | false =>
      have : textSize x = 0 := by
        obtain ⟨o, r⟩ := x
        cases o with
        | table o => simp [isTab] at ht
        | custom size fill => simp [isTab] at ht
        | events c => rfl
        | flush i => rfl
      simp [ht, ih, this]

theorem storedAt_filter {L : TableLog} {id a cs} : StoredAt (L.filter isTab) id a cs → StoredAt L id a cs := by
  intro h
  cases h with
  | allocated h h' => exact .allocated (allocated_filter h) h'
  | mapped h h' h'' => exact .mapped (bound_filter h) (allocated_filter h') h''
  | @metadata l1 l2 t r hl hn =>
    obtain ⟨m1, m2, e, e1, e2⟩ := List.filter_eq_append_iff.mp hl
    obtain ⟨m3, m4, e3, e4, e5, e6⟩ := List.filter_eq_cons_iff.mp e2
    subst e3
    have : nextAddr l1 = nextAddr (m1 ++ m3) := by
      rw [← nextAddr_filter (m1 ++ m3), List.filter_append, e1, List.filter_eq_nil_iff.mpr (by simpa using e4), List.append_nil]
    rw [this]
    refine .metadata (l2 := m4) (r := r) (by rw [e]; simp) ?_
    intro y hy
    cases ht : isTab y with
    | false => exact binds_nontab ht _
    | true => exact hn y (by rw [← e6]; exact List.mem_filter.mpr ⟨hy, ht⟩)

theorem TabRel.filter {L : TableLog} {t : StringTable} (rel : TabRel L t) : TabRel (L.filter isTab) t where
  entry := by
    intro id cs he
    have he' : Entry L id cs := by
      rcases he with h | ⟨c, hb, hc⟩ | h
      · exact .inl (allocated_filter h)
      · exact .inr (.inl ⟨c, bound_filter hb, allocated_filter hc⟩)
      · exact .inr (.inr (bound_filter h))
    obtain ⟨a, h1, h2, h3, h4⟩ := rel.entry id cs he'
    exact ⟨a, h1, h2, h3, fun c hc hal => h4 c (hc.imp_right bound_filter) (allocated_filter hal)⟩
  unknown := by
    intro id hu
    exact rel.unknown id (hu.imp (fun h => ⟨h.1, unbound_filter.mp h.2⟩) (fun h => h))
  located := by
    intro id a cs h
    exact rel.located id a cs (storedAt_filter h)

/-! ## Raw events and records -/

/-- The raw event carries what was recorded. -/
def Enc (e : RawEvent) (r : Recorded) : Prop :=
  e.eventKind = r.kind ∧ e.eventId = r.id ∧ e.threadId = r.thread ∧ ∀ base, EventPayload.fromRawEvent e base = seen base r.what

/-- Either nothing is recorded and the constructor panics, or the event is encoded. -/
def Made (x : Except Fault RawEvent) (rs : List Recorded) : Prop :=
  (rs = [] ∧ ∃ why, x = .error (.panic why)) ∨ ∃ e r, rs = [r] ∧ x = .ok e ∧ Enc e r

theorem isPanic_elim {α : Type} {x : Except Fault α} (h : IsPanic x) : ∃ why, x = .error (.panic why) := by
  match x, h with
  | .error (.panic w), _ => exact ⟨w, rfl⟩

theorem isOk_elim {α : Type} {x : Except Fault α} (h : IsOk x) : ∃ a, x = .ok a := by
  match x, h with
  | .ok a, _ => exact ⟨a, rfl⟩

theorem made_interval (k id t : _) (s e : UInt64) (p : Pending) (hp : p = ⟨k, id, t, s.toNat⟩) (id' : EventId) :
    Made (RawEvent.newInterval k id' t s e) (finished p id' e) := by
  subst hp
  obtain ⟨h1, h2⟩ := C25_interval_guard k id' t s e
  by_cases h : s.toNat ≤ e.toNat ∧ e.toNat ≤ 281474976710653
  · obtain ⟨ev, hev⟩ := isOk_elim (h1.mpr h)
    obtain ⟨a, b, c, _⟩ := C24_interval_roundtrip k id' t s e ev hev
    refine .inr ⟨ev, _, by rw [finished, if_pos h], hev, a, b, c, fun base => ?_⟩
    rw [(C24_decode_payload k id' t base).1 s e ev hev]
    rfl
  · left
    refine ⟨by rw [finished, if_neg h], isPanic_elim (h2 (fun ho => h (h1.mp ho)))⟩

theorem made_instant (k id t : _) (v : UInt64) : Made (RawEvent.newInstant k id t v) (single k id t v .instant) := by
  obtain ⟨h1, h2⟩ := C25_instant_guard k id t v
  by_cases h : v.toNat ≤ 281474976710655
  · obtain ⟨ev, hev⟩ := isOk_elim (h1.mpr (by omega))
    obtain ⟨a, b, c, _⟩ := C24_instant_roundtrip k id t v ev hev
    refine .inr ⟨ev, _, by rw [single, if_pos h], hev, a, b, c, fun base => ?_⟩
    rw [(C24_decode_payload k id t base).2.1 v ev hev]
    rfl
  · left
    refine ⟨by rw [single, if_neg h], isPanic_elim (h2 (fun ho => ?_))⟩
    have := h1.mp ho
    omega

theorem made_integer (k id t : _) (v : UInt64) : Made (RawEvent.newInteger k id t v) (single k id t v .integer) := by
  obtain ⟨h1, h2⟩ := C25_integer_guard k id t v
  by_cases h : v.toNat ≤ 281474976710655
  · obtain ⟨ev, hev⟩ := isOk_elim (h1.mpr (by omega))
    obtain ⟨a, b, c, _⟩ := C24_integer_roundtrip k id t v ev hev
    refine .inr ⟨ev, _, by rw [single, if_pos h], hev, a, b, c, fun base => ?_⟩
    rw [(C24_decode_payload k id t base).2.2 v ev hev]
    rfl
  · left
    refine ⟨by rw [single, if_neg h], isPanic_elim (h2 (fun ho => ?_))⟩
    have := h1.mp ho
    omega

/-! ## The invariant -/

/-- The sinks agree with the string calls and the events recorded. -/
structure RecInv (tl : TableLog) (recs : List Recorded) (w : World) : Prop where
  inv : ∃ L h raws, SInv (fileHeader magicEventStream) L h w ∧ L.filter isTab = tl ∧
    L.flatMap evPayload = raws.flatMap RawEvent.serialize ∧ List.Forall₂ Enc raws recs

theorem rawFill_ok (e : RawEvent) : rawEventFill e (List.replicate 32 0) = .ok e.serialize := by
  simp [rawEventFill, RawEvent.size]

theorem rawEvent_good (e : RawEvent) : GoodOp (.events (.writeAtomic 32 (rawEventFill e))) :=
  ⟨e.serialize, rawFill_ok e, serialize_length e⟩

theorem rawEvent_payload (e : RawEvent) : payload (.writeAtomic 32 (rawEventFill e)) = e.serialize := by
  rw [payload, rawFill_ok]

/-- A recording call: the constructor, then the write. -/
def recordOf (x : Except Fault RawEvent) : Act World (Option StringId) := noId (do let r ← liftE x; recordRawEvent r)

theorem recordOf_ok (e : RawEvent) (w : World) :
    recordOf (.ok e) w = SessionOp.run (.events (.writeAtomic 32 (rawEventFill e))) w := by
  show noId (recordRawEvent e) w = _
  simp only [noId, recordRawEvent, SessionOp.run, RawEvent.size]
  rw [Act.bind_apply, Act.bind_apply, Act.bind_apply]
  cases h : World.call profTags 0 (.writeAtomic 32 (rawEventFill e)) w with
  | mk r w' => cases r <;> rfl

theorem recordOf_error (f : Fault) (w : World) : recordOf (.error f) w = (.error f, w) := rfl

theorem RecInv.tab {tl recs w} (i : RecInv tl recs w) (o : TableOp) :
    RecInv (tl ++ [(.table o, ((SessionOp.table o).run w).1)]) recs ((SessionOp.table o).run w).2 := by
  obtain ⟨L, h, raws, si, hf, he, hr⟩ := i
  obtain ⟨h', si'⟩ := si.step (.table o) trivial
  refine ⟨_, _, raws, si', ?_, ?_, hr⟩
  · rw [List.filter_append, hf]
    simp [isTab]
  · rw [List.flatMap_append, he]
    simp [evPayload]

theorem RecInv.foreign {tl recs w} (i : RecInv tl recs w) (b : Bytes) :
    RecInv (tl ++ [(.custom b.length (fun _ => .ok b), ((SessionOp.custom b.length (fun _ => .ok b)).run w).1)]) recs
      ((SessionOp.custom b.length (fun _ => .ok b)).run w).2 := by
  obtain ⟨L, h, raws, si, hf, he, hr⟩ := i
  obtain ⟨h', si'⟩ := si.step (.custom b.length (fun _ => .ok b)) ⟨b, rfl, rfl⟩
  refine ⟨_, _, raws, si', ?_, ?_, hr⟩
  · rw [List.filter_append, hf]
    simp [isTab]
  · rw [List.flatMap_append, he]
    simp [evPayload]

theorem RecInv.record {tl recs w x rs} (i : RecInv tl recs w) (hm : Made x rs) :
    RecInv tl (recs ++ rs) (recordOf x w).2 ∧ ((rs ≠ [] ∧ (recordOf x w).1 = .ok none) ∨ (rs = [] ∧ ∃ why, (recordOf x w).1 = .error (.panic why))) := by
  obtain ⟨L, h, raws, si, hf, he, hr⟩ := i
  rcases hm with ⟨rfl, why, rfl⟩ | ⟨e, r, rfl, rfl, henc⟩
  · rw [recordOf_error]
    exact ⟨⟨L, h, raws, si, hf, he, by simpa using hr⟩, .inr ⟨rfl, why, rfl⟩⟩
  · rw [recordOf_ok]
    obtain ⟨h', si'⟩ := si.step (.events (.writeAtomic 32 (rawEventFill e))) (rawEvent_good e)
    refine ⟨⟨_, _, raws ++ [e], si', ?_, ?_, ?_⟩, .inl ⟨by simp, ?_⟩⟩
    · rw [List.filter_append, hf]
      simp [isTab]
    · rw [List.flatMap_append, he]
      simp [evPayload, rawEvent_payload]
    · exact List.rel_append hr (.cons henc .nil)
    · rw [si.world]
      obtain ⟨r, hr, _⟩ := call_good h si.good 0 (.writeAtomic 32 (rawEventFill e)) (rawEvent_good e)
      simp only [SessionOp.run]
      rw [Act.bind_ok hr]
      rfl

/-- What is pending, from a guard. -/
def pendG (g : TimingGuard) : Pending := ⟨g.eventKind, g.eventId, g.threadId, g.startCount.toNat⟩
def pendD (g : DetachedTiming) : Pending := ⟨g.eventKind, g.eventId, g.threadId, g.startCount.toNat⟩

structure PInv (tl : TableLog) (l : Ledger) (s : ProfState) : Prop where
  w : RecInv tl l.events s.world
  guards : ∀ g, l.guards g = (s.guards g).map pendG
  detached : ∀ g, l.detached g = (s.detached g).map pendD

/-- The outcome of one call on a profiler, apart from the string table calls. -/
def okOutcome (l : Ledger) (c : ProfCall) : Prop := (asTable (c, .ok none)).isSome ∨ (∃ g k id t now, c = .start g k id t now ∨ c = .startDetached g k id t now) ∨
  l.events.length < (l.step c).events.length

theorem put_map {α β : Type} (f : α → β) (a : Nat → Option β) (b : Nat → Option α) (h : ∀ g, a g = (b g).map f) (g : Nat) (v : Option α) :
    ∀ i, put a g (v.map f) i = (setAt b g v i).map f := by
  intro i
  simp only [put, setAt]
  split <;> simp [h]

theorem PInv.step {tl l s} (i : PInv tl l s) (c : ProfCall) :
    PInv (tl ++ (asTable (c, (c.run s).1)).toList) (l.step c) (c.run s).2 ∧
      ((asTable (c, (c.run s).1)) = none → (okOutcome l c → (c.run s).1 = .ok none) ∧ (¬ okOutcome l c → ∃ f, (c.run s).1 = .error f)) := by
  obtain ⟨iw, ig, id⟩ := i
  have rec_done : ∀ {tl recs w x rs} (l : Ledger) (c : ProfCall), (asTable (c, .ok none)) = none → (∀ g k id t now, c ≠ .start g k id t now ∧ c ≠ .startDetached g k id t now) →
      RecInv tl recs w → Made x rs → l.events = recs → (l.step c).events = recs ++ rs →
      RecInv tl (recs ++ rs) (recordOf x w).2 ∧ ((okOutcome l c → (recordOf x w).1 = .ok none) ∧ (¬ okOutcome l c → ∃ f, (recordOf x w).1 = .error f)) := by
    intro tl recs w x rs l c hc hs iw hm h1 h2
    obtain ⟨hw, ho⟩ := iw.record hm
    refine ⟨hw, ?_, ?_⟩
    · intro hok
      rcases ho with ⟨_, h⟩ | ⟨hnil, _⟩
      · exact h
      · subst hnil
        rcases hok with h | ⟨g, k, id, t, now, h | h⟩ | h
        · rw [hc] at h; simp at h
        · exact ((hs g k id t now).1 h).elim
        · exact ((hs g k id t now).2 h).elim
        · rw [h2, h1] at h; simp at h
    · intro hok
      rcases ho with ⟨hne, h⟩ | ⟨hnil, why, h⟩
      · exact (hok (.inr (.inr (by rw [h2, h1]; cases rs with
          | nil => exact absurd rfl hne
          | cons a b => simp)))).elim
      · exact ⟨_, h⟩
  cases c with
  | allocString t => exact ⟨⟨iw.tab (.alloc t), ig, id⟩, fun h => by simp [asTable] at h⟩
  | allocForeign b => exact ⟨⟨iw.foreign b, ig, id⟩, fun h => by simp [asTable] at h⟩
  | mapVirtual v c => exact ⟨⟨iw.tab (.mapVirtual v c), ig, id⟩, fun h => by simp [asTable] at h⟩
  | bulkMapVirtual vs c => exact ⟨⟨iw.tab (.bulkMapVirtual vs c), ig, id⟩, fun h => by simp [asTable] at h⟩
  | instant k ev t now =>
    obtain ⟨h1, h2⟩ := rec_done l (.instant k ev t now) rfl (by simp) iw (made_instant k ev t now) rfl rfl
    exact ⟨⟨by rw [← List.append_nil tl] at h1; exact h1, ig, id⟩, fun _ => h2⟩
  | integer k ev t v =>
    obtain ⟨h1, h2⟩ := rec_done l (.integer k ev t v) rfl (by simp) iw (made_integer k ev t v) rfl rfl
    exact ⟨⟨by rw [← List.append_nil tl] at h1; exact h1, ig, id⟩, fun _ => h2⟩
  | start g k ev t now =>
    refine ⟨⟨by rw [← List.append_nil tl] at iw; exact iw, ?_, id⟩, fun _ => ⟨fun _ => rfl, fun h => (h (.inr (.inl ⟨g, k, ev, t, now, .inl rfl⟩))).elim⟩⟩
    exact put_map pendG l.guards s.guards ig g (some (startInterval k ev t now))
  | startDetached g k ev t now =>
    refine ⟨⟨by rw [← List.append_nil tl] at iw; exact iw, ig, ?_⟩, fun _ => ⟨fun _ => rfl, fun h => (h (.inr (.inl ⟨g, k, ev, t, now, .inr rfl⟩))).elim⟩⟩
    exact put_map pendD l.detached s.detached id g (some (startDetached k ev t now))
  | finish g now =>
    cases hg : s.guards g with
    | none =>
      have hl : l.guards g = none := by rw [ig, hg]; rfl
      have e1 : (ProfCall.finish g now).run s = (.error (.err "no such guard"), s) := by simp only [ProfCall.run, hg]
      have e2 : l.step (.finish g now) = l := by simp only [Ledger.step, hl]
      rw [e1, e2]
      refine ⟨⟨by simpa [asTable] using iw, ig, id⟩, fun _ => ⟨fun h => ?_, fun _ => ⟨_, rfl⟩⟩⟩
      rcases h with h | ⟨g, k, ev, t, now, h | h⟩ | h
      · simp [asTable] at h
      · simp at h
      · simp at h
      · rw [e2] at h; omega
    | some gd =>
      have hl : l.guards g = some (pendG gd) := by rw [ig, hg]; rfl
      have e1 : (ProfCall.finish g now).run s = onWorld (recordOf (RawEvent.newInterval gd.eventKind gd.eventId gd.threadId gd.startCount now) s.world) { s with guards := setAt s.guards g none } := by
        simp only [ProfCall.run, hg]; rfl
      have e2 : l.step (.finish g now) = { l with guards := put l.guards g none, events := l.events ++ finished (pendG gd) (pendG gd).id now } := by
        simp only [Ledger.step, hl]
      obtain ⟨h1, h2⟩ := rec_done l (.finish g now) rfl (by simp) iw (made_interval gd.eventKind gd.eventId gd.threadId gd.startCount now (pendG gd) rfl gd.eventId) rfl (by rw [e2]; rfl)
      rw [e1]
      refine ⟨?_, fun _ => h2⟩
      rw [e2]
      exact ⟨by rw [← List.append_nil tl] at h1; exact h1, put_map pendG l.guards s.guards ig g none, id⟩
  | finishOverride g ev now =>
    cases hg : s.guards g with
    | none =>
      have hl : l.guards g = none := by rw [ig, hg]; rfl
      have e1 : (ProfCall.finishOverride g ev now).run s = (.error (.err "no such guard"), s) := by simp only [ProfCall.run, hg]
      have e2 : l.step (.finishOverride g ev now) = l := by simp only [Ledger.step, hl]
      rw [e1, e2]
      refine ⟨⟨by simpa [asTable] using iw, ig, id⟩, fun _ => ⟨fun h => ?_, fun _ => ⟨_, rfl⟩⟩⟩
      rcases h with h | ⟨g, k, ev, t, now, h | h⟩ | h
      · simp [asTable] at h
      · simp at h
      · simp at h
      · rw [e2] at h; omega
    | some gd =>
      have hl : l.guards g = some (pendG gd) := by rw [ig, hg]; rfl
      have e1 : (ProfCall.finishOverride g ev now).run s = onWorld (recordOf (RawEvent.newInterval gd.eventKind ev gd.threadId gd.startCount now) s.world) { s with guards := setAt s.guards g none } := by
        simp only [ProfCall.run, hg]; rfl
      have e2 : l.step (.finishOverride g ev now) = { l with guards := put l.guards g none, events := l.events ++ finished (pendG gd) ev now } := by
        simp only [Ledger.step, hl]
      obtain ⟨h1, h2⟩ := rec_done l (.finishOverride g ev now) rfl (by simp) iw (made_interval gd.eventKind gd.eventId gd.threadId gd.startCount now (pendG gd) rfl ev) rfl (by rw [e2])
      rw [e1]
      refine ⟨?_, fun _ => h2⟩
      rw [e2]
      exact ⟨by rw [← List.append_nil tl] at h1; exact h1, put_map pendG l.guards s.guards ig g none, id⟩
  | finishDetached g now =>
    cases hg : s.detached g with
    | none =>
      have hl : l.detached g = none := by rw [id, hg]; rfl
      have e1 : (ProfCall.finishDetached g now).run s = (.error (.err "no such timing"), s) := by simp only [ProfCall.run, hg]
      have e2 : l.step (.finishDetached g now) = l := by simp only [Ledger.step, hl]
      rw [e1, e2]
      refine ⟨⟨by simpa [asTable] using iw, ig, id⟩, fun _ => ⟨fun h => ?_, fun _ => ⟨_, rfl⟩⟩⟩
      rcases h with h | ⟨g, k, ev, t, now, h | h⟩ | h
      · simp [asTable] at h
      · simp at h
      · simp at h
      · rw [e2] at h; omega
    | some gd =>
      have hl : l.detached g = some (pendD gd) := by rw [id, hg]; rfl
      have e1 : (ProfCall.finishDetached g now).run s = onWorld (recordOf (RawEvent.newInterval gd.eventKind gd.eventId gd.threadId gd.startCount now) s.world) { s with detached := setAt s.detached g none } := by
        simp only [ProfCall.run, hg]; rfl
      have e2 : l.step (.finishDetached g now) = { l with detached := put l.detached g none, events := l.events ++ finished (pendD gd) (pendD gd).id now } := by
        simp only [Ledger.step, hl]
      obtain ⟨h1, h2⟩ := rec_done l (.finishDetached g now) rfl (by simp) iw (made_interval gd.eventKind gd.eventId gd.threadId gd.startCount now (pendD gd) rfl gd.eventId) rfl (by rw [e2]; rfl)
      rw [e1]
      refine ⟨?_, fun _ => h2⟩
      rw [e2]
      exact ⟨by rw [← List.append_nil tl] at h1; exact h1, ig, put_map pendD l.detached s.detached id g none⟩

theorem PInv.run {tl l s} (i : PInv tl l s) (calls : List ProfCall) :
    PInv (tl ++ (calls.zip (runProf calls s).1).filterMap asTable) (calls.foldl Ledger.step l) (runProf calls s).2 := by
  induction calls generalizing tl l s with
  | nil => simpa [runProf] using i
  | cons c cs ih =>
    have h1 := (i.step c).1
    have h2 := ih h1
    simp only [runProf, List.zip_cons_cons, List.foldl_cons]
    rw [List.append_assoc] at h2
    have e : (asTable (c, (c.run s).1)).toList ++ (cs.zip (runProf cs (c.run s).2).1).filterMap asTable =
        ((c, (c.run s).1) :: cs.zip (runProf cs (c.run s).2).1).filterMap asTable := by
      rw [List.filterMap_cons]
      cases asTable (c, (c.run s).1) <;> simp
    rw [← e]
    exact h2

theorem newProfiler_inv (md : String) :
    (newProfiler md World.init).1 = .ok () ∧
    PInv [(.table (.allocMetadata (.str md)), .ok none)] .empty (profInit md) := by
  have h0 : (run profTags []).2 = World.init := rfl
  obtain ⟨e1, g1⟩ := writeAllTo_run 0 (fileHeaderWrites magicEventStream) [] (by simp [AllGood])
  rw [h0] at e1
  simp only [List.nil_append] at e1 g1
  have hw0 : written 0 ((fileHeaderWrites magicEventStream).map (fun b => ((0 : Nat), SinkCall.stdWrite b))) = fileHeader magicEventStream := by
    simp [written, fileHeaderWrites, fileHeader, payload]
  obtain ⟨h', ok1, inv1, hd⟩ := newBuilder_inv _ g1 (by simp [fileHeaderWrites])
  rw [hw0] at inv1
  have e2 : newBuilder (run profTags ((fileHeaderWrites magicEventStream).map (fun b => ((0 : Nat), SinkCall.stdWrite b)))).2 =
      (.ok (), (newBuilder (run profTags ((fileHeaderWrites magicEventStream).map (fun b => ((0 : Nat), SinkCall.stdWrite b)))).2).2) :=
    Prod.ext ok1 rfl
  generalize hh : (fileHeaderWrites magicEventStream).map (fun b => ((0 : Nat), SinkCall.stdWrite b)) ++ h' = h at *
  generalize hw : (newBuilder (run profTags ((fileHeaderWrites magicEventStream).map (fun b => ((0 : Nat), SinkCall.stdWrite b)))).2).2 = w at *
  have hlen : (written 1 h).length + 100000003 < 2 ^ 64 := by
    rw [hd]; decide
  have hr : Mm.allocMetadata (.str md) w = (.ok (), (Mm.allocMetadata (.str md) w).2) := by
    rw [inv1.world]
    rcases allocMetadata_run h inv1.good (.str md) with ⟨_, hr⟩ | ⟨hn, _⟩
    · exact Prod.ext (by rw [hr]) rfl
    · exact absurd hlen hn
  have e3 : newProfiler md World.init = (.ok (), (Mm.allocMetadata (.str md) w).2) := by
    unfold newProfiler
    rw [Act.bind_ok e1, Act.bind_ok e2, hr]
  have e4 : (SessionOp.table (.allocMetadata (.str md))).run w = (.ok none, (Mm.allocMetadata (.str md) w).2) := by
    simp only [SessionOp.run, TableOp.run]
    rw [Act.bind_ok hr]
    rfl
  refine ⟨by rw [e3], ?_, fun _ => rfl, fun _ => rfl⟩
  have hwi : RecInv [] [] w := ⟨[], h, [], inv1, rfl, rfl, .nil⟩
  have := hwi.tab (.allocMetadata (.str md))
  rw [e4] at this
  simp only [profInit, e3]
  exact this

theorem prof_inv (md : String) (calls : List ProfCall) :
    PInv (stringLog md calls) (ledger calls) (runProf calls (profInit md)).2 := by
  have := (newProfiler_inv md).2.run calls
  simpa [stringLog, profOutcomes, ledger] using this

end Verif.Mm
