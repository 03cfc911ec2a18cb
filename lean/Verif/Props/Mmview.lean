import Verif.Model.Mmview
import Verif.Model.Collapse
import Verif.Spec.Mmview
import Verif.Props.Decoder

/-! # C56: mmview -/

namespace Verif.Props

open Verif Verif.Mm Verif.Decode Verif.Mmview Verif.Spec

theorem joinCommas_eq (l : List Bytes) : joinCommas l = (utf8 ",").intercalate l := by
  induction l with
  | nil => simp [joinCommas]
  | cons a l ih =>
    cases l with
    | nil => simp [joinCommas]
    | cons b l =>
      rw [joinCommas, ih, List.intercalate_cons_cons]
      simp

theorem microsSince_eq (g t : Nat) : utf8 (decimal (microsSince t g)) = microseconds g t := by
  unfold microsSince microseconds
  split
  · rfl
  · have : t - g = 0 := by omega
    rw [this]

theorem eventText_eq (e : Event) (g : Nat) : eventText e g = linesBytes (shownLines g e) := by
  have hp : payloadText e.payload g = shownPayload g e := by
    unfold payloadText shownPayload
    cases e.payload with
    | timestamp t => cases t <;> simp only [microsSince_eq]
    | integer v => rfl
  have e1 : utf8 "{\n    kind: " = utf8 "{" ++ [0x0A] ++ utf8 "    kind: " := by decide +kernel
  have e2 : utf8 ",\n    label: " = utf8 "," ++ [0x0A] ++ utf8 "    label: " := by decide +kernel
  have e3 : utf8 ",\n    additional_data: [" = utf8 "," ++ [0x0A] ++ utf8 "    additional_data: [" := by decide +kernel
  have e4 : utf8 "],\n    payload: " = utf8 "]," ++ [0x0A] ++ utf8 "    payload: " := by decide +kernel
  have e5 : utf8 ",\n    thread_id: " = utf8 "," ++ [0x0A] ++ utf8 "    thread_id: " := by decide +kernel
  have e6 : utf8 ",\n}\n" = utf8 "," ++ [0x0A] ++ utf8 "}" ++ [0x0A] := by decide +kernel
  unfold eventText linesBytes shownLines
  rw [hp, joinCommas_eq, e1, e2, e3, e4, e5, e6]
  simp only [List.flatMap_cons, List.flatMap_nil, List.append_assoc, List.append_nil]

/-- The events mmview is asked for. -/
def selected (thread : Option UInt32) (e : Event) : Bool :=
  match thread with
  | some t => decide (e.threadId = t)
  | none => true

theorem printLoop_ok (d : EventDecoder) (fuel : Nat) (thread : Option UInt32) (g : Nat) (k i : Nat) (es : List Event)
    (h : collectFrom (d.decodeFull fuel) i k = .ok es) (out : Bytes) :
    printLoop (v9Data fuel d) thread g i k out =
      ⟨out ++ (es.filter (selected thread)).flatMap (fun e => linesBytes (shownLines g e)), [], .ok ()⟩ := by
  induction k generalizing i es out with
  | zero =>
    simp only [collectFrom, Except.ok.injEq] at h
    subst h
    simp [printLoop]
  | succ k ih =>
    simp only [collectFrom, bind, Except.bind] at h
    split at h
    · simp at h
    · rename_i e he
      split at h
      · simp at h
      · rename_i es' hes
        simp only [Except.ok.injEq] at h
        subst h
        obtain ⟨l, h1, h2, h3, h4, h5⟩ := C28_full_and_lightweight_agree d fuel i e he
        simp only [printLoop]
        have h1' : (v9Data fuel d).decodeLightweight i = .ok l := h1
        have h5' : (v9Data fuel d).decodeFull l.eventIndex = .ok e := h5
        rw [h1']
        simp only
        have hsel : skipped thread l = !selected thread e := by
          unfold selected skipped
          cases thread with
          | none => rfl
          | some t => rw [h2]; simp
        rw [hsel, h5']
        simp only [eventText_eq]
        cases hs : selected thread e with
        | true =>
          simp only [Bool.not_true, Bool.false_eq_true, if_false]
          rw [ih (i + 1) es' hes, List.filter_cons_of_pos hs]
          simp
        | false =>
          simp only [Bool.not_false, if_true]
          rw [ih (i + 1) es' hes, List.filter_cons_of_neg (by simp [hs])]

theorem light_of_full (d : EventDecoder) (fuel k i : Nat) (es : List Event) (h : collectFrom (d.decodeFull fuel) i k = .ok es) :
    ∃ ls, collectFrom d.decodeLightweight i k = .ok ls ∧ ls.filterMap Mmview.start = es.filterMap startMoment := by
  induction k generalizing i es with
  | zero =>
    simp only [collectFrom, Except.ok.injEq] at h
    subst h
    exact ⟨[], rfl, rfl⟩
  | succ k ih =>
    simp only [collectFrom, bind, Except.bind] at h ⊢
    split at h
    · simp at h
    · rename_i e he
      split at h
      · simp at h
      · rename_i es' hes
        simp only [Except.ok.injEq] at h
        subst h
        obtain ⟨l, h1, h2, h3, h4, h5⟩ := C28_full_and_lightweight_agree d fuel i e he
        obtain ⟨ls, h6, h7⟩ := ih (i + 1) es' hes
        refine ⟨l :: ls, by rw [h1, h6], ?_⟩
        have : Mmview.start l = startMoment e := by
          unfold Mmview.start startMoment
          rw [h3]
          cases e.payload with
          | timestamp t => cases t <;> rfl
          | integer v => rfl
        rw [List.filterMap_cons, List.filterMap_cons, this, h7]

theorem fullEvents_parts {d : EventDecoder} {fuel : Nat} {es : List Event} (h : (v9Data fuel d).fullEvents = .ok es) :
    ∃ n, d.numEvents = .ok n ∧ collectFrom (d.decodeFull fuel) 0 n = .ok es := by
  rw [v9_fullEvents] at h
  simp only [bind, Except.bind] at h
  cases hn : d.numEvents with
  | error f => rw [hn] at h; simp at h
  | ok n => rw [hn] at h; exact ⟨n, rfl, h⟩

theorem lightEvents_of {d : EventDecoder} {fuel n : Nat} {ls : List LightweightEvent} (hn : d.numEvents = .ok n)
    (hl : collectFrom d.decodeLightweight 0 n = .ok ls) : (v9Data fuel d).lightEvents = .ok ls := by
  unfold ProfilingData.lightEvents
  simp only [v9Data, bind, Except.bind, hn]
  exact hl

/-- **C56.** mmview prints every event (of the selected thread) once and in order: kind, label, arguments, times in whole
microseconds after the earliest start of any event of the profile, thread; mmview itself sends nothing to standard error (the reports about event ids are C77). -/
theorem C56_prints_events (d : EventDecoder) (fuel : Nat) (es : List Event) (h : (v9Data fuel d).fullEvents = .ok es)
    (thread : Option UInt32) (g : Nat) (hg : EarliestStart es g) :
    ∃ r, mmview (v9Data fuel d) thread = r ∧ r.stderr = [] ∧ r.result = .ok () ∧
      r.stdout = (es.filter fun e => match thread with
        | some t => decide (e.threadId = t)
        | none => true).flatMap fun e => linesBytes (shownLines g e) := by
  obtain ⟨n, hn, hc⟩ := fullEvents_parts h
  obtain ⟨ls, hl, hs⟩ := light_of_full d fuel n 0 es hc
  have hmin : (es.filterMap startMoment).min? = some g := by
    rw [List.min?_eq_some_iff]
    obtain ⟨⟨e, he, hge⟩, hall⟩ := hg
    refine ⟨List.mem_filterMap.2 ⟨e, he, hge⟩, ?_⟩
    intro b hb
    obtain ⟨e', he', hb'⟩ := List.mem_filterMap.1 hb
    exact hall e' he' b hb'
  refine ⟨_, rfl, ?_⟩
  unfold mmview
  rw [lightEvents_of hn hl]
  simp only [hs, hmin]
  have : (v9Data fuel d).numEvents = .ok n := hn
  rw [this]
  simp only
  rw [printLoop_ok d fuel thread g n 0 es hc]
  exact ⟨rfl, rfl, rfl⟩

/-- **C56.** A profile has no earliest start exactly if it has no event with a time; then mmview prints nothing but `No events.`
on standard error, even if there are integer events. -/
theorem C56_no_events (d : EventDecoder) (fuel : Nat) (es : List Event) (h : (v9Data fuel d).fullEvents = .ok es)
    (thread : Option UInt32) :
    ((¬ ∃ g, EarliestStart es g) ↔ ∀ e ∈ es, ∃ v, e.payload = .integer v) ∧
    ((∀ e ∈ es, ∃ v, e.payload = .integer v) → ∃ r, mmview (v9Data fuel d) thread = r ∧ r.stdout = [] ∧
      r.stderr = utf8 "No events.\n" ∧ r.result = .ok ()) := by
  have hnone : (∀ e ∈ es, ∃ v, e.payload = .integer v) ↔ es.filterMap startMoment = [] := by
    rw [List.filterMap_eq_nil_iff]
    refine ⟨fun h e he => ?_, fun h e he => ?_⟩
    · obtain ⟨v, hv⟩ := h e he
      simp [startMoment, hv]
    · have := h e he
      unfold startMoment at this
      split at this
      · simp at this
      · simp at this
      · rename_i v hv; exact ⟨v, hv⟩
  constructor
  · rw [hnone]
    constructor
    · intro hno
      cases hm : (es.filterMap startMoment).min? with
      | none => exact List.min?_eq_none_iff.1 hm
      | some g =>
        exfalso
        apply hno
        rw [List.min?_eq_some_iff] at hm
        obtain ⟨e, he, hge⟩ := List.mem_filterMap.1 hm.1
        exact ⟨g, ⟨e, he, hge⟩, fun e' he' t ht => hm.2 t (List.mem_filterMap.2 ⟨e', he', ht⟩)⟩
    · rintro hnil ⟨g, ⟨e, he, hge⟩, -⟩
      have : g ∈ es.filterMap startMoment := List.mem_filterMap.2 ⟨e, he, hge⟩
      rw [hnil] at this
      simp at this
  · intro hall
    obtain ⟨n, hn, hc⟩ := fullEvents_parts h
    obtain ⟨ls, hl, hs⟩ := light_of_full d fuel n 0 es hc
    refine ⟨_, rfl, ?_⟩
    unfold mmview
    rw [lightEvents_of hn hl]
    simp only [hs, hnone.1 hall, List.min?_nil, and_self]

/-- The light-weight events mmview is asked for. -/
def chosen (thread : Option UInt32) (l : LightweightEvent) : Bool :=
  match thread with
  | some t => decide (l.threadId = t)
  | none => true

theorem skipped_eq (thread : Option UInt32) (l : LightweightEvent) : skipped thread l = !chosen thread l := by
  unfold skipped chosen
  cases thread with
  | none => rfl
  | some t => simp

theorem printLoop_any (p : ProfilingData) (thread : Option UInt32) (g : Nat) (k i : Nat) (ls : List LightweightEvent)
    (h : collectFrom p.decodeLightweight i k = .ok ls) (out : Bytes) :
    (∀ es, List.Forall₂ (fun (l : LightweightEvent) e => p.decodeFull l.eventIndex = .ok e) (ls.filter (chosen thread)) es →
      printLoop p thread g i k out = ⟨out ++ es.flatMap (fun e => linesBytes (shownLines g e)), [], .ok ()⟩) ∧
    (∀ before l after es f, ls.filter (chosen thread) = before ++ l :: after →
      List.Forall₂ (fun (l : LightweightEvent) e => p.decodeFull l.eventIndex = .ok e) before es → p.decodeFull l.eventIndex = .error f →
      printLoop p thread g i k out = ⟨out ++ es.flatMap (fun e => linesBytes (shownLines g e)), [], .error f⟩) := by
  induction k generalizing i ls out with
  | zero =>
    simp only [collectFrom, Except.ok.injEq] at h
    subst h
    refine ⟨fun es hes => ?_, fun before l after es f he _ _ => ?_⟩
    · cases hes
      simp [printLoop]
    · simp at he
  | succ k ih =>
    simp only [collectFrom, bind, Except.bind] at h
    split at h
    · simp at h
    · rename_i l hl
      split at h
      · simp at h
      · rename_i ls' hls
        simp only [Except.ok.injEq] at h
        subst h
        simp only [printLoop, hl, skipped_eq]
        cases hc : chosen thread l with
        | false =>
          simp only [Bool.not_false, if_true]
          rw [List.filter_cons_of_neg (by simp [hc])]
          exact ih (i + 1) ls' hls out
        | true =>
          simp only [Bool.not_true, Bool.false_eq_true, if_false]
          rw [List.filter_cons_of_pos hc]
          refine ⟨fun es hes => ?_, fun before l' after es f he hes hf => ?_⟩
          · cases hes with
            | cons h1 h2 =>
              simp only [h1, eventText_eq]
              rw [(ih (i + 1) ls' hls _).1 _ h2]
              simp
          · cases before with
            | nil =>
              cases hes
              simp only [List.nil_append, List.cons.injEq] at he
              obtain ⟨rfl, _⟩ := he
              simp [hf]
            | cons b before =>
              simp only [List.cons_append, List.cons.injEq] at he
              obtain ⟨rfl, he⟩ := he
              cases hes with
              | cons h1 h2 =>
                simp only [h1, eventText_eq]
                rw [(ih (i + 1) ls' hls _).2 before l' after _ f he h2 hf]
                simp

/-- **C56.** For a profile of any format, and whatever the texts of its other events: mmview reads the texts of the events of the selected thread
only. If all of these can be read it prints all of them; otherwise it prints those before the first that cannot, and ends as reading that one does. The times
are counted from the earliest start of all events, of other threads too. -/
theorem C56_any_profile (p : ProfilingData) (ls : List LightweightEvent) (h : p.lightEvents = .ok ls) (thread : Option UInt32)
    (first : LightweightEvent) (g : Nat) (hfirst : first ∈ ls ∧ lightStart first = some g) (hg : ∀ l ∈ ls, ∀ t, lightStart l = some t → g ≤ t)
    (mine : List LightweightEvent) (hmine : mine = ls.filter fun l => match thread with
      | some t => decide (l.threadId = t)
      | none => true) :
    (∀ es, List.Forall₂ (fun (l : LightweightEvent) e => p.decodeFull l.eventIndex = .ok e) mine es →
      (mmview p thread).stdout = es.flatMap (fun e => linesBytes (shownLines g e)) ∧ (mmview p thread).stderr = [] ∧ (mmview p thread).result = .ok ()) ∧
    (∀ before l after es f, mine = before ++ l :: after →
      List.Forall₂ (fun (l : LightweightEvent) e => p.decodeFull l.eventIndex = .ok e) before es → p.decodeFull l.eventIndex = .error f →
      (mmview p thread).stdout = es.flatMap (fun e => linesBytes (shownLines g e)) ∧ (mmview p thread).result = .error f) := by
  have hs : ∀ l, Mmview.start l = lightStart l := by
    intro l
    unfold Mmview.start lightStart
    cases l.payload with
    | timestamp t => cases t <;> rfl
    | integer v => rfl
  have hmin : (ls.filterMap Mmview.start).min? = some g := by
    rw [List.min?_eq_some_iff]
    refine ⟨List.mem_filterMap.2 ⟨first, hfirst.1, by rw [hs]; exact hfirst.2⟩, ?_⟩
    intro b hb
    obtain ⟨l, hl, hb'⟩ := List.mem_filterMap.1 hb
    exact hg l hl b (by rw [← hs]; exact hb')
  have hm : mine = ls.filter (chosen thread) := hmine
  unfold ProfilingData.lightEvents at h
  simp only [bind, Except.bind] at h
  cases hn : p.numEvents with
  | error f => rw [hn] at h; simp at h
  | ok n =>
    rw [hn] at h
    simp only at h
    obtain ⟨h1, h2⟩ := printLoop_any p thread g n 0 ls h []
    have hv : mmview p thread = printLoop p thread g 0 n [] := by
      unfold mmview ProfilingData.lightEvents
      simp only [bind, Except.bind, hn, h, hmin]
    rw [hv]
    refine ⟨fun es hes => ?_, fun before l after es f he hes hf => ?_⟩
    · rw [h1 es (hm ▸ hes)]
      simp
    · rw [h2 before l after es f (hm ▸ he) hes hf]
      simp

/-- A small decoder: an instant and an interval on different threads, and an integer. -/
def exView : EventDecoder where
  eventData := fileHeader magicEventStream ++
    [RawEvent.packValues 1 2 7 5000 instantMarker, RawEvent.packValues 1 2 8 3000 9999, RawEvent.packValues 1 2 7 12 integerMarker].flatMap RawEvent.serialize
  table := ⟨[97, 0xFF, 98, 0xFF], fun id => if id = 1 then some 0 else if id = 2 then some 2 else none⟩
  metadata := ⟨100, 1, []⟩

theorem exView_events : (v9Data 9 exView).fullEvents = .ok
    [⟨utf8 "a", utf8 "b", [], .timestamp (.instant 5100), 7⟩, ⟨utf8 "a", utf8 "b", [], .timestamp (.interval 3100 10099), 8⟩,
     ⟨utf8 "a", utf8 "b", [], .integer 12, 7⟩] := by decide +kernel

example : EarliestStart [⟨utf8 "a", utf8 "b", [], .timestamp (.instant 5100), 7⟩,
      ⟨utf8 "a", utf8 "b", [], .timestamp (.interval 3100 10099), 8⟩, ⟨utf8 "a", utf8 "b", [], .integer 12, 7⟩] 3100 ∧
    (mmview (v9Data 9 exView) (some 7)).stdout =
      utf8 "{\n    kind: a,\n    label: b,\n    additional_data: [],\n    payload: 2 μs,\n    thread_id: 7,\n}\n{\n    kind: a,\n    label: b,\n    additional_data: [],\n    payload: 12,\n    thread_id: 7,\n}\n" := by
  refine ⟨⟨⟨_, List.mem_cons_of_mem _ List.mem_cons_self, rfl⟩, ?_⟩, by decide +kernel⟩
  intro e he t ht
  simp only [List.mem_cons, List.not_mem_nil, or_false] at he
  rcases he with rfl | rfl | rfl <;> simp [startMoment] at ht <;> omega

/-- The same with a text missing: the events of thread 8 have a label that is not in the table. -/
def exHalf : ProfilingData where
  metadata := ⟨0, 1, []⟩
  numEvents := .ok 2
  decodeLightweight i := .ok (if i = 0 then ⟨0, 8, .timestamp (.instant 1000)⟩ else ⟨1, 7, .timestamp (.instant 5000)⟩)
  decodeFull i := if i = 0 then .error (.panic "no such string") else .ok ⟨utf8 "a", utf8 "b", [], .timestamp (.instant 5000), 7⟩

example : exHalf.lightEvents = .ok [⟨0, 8, .timestamp (.instant 1000)⟩, ⟨1, 7, .timestamp (.instant 5000)⟩] ∧
    exHalf.fullEvents = .error (.panic "no such string") ∧
    (mmview exHalf (some 7)).stdout =
      utf8 "{\n    kind: a,\n    label: b,\n    additional_data: [],\n    payload: 4 μs,\n    thread_id: 7,\n}\n" ∧
    (mmview exHalf none).stdout = [] := by
  refine ⟨by decide +kernel, by decide +kernel, by decide +kernel, by decide +kernel⟩

/-- `collapse_stacks` on it (C41): one stack, and no time without an event. -/
example : Analyze.collapseProfile true (v9Data 9 exView) = .ok [(utf8 "rustc;b", 6999), (utf8 "rustc", 0)] := by decide +kernel

end Verif.Props
