import Verif.Proofs.Decoder
import Verif.Spec.Iter
import Verif.Props.EventId

/-! # Properties C28–C30 and C32: opening and reading a profile -/

namespace Verif.Props
open Verif Verif.Mm Verif.Spec Verif.Decode Verif.Json

/-! ### C28 -/

/-- Use the iterator: `true` calls `next`, `false` calls `next_back`; also returns the final state. -/
def usePattern {α : Type} (decode : Nat → Except Fault α) : List Bool → Iter → Except Fault (List (Option α) × Iter)
  | [], it => .ok ([], it)
  | b :: p, it => do
    let (x, it) ← if b then it.next decode else it.nextBack decode
    let (xs, it) ← usePattern decode p it
    .ok (x :: xs, it)

theorem usePattern_spec {α : Type} (decode : Nat → Except Fault α) (p : List Bool) :
    ∀ (l : List α) (it : Iter), it.backward = it.forward + l.length → (∀ i x, l[i]? = some x → decode (it.forward + i) = .ok x) →
      ∃ it', usePattern decode p it = .ok (takes p l, it') ∧ it'.backward = it'.forward + (leftover p l).length := by
  induction p with
  | nil => intro l it h _; exact ⟨it, rfl, h⟩
  | cons b p ih =>
    intro l it h hd
    cases b with
    | true =>
      cases l with
      | nil =>
        have e : it.forward = it.backward := by simpa using h.symm
        obtain ⟨it', h1, h2⟩ := ih [] it h hd
        refine ⟨it', ?_, h2⟩
        simp only [usePattern, Iter.next, if_pos e, if_true, bind, Except.bind, h1, takes, List.head?_nil, List.tail_nil]
      | cons x l =>
        have e : it.forward ≠ it.backward := by simp at h; omega
        have hx := hd 0 x rfl
        obtain ⟨it', h1, h2⟩ := ih l { it with forward := it.forward + 1 } (by simp at h ⊢; omega) (by
          intro i y hy
          have := hd (i + 1) y (by simpa using hy)
          simpa [Nat.add_assoc, Nat.add_comm 1 i] using this)
        refine ⟨it', ?_, h2⟩
        rw [Nat.add_zero] at hx
        simp only [usePattern, Iter.next, if_neg e, if_true, bind, Except.bind, hx, h1, takes, List.head?_cons, List.tail_cons]
    | false =>
      rcases List.eq_nil_or_concat l with rfl | ⟨l', x, rfl⟩
      · have e : it.forward = it.backward := by simpa using h.symm
        obtain ⟨it', h1, h2⟩ := ih [] it h hd
        refine ⟨it', ?_, h2⟩
        simp only [usePattern, Iter.nextBack, if_pos e, Bool.false_eq_true, if_false, bind, Except.bind, h1, takes, List.getLast?_nil, List.dropLast_nil]
      · rw [List.concat_eq_append] at h hd ⊢
        rw [List.length_append, List.length_singleton] at h
        have e : it.forward ≠ it.backward := by omega
        have e0 : it.backward ≠ 0 := by omega
        have hx : decode (it.backward - 1) = .ok x := by
          have := hd l'.length x (by simp)
          rwa [show it.backward - 1 = it.forward + l'.length by omega]
        obtain ⟨it', h1, h2⟩ := ih l' { it with backward := it.backward - 1 } (by show it.backward - 1 = it.forward + _; omega) (by
          intro i y hy
          exact hd i y (by rw [List.getElem?_append_left (by exact (List.getElem?_eq_some_iff.mp hy).1)]; exact hy))
        refine ⟨it', ?_, by simpa [leftover] using h2⟩
        simp only [usePattern, Iter.nextBack, if_neg e, if_neg e0, Bool.false_eq_true, if_false, bind, Except.bind, hx, h1, takes]
        simp

/-- **C28.** Taking events from the front and the back in any pattern gives what taking them from the ends of the list of
events gives, and the reported remaining length is right at the end of every pattern (so at every point). -/
theorem C28_iteration_is_list {α : Type} (decode : Nat → Except Fault α) (events : List α)
    (hd : ∀ i x, events[i]? = some x → decode i = .ok x) (p : List Bool) :
    ∃ it, usePattern decode p (Iter.new events.length) = .ok (takes p events, it) ∧ it.sizeHint = .ok (leftover p events).length := by
  obtain ⟨it, h1, h2⟩ := usePattern_spec decode p events (Iter.new events.length) (by simp [Iter.new]) (by simpa [Iter.new] using hd)
  refine ⟨it, h1, ?_⟩
  rw [Iter.sizeHint, if_neg (by omega)]
  congr 1
  omega

/-- **C28.** Whatever the pattern, every event is taken exactly once: those taken from the front, then those left, then those
taken from the back (reversed) are exactly the events in recording order. -/
theorem C28_each_event_once {α : Type} (p : List Bool) (events : List α) :
    takenFrom true p (takes p events) ++ leftover p events ++ (takenFrom false p (takes p events)).reverse = events := by
  induction p generalizing events with
  | nil => simp [takenFrom, takes, leftover]
  | cons b p ih =>
    cases b with
    | true =>
      cases events with
      | nil =>
        have := ih []
        simpa [takenFrom, takes, leftover] using this
      | cons x l =>
        have := ih l
        simpa [takenFrom, takes, leftover] using this
    | false =>
      rcases List.eq_nil_or_concat events with rfl | ⟨l, x, rfl⟩
      · have := ih []
        simpa [takenFrom, takes, leftover] using this
      · have := ih l
        rw [List.concat_eq_append]
        simp only [takenFrom, takes, leftover, List.zip_cons_cons, List.filterMap_cons, if_true, List.getLast?_append, List.getLast?_singleton,
          Option.some_or, List.dropLast_concat, List.reverse_cons, Bool.false_eq_true, if_false] at this ⊢
        rw [← List.append_assoc, this]

/-- **C28.** Iterating to the end yields exactly `num_events` events. -/
theorem C28_collects_all {α : Type} (decode : Nat → Except Fault α) (n i : Nat) (es : List α) (h : collectFrom decode i n = .ok es) :
    es.length = n ∧ ∀ j x, es[j]? = some x → decode (i + j) = .ok x := by
  induction n generalizing i es with
  | zero => simp only [collectFrom, Except.ok.injEq] at h; subst h; simp
  | succ n ih =>
    simp only [collectFrom, bind, Except.bind] at h
    split at h
    · simp at h
    · rename_i e he
      split at h
      · simp at h
      · rename_i es' hes
        simp only [Except.ok.injEq] at h
        subst h
        obtain ⟨h1, h2⟩ := ih _ _ hes
        refine ⟨by simp [h1], ?_⟩
        intro j x hj
        cases j with
        | zero => simp at hj; subst hj; simpa using he
        | succ j =>
          simp at hj
          have := h2 j x hj
          rwa [show i + (j + 1) = i + 1 + j by omega]

/-- **C28.** Full and lightweight decoding agree on every event: whenever the full event decodes, so does the lightweight one,
with the same thread and payload, and its index leads back to the full event. -/
theorem C28_full_and_lightweight_agree (d : EventDecoder) (fuel i : Nat) (e : Event) (h : d.decodeFull fuel i = .ok e) :
    ∃ l, d.decodeLightweight i = .ok l ∧ l.threadId = e.threadId ∧ l.payload = e.payload ∧ l.eventIndex = i ∧
      d.decodeFull fuel l.eventIndex = .ok e := by
  refine (?_ : ∃ l, d.decodeLightweight i = .ok l ∧ l.threadId = e.threadId ∧ l.payload = e.payload ∧ l.eventIndex = i).elim
    (fun l ⟨a, b, c, f⟩ => ⟨l, a, b, c, f, by rw [f]; exact h⟩)
  unfold EventDecoder.decodeFull at h
  unfold EventDecoder.decodeLightweight
  simp only [bind, Except.bind] at h ⊢
  split at h
  · simp at h
  · rename_i raw hraw
    refine ⟨_, rfl, ?_⟩
    split at h
    · simp at h
    · split at h
      · simp at h
      · split at h
        · simp at h
        · simp only [Except.ok.injEq] at h
          subst h
          exact ⟨rfl, rfl, rfl⟩

example : ∃ it, usePattern (fun i => if i < 3 then (.ok (i * 10) : Except Fault Nat) else .error .outOfFuel) [false, true, false, true] (Iter.new 3) =
    .ok ([some 20, some 0, some 10, none], it) ∧ it.sizeHint = .ok 0 := by
  have := C28_iteration_is_list (fun i => if i < 3 then (.ok (i * 10) : Except Fault Nat) else .error .outOfFuel) [0, 10, 20] (by
    intro i x h
    match i, h with
    | 0, h => simp at h; subst h; rfl
    | 1, h => simp at h; subst h; rfl
    | 2, h => simp at h; subst h; rfl
    | n + 3, h => simp at h) [false, true, false, true]
  simpa [takes, leftover] using this

/-! ### C29 -/

/-- The file a profiler saved. -/
def profileFile (start pid : Nat) (args : List String) (counter : CounterKind) (calls : List ProfCall) : Bytes :=
  savedFile (metadataText start pid args counter) calls

/-- The string table calls of a profiler session. -/
def profileLog (start pid : Nat) (args : List String) (counter : CounterKind) (calls : List ProfCall) : TableLog :=
  stringLog (metadataText start pid args counter) calls

theorem forall2_get {α β : Type} {R : α → β → Prop} {l : List α} {l' : List β} (h : List.Forall₂ R l l') (i : Nat) (b : β) (hb : l'[i]? = some b) :
    ∃ a, l[i]? = some a ∧ R a b := by
  induction h generalizing i with
  | nil => simp at hb
  | cons hab _ ih =>
    cases i with
    | zero => simp at hb; subst hb; exact ⟨_, rfl, hab⟩
    | succ i => simpa using ih i (by simpa using hb)

/-- **C29.** Every profile recorded with plain command-line arguments (the others do not open, `C32_opens_iff_plain`) is opened
by the decoder, carries the metadata recorded at the start, and contains exactly the recorded events in order with their
threads and values; the kind is the text its id is shown as, and label and arguments are the fields of the text the event id
is shown as. -/
theorem C29_profile_round_trip (start pid : Nat) (hs : start < 2 ^ 64) (hp : pid < 2 ^ 32) (args : List String) (plain : PlainArgs args)
    (counter : CounterKind) (calls : List ProfCall) :
    ∃ d, (∃ n, ∀ (diag : Option String) (fuel : Nat), n ≤ fuel → EventDecoder.new diag fuel (profileFile start pid args counter calls) = .ok d) ∧
      d.metadata = ⟨start, pid, utf8 (commandLine args)⟩ ∧
      d.numEvents = .ok (recorded calls).length ∧
      ∀ i r, (recorded calls)[i]? = some r →
        d.decodeLightweight i = .ok ⟨i, r.thread, seen start r.what⟩ ∧
        ∀ kind label as, Shown (profileLog start pid args counter calls) r.kind kind →
          Shown (profileLog start pid args counter calls) r.id (joined label as) → SepFree label → (∀ a ∈ as, SepFree a) →
          ∃ n, ∀ fuel, n ≤ fuel → d.decodeFull fuel i =
            .ok ⟨utf8 kind, utf8 (decodedId label as).1, (decodedId label as).2.map utf8, seen start r.what, r.thread⟩ := by
  obtain ⟨t, ev, o⟩ := open_profile (metadataText start pid args counter) calls
  obtain ⟨n, hn⟩ := o.opens
  rw [parseMetadata_record start pid args counter hs hp, if_pos plain] at hn
  obtain ⟨raws, hev, hr⟩ := o.events
  obtain ⟨hnum, hraw⟩ := rawEvent_of ⟨ev, t, ⟨start, pid, utf8 (commandLine args)⟩⟩ raws hev
  refine ⟨⟨ev, t, ⟨start, pid, utf8 (commandLine args)⟩⟩, ⟨n, hn⟩, rfl, ?_, ?_⟩
  · rw [hnum, hr.length_eq]
  · intro i r hir
    obtain ⟨e, he, h1, h2, h3, h4⟩ := forall2_get hr i r hir
    have hre := hraw i e he
    constructor
    · unfold EventDecoder.decodeLightweight
      rw [hre]
      simp only [bind, Except.bind, h3, h4]
    · intro kind label as hk hid okl oka
      obtain ⟨n1, hn1⟩ := shown_toStr o.rel hk
      obtain ⟨n2, hn2⟩ := shown_toStr o.rel hid
      refine ⟨max n1 n2, fun fuel hf => ?_⟩
      unfold EventDecoder.decodeFull
      rw [hre]
      simp only [bind, Except.bind, h1, h2, h3, h4]
      rw [hn2 fuel (by omega)]
      simp only []
      rw [parseEventId_joined label as okl oka]
      simp only []
      rw [hn1 fuel (by omega)]
      unfold decodedId
      by_cases ht : TextOk label
      · simp only [if_pos ht]
      · simp only [if_neg ht, List.map_nil]

/-- **C29.** Proper labels and arguments come back as they are. -/
theorem C29_proper_fields (label : String) (as : List String) (okl : TextOk label) (oka : ∀ a ∈ as, TextOk a) :
    decodedId label as = (label, as) ∧ SepFree label ∧ ∀ a ∈ as, SepFree a := by
  refine ⟨?_, textOk_sepFree okl, fun a h => textOk_sepFree (oka a h)⟩
  unfold decodedId
  rw [if_pos okl, takeWhile_all (fun a h => by simpa using oka a h)]

/-- **C29.** Every text is made of separator-free fields, so the round trip speaks about every event id that is shown. -/
theorem C29_every_text_has_fields (s : String) : ∃ label as, SepFree label ∧ (∀ a ∈ as, SepFree a) ∧ s = joined label as :=
  exists_fields s

/-- **C29.** Every id that denotes a text is shown as some text. -/
theorem C29_every_meaning_is_shown (md : String) (calls : List ProfCall) (id : StringId) (m : String)
    (h : Means (stringLog md calls) id m) : ∃ s, Shown (stringLog md calls) id s := by
  obtain ⟨t, ev, o⟩ := open_profile md calls
  exact means_shown o.rel h

/-- **C29.** In a profile every entry that begins with text or is at most 119 bytes long is shown in full. -/
theorem C29_shown_in_full (start pid : Nat) (args : List String) (counter : CounterKind) (calls : List ProfCall) (id : StringId)
    (cs : List StringComponent) (s : String) (he : Entry (profileLog start pid args counter calls) id cs)
    (hr : Reads (profileLog start pid args counter calls) cs s)
    (h : leadingRef cs = none ∨ (encText cs).length ≤ 119) : Shown (profileLog start pid args counter calls) id s := by
  obtain ⟨t, ev, o⟩ := open_profile (metadataText start pid args counter) calls
  exact o.shown (metadata_length _ _ _ _) he hr h

/-- **C29.** A plain string allocated in the session is shown in full: the hypothesis of the round trip, from the calls. -/
theorem C29_plain_shown (start pid : Nat) (args : List String) (counter : CounterKind) (calls : List ProfCall) (s : String) (id : StringId)
    (h : (ProfCall.allocString (.str s), .ok (some id)) ∈ calls.zip (profOutcomes (metadataText start pid args counter) calls)) :
    Shown (profileLog start pid args counter calls) id s := by
  have hal : Allocated (profileLog start pid args counter calls) id [.value s] :=
    ⟨.table (.alloc (.str s)), rfl, List.mem_cons_of_mem _ (List.mem_filterMap.mpr ⟨_, h, rfl⟩)⟩
  refine C29_shown_in_full start pid args counter calls id _ s (.inl hal) (reads_str _ s) (.inl ?_)
  simp [leadingRef]

/-- **C29.** An event id made of a label and up to ten arguments allocated in the session is shown in full. -/
theorem C29_event_id_shown (start pid : Nat) (cmd : List String) (counter : CounterKind) (calls : List ProfCall) (label : StringId)
    (args : List StringId) (id : StringId) (L : String) (as : List String) (few : args.length ≤ 10)
    (h : (ProfCall.allocString (labelAndArgs label args), .ok (some id)) ∈ calls.zip (profOutcomes (metadataText start pid cmd counter) calls))
    (hL : Means (profileLog start pid cmd counter calls) label L) (hA : MeansAll (profileLog start pid cmd counter calls) args as) :
    Shown (profileLog start pid cmd counter calls) id (joined L as) := by
  have hal : Allocated (profileLog start pid cmd counter calls) id (components (labelAndArgs label args)) :=
    ⟨.table (.alloc (labelAndArgs label args)), rfl, List.mem_cons_of_mem _ (List.mem_filterMap.mpr ⟨_, h, rfl⟩)⟩
  exact C29_shown_in_full start pid cmd counter calls id _ _ (.inl hal) (reads_event_id hL hA) (.inr (by rw [encText_labelAndArgs]; omega))

/-- **C29.** Every call is answered: recording calls with values in range succeed (and are recorded), the others panic and
record nothing. -/
theorem C29_recorded_iff_ok (md : String) (calls : List ProfCall) (c : ProfCall) :
    let s := (runProf calls (profInit md)).2
    (∀ k id t now, c = .instant k id t now → (now.toNat ≤ 281474976710655 ↔ (c.run s).1 = .ok none)) ∧
    (∀ k id t v, c = .integer k id t v → (v.toNat ≤ 281474976710655 ↔ (c.run s).1 = .ok none)) ∧
    (∀ g p now, c = .finish g now → (ledger calls).guards g = some p →
      (p.start ≤ now.toNat ∧ now.toNat ≤ 281474976710653 ↔ (c.run s).1 = .ok none)) ∧
    (∀ g p now, c = .finishDetached g now → (ledger calls).detached g = some p →
      (p.start ≤ now.toNat ∧ now.toNat ≤ 281474976710653 ↔ (c.run s).1 = .ok none)) := by
  intro s
  have hinv := prof_inv md calls
  have hst := (hinv.step c).2
  have key : ∀ (P : Prop), (asTable (c, (c.run s).1)) = none → (okOutcome (ledger calls) c ↔ P) → (P ↔ (c.run s).1 = .ok none) := by
    intro P h1 h2
    rw [← h2]
    constructor
    · exact (hst h1).1
    · intro h
      by_contra hn
      obtain ⟨f, hf⟩ := (hst h1).2 hn
      change (c.run s).1 = _ at hf
      rw [h] at hf
      simp at hf
  refine ⟨?_, ?_, ?_, ?_⟩
  · rintro k id t now rfl
    refine key _ rfl ?_
    simp [okOutcome, asTable, Ledger.step, single]
    split <;> simp_all
  · rintro k id t now rfl
    refine key _ rfl ?_
    simp [okOutcome, asTable, Ledger.step, single]
    split <;> simp_all
  · rintro g p now rfl hg
    refine key _ rfl ?_
    simp [okOutcome, asTable, Ledger.step, hg, finished]
    split <;> simp_all
  · rintro g p now rfl hg
    refine key _ rfl ?_
    simp [okOutcome, asTable, Ledger.step, hg, finished]
    split <;> simp_all

/-- A session with an interval (argument `u32`), an instant, an integer and a value that is out of range. -/
def exCalls : List ProfCall :=
  [.allocString (.str "Query"), .allocString (.str "type_of"), .allocString (.str "u32"), .allocString (labelAndArgs 100000189 [100000197]),
   .start 0 100000183 100000201 7 10, .instant 100000183 100000189 8 11, .finish 0 500, .integer 100000183 100000189 7 4096,
   .instant 5 6 7 281474976710656]

/-- Its metadata. -/
def exMetadata : String := metadataText 1000 42 ["rustc", "a.rs"] .wallTime

theorem exCalls_strings : (exCalls.zip (profOutcomes exMetadata exCalls)).take 4 =
    [(.allocString (.str "Query"), .ok (some 100000183)), (.allocString (.str "type_of"), .ok (some 100000189)),
     (.allocString (.str "u32"), .ok (some 100000197)), (.allocString (labelAndArgs 100000189 [100000197]), .ok (some 100000201))] := by
  have h : (profOutcomes exMetadata exCalls).take 4 =
      [.ok (some 100000183), .ok (some 100000189), .ok (some 100000197), .ok (some 100000201)] := by decide +kernel
  rw [List.zip, List.take_zipWith, h]
  rfl

theorem exCalls_recorded : recorded exCalls =
    [⟨100000183, 100000189, 8, .instant 11⟩, ⟨100000183, 100000201, 7, .interval 10 500⟩, ⟨100000183, 100000189, 7, .integer 4096⟩] := by
  decide +kernel

example : ∃ d, (∃ n, ∀ (diag : Option String) (fuel : Nat), n ≤ fuel → EventDecoder.new diag fuel (profileFile 1000 42 ["rustc", "a.rs"] .wallTime exCalls) = .ok d) ∧
    d.metadata = ⟨1000, 42, utf8 "rustc a.rs "⟩ ∧ d.numEvents = .ok 3 ∧
    ∃ n, ∀ fuel, n ≤ fuel → d.decodeFull fuel 1 = .ok ⟨utf8 "Query", utf8 "type_of", [utf8 "u32"], .timestamp (.interval 1010 1500), 7⟩ := by
  obtain ⟨d, h1, h2, h3, h4⟩ := C29_profile_round_trip 1000 42 (by decide) (by decide) ["rustc", "a.rs"] (by decide) .wallTime exCalls
  refine ⟨d, h1, h2, by rw [h3, exCalls_recorded]; rfl, ?_⟩
  have mem : ∀ x ∈ (exCalls.zip (profOutcomes exMetadata exCalls)).take 4, x ∈ exCalls.zip (profOutcomes exMetadata exCalls) :=
    fun x hx => List.mem_of_mem_take hx
  rw [exCalls_strings] at mem
  have r1 := C29_plain_shown 1000 42 ["rustc", "a.rs"] .wallTime exCalls "Query" 100000183 (mem _ (by simp))
  have hl : Means (stringLog exMetadata exCalls) 100000189 "type_of" :=
    entry_means (.inl ⟨.table (.alloc (.str "type_of")), rfl, List.mem_cons_of_mem _ (List.mem_filterMap.mpr ⟨_, mem (ProfCall.allocString (.str "type_of"), .ok (some 100000189)) (by simp), rfl⟩)⟩) (reads_str _ _)
  have ha : Means (stringLog exMetadata exCalls) 100000197 "u32" :=
    entry_means (.inl ⟨.table (.alloc (.str "u32")), rfl, List.mem_cons_of_mem _ (List.mem_filterMap.mpr ⟨_, mem (ProfCall.allocString (.str "u32"), .ok (some 100000197)) (by simp), rfl⟩)⟩) (reads_str _ _)
  have r2 := C29_event_id_shown 1000 42 ["rustc", "a.rs"] .wallTime exCalls 100000189 [100000197] 100000201 "type_of" ["u32"] (by decide) (mem _ (by simp)) hl ⟨ha, trivial⟩
  obtain ⟨p1, p2, p3⟩ := C29_proper_fields "type_of" ["u32"] (by decide) (by
    intro a ha; simp only [List.mem_cons, List.not_mem_nil, or_false] at ha; subst ha; decide)
  have := (h4 1 ⟨100000183, 100000201, 7, .interval 10 500⟩ (by rw [exCalls_recorded]; rfl)).2 "Query" "type_of" ["u32"] r1 r2 p2 p3
  rw [p1] at this
  exact this

/-! ### C32 -/

/-- **C32.** The exact condition for a profile to be readable: it opens iff all command-line characters are plain; otherwise
opening reports an error. -/
theorem C32_opens_iff_plain (start pid : Nat) (hs : start < 2 ^ 64) (hp : pid < 2 ^ 32) (args : List String)
    (counter : CounterKind) (calls : List ProfCall) :
    ∃ n, ∀ fuel, n ≤ fuel →
      (PlainArgs args → ∃ d, EventDecoder.new diag fuel (profileFile start pid args counter calls) = .ok d ∧ d.metadata.cmd = utf8 (commandLine args)) ∧
      (¬ PlainArgs args → ∃ why, EventDecoder.new diag fuel (profileFile start pid args counter calls) = .error (.err why)) := by
  obtain ⟨t, ev, o⟩ := open_profile (metadataText start pid args counter) calls
  obtain ⟨n, hn⟩ := o.opens
  rw [parseMetadata_record start pid args counter hs hp] at hn
  refine ⟨n, fun fuel hf => ⟨fun h => ?_, fun h => ?_⟩⟩
  · have := hn diag fuel hf
    rw [if_pos h] at this
    exact ⟨_, this, rfl⟩
  · have := hn diag fuel hf
    rw [if_neg h] at this
    exact ⟨_, this⟩

/-- **C32.** The desired statement (every profile opens) is false: a command line with an apostrophe, and one with an accented
letter, give profiles that the decoder rejects. -/
theorem C32_unreadable_profiles :
    (∃ n, ∀ fuel, n ≤ fuel → ∃ why, EventDecoder.new diag fuel (profileFile 0 1 ["rustc", "it's.rs"] .wallTime []) = .error (.err why)) ∧
    (∃ n, ∀ fuel, n ≤ fuel → ∃ why, EventDecoder.new diag fuel (profileFile 0 1 ["rustc", "é.rs"] .wallTime []) = .error (.err why)) := by
  constructor
  · obtain ⟨n, hn⟩ := C32_opens_iff_plain 0 1 (by decide) (by decide) ["rustc", "it's.rs"] .wallTime []
    exact ⟨n, fun fuel hf => (hn fuel hf).2 (by decide)⟩
  · obtain ⟨n, hn⟩ := C32_opens_iff_plain 0 1 (by decide) (by decide) ["rustc", "é.rs"] .wallTime []
    exact ⟨n, fun fuel hf => (hn fuel hf).2 (by decide)⟩

/-- A plain command line. -/
example : PlainArgs ["rustc", "C:\\src\\main.rs", "--cfg", "feature=\"x\""] := by decide

/-! ### C30 -/

/-- **C30.** Only files whose header is `MMPD` followed by version 8 or 9 are accepted. -/
theorem C30_accepted_versions (v8New : Bytes → Except Fault OldDecoder) (fuel : Nat) (data : Bytes) (p : ProfilingData)
    (h : fromPagedBuffer diag v8New fuel data = .ok p) :
    (∃ rest old, data = utf8 "MMPD" ++ [8, 0, 0, 0] ++ rest ∧ v8New data = .ok old ∧ p = v8Data old) ∨
    (∃ rest d, data = utf8 "MMPD" ++ [9, 0, 0, 0] ++ rest ∧ EventDecoder.new diag fuel data = .ok d ∧ p = v9Data fuel d) := by
  have hm : magicTopLevel = utf8 "MMPD" := by decide
  have four : ∀ (b0 b1 b2 b3 : UInt8) (k : UInt8), k.toNat = b0.toNat + 256 * b1.toNat + 65536 * b2.toNat + 16777216 * b3.toNat →
      [b0, b1, b2, b3] = [k, 0, 0, 0] := by
    intro b0 b1 b2 b3 k hv
    have := k.toNat_lt
    have h3 : b3.toNat = 0 := by omega
    have h2 : b2.toNat = 0 := by omega
    have h1 : b1.toNat = 0 := by omega
    have h0 : b0.toNat = k.toNat := by omega
    rw [UInt8.toNat_inj] at h0
    rw [show (0 : Nat) = (0 : UInt8).toNat from rfl, UInt8.toNat_inj] at h1 h2 h3
    rw [h0, h1, h2, h3]
  unfold fromPagedBuffer at h
  simp only [bind, Except.bind] at h
  split at h
  · simp at h
  · rename_i v hv
    obtain ⟨b0, b1, b2, b3, rest, hd, hval⟩ := (C11_read_iff data magicTopLevel v rfl).mp hv
    rw [hm] at hd
    split at h
    · rename_i h8
      split at h
      · simp at h
      · rename_i old hold
        left
        refine ⟨rest, old, ?_, hold, by simpa using h.symm⟩
        rw [hd, four b0 b1 b2 b3 8 (by rw [← hval, h8]; rfl)]
    · split at h
      · rename_i h9
        split at h
        · simp at h
        · rename_i d hold
          right
          refine ⟨rest, d, ?_, hold, by simpa using h.symm⟩
          rw [hd, four b0 b1 b2 b3 9 (by rw [← hval, h9]; rfl)]
      · split at h <;> simp at h

/-- **C30.** Every other header (too short, wrong magic, any other version) is an error value, never a panic. -/
theorem C30_rejected_versions (v8New : Bytes → Except Fault OldDecoder) (fuel : Nat) (data : Bytes)
    (h : ∀ rest, data ≠ utf8 "MMPD" ++ [8, 0, 0, 0] ++ rest ∧ data ≠ utf8 "MMPD" ++ [9, 0, 0, 0] ++ rest) :
    ∃ why, fromPagedBuffer diag v8New fuel data = .error (.err why) := by
  have hm : magicTopLevel = utf8 "MMPD" := by decide
  unfold fromPagedBuffer
  simp only [bind, Except.bind]
  cases hv : readFileHeader diag "top-level" data magicTopLevel with
  | error e =>
    unfold readFileHeader at hv
    split at hv
    · injection hv with hv; subst hv; exact ⟨_, rfl⟩
    · split at hv
      · injection hv with hv; subst hv; exact ⟨_, rfl⟩
      · simp at hv
  | ok v =>
    obtain ⟨b0, b1, b2, b3, rest, hd, hval⟩ := (C11_read_iff data magicTopLevel v rfl).mp hv
    simp only []
    have contra : ∀ k : UInt8, (data = utf8 "MMPD" ++ [k, 0, 0, 0] ++ rest → False) → v ≠ k.toNat := by
      intro k hk hvk
      apply hk
      have := k.toNat_lt
      have h3 : b3.toNat = 0 := by omega
      have h2 : b2.toNat = 0 := by omega
      have h1 : b1.toNat = 0 := by omega
      have h0 : b0.toNat = k.toNat := by omega
      rw [UInt8.toNat_inj] at h0
      rw [show (0 : Nat) = (0 : UInt8).toNat from rfl, UInt8.toNat_inj] at h1 h2 h3
      rw [hd, hm, h0, h1, h2, h3]
    have n8 : v ≠ fileFormatV8 := contra 8 (h rest).1
    have n9 : v ≠ fileFormatV9 := contra 9 (h rest).2
    rw [if_neg n8, if_neg n9]
    split <;> exact ⟨_, rfl⟩

/-- The parts of an old event's payload, as the reader's. -/
def samePayload : OldEventPayload → EventPayload → Prop
  | .timestamp (.interval s e), p => p = .timestamp (.interval s e)
  | .timestamp (.instant t), p => p = .timestamp (.instant t)
  | .integer v, p => p = .integer v

/-- **C30.** Reading a version 8 profile gives exactly the events of the version 8 decoder: same number, and for every index
the same kind, label, arguments, thread and payload, and the same metadata. -/
theorem C30_conversion_preserves (old : OldDecoder) :
    (v8Data old).numEvents = old.numEvents ∧
    (v8Data old).metadata.startTime = old.metadata.startTime ∧ (v8Data old).metadata.processId = old.metadata.processId ∧
    (v8Data old).metadata.cmd = old.metadata.cmd ∧
    (∀ i e, old.decodeFull i = .ok e → ∃ e', (v8Data old).decodeFull i = .ok e' ∧ e'.eventKind = e.eventKind ∧ e'.label = e.label ∧
      e'.additionalData = e.additionalData ∧ e'.threadId = e.threadId ∧ samePayload e.payload e'.payload) ∧
    (∀ i e, old.decodeLightweight i = .ok e → ∃ e', (v8Data old).decodeLightweight i = .ok e' ∧ e'.eventIndex = e.eventIndex ∧
      e'.threadId = e.threadId ∧ samePayload e.payload e'.payload) ∧
    (∀ i f, old.decodeFull i = .error f → (v8Data old).decodeFull i = .error f) := by
  have hp : ∀ p, samePayload p (v8Payload p) := by
    intro p
    cases p with
    | timestamp t => cases t <;> rfl
    | integer v => rfl
  refine ⟨rfl, rfl, rfl, rfl, ?_, ?_, ?_⟩
  · intro i e h
    exact ⟨v8Event e, by simp [v8Data, h, Except.map], rfl, rfl, rfl, rfl, hp _⟩
  · intro i e h
    exact ⟨v8Lightweight e, by simp [v8Data, h, Except.map], rfl, rfl, hp _⟩
  · intro i f h
    simp [v8Data, h, Except.map]

/-- A file saved by the current profiler is dispatched to the current decoder. -/
theorem C30_current_dispatch (v8New : Bytes → Except Fault OldDecoder) (fuel : Nat) (md : String) (calls : List ProfCall) :
    fromPagedBuffer diag v8New fuel (savedFile md calls) = (EventDecoder.new diag fuel (savedFile md calls)).map (v9Data fuel) := by
  have h := (C11_write_then_verify (diag := diag) (stream := "top-level") magicTopLevel (World.exec profTags [(0, .drop), (1, .drop), (2, .drop)] (runProf calls (profInit md)).2.world).2.store.data rfl).2.1
  have h' : readFileHeader diag "top-level" (savedFile md calls) magicTopLevel = .ok 9 := h
  unfold fromPagedBuffer
  rw [h']
  have n8 : (9 : Nat) ≠ fileFormatV8 := by decide
  have n9 : (9 : Nat) = fileFormatV9 := by decide
  simp only [bind, Except.bind]
  rw [if_neg n8, if_pos n9]
  cases EventDecoder.new diag fuel (savedFile md calls) <;> rfl

example : ∃ why, fromPagedBuffer diag (fun _ => .error .outOfFuel) 0 (utf8 "MMPD" ++ [7, 0, 0, 0]) = .error (.err why) :=
  C30_rejected_versions _ _ _ (by
    have : utf8 "MMPD" = [77, 77, 80, 68] := by decide
    intro rest; rw [this]; constructor <;> simp)

end Verif.Props
