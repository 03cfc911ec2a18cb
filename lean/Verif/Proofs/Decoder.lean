import Verif.Proofs.Profiler
import Verif.Proofs.Json

namespace Verif.Mm

open Verif Verif.Spec Verif.Decode Verif.Props Verif.Json

theorem serialize_flat_length (raws : List RawEvent) : (raws.flatMap RawEvent.serialize).length = 32 * raws.length := by
  induction raws with
  | nil => rfl
  | cons e es ih => rw [List.flatMap_cons, List.length_append, serialize_length, ih, List.length_cons]; omega

theorem fileHeader_length {m : Bytes} (h : m.length = 4) : (fileHeader m).length = 8 := by
  simp [fileHeader, fileHeaderWrites, h]

theorem raw_slice (H : Bytes) (hH : H.length = 8) (raws : List RawEvent) (i : Nat) (e : RawEvent) (h : raws[i]? = some e) :
    ((H ++ raws.flatMap RawEvent.serialize).take (8 + i * 32 + 32)).drop (8 + i * 32) = e.serialize ∧
    8 + i * 32 + 32 ≤ (H ++ raws.flatMap RawEvent.serialize).length := by
  obtain ⟨hi, hie⟩ := List.getElem?_eq_some_iff.mp h
  have hsplit : raws = raws.take i ++ e :: raws.drop (i + 1) := by
    rw [← hie, List.getElem_cons_drop, List.take_append_drop]
  have hlen : (H ++ (raws.take i).flatMap RawEvent.serialize).length = 8 + i * 32 := by
    rw [List.length_append, serialize_flat_length, hH, List.length_take, Nat.min_eq_left (by omega)]; omega
  have e1 : H ++ raws.flatMap RawEvent.serialize = (H ++ (raws.take i).flatMap RawEvent.serialize) ++ e.serialize ++ (raws.drop (i + 1)).flatMap RawEvent.serialize := by
    conv => lhs; rw [hsplit]
    simp [List.append_assoc]
  constructor
  · rw [e1]
    exact slice_mid _ _ _ _ _ hlen (by rw [List.length_append, hlen, serialize_length])
  · rw [e1, List.length_append, List.length_append, hlen, serialize_length]; omega

/-- The decoder reads the raw events back. -/
theorem rawEvent_of (d : EventDecoder) (raws : List RawEvent) (hd : d.eventData = fileHeader magicEventStream ++ raws.flatMap RawEvent.serialize) :
    d.numEvents = .ok raws.length ∧ ∀ i e, raws[i]? = some e → d.rawEvent i = .ok e := by
  have h8 : (fileHeader magicEventStream).length = 8 := fileHeader_length rfl
  constructor
  · have hl : d.eventData.length = 8 + 32 * raws.length := by
      rw [hd, List.length_append, h8, serialize_flat_length]
    have e8 : fileHeaderSize = 8 := by decide
    have e32 : rawEventSize = 32 := by decide
    have c1 : ¬ d.eventData.length < fileHeaderSize := by rw [hl, e8]; omega
    have c2 : ¬ (d.eventData.length - fileHeaderSize) % rawEventSize ≠ 0 := by rw [hl, e8, e32]; omega
    unfold EventDecoder.numEvents
    rw [if_neg c1, if_neg c2, hl, e8, e32]
    congr 1
    omega
  · intro i e he
    obtain ⟨h1, h2⟩ := raw_slice _ h8 raws i e he
    have e8 : fileHeaderSize = 8 := by decide
    have e32 : rawEventSize = 32 := by decide
    have c1 : ¬ d.eventData.length < fileHeaderSize + i * rawEventSize + rawEventSize := by rw [hd, e8, e32]; omega
    unfold EventDecoder.rawEvent eventIndexToAddr
    simp only []
    rw [if_neg c1, e8, e32, hd, h1]
    exact deserialize_serialize e

/-- What opening a profile gives. -/
structure Opened (md : String) (calls : List ProfCall) (file : Bytes) (t : StringTable) (ev : Bytes) : Prop where
  opens : ∃ n, ∀ (diag : Option String) (fuel : Nat), n ≤ fuel → EventDecoder.new diag fuel file = (parseMetadata (utf8 md)).map (fun m => ⟨ev, t, m⟩)
  rel : TabRel (stringLog md calls) t
  events : ∃ raws, ev = fileHeader magicEventStream ++ raws.flatMap RawEvent.serialize ∧ List.Forall₂ Enc raws (recorded calls)
  far : ∀ id cs a, Entry (stringLog md calls) id cs → t.getAddr id = .ok (some a) → cs = [.value md] ∨ (utf8 md).length + 9 ≤ a

theorem asTable_not_meta (l : List (ProfCall × Except Fault (Option StringId))) :
    ∀ x ∈ l.filterMap asTable, ∀ t r, x ≠ (SessionOp.table (.allocMetadata t), r) := by
  intro x hx t r
  obtain ⟨⟨c, r'⟩, _, hc⟩ := List.mem_filterMap.mp hx
  rintro rfl
  cases c <;> simp [asTable] at hc

theorem asTable_no_text {p : ProfCall × Except Fault (Option StringId)} {x} (h : asTable p = some x) (v : StringId) (cs : List StringComponent) :
    binds v x ≠ some (.text cs) := by
  obtain ⟨c, r⟩ := p
  cases c <;> simp only [asTable, reduceCtorEq, Option.some.injEq] at h
  all_goals
    subst h
    intro hb
    cases r <;> simp [binds] at hb

theorem head_ne_ref (s : String) : (encText [.value s]).head? ≠ some 0xFE := by
  simp only [encText, List.flatMap_cons, encComponent, List.flatMap_nil, List.append_nil]
  intro hh
  cases hu : utf8 s with
  | nil => rw [hu] at hh; simp at hh
  | cons b bs =>
    rw [hu] at hh
    simp at hh
    have := utf8_bytes_lt s b (by simp [hu])
    subst hh
    simp at this

theorem encText_value_length (s : String) : (encText [.value s]).length = (utf8 s).length + 1 := by
  simp [encText, encComponent]

theorem split_of_new {fuel : Nat} {D I E : Bytes} {t : StringTable} (ht : StringTable.new diag D I = .ok t) (text : Bytes)
    (hx : t.toStr fuel metadataStringId = .ok text) (hv : verifyFileHeader diag "event" E magicEventStream = .ok ()) :
    EventDecoder.fromSeparateBuffers diag fuel D I E = (parseMetadata text).map (fun m => ⟨E, t, m⟩) := by
  unfold EventDecoder.fromSeparateBuffers
  rw [hv, ht]
  simp only [bind, Except.bind, StringTable.metadataId, hx]
  cases parseMetadata text <;> rfl

/-- Opening the file of a finished profile. -/
theorem open_profile (md : String) (calls : List ProfCall) : ∃ t ev, Opened md calls (savedFile md calls) t ev := by
  have hinv := prof_inv md calls
  obtain ⟨L, h, raws, si, hf, he, hr⟩ := hinv.w.inv
  obtain ⟨m, hm, _, h1, h2, h3⟩ := si.saved
  obtain ⟨t, ht, hd, hrel⟩ := si.tab.rel
  have hhne : fileHeader magicEventStream ≠ [] := by simp [fileHeader, fileHeaderWrites, magicEventStream]
  have h0 := h3 hhne
  rw [he] at h0
  have rel := hrel.filter
  rw [hf] at rel
  refine ⟨t, fileHeader magicEventStream ++ raws.flatMap RawEvent.serialize, ?_, rel, ⟨raws, rfl, hr⟩, ?_⟩
  · -- the metadata
    have hb : Bound (stringLog md calls) 100000001 (.text [.value md]) := by
      refine ⟨[], _, _, rfl, ?_, ?_⟩
      · simp [binds, components]
      · intro y hy
        obtain ⟨⟨c, r'⟩, hc0, hc⟩ := List.mem_filterMap.mp hy
        have hnb : ∀ b, binds 100000001 y ≠ some b := by
          intro b hb
          have hyL : y ∈ L := by
            have : y ∈ stringLog md calls := List.mem_cons_of_mem _ hy
            rw [← hf] at this
            exact (List.mem_filter.mp this).1
          obtain ⟨_, hv1, hv2⟩ := si.tab.virt y hyL _ _ hb
          cases b with
          | concrete c =>
            have := hv1 c rfl
            revert this; decide
          | text cs => exact asTable_no_text hc _ _ hb
        cases hbb : binds 100000001 y with
        | none => rfl
        | some b => exact (hnb b hbb).elim
    obtain ⟨n, hn⟩ := toStr_entry rel (.inr (.inr hb)) (by
        have := Reads.value (s := md) (Reads.nil (log := stringLog md calls))
        simpa using this) (fun _ _ => short_safe (.inl (head_ne_ref md))) (s := md)
    refine ⟨n, fun diag fuel hfu => ?_⟩
    have hv0 := (C11_write_then_verify magicEventStream (diag := diag) (stream := "event") (raws.flatMap RawEvent.serialize) rfl).1
    have hvt := C11_write_then_verify magicTopLevel (World.exec profTags drops (runProf calls (profInit md)).2.world).2.store.data (diag := diag) (stream := "top-level") rfl
    have hdrop : (savedFile md calls).drop fileHeaderSize = (World.exec profTags drops (runProf calls (profInit md)).2.world).2.store.data := by
      have : (fileHeader magicTopLevel).length = fileHeaderSize := rfl
      rw [savedFile, ← this, List.drop_left]
      rfl
    have hs := split_of_new (fuel := fuel) (ht diag) (utf8 md) (hn fuel hfu) hv0
    unfold EventDecoder.new
    have hvt' : verifyFileHeader diag "top-level" (savedFile md calls) magicTopLevel = .ok () := hvt.1
    rw [hvt', hdrop, hm]
    simp only [bind, Except.bind, h0, h1, h2, okOr]
    exact hs
  · intro id cs a hen hga
    have hafter := si.tab.after.filter isTab
    rw [hf, stringLog, List.pairwise_cons] at hafter
    have alloc_far : ∀ c cs, Allocated (stringLog md calls) c cs → (utf8 md).length + 9 + 100000003 ≤ c.toNat := by
      rintro c cs ⟨o, ho, htm⟩
      simp only [stringLog, List.mem_cons] at htm
      rcases htm with htm | htm
      · simp at htm
      · have := hafter.1 _ htm (.str md) none o cs c rfl ho rfl
        simp only [components, encText_value_length] at this
        omega
    obtain ⟨a', g1, g2, g3, g4⟩ := rel.entry id cs hen
    rw [hga] at g1
    injection g1 with g1
    injection g1 with g1
    subst g1
    rcases hen with hal | ⟨c, hb, hc⟩ | hb
    · have h1 := g4 id (.inl rfl) hal
      have h2 := alloc_far _ _ hal
      right; omega
    · have h1 := g4 c (.inr hb) hc
      have h2 := alloc_far _ _ hc
      right; omega
    · left
      obtain ⟨x, hx, hbx⟩ := bound_mem hb
      simp only [stringLog, List.mem_cons] at hx
      rcases hx with rfl | hx
      · simp only [binds, components] at hbx
        split at hbx
        · injection hbx with hbx
          injection hbx with hbx
          exact hbx.symm
        · simp at hbx
      · obtain ⟨⟨c, r'⟩, hc0, hc⟩ := List.mem_filterMap.mp hx
        exact (asTable_no_text hc _ _ hbx).elim

/-- Entries of a profile that are short or begin with text are shown in full. -/
theorem Opened.shown {md calls file t ev} (o : Opened md calls file t ev) (hmd : 101 ≤ (utf8 md).length) {id : StringId}
    {cs : List StringComponent} {s : String} (he : Entry (stringLog md calls) id cs) (hr : Reads (stringLog md calls) cs s)
    (h : leadingRef cs = none ∨ (encText cs).length ≤ 119) : Shown (stringLog md calls) id s := by
  obtain ⟨a, hs⟩ := o.rel.stored he
  refine .whole hs (fun r hm => ?_) hr
  have hsafe : ¬ ((encText cs).head? = some 0xFE ∧ (encText cs).findIdx? (fun b => b = 0xFF) = some (a + 9)) := by
    apply short_safe
    rcases h with h | h
    · rcases leadingRef_spec cs with ⟨r', cs', g1, _⟩ | ⟨_, g2⟩
      · rw [h] at g1; simp at g1
      · exact .inl g2
    · rcases o.far id cs a he (o.rel.located id a cs hs) with rfl | hfar
      · exact .inl (head_ne_ref md)
      · right; omega
  exact hsafe (mistaken_iff.mp ⟨r, hm⟩)

end Verif.Mm
