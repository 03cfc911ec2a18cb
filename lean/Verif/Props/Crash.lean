import Verif.Proofs.Crash
import Verif.Props.Damaged

/-! # Property C67: a profile cut short -/

namespace Verif.Props
open Verif Verif.Mm Verif.Spec Verif.Decode Verif.Json

theorem header_events : fileHeader magicEventStream = utf8 "MMES" ++ [9, 0, 0, 0] := by decide
theorem header_data : fileHeader magicStringData = utf8 "MMSD" ++ [9, 0, 0, 0] := by decide
theorem header_index : fileHeader magicStringIndex = utf8 "MMSI" ++ [9, 0, 0, 0] := by decide
theorem header_top : fileHeader magicTopLevel = utf8 "MMPD" ++ [9, 0, 0, 0] := by decide

/-- The entries of the index of the remaining table. -/
def cutEntries (maps : List (StringId × StringId)) : List (UInt64 × UInt64) :=
  (100000001, 8) :: maps.map fun m => (m.1, UInt64.ofNat (m.2.toNat - 100000003))

theorem small_nat (c : UInt64) : (UInt64.ofNat (c.toNat - 100000003)).toNat = c.toNat - 100000003 := by
  rw [UInt64.toNat_ofNat', Nat.mod_eq_of_lt]
  have := c.toNat_lt
  omega

theorem cutEntries_index (maps : List (StringId × StringId)) : lastEntry (cutEntries maps) = collectMap (cutIndex maps) := by
  funext v
  rw [← collectMap_last]
  have e : (cutEntries maps).map (fun e => (e.1, e.2.toNat)) = cutIndex maps := by
    have e' : (maps.map fun m => (m.1, UInt64.ofNat (m.2.toNat - 100000003))).map (fun e : UInt64 × UInt64 => (e.1, e.2.toNat)) =
        maps.map fun m => (m.1, m.2.toNat - 100000003) := by
      rw [List.map_map]
      apply List.map_congr_left
      intro m _
      simp only [Function.comp, small_nat]
    unfold cutEntries cutIndex
    rw [List.map_cons, e']
    rfl
  rw [e]

theorem cutEntries_bytes (maps : List (StringId × StringId)) : (cutEntries maps).flatMap indexEntry = entryBytes (100000001, 8) ++ mapBytes maps := by
  have e : (maps.map fun m => (m.1, UInt64.ofNat (m.2.toNat - 100000003))).flatMap indexEntry = mapBytes maps := by
    rw [List.flatMap_map]
    apply List.flatMap_congr
    intro m _
    simp only [indexEntry, entryBytes, small_nat]
  unfold cutEntries
  rw [List.flatMap_cons, e]
  rfl

theorem mapBytes_length (maps : List (StringId × StringId)) : (mapBytes maps).length = 16 * maps.length := by
  induction maps with
  | nil => rfl
  | cons m maps ih =>
    simp only [mapBytes, List.flatMap_cons, List.length_append, List.length_cons] at ih ⊢
    rw [ih]
    simp [entryBytes]
    omega

theorem mapBytes_take {maps : List (StringId × StringId)} {b : Bytes} {j : Nat} (h : b <+: mapBytes maps) (hl : b.length = 16 * j) :
    j ≤ maps.length ∧ b = mapBytes (maps.take j) := by
  have hle := h.length_le
  rw [mapBytes_length, hl] at hle
  have hj : j ≤ maps.length := by omega
  refine ⟨hj, ?_⟩
  have e : mapBytes maps = mapBytes (maps.take j) ++ mapBytes (maps.drop j) := by
    simp only [mapBytes]
    rw [← List.flatMap_append, List.take_append_drop]
  have hl' : (mapBytes (maps.take j)).length = 16 * j := by
    rw [mapBytes_length, List.length_take, Nat.min_eq_left hj]
  rw [List.prefix_iff_eq_take.mp h, hl, e, ← hl', List.take_left]

theorem prefix_header {H X b : Bytes} (h : b <+: H ++ X) (hl : H.length ≤ b.length) : ∃ b', b = H ++ b' ∧ b' <+: X := by
  obtain ⟨b', hb⟩ := List.prefix_of_prefix_length_le (List.prefix_append H X) h hl
  subst hb
  exact ⟨b', rfl, (List.prefix_append_right_inj _).mp h⟩

/-- What is left of the streams when the file ends after some pages. -/
theorem cut_streams {F : Bytes} {md : String} {calls : List ProfCall} {pages : List Page} {raws : List RawEvent} (P : Parts F md calls pages raws) (k : Nat)
    (he : 8 ≤ (streamOf .events (pages.take k)).length) (hd : 8 ≤ (streamOf .stringData (pages.take k)).length) (j : Nat)
    (hi : (streamOf .stringIndex (pages.take k)).length = 24 + 16 * j) :
    ∃ q D, q ≤ raws.length ∧ Headed "MMES" (streamOf .events (pages.take k)) ((raws.take q).flatMap RawEvent.serialize) ∧
      streamOf .events (pages.take k) = fileHeader magicEventStream ++ (raws.take q).flatMap RawEvent.serialize ∧
      Headed "MMSD" (streamOf .stringData (pages.take k)) D ∧
      j ≤ (mappings (stringLog md calls)).length ∧
      Headed "MMSI" (streamOf .stringIndex (pages.take k)) ((cutEntries ((mappings (stringLog md calls)).take j)).flatMap indexEntry) := by
  obtain ⟨L, hL, tab⟩ := P.table
  rcases P.cut k with hc | ⟨q, hq, hev⟩
  · omega
  · obtain ⟨D0, hD0⟩ := tab.dhead
    have hpd := streamOf_take .stringData pages k
    rw [hD0] at hpd
    obtain ⟨D, hD, _⟩ := prefix_header hpd (by rw [fileHeader_length rfl]; exact hd)
    have hpi := streamOf_take .stringIndex pages k
    rw [P.index, List.append_assoc] at hpi
    obtain ⟨I, hI, hpi⟩ := prefix_header hpi (by rw [fileHeader_length rfl]; omega)
    have hIl : I.length = 16 + 16 * j := by
      have := congrArg List.length hI
      rw [List.length_append, fileHeader_length rfl] at this
      omega
    have e16 : (entryBytes (100000001, 8)).length = 16 := by decide
    obtain ⟨I', hI', hpi⟩ := prefix_header hpi (by omega)
    have hIl' : I'.length = 16 * j := by
      have := congrArg List.length hI'
      rw [List.length_append, e16] at this
      omega
    obtain ⟨hj, hm⟩ := mapBytes_take hpi hIl'
    refine ⟨q, D, hq, ?_, hev, ?_, hj, ?_⟩
    · unfold Headed; rw [hev, header_events]
    · unfold Headed; rw [hD, header_data]
    · unfold Headed; rw [hI, hI', hm, header_index, cutEntries_bytes]

theorem cut_equation {F : Bytes} {md : String} {calls : List ProfCall} {pages : List Page} {raws : List RawEvent} (P : Parts F md calls pages raws) (k : Nat)
    (he : 8 ≤ (streamOf .events (pages.take k)).length) (hd : 8 ≤ (streamOf .stringData (pages.take k)).length) (j : Nat)
    (hi : (streamOf .stringIndex (pages.take k)).length = 24 + 16 * j) (fuel : Nat) :
    EventDecoder.new diag fuel (fileHeader magicTopLevel ++ storeOf (pages.take k)) =
      ((⟨streamOf .stringData (pages.take k), collectMap (cutIndex ((mappings (stringLog md calls)).take j))⟩ : StringTable).toStr fuel 100000001).bind fun text =>
        (parseMetadata text).map fun m => ⟨streamOf .events (pages.take k),
          ⟨streamOf .stringData (pages.take k), collectMap (cutIndex ((mappings (stringLog md calls)).take j))⟩, m⟩ := by
  obtain ⟨q, D, _, h1, _, h2, _, h3⟩ := cut_streams P k he hd j hi
  have := C66_opens (diag := diag) fuel (fileHeader magicTopLevel ++ storeOf (pages.take k)) (pages.take k)
    (fun p hp => ⟨(P.bodies p (List.mem_of_mem_take hp)).1, by have := (P.bodies p (List.mem_of_mem_take hp)).2; omega⟩)
    (by unfold Headed; rw [header_top]) _ D _ h1 h2 h3
  rw [cutEntries_index] at this
  exact this

theorem metadata_there {F : Bytes} {md : String} {calls : List ProfCall} {pages : List Page} {raws : List RawEvent} (P : Parts F md calls pages raws) :
    encText [.value md] <+: (streamOf .stringData pages).drop 8 := by
  obtain ⟨L, hL, tab⟩ := P.table
  obtain ⟨t, ht, hd, rel⟩ := tab.rel
  have rel := rel.filter
  rw [hL] at rel
  have hs : StoredAt (stringLog md calls) 100000001 8 [.value md] := by
    refine .metadata (l1 := []) (t := .str md) (r := none) rfl ?_
    intro y hy
    obtain ⟨⟨c, r⟩, _, hc⟩ := List.mem_filterMap.mp hy
    have hyL : y ∈ L := by
      have : y ∈ stringLog md calls := List.mem_cons_of_mem _ hy
      rw [← hL] at this
      exact (List.mem_filter.mp this).1
    cases hb : binds 100000001 y with
    | none => rfl
    | some b =>
      obtain ⟨_, hv1, _⟩ := tab.virt y hyL _ _ hb
      cases b with
      | concrete c =>
        have := hv1 c rfl
        exact absurd this (by decide)
      | text cs => exact (asTable_no_text hc _ _ hb).elim
  obtain ⟨a, h1, _, h3, _⟩ := rel.entry _ _ hs.entry
  rw [rel.located _ _ _ hs] at h1
  injection h1 with h1
  injection h1 with h1
  subst h1
  rw [hd] at h3
  exact h3

theorem not_in_text {s : String} : (0xFF : UInt8) ∉ utf8 s := by
  intro h
  have := utf8_bytes_lt s _ h
  simp at this

/-- A text whose end is missing cannot be read. -/
theorem torn_text {D D' : Bytes} {idx : StringId → Option Nat} {id : StringId} {a : Nat} {s : String} (h : encText [.value s] <+: D.drop a)
    (hD : D' <+: D) (hl : D'.length < a + (utf8 s).length + 1) (ha : (⟨D', idx⟩ : StringTable).getAddr id = .ok (some a)) (f : Nat) :
    IsPanic ((⟨D', idx⟩ : StringTable).toStr (f + 1) id) := by
  unfold StringTable.toStr
  rw [ha]
  simp only []
  by_cases hlt : D'.length < a
  · rw [if_pos hlt]; trivial
  · rw [if_neg hlt]
    have hm : memchr (fun b => decide (b = terminator)) (D'.drop a) = none := by
      unfold memchr
      rw [List.findIdx?_eq_none_iff]
      intro b hb
      simp only [decide_eq_false_iff_not]
      intro hbt
      obtain ⟨E, rfl⟩ := hD
      rw [List.drop_append_of_le_length (by omega)] at h
      have h1 : D'.drop a <+: encText [.value s] := List.prefix_of_prefix_length_le (List.prefix_append _ _) h (by
        rw [List.length_drop, encText_value_length]; omega)
      have h2 : D'.drop a <+: utf8 s := by
        have e : encText [.value s] = utf8 s ++ [0xFF] := by simp [encText, encComponent]
        rw [e] at h1
        exact List.prefix_of_prefix_length_le h1 (List.prefix_append _ _) (by rw [List.length_drop]; omega)
      exact not_in_text (h2.subset (by rw [← show b = 0xFF from hbt]; exact hb))
    rw [hm]
    trivial

theorem cutIndex_metadata {maps : List (StringId × StringId)} (hm : ∀ m ∈ maps, m.1.toNat ≤ 100000000 ∧ 100000003 ≤ m.2.toNat) :
    collectMap (cutIndex maps) 100000001 = some 8 := by
  rcases tableOf_index "" [] maps hm 100000001 with ⟨_, h⟩ | ⟨a, h1, ⟨c, _, _, h4⟩ | ⟨_, _, rfl⟩⟩
  · have := h _ (by unfold tableOf; exact List.mem_cons_self)
    simp [binds] at this
  · exact absurd h4 (by decide)
  · exact h1

/-- A record lies at every place of the cut. -/
theorem forall2_take {α β : Type} {R : α → β → Prop} {l : List α} {l' : List β} (h : List.Forall₂ R l l') (n : Nat) :
    List.Forall₂ R (l.take n) (l'.take n) := by
  induction h generalizing n with
  | nil => simp
  | cons hab _ ih =>
    cases n with
    | zero => simp
    | succ n => exact .cons hab (ih n)

/-- Decoding events of a table that is right about `log`. -/
theorem events_shown {log : TableLog} {t : StringTable} (rel : TabRel log t) (m : Metadata) (raws : List RawEvent) (rs : List Recorded)
    (he : List.Forall₂ Enc raws rs) (x : Nat) (r : Recorded) (hx : rs[x]? = some r) :
    let d : EventDecoder := ⟨fileHeader magicEventStream ++ raws.flatMap RawEvent.serialize, t, m⟩
    d.decodeLightweight x = .ok ⟨x, r.thread, seen m.startTime r.what⟩ ∧
      ∀ kind label as, Shown log r.kind kind → Shown log r.id (joined label as) → SepFree label → (∀ a ∈ as, SepFree a) →
        ∃ n, ∀ fuel, n ≤ fuel → d.decodeFull fuel x =
          .ok ⟨utf8 kind, utf8 (decodedId label as).1, (decodedId label as).2.map utf8, seen m.startTime r.what, r.thread⟩ := by
  intro d
  obtain ⟨hnum, hraw⟩ := rawEvent_of d raws rfl
  obtain ⟨e, he, h1, h2, h3, h4⟩ := forall2_get he x r hx
  have hre := hraw x e he
  constructor
  · unfold EventDecoder.decodeLightweight
    rw [hre]
    simp only [bind, Except.bind, h3, h4]
    rfl
  · intro kind label as hk hid okl oka
    obtain ⟨n1, hn1⟩ := shown_toStr rel hk
    obtain ⟨n2, hn2⟩ := shown_toStr rel hid
    refine ⟨max n1 n2, fun fuel hf => ?_⟩
    unfold EventDecoder.decodeFull
    rw [hre]
    simp only [bind, Except.bind, h1, h2, h3, h4]
    rw [hn2 fuel (by omega)]
    simp only []
    rw [parseEventId_joined label as okl oka]
    simp only []
    rw [hn1 fuel (by omega)]
    unfold decodedId
    by_cases ht : TextOk label
    · simp only [if_pos ht]; rfl
    · simp only [if_neg ht, List.map_nil]; rfl

theorem cut_shows (start pid : Nat) (hs : start < 2 ^ 64) (hp : pid < 2 ^ 32) (args : List String) (plain : PlainArgs args) (counter : CounterKind)
    (calls : List ProfCall) {F : Bytes} {pages : List Page} {raws : List RawEvent} (P : Parts F (metadataText start pid args counter) calls pages raws) (k : Nat)
    (he : 8 ≤ (streamOf .events (pages.take k)).length)
    (hd : 9 + (utf8 (metadataText start pid args counter)).length ≤ (streamOf .stringData (pages.take k)).length) (j : Nat)
    (hi : (streamOf .stringIndex (pages.take k)).length = 24 + 16 * j) :
    ∃ i q, ShowsPart start pid args counter calls (fileHeader magicTopLevel ++ storeOf (pages.take k)) i j q ∧
      i = fitting (strings (stringLog (metadataText start pid args counter) calls)) (streamOf .stringData (pages.take k)).length ∧
      (streamOf .events (pages.take k)).length = 8 + 32 * q := by
  generalize hmd : metadataText start pid args counter = md at *
  obtain ⟨q, D, hq, _, hev, _, hj, _⟩ := cut_streams P k he (by omega) j hi
  obtain ⟨L, hL, tab⟩ := P.table
  have hpd := streamOf_take .stringData pages k
  have hstr : strings (stringLog md calls) = strings L := by rw [← hL, strings_filter]
  have hal : ∀ s ∈ strings (stringLog md calls), ∀ cs junk, s.2 = encText cs ++ junk →
      ∃ a, s.1.toNat = a + 100000003 ∧ 8 ≤ a ∧ encText cs <+: (streamOf .stringData pages).drop a := by
    intro s hsm cs junk hcs
    rw [hstr] at hsm
    exact stored_at tab hsm hcs
  have hmaps : ∀ m ∈ (mappings (stringLog md calls)).take j, m.1.toNat ≤ 100000000 ∧ 100000003 ≤ m.2.toNat :=
    fun m hm => P.maps m (List.mem_of_mem_take hm)
  have rel : TabRel (remaining md calls (fitting (strings (stringLog md calls)) (streamOf .stringData (pages.take k)).length) j)
      ⟨streamOf .stringData (pages.take k), collectMap (cutIndex ((mappings (stringLog md calls)).take j))⟩ := by
    refine remaining_rel hmaps ?_ ?_
    · intro s hsm cs junk hcs
      obtain ⟨a, h1, h2, h3⟩ := hal s (List.mem_of_mem_take hsm) cs junk hcs
      refine ⟨a, h1, h2, prefix_fits h3 hpd ?_⟩
      have := fitting_take hsm
      rw [hcs, List.length_append] at this
      omega
    · exact prefix_fits (metadata_there P) hpd (by rw [encText_value_length]; omega)
  have hmeta : ToString ⟨streamOf .stringData (pages.take k), collectMap (cutIndex ((mappings (stringLog md calls)).take j))⟩ 100000001 (utf8 md) := by
    have hb : Bound (remaining md calls (fitting (strings (stringLog md calls)) (streamOf .stringData (pages.take k)).length) j) 100000001 (.text [.value md]) := by
      rcases tableOf_index md ((strings (stringLog md calls)).take (fitting (strings (stringLog md calls)) (streamOf .stringData (pages.take k)).length)) _ hmaps 100000001 with ⟨h, _⟩ | ⟨a, h1, ⟨c, _, _, h4⟩ | ⟨h, _⟩⟩
      · rw [cutIndex_metadata hmaps] at h; simp at h
      · exact absurd h4 (by decide)
      · exact h
    exact toStr_entry rel (.inr (.inr hb)) (by
        have := Reads.value (s := md) (Reads.nil (log := remaining md calls (fitting (strings (stringLog md calls)) (streamOf .stringData (pages.take k)).length) j))
        simpa using this) (fun _ _ => short_safe (.inl (head_ne_ref md)))
  have hfl : (streamOf .events (pages.take k)).length = 8 + 32 * q := by
    rw [hev, List.length_append, fileHeader_length rfl, serialize_flat_length, List.length_take, Nat.min_eq_left hq]
  have hqr : q ≤ (recorded calls).length := by rw [← P.enc.length_eq]; exact hq
  have henc := forall2_take P.enc q
  refine ⟨_, q, ⟨⟨streamOf .events (pages.take k), ⟨streamOf .stringData (pages.take k), collectMap (cutIndex ((mappings (stringLog md calls)).take j))⟩,
      ⟨start, pid, utf8 (commandLine args)⟩⟩, ?_, rfl, ?_, hqr, ?_, ?_, ?_⟩, rfl, hfl⟩
  · obtain ⟨n, hn⟩ := hmeta
    refine ⟨n, fun diag fuel hf => ?_⟩
    rw [cut_equation P k he (by omega) j hi fuel, hn fuel hf]
    simp only [Except.bind]
    rw [← hmd, parseMetadata_record start pid args counter hs hp, if_pos plain]
    rfl
  · obtain ⟨hnum, _⟩ := rawEvent_of ⟨streamOf .events (pages.take k), ⟨streamOf .stringData (pages.take k), collectMap (cutIndex ((mappings (stringLog md calls)).take j))⟩,
      ⟨start, pid, utf8 (commandLine args)⟩⟩ (raws.take q) hev
    rw [hnum, List.length_take, Nat.min_eq_left hq]
  · intro x r hx hr
    have := events_shown rel ⟨start, pid, utf8 (commandLine args)⟩ (raws.take q) ((recorded calls).take q) henc x r (by
      rw [List.getElem?_take_of_lt hx]; exact hr)
    rw [← hev] at this
    rw [hmd]
    exact this
  · intro id s h
    rw [hmd] at h
    exact shown_toStr rel h
  · intro id s h fuel
    rw [hmd] at h
    obtain ⟨a, h1, h2, h3⟩ := hal _ (List.mem_of_mem_drop h) [.value s] [] (List.append_nil _).symm
    have hsort := strings_sorted (apart_of_ids (fit_filter (hL ▸ fit_stringLog md calls)) tab.ids)
    rw [← hstr] at hsort
    have := fitting_drop hsort h
    simp only [encText_value_length] at this h1
    exact torn_text h3 hpd (by omega) (getAddr_regular _ h1) fuel

theorem not_ok_of_err {α : Type} {x : Except Fault α} (h : IsErr x) (d : α) : x ≠ .ok d := by
  rintro rfl
  exact h

theorem not_ok_of_panic {α : Type} {x : Except Fault α} (h : IsPanic x) (d : α) : x ≠ .ok d := by
  rintro rfl
  exact h

theorem isErr_elim {α : Type} {x : Except Fault α} (h : IsErr x) : ∃ why, x = .error (.err why) := by
  unfold IsErr at h
  split at h
  · exact ⟨_, rfl⟩
  · exact h.elim

theorem top_length : (fileHeader magicTopLevel).length = 8 := fileHeader_length rfl

/-- A cut that is not at the end of a page. -/
theorem cut_inside {F : Bytes} {md : String} {calls : List ProfCall} {pages : List Page} {raws : List RawEvent} (P : Parts F md calls pages raws) (n : Nat)
    (hn : ¬ ∃ k, F.take n = fileHeader magicTopLevel ++ storeOf (pages.take k)) (fuel : Nat) :
    (n < 8 → IsErr (EventDecoder.new diag fuel (F.take n))) ∧
    (8 ≤ n → IsPanic (EventDecoder.new diag fuel (F.take n))) := by
  constructor
  · intro hlt
    refine C66_header fuel _ ?_
    rintro ⟨rest, hr⟩
    have := congrArg List.length hr
    simp only [Headed, List.length_append, List.length_take] at this
    have h4 : (utf8 "MMPD").length = 4 := by decide
    rw [h4] at this
    simp only [List.length_cons, List.length_nil] at this
    omega
  · intro hge
    have e : F.take n = fileHeader magicTopLevel ++ (storeOf pages).take (n - 8) := by
      rw [P.file, List.take_append, top_length, List.take_of_length_le (by rw [top_length]; exact hge)]
    refine C66_pages fuel _ ((storeOf pages).take (n - 8)) (by unfold Headed; rw [e, header_top]) ?_
    rintro ⟨ps, hps, hrest⟩
    have hpre : ps <+: pages := by
      apply storeOf_prefix (fun p hp => ⟨(hps p hp).1, (hps p hp).2⟩) (fun p hp => ⟨(P.bodies p hp).1, by have := (P.bodies p hp).2; omega⟩)
      rw [← hrest]
      exact List.take_prefix _ _
    refine hn ⟨ps.length, ?_⟩
    rw [e, hrest, ← List.prefix_iff_eq_take.mp hpre]

theorem headed_length {kind : String} {x b : Bytes} (h4 : (utf8 kind).length = 4) (h : Headed kind x b) : 8 ≤ x.length := by
  rw [h, List.length_append, List.length_append, h4]
  simp

/-- A cut at the end of a page that leaves too little. -/
theorem cut_short {F : Bytes} {md : String} {calls : List ProfCall} {pages : List Page} {raws : List RawEvent} (P : Parts F md calls pages raws) (k : Nat)
    (hn : ¬ (8 ≤ (streamOf .events (pages.take k)).length ∧ 9 + (utf8 md).length ≤ (streamOf .stringData (pages.take k)).length ∧
      24 ≤ (streamOf .stringIndex (pages.take k)).length ∧ (streamOf .stringIndex (pages.take k)).length % 16 = 8)) (fuel : Nat) (d : EventDecoder) :
    EventDecoder.new diag fuel (fileHeader magicTopLevel ++ storeOf (pages.take k)) ≠ .ok d := by
  have hpp : ProperPages (pages.take k) := fun p hp =>
    ⟨(P.bodies p (List.mem_of_mem_take hp)).1, by have := (P.bodies p (List.mem_of_mem_take hp)).2; omega⟩
  have hh : Headed "MMPD" (fileHeader magicTopLevel ++ storeOf (pages.take k)) (storeOf (pages.take k)) := by unfold Headed; rw [header_top]
  by_cases h8 : 8 ≤ (streamOf .events (pages.take k)).length ∧ 8 ≤ (streamOf .stringData (pages.take k)).length ∧ 8 ≤ (streamOf .stringIndex (pages.take k)).length
  · obtain ⟨he, hd, hi⟩ := h8
    obtain ⟨L, hL, tab⟩ := P.table
    obtain ⟨D0, hD0⟩ := tab.dhead
    have hpd := streamOf_take .stringData pages k
    have hpd' := hpd
    rw [hD0] at hpd'
    obtain ⟨D, hD, _⟩ := prefix_header hpd' (by rw [fileHeader_length rfl]; exact hd)
    have hpi := streamOf_take .stringIndex pages k
    rw [P.index, List.append_assoc] at hpi
    obtain ⟨I, hI, _⟩ := prefix_header hpi (by rw [fileHeader_length rfl]; exact hi)
    have hIl : (streamOf .stringIndex (pages.take k)).length = 8 + I.length := by
      rw [hI, List.length_append, fileHeader_length rfl]
    rcases P.cut k with hc | ⟨q, hq, hev⟩
    · omega
    · have h1 : Headed "MMES" (streamOf .events (pages.take k)) ((raws.take q).flatMap RawEvent.serialize) := by unfold Headed; rw [hev, header_events]
      have h2 : Headed "MMSD" (streamOf .stringData (pages.take k)) D := by unfold Headed; rw [hD, header_data]
      have h3 : Headed "MMSI" (streamOf .stringIndex (pages.take k)) I := by unfold Headed; rw [hI, header_index]
      by_cases h16 : I.length % 16 = 0
      · by_cases hI0 : I.length = 0
        · have hI0 := List.eq_nil_of_length_eq_zero hI0
          subst hI0
          cases fuel with
          | zero =>
            have := C66_opens (diag := diag) 0 _ _ hpp hh _ _ [] h1 h2 h3
            rw [this]
            simp [StringTable.toStr, Except.bind]
          | succ f => exact not_ok_of_err (C66_no_metadata f _ _ hpp hh _ _ [] h1 h2 h3 (by simp)) d
        · obtain ⟨j, hj⟩ : ∃ j, (streamOf .stringIndex (pages.take k)).length = 24 + 16 * j := ⟨(I.length - 16) / 16, by omega⟩
          rw [cut_equation P k he hd j hj fuel]
          cases fuel with
          | zero => simp [StringTable.toStr, Except.bind]
          | succ f =>
            have hmaps : ∀ m ∈ (mappings (stringLog md calls)).take j, m.1.toNat ≤ 100000000 ∧ 100000003 ≤ m.2.toNat :=
              fun m hm => P.maps m (List.mem_of_mem_take hm)
            have hp := torn_text (metadata_there P) hpd (idx := collectMap (cutIndex ((mappings (stringLog md calls)).take j))) (id := 100000001) (by omega)
              (by rw [getAddr_virtual _ (by decide)]; exact congrArg _ (cutIndex_metadata hmaps)) f
            obtain ⟨why, hw⟩ := isPanic_elim hp
            rw [hw]
            simp [Except.bind]
      · exact not_ok_of_panic (C66_index_size fuel _ _ hpp hh _ _ _ h1 h2 h3 h16) d
  · refine not_ok_of_err (C66_streams fuel _ _ hpp hh ?_) d
    rintro ⟨⟨_, h1⟩, ⟨_, h2⟩, ⟨_, h3⟩⟩
    exact h8 ⟨headed_length (by decide) h1, headed_length (by decide) h2, headed_length (by decide) h3⟩

/-- `C67_cut` for any file with the pages of a session. -/
theorem parts_cut (start pid : Nat) (hs : start < 2 ^ 64) (hp : pid < 2 ^ 32) (args : List String) (plain : PlainArgs args) (counter : CounterKind)
    {calls : List ProfCall} {F : Bytes} {pages : List Page} {raws : List RawEvent} (P : Parts F (metadataText start pid args counter) calls pages raws) (n : Nat) :
    (∃ i j k, ShowsPart start pid args counter calls (F.take n) i j k) ∨
    ∀ fuel d, EventDecoder.new diag fuel (F.take n) ≠ .ok d := by
  by_cases hk : ∃ k, F.take n = fileHeader magicTopLevel ++ storeOf (pages.take k)
  · obtain ⟨k, hk⟩ := hk
    rw [hk]
    by_cases hc : 8 ≤ (streamOf .events (pages.take k)).length ∧ 9 + (utf8 (metadataText start pid args counter)).length ≤ (streamOf .stringData (pages.take k)).length ∧
      24 ≤ (streamOf .stringIndex (pages.take k)).length ∧ (streamOf .stringIndex (pages.take k)).length % 16 = 8
    · obtain ⟨h1, h2, h3, h4⟩ := hc
      obtain ⟨i, q, h, _⟩ := cut_shows start pid hs hp args plain counter calls P k h1 h2 (((streamOf .stringIndex (pages.take k)).length - 24) / 16) (by omega)
      exact .inl ⟨i, _, q, h⟩
    · exact .inr fun fuel d => cut_short P k hc fuel d
  · right
    intro fuel d
    by_cases h8 : n < 8
    · exact not_ok_of_err ((cut_inside P n hk fuel).1 h8) d
    · exact not_ok_of_panic ((cut_inside P n hk fuel).2 (by omega)) d

/-- `C67_opens_iff` for any file with the pages of a session. -/
theorem parts_opens (start pid : Nat) (hs : start < 2 ^ 64) (hp : pid < 2 ^ 32) (args : List String) (plain : PlainArgs args) (counter : CounterKind)
    {calls : List ProfCall} {F : Bytes} {pages : List Page} {raws : List RawEvent} (P : Parts F (metadataText start pid args counter) calls pages raws) :
    ProperPages pages ∧ Headed "MMPD" F (storeOf pages) ∧
      ∀ n, ((∃ fuel d, EventDecoder.new diag fuel (F.take n) = .ok d) ↔
        ∃ m, Headed "MMPD" (F.take n) (storeOf (pages.take m)) ∧
          8 ≤ (streamOf .events (pages.take m)).length ∧
          9 + (utf8 (metadataText start pid args counter)).length ≤ (streamOf .stringData (pages.take m)).length ∧
          24 ≤ (streamOf .stringIndex (pages.take m)).length ∧ (streamOf .stringIndex (pages.take m)).length % 16 = 8) ∧
      ∀ m, Headed "MMPD" (F.take n) (storeOf (pages.take m)) →
        (∃ fuel d, EventDecoder.new diag fuel (F.take n) = .ok d) →
        ∃ i j k, ShowsPart start pid args counter calls (F.take n) i j k ∧
          (streamOf .events (pages.take m)).length = 8 + 32 * k ∧ (streamOf .stringIndex (pages.take m)).length = 24 + 16 * j := by
  have hd : ∀ x m, Headed "MMPD" x (storeOf (pages.take m)) ↔ x = fileHeader magicTopLevel ++ storeOf (pages.take m) := by
    intro x m; unfold Headed; rw [header_top]
  refine ⟨fun p hp => ⟨(P.bodies p hp).1, by have := (P.bodies p hp).2; omega⟩, by unfold Headed; rw [P.file, header_top], fun n => ⟨⟨?_, ?_⟩, ?_⟩⟩
  · rintro ⟨fuel, d, ho⟩
    by_cases hk : ∃ k, F.take n = fileHeader magicTopLevel ++ storeOf (pages.take k)
    · obtain ⟨k, hk⟩ := hk
      refine ⟨k, (hd _ _).mpr hk, ?_⟩
      by_contra hc
      rw [hk] at ho
      exact cut_short P k hc fuel d ho
    · exfalso
      by_cases h8 : n < 8
      · exact not_ok_of_err ((cut_inside P n hk fuel).1 h8) d ho
      · exact not_ok_of_panic ((cut_inside P n hk fuel).2 (by omega)) d ho
  · rintro ⟨m, hm, h1, h2, h3, h4⟩
    rw [hd] at hm
    rw [hm]
    obtain ⟨i, q, ⟨d, ⟨n, hn⟩, _⟩, _⟩ := cut_shows start pid hs hp args plain counter calls P m h1 h2 (((streamOf .stringIndex (pages.take m)).length - 24) / 16) (by omega)
    exact ⟨n, d, hn diag n (Nat.le_refl _)⟩
  · rintro m hm ⟨fuel, d, ho⟩
    rw [hd] at hm
    rw [hm] at ho ⊢
    by_cases hc : 8 ≤ (streamOf .events (pages.take m)).length ∧ 9 + (utf8 (metadataText start pid args counter)).length ≤ (streamOf .stringData (pages.take m)).length ∧
      24 ≤ (streamOf .stringIndex (pages.take m)).length ∧ (streamOf .stringIndex (pages.take m)).length % 16 = 8
    · obtain ⟨h1, h2, h3, h4⟩ := hc
      have hj : (streamOf .stringIndex (pages.take m)).length = 24 + 16 * (((streamOf .stringIndex (pages.take m)).length - 24) / 16) := by omega
      obtain ⟨i, q, h, _, hq⟩ := cut_shows start pid hs hp args plain counter calls P m h1 h2 _ hj
      exact ⟨i, _, q, h, hq, hj⟩
    · exact (cut_short P m hc fuel d ho).elim

/-- **C67.** A profile cut at any byte (by a crash, a full disk or an interrupted copy) either does not open at all, or opens and shows exactly an
initial part of what was recorded: the metadata, the first events with their threads and values, and the texts that the remaining strings and mappings
give. It never shows an event that was not recorded or a text that differs. -/
theorem C67_cut (start pid : Nat) (hs : start < 2 ^ 64) (hp : pid < 2 ^ 32) (args : List String) (plain : PlainArgs args) (counter : CounterKind)
    (calls : List ProfCall) (n : Nat) :
    (∃ i j k, ShowsPart start pid args counter calls ((profileFile start pid args counter calls).take n) i j k) ∨
    ∀ fuel d, EventDecoder.new diag fuel ((profileFile start pid args counter calls).take n) ≠ .ok d := by
  obtain ⟨pages, raws, P⟩ := parts_exist (metadataText start pid args counter) calls
  exact parts_cut start pid hs hp args plain counter P n

/-- **C67.** Exactly when a cut profile opens, and how much it shows: the file is a header followed by pages, the cut must be at the end of a page, and
the pages before it must contain the header of the event stream, the whole metadata text and the index entry of the metadata; moreover the index
must not end within an entry (`C67_torn_index` shows that pages can end within an entry). The number of events shown is the number of whole records. -/
theorem C67_opens_iff (start pid : Nat) (hs : start < 2 ^ 64) (hp : pid < 2 ^ 32) (args : List String) (plain : PlainArgs args) (counter : CounterKind)
    (calls : List ProfCall) :
    ∃ pages, ProperPages pages ∧ Headed "MMPD" (profileFile start pid args counter calls) (storeOf pages) ∧
      ∀ n, ((∃ fuel d, EventDecoder.new diag fuel ((profileFile start pid args counter calls).take n) = .ok d) ↔
        ∃ m, Headed "MMPD" ((profileFile start pid args counter calls).take n) (storeOf (pages.take m)) ∧
          8 ≤ (streamOf .events (pages.take m)).length ∧
          9 + (utf8 (metadataText start pid args counter)).length ≤ (streamOf .stringData (pages.take m)).length ∧
          24 ≤ (streamOf .stringIndex (pages.take m)).length ∧ (streamOf .stringIndex (pages.take m)).length % 16 = 8) ∧
      ∀ m, Headed "MMPD" ((profileFile start pid args counter calls).take n) (storeOf (pages.take m)) →
        (∃ fuel d, EventDecoder.new diag fuel ((profileFile start pid args counter calls).take n) = .ok d) →
        ∃ i j k, ShowsPart start pid args counter calls ((profileFile start pid args counter calls).take n) i j k ∧
          (streamOf .events (pages.take m)).length = 8 + 32 * k ∧ (streamOf .stringIndex (pages.take m)).length = 24 + 16 * j := by
  obtain ⟨pages, raws, P⟩ := parts_exist (metadataText start pid args counter) calls
  exact ⟨pages, parts_opens start pid hs hp args plain counter P⟩

/-- What remains may contain values of the program's own types, in the documented format (the first; a byte follows the terminator) or not (the second). -/
example : ∃ md, md = metadataText 5 6 ["rustc"] .wallTime ∧
    (strings (stringLog md [.allocForeign [97, 98, 255, 7], .allocForeign [1, 2], .allocString (.str "x")])).map (·.2) = [[97, 98, 255, 7], [1, 2], [120, 255]] ∧
    ∀ id j, id ∈ ((strings (stringLog md [.allocForeign [97, 98, 255, 7], .allocForeign [1, 2], .allocString (.str "x")])).map (·.1)).head? →
      Allocated (remaining md [.allocForeign [97, 98, 255, 7], .allocForeign [1, 2], .allocString (.str "x")] 1 j) id [.value "ab"] := by
  refine ⟨_, rfl, by decide +kernel, fun id j h => tableOf_allocated.mpr ⟨[7], ?_⟩⟩
  have hs : ∃ i1 i2 i3, strings (stringLog (metadataText 5 6 ["rustc"] .wallTime) [.allocForeign [97, 98, 255, 7], .allocForeign [1, 2], .allocString (.str "x")]) =
      [(i1, [97, 98, 255, 7]), (i2, [1, 2]), (i3, [120, 255])] := ⟨100000174, 100000178, 100000180, by decide +kernel⟩
  obtain ⟨i1, i2, i3, hs⟩ := hs
  rw [hs] at h ⊢
  simp only [List.map_cons, List.head?_cons, Option.mem_def, Option.some.injEq] at h
  subst h
  exact List.mem_cons_self ..

/-- Both cases of `C67_cut` occur: the whole file opens, seven bytes of it do not. -/
example : (∃ n fuel d, EventDecoder.new diag fuel ((profileFile 1000 42 ["rustc", "a.rs"] .wallTime exCalls).take n) = .ok d) ∧
    ∀ fuel, ∃ why, EventDecoder.new diag fuel ((profileFile 1000 42 ["rustc", "a.rs"] .wallTime exCalls).take 7) = .error (.err why) := by
  constructor
  · obtain ⟨d, ⟨n, hn⟩, _⟩ := C29_profile_round_trip 1000 42 (by decide) (by decide) ["rustc", "a.rs"] (by decide) .wallTime exCalls
    exact ⟨_, n, d, by rw [List.take_length]; exact hn diag n (Nat.le_refl _)⟩
  · intro fuel
    refine isErr_elim (C66_header fuel _ ?_)
    rintro ⟨rest, hr⟩
    have h1 := headed_length (by decide) hr
    rw [List.length_take] at h1
    omega

end Verif.Props
