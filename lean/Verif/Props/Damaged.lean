import Verif.Spec.Damaged
import Verif.Props.Iteration
import Verif.Props.Container

/-! # Property C66: opening a file of any content -/

namespace Verif.Props
open Verif Verif.Mm Verif.Spec Verif.Decode Verif.Json

theorem headed_verify {kind : String} {magic : Bytes} (hm : magic = utf8 kind) (h4 : magic.length = 4) (bytes : Bytes) :
    (∀ body, Headed kind bytes body → verifyFileHeader diag stream bytes magic = .ok () ∧ bytes.drop 8 = body ∧ 8 ≤ bytes.length) ∧
    ((¬ ∃ body, Headed kind bytes body) → ∃ why, verifyFileHeader diag stream bytes magic = .error (.err why)) := by
  obtain ⟨h1, h2⟩ := C11_verify_iff bytes magic h4
  subst hm
  constructor
  · intro body hb
    refine ⟨h1.mpr ⟨body, hb⟩, ?_, ?_⟩
    · rw [show bytes = _ from hb, List.drop_left' (by simp [h4])]
    · rw [show bytes = _ from hb]; simp only [List.length_append, h4, List.length_cons, List.length_nil]; omega
  · intro hn
    cases hv : verifyFileHeader diag stream bytes (utf8 kind) with
    | ok u => exact absurd (h1.mp hv) hn
    | error e =>
      rw [hv] at h2
      cases e with
      | err why => exact ⟨why, rfl⟩
      | _ => simp [IsOk, IsErr] at h2

/-- **C66.** A file that does not begin with its header is reported as an error. -/
theorem C66_header (fuel : Nat) (file : Bytes) (h : ¬ ∃ rest, Headed "MMPD" file rest) : IsErr (EventDecoder.new diag fuel file) := by
  obtain ⟨why, hv⟩ := (headed_verify (diag := diag) (stream := "top-level") (kind := "MMPD") (magic := magicTopLevel) (by decide) rfl file).2 h
  unfold EventDecoder.new
  simp only [bind, Except.bind, hv, IsErr]

/-- **C66.** What follows the header must be a sequence of pages; otherwise opening panics. -/
theorem C66_pages (fuel : Nat) (file rest : Bytes) (h : Headed "MMPD" file rest) (hp : ¬ ∃ pages, ProperPages pages ∧ rest = storeOf pages) :
    IsPanic (EventDecoder.new diag fuel file) := by
  obtain ⟨hv, hd, _⟩ := (headed_verify (diag := diag) (stream := "top-level") (kind := "MMPD") (magic := magicTopLevel) (by decide) rfl file).1 rest h
  have hs := C07_split_otherwise_panics rest hp
  unfold EventDecoder.new
  have e8 : fileHeaderSize = 8 := rfl
  simp only [bind, Except.bind, hv, e8, hd]
  cases hr : splitStreams rest with
  | ok m => rw [hr] at hs; exact hs.elim
  | error e =>
    rw [hr] at hs
    cases e with
    | panic m => simp [IsPanic]
    | _ => simp [IsPanic] at hs

theorem split_proper {pages : List Page} (hp : ProperPages pages) :
    splitStreams (storeOf pages) = .ok (fun t => if ∃ p ∈ pages, p.tag = t then some (streamOf t pages) else none) :=
  (C07_split_accepts_iff _ _).mpr ⟨pages, hp, rfl, fun _ => rfl⟩

theorem stream_absent {pages : List Page} {t : PageTag} (h : ¬ ∃ p ∈ pages, p.tag = t) : streamOf t pages = [] := by
  unfold streamOf
  have : pages.filter (fun p => p.tag = t) = [] := by
    rw [List.filter_eq_nil_iff]
    intro p hp hpt
    exact h ⟨p, hp, by simpa using hpt⟩
  rw [this]
  rfl

theorem headed_ne {kind : String} {body : Bytes} (h : Headed kind [] body) : False := by
  unfold Headed at h
  have := congrArg List.length h
  simp at this

theorem stream_present {pages : List Page} {t : PageTag} {kind : String} {body : Bytes} (h : Headed kind (streamOf t pages) body) :
    ∃ p ∈ pages, p.tag = t := by
  apply Decidable.byContradiction
  intro hn
  rw [stream_absent hn] at h
  exact headed_ne h

/-- **C66.** If one of the three streams is missing or does not begin with its header, an error is reported. -/
theorem C66_streams (fuel : Nat) (file : Bytes) (pages : List Page) (hp : ProperPages pages) (h : Headed "MMPD" file (storeOf pages))
    (hs : ¬ ((∃ b, Headed "MMES" (streamOf .events pages) b) ∧ (∃ b, Headed "MMSD" (streamOf .stringData pages) b) ∧
      ∃ b, Headed "MMSI" (streamOf .stringIndex pages) b)) :
    IsErr (EventDecoder.new diag fuel file) := by
  obtain ⟨hv, hd, _⟩ := (headed_verify (diag := diag) (stream := "top-level") (kind := "MMPD") (magic := magicTopLevel) (by decide) rfl file).1 _ h
  have e8 : fileHeaderSize = 8 := rfl
  unfold EventDecoder.new
  simp only [bind, Except.bind, hv, e8, hd, split_proper hp]
  by_cases p1 : ∃ p ∈ pages, p.tag = .stringData
  · by_cases p2 : ∃ p ∈ pages, p.tag = .stringIndex
    · by_cases p3 : ∃ p ∈ pages, p.tag = .events
      · simp only [okOr, if_pos p1, if_pos p2, if_pos p3]
        unfold EventDecoder.fromSeparateBuffers StringTable.new
        simp only [bind, Except.bind]
        by_cases q3 : ∃ b, Headed "MMES" (streamOf .events pages) b
        · obtain ⟨b3, q3⟩ := q3
          rw [((headed_verify (diag := diag) (stream := "event") (kind := "MMES") (magic := magicEventStream) (by decide) rfl _).1 _ q3).1]
          by_cases q1 : ∃ b, Headed "MMSD" (streamOf .stringData pages) b
          · obtain ⟨b1, q1⟩ := q1
            rw [((headed_verify (diag := diag) (stream := "StringTable Data") (kind := "MMSD") (magic := magicStringData) (by decide) rfl _).1 _ q1).1]
            have q2 : ¬ ∃ b, Headed "MMSI" (streamOf .stringIndex pages) b := fun q2 => hs ⟨⟨b3, q3⟩, ⟨b1, q1⟩, q2⟩
            obtain ⟨why, hw⟩ := (headed_verify (diag := diag) (stream := "StringTable Index") (kind := "MMSI") (magic := magicStringIndex) (by decide) rfl _).2 q2
            rw [hw]
            simp [IsErr]
          · obtain ⟨why, hw⟩ := (headed_verify (diag := diag) (stream := "StringTable Data") (kind := "MMSD") (magic := magicStringData) (by decide) rfl _).2 q1
            rw [hw]
            simp [IsErr]
        · obtain ⟨why, hw⟩ := (headed_verify (diag := diag) (stream := "event") (kind := "MMES") (magic := magicEventStream) (by decide) rfl _).2 q3
          rw [hw]
          simp [IsErr]
      · simp only [okOr, if_pos p1, if_pos p2, if_neg p3, IsErr]
    · simp only [okOr, if_pos p1, if_neg p2, IsErr]
  · simp only [okOr, if_neg p1, IsErr]

/-- **C66.** An index that is not a whole number of entries makes opening panic, if all streams are there. -/
theorem C66_index_size (fuel : Nat) (file : Bytes) (pages : List Page) (hp : ProperPages pages) (h : Headed "MMPD" file (storeOf pages))
    (e d i : Bytes) (h1 : Headed "MMES" (streamOf .events pages) e) (h2 : Headed "MMSD" (streamOf .stringData pages) d)
    (h3 : Headed "MMSI" (streamOf .stringIndex pages) i) (hi : i.length % 16 ≠ 0) : IsPanic (EventDecoder.new diag fuel file) := by
  obtain ⟨hv, hd, _⟩ := (headed_verify (diag := diag) (stream := "top-level") (kind := "MMPD") (magic := magicTopLevel) (by decide) rfl file).1 _ h
  obtain ⟨v3, g3, l3⟩ := (headed_verify (diag := diag) (stream := "StringTable Index") (kind := "MMSI") (magic := magicStringIndex) (by decide) rfl _).1 _ h3
  have e8 : fileHeaderSize = 8 := rfl
  unfold EventDecoder.new
  simp only [bind, Except.bind, hv, e8, hd, split_proper hp, okOr, if_pos (stream_present h1), if_pos (stream_present h2), if_pos (stream_present h3)]
  unfold EventDecoder.fromSeparateBuffers StringTable.new
  simp only [bind, Except.bind]
  rw [((headed_verify (diag := diag) (stream := "event") (kind := "MMES") (magic := magicEventStream) (by decide) rfl _).1 _ h1).1,
    ((headed_verify (diag := diag) (stream := "StringTable Data") (kind := "MMSD") (magic := magicStringData) (by decide) rfl _).1 _ h2).1, v3, e8]
  have : ((streamOf .stringIndex pages).length - 8) % 16 ≠ 0 := by
    rw [← g3, List.length_drop] at hi
    exact hi
  simp [this, IsPanic]

theorem collectMap_last (entries : List (UInt64 × UInt64)) (v : UInt64) :
    collectMap (entries.map fun e => (e.1, e.2.toNat)) v = lastEntry entries v := by
  induction entries using List.reverseRecOn with
  | nil => rfl
  | append_singleton es e ih =>
    rw [List.map_append, List.map_cons, List.map_nil, collectMap_snoc]
    unfold lastEntry
    rw [List.filter_append]
    by_cases h : v = e.1
    · subst h; simp
    · have h' : ¬ e.1 = v := fun h' => h h'.symm
      rw [if_neg h, ih]
      simp [h', lastEntry]

/-- **C66.** In all other cases the file opens exactly if its metadata can be read: the text the metadata's id (100000001) is shown as must be the
JSON text of a metadata record. Of several index entries for an id the last one counts. -/
theorem C66_opens (fuel : Nat) (file : Bytes) (pages : List Page) (hp : ProperPages pages) (h : Headed "MMPD" file (storeOf pages))
    (e d : Bytes) (entries : List (UInt64 × UInt64)) (h1 : Headed "MMES" (streamOf .events pages) e) (h2 : Headed "MMSD" (streamOf .stringData pages) d)
    (h3 : Headed "MMSI" (streamOf .stringIndex pages) (entries.flatMap indexEntry)) :
    EventDecoder.new diag fuel file =
      ((⟨streamOf .stringData pages, lastEntry entries⟩ : StringTable).toStr fuel 100000001).bind fun text =>
        (parseMetadata text).map fun m => ⟨streamOf .events pages, ⟨streamOf .stringData pages, lastEntry entries⟩, m⟩ := by
  obtain ⟨hv, hd, _⟩ := (headed_verify (diag := diag) (stream := "top-level") (kind := "MMPD") (magic := magicTopLevel) (by decide) rfl file).1 _ h
  have e8 : fileHeaderSize = 8 := rfl
  have ht : StringTable.new diag (streamOf .stringData pages) (streamOf .stringIndex pages) = .ok ⟨streamOf .stringData pages, lastEntry entries⟩ := by
    have := table_new (diag := diag) d (entries.map fun e => (e.1, e.2.toNat)) (by
      intro e he
      obtain ⟨x, _, rfl⟩ := List.mem_map.mp he
      exact x.2.toNat_lt)
    have m1 : fileHeader magicStringData ++ d = streamOf .stringData pages := by
      rw [show streamOf .stringData pages = _ from h2]
      congr 1
    have m2 : fileHeader magicStringIndex ++ (entries.map fun e => (e.1, e.2.toNat)).flatMap entryBytes = streamOf .stringIndex pages := by
      rw [show streamOf .stringIndex pages = _ from h3, List.flatMap_map]
      congr 1
    rw [m1, m2] at this
    rw [this, show collectMap (entries.map fun e => (e.1, e.2.toNat)) = lastEntry entries from funext (collectMap_last entries)]
  unfold EventDecoder.new
  simp only [bind, Except.bind, hv, e8, hd, split_proper hp, okOr, if_pos (stream_present h1), if_pos (stream_present h2), if_pos (stream_present h3)]
  unfold EventDecoder.fromSeparateBuffers
  simp only [bind, Except.bind, ht]
  rw [((headed_verify (diag := diag) (stream := "event") (kind := "MMES") (magic := magicEventStream) (by decide) rfl _).1 _ h1).1]
  simp only [StringTable.metadataId]
  rw [show metadataStringId = 100000001 from rfl]
  cases StringTable.toStr ⟨streamOf .stringData pages, lastEntry entries⟩ fuel 100000001 with
  | error f => rfl
  | ok text => cases parseMetadata text <;> rfl

/-- Bytes in pieces of sixteen are index entries. -/
theorem entries_of (k : Nat) : ∀ b : Bytes, b.length = 16 * k → ∃ entries : List (UInt64 × UInt64), b = entries.flatMap indexEntry := by
  induction k with
  | zero => intro b hb; exact ⟨[], by simpa using hb⟩
  | succ k ih =>
    intro b hb
    obtain ⟨es, he⟩ := ih (b.drop 16) (by rw [List.length_drop]; omega)
    have piece : ∀ c : Bytes, c.length = 8 → leBytes 8 (UInt64.ofNat (fromLe c)).toNat = c := by
      intro c hc
      have h1 := leBytes_fromLe c
      rw [hc] at h1
      have h2 : fromLe c < 18446744073709551616 := by
        have := fromLe_lt c
        rw [hc] at this
        simpa using this
      rw [UInt64.toNat_ofNat', Nat.mod_eq_of_lt (by simpa using h2), h1]
    refine ⟨(UInt64.ofNat (fromLe (b.take 8)), UInt64.ofNat (fromLe ((b.drop 8).take 8))) :: es, ?_⟩
    rw [List.flatMap_cons, ← he, indexEntry, piece _ (by rw [List.length_take]; omega), piece _ (by rw [List.length_take, List.length_drop]; omega),
      List.append_assoc]
    have : b.drop 16 = (b.drop 8).drop 8 := by rw [List.drop_drop]
    rw [this, List.take_append_drop, List.take_append_drop]

/-- **C66.** These are all cases: the header is missing, the pages do not parse, a stream has no header, the index has no whole number of entries, or
the file consists of exactly the parts that `C66_opens` speaks of. -/
theorem C66_all_cases (file : Bytes) :
    (¬ ∃ rest, Headed "MMPD" file rest) ∨
    (∃ rest, Headed "MMPD" file rest ∧ ¬ ∃ pages, ProperPages pages ∧ rest = storeOf pages) ∨
    ∃ pages, ProperPages pages ∧ Headed "MMPD" file (storeOf pages) ∧
      (¬ ((∃ b, Headed "MMES" (streamOf .events pages) b) ∧ (∃ b, Headed "MMSD" (streamOf .stringData pages) b) ∧
          ∃ b, Headed "MMSI" (streamOf .stringIndex pages) b) ∨
        ∃ e d i, Headed "MMES" (streamOf .events pages) e ∧ Headed "MMSD" (streamOf .stringData pages) d ∧ Headed "MMSI" (streamOf .stringIndex pages) i ∧
          (i.length % 16 ≠ 0 ∨ ∃ entries : List (UInt64 × UInt64), i = entries.flatMap indexEntry)) := by
  by_cases h0 : ∃ rest, Headed "MMPD" file rest
  · obtain ⟨rest, h0⟩ := h0
    by_cases h1 : ∃ pages, ProperPages pages ∧ rest = storeOf pages
    · obtain ⟨pages, hp, rfl⟩ := h1
      refine .inr (.inr ⟨pages, hp, h0, ?_⟩)
      by_cases h2 : (∃ b, Headed "MMES" (streamOf .events pages) b) ∧ (∃ b, Headed "MMSD" (streamOf .stringData pages) b) ∧
          ∃ b, Headed "MMSI" (streamOf .stringIndex pages) b
      · obtain ⟨⟨e, he⟩, ⟨d, hd⟩, ⟨i, hi⟩⟩ := h2
        refine .inr ⟨e, d, i, he, hd, hi, ?_⟩
        by_cases h3 : i.length % 16 = 0
        · exact .inr (entries_of (i.length / 16) i (by omega))
        · exact .inl h3
      · exact .inl h2
    · exact .inr (.inl ⟨rest, h0, h1⟩)
  · exact .inl h0

/-- **C66.** A file without metadata — no index entry for its id — is reported as an error, not a panic. -/
theorem C66_no_metadata (fuel : Nat) (file : Bytes) (pages : List Page) (hp : ProperPages pages) (h : Headed "MMPD" file (storeOf pages))
    (e d : Bytes) (entries : List (UInt64 × UInt64)) (h1 : Headed "MMES" (streamOf .events pages) e) (h2 : Headed "MMSD" (streamOf .stringData pages) d)
    (h3 : Headed "MMSI" (streamOf .stringIndex pages) (entries.flatMap indexEntry)) (hn : ∀ x ∈ entries, x.1 ≠ 100000001) :
    IsErr (EventDecoder.new diag (fuel + 1) file) := by
  rw [C66_opens (fuel + 1) file pages hp h e d entries h1 h2 h3]
  have hl : lastEntry entries 100000001 = none := by
    have : entries.filter (fun e => e.1 = 100000001) = [] := by
      rw [List.filter_eq_nil_iff]
      intro x hx
      simpa using hn x hx
    unfold lastEntry
    rw [this]
    rfl
  have ha : (⟨streamOf .stringData pages, lastEntry entries⟩ : StringTable).getAddr 100000001 = .ok none := by
    rw [getAddr_virtual _ (by decide)]
    show Except.ok (lastEntry entries 100000001) = _
    rw [hl]
  unfold StringTable.toStr
  rw [ha]
  have : ∃ why, parseMetadata unknownString = .error (.err why) := by
    have h : (match parseMetadata unknownString with | .error (.err _) => true | _ => false) = true := by decide +kernel
    split at h
    · exact ⟨_, by assumption⟩
    · cases h
  obtain ⟨why, hw⟩ := this
  simp only [Except.bind, hw, Except.map, IsErr]

/-- A file with one event, an empty string table and no metadata; the same with its index cut; and a file whose pages do not parse. -/
example : IsErr (EventDecoder.new diag 5 (utf8 "MMPD" ++ [9, 0, 0, 0] ++ storeOf [⟨.stringData, utf8 "MMSD" ++ [9, 0, 0, 0]⟩, ⟨.events, utf8 "MMES" ++ [9, 0]⟩,
      ⟨.events, [0, 0] ++ List.replicate 32 0⟩, ⟨.stringIndex, utf8 "MMSI" ++ [9, 0, 0, 0] ++ List.replicate 16 1⟩])) ∧
    IsPanic (EventDecoder.new diag 5 (utf8 "MMPD" ++ [9, 0, 0, 0] ++ storeOf [⟨.stringData, utf8 "MMSD" ++ [9, 0, 0, 0]⟩,
      ⟨.events, utf8 "MMES" ++ [9, 0, 0, 0] ++ List.replicate 32 0⟩, ⟨.stringIndex, utf8 "MMSI" ++ [9, 0, 0, 0] ++ List.replicate 15 1⟩])) ∧
    IsPanic (EventDecoder.new diag 5 (utf8 "MMPD" ++ [9, 0, 0, 0] ++ [3])) := by
  refine ⟨?_, ?_, ?_⟩
  · exact C66_no_metadata 4 _ [⟨.stringData, utf8 "MMSD" ++ [9, 0, 0, 0]⟩, ⟨.events, utf8 "MMES" ++ [9, 0]⟩,
      ⟨.events, [0, 0] ++ List.replicate 32 0⟩, ⟨.stringIndex, utf8 "MMSI" ++ [9, 0, 0, 0] ++ List.replicate 16 1⟩] (by unfold ProperPages; decide) rfl
      (List.replicate 32 0) [] [(72340172838076673, 72340172838076673)] (by unfold Headed; decide) (by unfold Headed; decide) (by unfold Headed; decide) (by decide)
  · exact C66_index_size 5 _ [⟨.stringData, utf8 "MMSD" ++ [9, 0, 0, 0]⟩,
      ⟨.events, utf8 "MMES" ++ [9, 0, 0, 0] ++ List.replicate 32 0⟩, ⟨.stringIndex, utf8 "MMSI" ++ [9, 0, 0, 0] ++ List.replicate 15 1⟩] (by unfold ProperPages; decide) rfl
      (List.replicate 32 0) [] (List.replicate 15 1) (by unfold Headed; decide) (by unfold Headed; decide) (by unfold Headed; decide) (by decide)
  · refine C66_pages 5 _ [3] rfl ?_
    rintro ⟨pages, hp, he⟩
    cases pages with
    | nil => simp [storeOf] at he
    | cons p ps =>
      have := congrArg List.length he
      simp [storeOf, Page.bytes] at this

end Verif.Props
