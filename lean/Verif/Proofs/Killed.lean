import Verif.Proofs.Crash

/-! # Lemmas about processes that are killed -/

namespace Verif.Mm

open Verif Verif.Spec Verif.Decode Verif.Props Verif.Conc

/-- The call only fills the buffer. -/
def Fits (s : SinkState) (c : SinkCall) : Prop :=
  s.inner.buffer.length + (payload c).length ≤ 131072 ∨ AtomicRecord c ∧ s.inner.buffer.length + (payload c).length ≤ 262144

theorem writeBuffered_quiet (tag : PageTag) (num : Nat) (fill : Fill) (s : SinkState) (h : s.inner.buffer.length + num ≤ 262144) :
    (writeBuffered tag num fill s).2.store = s.store := by
  unfold writeBuffered
  rw [Act.bind_ok (Act.get_apply s)]
  have hn : ¬ s.inner.buffer.length + num > maxPageSize := by rw [maxPageSize_eq]; omega
  simp only [hn, if_false, Act.bind_apply, Act.get_apply, Act.pure_apply, setBuffer, Act.modify_apply]
  cases fill (List.replicate num 0) with
  | error e => rfl
  | ok out => simp only [addAddr, Act.bind_apply, Act.modify_apply, Act.pure_apply]

theorem writeDirect_quiet (tag : PageTag) (b : Bytes) (s : SinkState) (h : s.inner.buffer.length + b.length ≤ 131072) :
    (writeDirect tag b s).2.store = s.store := by
  unfold writeDirect
  have ht : (if s.inner.buffer.length < minPageSize then min (minPageSize - s.inner.buffer.length) b.length else 0) = b.length ∨ b.length = 0 := by
    rw [minPageSize_eq]
    split <;> omega
  have hd : b.drop (if s.inner.buffer.length < minPageSize then min (minPageSize - s.inner.buffer.length) b.length else 0) = [] := by
    rcases ht with h | h
    · rw [h]; exact List.drop_length
    · rw [List.eq_nil_of_length_eq_zero h]; simp
  simp only [Act.bind_apply, Act.get_apply, addAddr, setBuffer, Act.modify_apply, hd, if_true, Act.pure_apply]

theorem call_quiet (tag : PageTag) (c : SinkCall) (s : SinkState) (hg : Good c) (hf : ¬ Flushes c) (h : Fits s c) : (c.run tag s).2.store = s.store := by
  have bytes : ∀ b : Bytes, (s.inner.buffer.length + b.length ≤ 131072 ∨ b.length ≤ 128 ∧ s.inner.buffer.length + b.length ≤ 262144) →
      (writeBytesAtomic tag b s).2.store = s.store := by
    intro b hb
    unfold writeBytesAtomic
    by_cases h128 : b.length ≤ 128
    · rw [if_pos h128]; exact writeBuffered_quiet _ _ _ _ (by omega)
    · rw [if_neg h128]; exact writeDirect_quiet _ _ _ (by omega)
  cases c with
  | writeAtomic num fill =>
    obtain ⟨out, hfill, hlen⟩ := hg
    simp only [Fits, payload, hfill, AtomicRecord] at h
    have hw : (writeAtomic tag num fill s).2.store = s.store := by
      unfold writeAtomic
      rw [if_neg (by rw [maxPageSize_eq]; omega)]
      exact writeBuffered_quiet _ _ _ _ (by omega)
    simp only [SinkCall.run, Act.bind_apply]
    cases hx : writeAtomic tag num fill s with
    | mk r s' =>
      rw [hx] at hw
      cases r <;> simpa using hw
  | writeBytes b =>
    have hw := bytes b h
    simp only [SinkCall.run, Act.bind_apply]
    cases hx : writeBytesAtomic tag b s with
    | mk r s' =>
      rw [hx] at hw
      cases r <;> simpa using hw
  | stdWrite b =>
    have hw := bytes b h
    simp only [SinkCall.run, Act.bind_apply]
    cases hx : writeBytesAtomic tag b s with
    | mk r s' =>
      rw [hx] at hw
      cases r <;> simpa using hw
  | stdFlush => exact (hf trivial).elim
  | drop => exact (hf trivial).elim

/-- A stream that is short (and was never flushed) has no page. -/
theorem no_page (tagOf : Nat → PageTag) (h : History) (hg : AllGood h) (i : Nat) (hun : TagUnshared tagOf i h) (hf : ∀ x ∈ h, ¬ Flushes x.2)
    (hs : (written i h).length ≤ 131072 ∨ (∀ c, (i, c) ∈ h → AtomicRecord c) ∧ (written i h).length ≤ 262144) :
    ∃ pages, WInv tagOf h (run tagOf h).2 pages ∧ streamOf (tagOf i) pages = [] := by
  induction h using List.reverseRecOn with
  | nil => exact ⟨[], WInv.init tagOf, rfl⟩
  | append_singleton h x ih =>
    obtain ⟨j, c⟩ := x
    have hlen : (written i h).length ≤ (written i (h ++ [(j, c)])).length := by rw [written_append, List.length_append]; omega
    obtain ⟨pages, inv, hst⟩ := ih (fun x hx => hg x (by simp [hx])) (fun x hx => hun x (by simp [hx])) (fun x hx => hf x (by simp [hx]))
      (hs.imp (fun h => by omega) (fun h => ⟨fun c hc => h.1 c (by simp [hc]), by omega⟩))
    obtain ⟨r, w', new, hcall, hinv, _, _, he, hoth, _⟩ := inv.step j c (hg (j, c) (by simp))
    have hw : (run tagOf (h ++ [(j, c)])).2 = w' := by
      simp only [run, exec_append, World.exec]
      rw [show (World.exec tagOf h World.init).2 = (run tagOf h).2 from rfl, hcall]
    rw [hw]
    refine ⟨_, hinv, ?_⟩
    rw [streamOf_append, hst, List.nil_append]
    by_cases hj : j = i
    · subst hj
      have hbuf := inv.content j (fun x hx => hun x (by simp [hx]))
      rw [hst, List.nil_append] at hbuf
      have hq := call_quiet (tagOf j) c ⟨(run tagOf h).2.sinks j, (run tagOf h).2.store⟩ (hg (j, c) (by simp)) (hf (j, c) (by simp)) (by
        rw [written_append, written_single_same, List.length_append] at hs
        unfold Fits
        rw [hbuf]
        exact hs.imp (fun h => h) (fun h => ⟨h.1 c (by simp), h.2⟩))
      have hstore : w'.store = (run tagOf h).2.store := by
        have := congrArg (fun x => x.2.store) hcall
        simp only [World.call] at this
        rw [← this]
        exact hq
      have hes := he.store
      simp only at hes
      rw [hstore, inv.store] at hes
      injection hes with hes
      have hnil : storeOf (new.map (Page.mk (tagOf j))) = [] := by
        have := congrArg List.length hes
        simp only [List.length_append] at this
        exact List.eq_nil_of_length_eq_zero (by omega)
      cases new with
      | nil => rfl
      | cons b bs => simp [storeOf, Page.bytes] at hnil
    · exact streamOf_map_other (fun heq => hj (hun (j, c) (by simp) heq)) new

/-- The pages of the file of a killed process are the first pages of the file that would have been saved. -/
theorem killed_parts {md : String} {calls : List ProfCall} {pages : List Page} {raws : List RawEvent} (P : Parts (savedFile md calls) md calls pages raws) :
    ∃ k, killedFile md calls = fileHeader magicTopLevel ++ storeOf (pages.take k) ∧
      (∀ i, i ≤ 2 → (streamOf (profTags i) pages).length ≤ (streamOf (profTags i) (pages.take k)).length + 262144 ∧
        ((streamOf (profTags i) pages).length ≤ 131072 → streamOf (profTags i) (pages.take k) = [])) ∧
      ((streamOf .events pages).length ≤ 262144 → streamOf .events (pages.take k) = []) ∧
      ((∀ vs c r, (SessionOp.table (.bulkMapVirtual vs c), r) ∈ stringLog md calls → vs.length ≤ 8) →
        (streamOf .stringIndex (pages.take k)).length < 8 ∨ 8 ≤ (streamOf .stringIndex (pages.take k)).length ∧ (streamOf .stringIndex (pages.take k)).length % 16 = 8) := by
  obtain ⟨⟨h, g, s, hw, ha, _, hidx, hnf, hsm⟩, hmaps⟩ := cut_inv md calls
  obtain ⟨ps, inv, _⟩ := run_inv profTags h g
  have hkf : killedFile md calls = fileHeader magicTopLevel ++ storeOf ps := by unfold killedFile; rw [hw, inv.store]
  -- the saved file has more pages
  have hpre : ps <+: pages := by
    have hg2 : AllGood drops := by
      intro x hx
      simp only [drops, List.mem_cons, List.not_mem_nil, or_false] at hx
      rcases hx with rfl | rfl | rfl <;> trivial
    obtain ⟨more, inv2, _⟩ := inv.exec drops hg2
    have hf := P.file
    unfold savedFile at hf
    rw [show ([(0, .drop), (1, .drop), (2, .drop)] : History) = drops from rfl, hw, inv2.store] at hf
    have hf := List.append_cancel_left hf
    have : ps ++ more = pages := storeOf_inj (fun p hp => ⟨(inv2.bodies p hp).1, by have := (inv2.bodies p hp).2; omega⟩)
      (fun p hp => ⟨(P.bodies p hp).1, by have := (P.bodies p hp).2; omega⟩) hf
    exact ⟨more, this⟩
  have ht : pages.take ps.length = ps := (List.prefix_iff_eq_take.mp hpre).symm
  have huniq : ∀ ps', WInv profTags h (run profTags h).2 ps' → ps' = ps := by
    intro ps' inv'
    have := inv'.store
    rw [inv.store] at this
    injection this with this
    exact (storeOf_inj (fun p hp => ⟨(inv.bodies p hp).1, by have := (inv.bodies p hp).2; omega⟩)
      (fun p hp => ⟨(inv'.bodies p hp).1, by have := (inv'.bodies p hp).2; omega⟩) this).symm
  -- the streams of the saved file are what was written
  have hall : ∀ i, i ≤ 2 → streamOf (profTags i) pages = written i h := by
    intro i hi
    have hg : AllGood (h ++ drops) := by
      intro x hx
      simp [drops] at hx
      rcases hx with hx | rfl | rfl | rfl
      · exact g x hx
      all_goals trivial
    have hs : ∀ x ∈ h ++ drops, x.1 ≤ 2 := by
      intro x hx
      simp [drops] at hx
      rcases hx with hx | rfl | rfl | rfl
      · exact s x hx
      all_goals simp
    have f : Flushed i (h ++ drops) := by
      have : i = 0 ∨ i = 1 ∨ i = 2 := by omega
      rcases this with rfl | rfl | rfl
      · exact .inr ⟨h, .drop, [(1, .drop), (2, .drop)], rfl, trivial, by simp⟩
      · exact .inr ⟨h ++ [(0, .drop)], .drop, [(2, .drop)], by simp [drops], trivial, by simp⟩
      · exact .inr ⟨h ++ [(0, .drop), (1, .drop)], .drop, [], by simp [drops], trivial, by simp⟩
    obtain ⟨pages', inv', _⟩ := run_inv profTags (h ++ drops) hg
    have hwd : written i drops = [] := by
      simp only [written, List.flatMap_eq_nil_iff, List.mem_filter, drops]
      rintro x ⟨hx, _⟩
      simp at hx
      rcases hx with rfl | rfl | rfl <;> rfl
    have hc := inv'.content i (tagUnshared_prof hs hi)
    rw [flushed_buffer profTags _ hg i f, List.append_nil, written_append, hwd, List.append_nil] at hc
    have hf := P.file
    unfold savedFile at hf
    have : (World.exec profTags drops (runProf calls (profInit md)).2.world).2.store.data = storeAfter profTags (h ++ drops) := by
      simp [storeAfter, run, exec_append, hw]
    rw [show ([(0, .drop), (1, .drop), (2, .drop)] : History) = drops from rfl, this, storeAfter, inv'.store] at hf
    have hf := List.append_cancel_left hf
    have : pages' = pages := storeOf_inj (fun p hp => ⟨(inv'.bodies p hp).1, by have := (inv'.bodies p hp).2; omega⟩)
      (fun p hp => ⟨(P.bodies p hp).1, by have := (P.bodies p hp).2; omega⟩) hf
    rw [← this, hc]
  refine ⟨ps.length, by rw [ht]; exact hkf, ?_, ?_, ?_⟩
  · intro i hi
    rw [ht, hall i hi]
    have hc := inv.content i (tagUnshared_prof s hi)
    constructor
    · rw [← hc, List.length_append]
      have := inv.buf i
      omega
    · intro hlen
      obtain ⟨ps', inv', h'⟩ := no_page profTags h g i (tagUnshared_prof s hi) hnf (.inl hlen)
      rw [← huniq ps' inv', h']
  · intro hlen
    rw [show streamOf .events pages = written 0 h from hall 0 (by decide)] at hlen
    obtain ⟨ps', inv', h'⟩ := no_page profTags h g 0 (tagUnshared_prof s (by decide)) hnf (.inr ⟨ha, hlen⟩)
    rw [ht, ← huniq ps' inv']
    exact h'
  · intro hsmall
    obtain ⟨hat, pcs, hp, h16⟩ := hsm hsmall
    obtain ⟨ps', inv', hcut, _⟩ := page_ends profTags h g 2 (tagUnshared_prof s (by decide)) hat
    obtain ⟨m, hm⟩ := hcut ps.length
    rw [huniq ps' inv', List.take_length, show profTags 2 = PageTag.stringIndex from rfl] at hm
    rw [ht, hm, hp]
    match m with
    | 0 => left; simp
    | 1 => left; show ([magicStringIndex] : List Bytes).flatten.length < 8; decide
    | m + 2 =>
      right
      have hm' : ((fileHeaderWrites magicStringIndex ++ pcs).take (m + 2)).flatten = fileHeader magicStringIndex ++ (pcs.take m).flatten := by
        simp [fileHeaderWrites, fileHeader]
      have h16' : 16 ∣ ((pcs.take m).flatten).length := by
        rw [List.length_flatten]
        apply List.dvd_sum
        intro x hx
        obtain ⟨p, hp, rfl⟩ := List.mem_map.mp hx
        exact h16 p (List.mem_of_mem_take hp)
      rw [hm', List.length_append, fileHeader_length rfl]
      omega

theorem chunks_single (l : Bytes) (h0 : l ≠ []) (h : l.length ≤ 262144) : chunks maxPageSize l = [l] := by
  unfold chunks
  obtain ⟨n, hn⟩ : ∃ n, l.length = n + 1 := ⟨l.length - 1, by have := List.length_pos_iff.mpr h0; omega⟩
  rw [hn, chunksAux, if_neg h0, maxPageSize_eq, List.take_of_length_le h, List.drop_eq_nil_of_le h]
  cases n <;> simp [chunksAux]

/-- A large write to a buffer that is less than half full writes a page of exactly half the maximal size. -/
theorem writeDirect_half (tag : PageTag) (b : Bytes) (s : SinkState) (hf : s.store.faults = []) (h0 : s.inner.buffer.length < 131072)
    (h1 : 131072 < s.inner.buffer.length + b.length) (h2 : s.inner.buffer.length + b.length < 262144) :
    (writeDirect tag b s).2.store = ⟨s.store.data ++ storeOf [⟨tag, s.inner.buffer ++ b.take (131072 - s.inner.buffer.length)⟩], []⟩ := by
  have htake : (if s.inner.buffer.length < minPageSize then min (minPageSize - s.inner.buffer.length) b.length else 0) = 131072 - s.inner.buffer.length := by
    rw [minPageSize_eq, if_pos h0]; omega
  unfold writeDirect
  rw [Act.bind_ok (Act.get_apply s)]
  simp only [addAddr, setBuffer]
  rw [htake, Act.bind_ok (Act.modify_apply _ s), Act.bind_ok (Act.modify_apply _ _)]
  have hleft : b.drop (131072 - s.inner.buffer.length) ≠ [] := by
    intro hn
    have := congrArg List.length hn
    rw [List.length_drop] at this
    simp at this
    omega
  have hne : s.inner.buffer ++ b.take (131072 - s.inner.buffer.length) ≠ [] := by
    intro hn
    have hl : (s.inner.buffer ++ b.take (131072 - s.inner.buffer.length)).length = 131072 := by
      rw [List.length_append, List.length_take]; omega
    rw [hn] at hl
    simp at hl
  simp only [hleft, if_false]
  rw [Act.bind_ok (flush_run tag ⟨⟨s.inner.buffer ++ b.take (131072 - s.inner.buffer.length), s.inner.addr + b.length⟩, s.store⟩ hf (by
    show (s.inner.buffer ++ b.take (131072 - s.inner.buffer.length)).length ≤ 262144
    rw [List.length_append, List.length_take]; omega))]
  rw [chunks_single _ hleft (by rw [List.length_drop]; omega)]
  have hc1 : ¬ (b.drop (131072 - s.inner.buffer.length)).length = maxPageSize := by rw [maxPageSize_eq, List.length_drop]; omega
  have hc2 : ¬ (b.drop (131072 - s.inner.buffer.length)).length ≥ minPageSize := by rw [minPageSize_eq, List.length_drop]; omega
  simp only [writeChunks, hc1, hc2, if_false, if_true, Act.bind_apply, Act.get_apply, Act.assert_apply, setBuffer, Act.modify_apply, Act.pure_apply, hne, List.map_cons, List.map_nil]

theorem runProf_last (calls : List ProfCall) (c : ProfCall) (s : ProfState) : (runProf (calls ++ [c]) s).2 = (c.run (runProf calls s).2).2 := by
  induction calls generalizing s with
  | nil => rfl
  | cons c' cs ih =>
    simp only [List.cons_append, runProf]
    exact ih _

/-- What a bulk mapping of many ids does to the string index when it is the first mapping. -/
theorem bulk_page (md : String) (calls : List ProfCall) (vs : List StringId) (c : StringId) (hc : 100000003 ≤ c.toNat) (hv : ∀ v ∈ vs, v.toNat ≤ 100000000)
    (hm : mappings (stringLog md calls) = []) (h1 : 8191 ≤ vs.length) (h2 : vs.length ≤ 16382) :
    ∃ ps, (∀ p ∈ ps, 0 < p.body.length ∧ p.body.length ≤ 262144) ∧ killedFile md (calls ++ [.bulkMapVirtual vs c]) = fileHeader magicTopLevel ++ storeOf ps ∧
      (streamOf .stringIndex ps).length = 131072 := by
  obtain ⟨⟨h, g, s, hw, _, _, hidx, hnf, _⟩, _⟩ := cut_inv md calls
  rw [hm] at hidx
  have hlen : (written 2 h).length = 24 := by rw [hidx]; decide
  obtain ⟨ps, inv, hnil⟩ := no_page profTags h g 2 (tagUnshared_prof s (by decide)) hnf (.inl (by omega))
  have hbuf := inv.content 2 (tagUnshared_prof s (by decide))
  rw [hnil, List.nil_append] at hbuf
  obtain ⟨a, ha⟩ : ∃ a, toAddr c = .ok a := ⟨c.toNat - 100000003, toAddr_iff.mpr (by omega)⟩
  generalize hb : vs.flatMap (fun v => entryBytes (v, a)) = b
  have hbl : b.length = 16 * vs.length := by
    rw [← hb]
    clear hb h1 h2 hv
    induction vs with
    | nil => rfl
    | cons v vs ih => rw [List.flatMap_cons, List.length_append, ih, List.length_cons]; simp [entryBytes]; omega
  have hstore : (runProf (calls ++ [.bulkMapVirtual vs c]) (profInit md)).2.world.store =
      ⟨storeOf (ps ++ [⟨.stringIndex, written 2 h ++ b.take 131048⟩]), []⟩ := by
    have e : (runProf (calls ++ [.bulkMapVirtual vs c]) (profInit md)).2 = ((ProfCall.bulkMapVirtual vs c).run (runProf calls (profInit md)).2).2 := by
      exact runProf_last calls _ _
    rw [e, world_after]
    simp only [request, ha, bulkEntries_ok a vs hv, hb]
    have hcall : (World.call profTags 2 (.writeBytes b) (run profTags h).2).2.store =
        (writeDirect .stringIndex b ⟨(run profTags h).2.sinks 2, (run profTags h).2.store⟩).2.store := by
      simp only [World.call, SinkCall.run, Act.bind_apply, profTags, writeBytesAtomic, if_neg (show ¬ b.length ≤ 128 by omega)]
      cases hx : writeDirect .stringIndex b ⟨(run profTags h).2.sinks 2, (run profTags h).2.store⟩ with
      | mk r s' => cases r <;> rfl
    rw [hw, hcall, writeDirect_half .stringIndex b _ (by rw [inv.store]) (by show ((run profTags h).2.sinks 2).buffer.length < _; rw [hbuf, hlen]; omega)
      (by show _ < ((run profTags h).2.sinks 2).buffer.length + _; rw [hbuf, hlen]; omega) (by show ((run profTags h).2.sinks 2).buffer.length + _ < _; rw [hbuf, hlen]; omega)]
    simp only [hbuf, hlen, inv.store, storeOf_append]
  have hpl : (written 2 h ++ b.take 131048).length = 131072 := by
    rw [List.length_append, hlen, List.length_take, hbl]; omega
  refine ⟨ps ++ [⟨.stringIndex, written 2 h ++ b.take 131048⟩], ?_, ?_, ?_⟩
  · intro p hp
    simp only [List.mem_append, List.mem_singleton] at hp
    rcases hp with hp | rfl
    · exact inv.bodies p hp
    · rw [hpl]; omega
  · unfold killedFile
    rw [hstore]
  · rw [streamOf_append, show PageTag.stringIndex = profTags 2 from rfl, hnil, List.nil_append]
    simp only [streamOf, List.filter_cons, decide_true, if_true, List.filter_nil, List.flatMap_cons, List.flatMap_nil, List.append_nil]
    exact hpl

end Verif.Mm
