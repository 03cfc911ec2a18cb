import Verif.Props.Crash
import Verif.Proofs.Killed
import Verif.Props.ConcProfiler

/-! # Property C67, continued: processes that are killed -/

namespace Verif.Props
open Verif Verif.Mm Verif.Spec Verif.Decode Verif.Json Verif.Conc

theorem killed_prefix (md : String) (calls : List ProfCall) (more : List ProfCall) :
    killedFile md calls <+: killedFile md (calls ++ more) := by
  unfold killedFile
  rw [List.prefix_append_right_inj]
  have step : ∀ (c : ProfCall) (s : ProfState), (∃ tl, CutInv tl s.world) → s.world.store.data <+: (c.run s).2.world.store.data ∧ ∃ tl, CutInv tl (c.run s).2.world := by
    rintro c s ⟨tl, ci⟩
    have hst := ci.step c
    refine ⟨?_, _, hst⟩
    obtain ⟨⟨h, g, _, hw, _⟩, _⟩ := ci
    rw [world_after]
    split
    · exact List.prefix_rfl
    · rename_i q k hq
      have hgq : Good q.2 := by
        have rec_good : ∀ e, record e = .sink q k → Good q.2 := by
          intro e he
          cases e with
          | error f => simp [record] at he
          | ok raw =>
            simp only [record, Request.sink.injEq] at he
            rw [← he.1]
            exact rawEvent_good raw
        cases c with
        | allocString t =>
          simp only [request, Request.sink.injEq] at hq
          rw [← hq.1]; exact alloc_good t
        | allocForeign b =>
          simp only [request, Request.sink.injEq] at hq
          rw [← hq.1]; exact ⟨b, rfl, rfl⟩
        | mapVirtual v c =>
          simp only [request] at hq
          split at hq
          · cases ha : toAddr c with
            | error f => rw [ha] at hq; simp at hq
            | ok a =>
              rw [ha] at hq
              simp only [Request.sink.injEq] at hq
              rw [← hq.1]; exact index_good v a
          · simp at hq
        | bulkMapVirtual vs c =>
          simp only [request] at hq
          cases ha : toAddr c with
          | error f => rw [ha] at hq; simp at hq
          | ok a =>
            rw [ha] at hq
            cases hb : bulkEntries a vs with
            | error f => simp only [hb] at hq; simp at hq
            | ok b =>
              simp only [hb, Request.sink.injEq] at hq
              rw [← hq.1]; trivial
        | instant k id t now => exact rec_good _ hq
        | integer k id t v => exact rec_good _ hq
        | start g k id t now => simp [request] at hq
        | startDetached g k id t now => simp [request] at hq
        | finish g now =>
          simp only [request] at hq
          split at hq
          · simp at hq
          · exact rec_good _ hq
        | finishOverride g id now =>
          simp only [request] at hq
          split at hq
          · simp at hq
          · exact rec_good _ hq
        | finishDetached g now =>
          simp only [request] at hq
          split at hq
          · simp at hq
          · exact rec_good _ hq
      obtain ⟨pages, inv, _⟩ := run_inv profTags h g
      obtain ⟨r, w', new, hcall, _, _, _, he, _⟩ := inv.step q.1 q.2 hgq
      rw [hw, hcall]
      have := congrArg Store.data he.store
      simp only at this
      show (run profTags h).2.store.data <+: w'.store.data
      rw [this]
      exact List.prefix_append _ _
  have many : ∀ (cs : List ProfCall) (s : ProfState), (∃ tl, CutInv tl s.world) → s.world.store.data <+: (runProf cs s).2.world.store.data := by
    intro cs
    induction cs with
    | nil => intro s _; exact List.prefix_rfl
    | cons c cs ih =>
      intro s hs
      obtain ⟨h1, h2⟩ := step c s hs
      simp only [runProf]
      exact h1.trans (ih _ h2)
  rw [runProf_append]
  exact many more _ ⟨_, cut_inv md calls⟩

/-- **C67.** The file only grows: whatever a process has written when it is killed, be it between two calls or at any byte of the page that the last of `calls` writes, is
a cut of the file it would have saved. So `C67_cut` and `C67_opens_iff` describe every profile of a killed process. -/
theorem C67_killed_is_cut (md : String) (calls more : List ProfCall) (file : Bytes) (h : file <+: killedFile md calls) :
    file <+: killedFile md (calls ++ more) ∧ ∃ n, file = (savedFile md (calls ++ more)).take n := by
  have saved : ∀ cs, killedFile md cs <+: savedFile md cs := by
    intro cs
    obtain ⟨pages, raws, P⟩ := parts_exist md cs
    obtain ⟨k, hk, _⟩ := killed_parts P
    rw [hk, P.file, List.prefix_append_right_inj]
    conv => rhs; rw [← List.take_append_drop k pages]
    rw [storeOf_append]
    exact List.prefix_append _ _
  have h2 := h.trans (killed_prefix md calls more)
  exact ⟨h2, file.length, List.prefix_iff_eq_take.mp (h2.trans (saved _))⟩

/-- The size of the streams of a session. -/
theorem stream_sizes {F : Bytes} {md : String} {calls : List ProfCall} {pages : List Page} {raws : List RawEvent} (P : Parts F md calls pages raws) :
    (streamOf .events pages).length = 8 + 32 * (recorded calls).length ∧ (streamOf .stringData pages).length = nextAddr (stringLog md calls) ∧
      (streamOf .stringIndex pages).length = 24 + 16 * (mappings (stringLog md calls)).length := by
  refine ⟨?_, ?_, ?_⟩
  · rw [P.events, List.length_append, fileHeader_length rfl, serialize_flat_length, P.enc.length_eq]
  · obtain ⟨L, hL, tab⟩ := P.table
    rw [tab.dsize, ← hL, nextAddr_filter]
  · rw [P.index, List.length_append, List.length_append, fileHeader_length rfl, mapBytes_length, show (entryBytes (100000001, 8)).length = 16 by decide]

/-- **C67.** What a process loses when it is killed between two calls: if the profile opens, all but at most the last 8192 events and all but at most the last 16384
mappings are there, and all strings but those in the last 262144 bytes of text. -/
theorem C67_killed_loses_at_most (start pid : Nat) (hs : start < 2 ^ 64) (hp : pid < 2 ^ 32) (args : List String) (plain : PlainArgs args) (counter : CounterKind)
    (calls : List ProfCall) (ho : ∃ fuel d, EventDecoder.new diag fuel (killedFile (metadataText start pid args counter) calls) = .ok d) :
    ∃ i j k, ShowsPart start pid args counter calls (killedFile (metadataText start pid args counter) calls) i j k ∧
      (recorded calls).length ≤ k + 8192 ∧ (mappings (profileLog start pid args counter calls)).length ≤ j + 16384 ∧
      ∀ s ∈ (strings (profileLog start pid args counter calls)).drop i,
        nextAddr (profileLog start pid args counter calls) < s.1.toNat - 100000003 + s.2.length + 262144 := by
  unfold profileLog
  obtain ⟨pages, raws, P⟩ := parts_exist (metadataText start pid args counter) calls
  obtain ⟨m, hm, hl, _⟩ := killed_parts P
  obtain ⟨s0, s1, s2⟩ := stream_sizes P
  have l0 : (streamOf .events pages).length ≤ (streamOf .events (pages.take m)).length + 262144 := (hl 0 (by decide)).1
  have l1 : (streamOf .stringData pages).length ≤ (streamOf .stringData (pages.take m)).length + 262144 := (hl 1 (by decide)).1
  have l2 : (streamOf .stringIndex pages).length ≤ (streamOf .stringIndex (pages.take m)).length + 262144 := (hl 2 (by decide)).1
  rw [hm] at ho ⊢
  obtain ⟨fuel, d, ho⟩ := ho
  by_cases hc : 8 ≤ (streamOf .events (pages.take m)).length ∧ 9 + (utf8 (metadataText start pid args counter)).length ≤ (streamOf .stringData (pages.take m)).length ∧
    24 ≤ (streamOf .stringIndex (pages.take m)).length ∧ (streamOf .stringIndex (pages.take m)).length % 16 = 8
  · obtain ⟨h1, h2, h3, h4⟩ := hc
    have hj : (streamOf .stringIndex (pages.take m)).length = 24 + 16 * (((streamOf .stringIndex (pages.take m)).length - 24) / 16) := by omega
    obtain ⟨i, q, h, hi, hq⟩ := cut_shows start pid hs hp args plain counter calls P m h1 h2 _ hj
    refine ⟨i, _, q, h, by omega, by omega, ?_⟩
    intro s hsm
    obtain ⟨L, hL, tab⟩ := P.table
    have hsort := strings_sorted (apart_of_ids (fit_filter (hL ▸ fit_stringLog _ calls)) tab.ids)
    rw [← strings_filter, hL] at hsort
    rw [hi] at hsm
    have := fitting_drop hsort hsm
    omega
  · exact (cut_short P m hc fuel d ho).elim

/-- **C67.** A process that is killed early leaves a profile that cannot be opened at all: as long as fewer than 8192 events, or fewer than 8191 mappings, or at most
131072 bytes of text have been recorded, nothing of that stream is in the file, and opening it is an error. -/
theorem C67_killed_early (md : String) (calls : List ProfCall)
    (h : (recorded calls).length < 8192 ∨ (mappings (stringLog md calls)).length < 8191 ∨ nextAddr (stringLog md calls) ≤ 131072) (fuel : Nat) :
    IsErr (EventDecoder.new diag fuel (killedFile md calls)) := by
  obtain ⟨pages, raws, P⟩ := parts_exist md calls
  obtain ⟨m, hm, hl, he, _⟩ := killed_parts P
  obtain ⟨s0, s1, s2⟩ := stream_sizes P
  have l1 : (streamOf .stringData pages).length ≤ 131072 → streamOf .stringData (pages.take m) = [] := (hl 1 (by decide)).2
  have l2 : (streamOf .stringIndex pages).length ≤ 131072 → streamOf .stringIndex (pages.take m) = [] := (hl 2 (by decide)).2
  rw [hm]
  refine C66_streams fuel _ (pages.take m) (fun p hp => ⟨(P.bodies p (List.mem_of_mem_take hp)).1, by have := (P.bodies p (List.mem_of_mem_take hp)).2; omega⟩)
    (by unfold Headed; rw [header_top]) ?_
  rintro ⟨⟨b1, h1⟩, ⟨b2, h2⟩, ⟨b3, h3⟩⟩
  rcases h with h | h | h
  · rw [he (by omega)] at h1
    exact headed_ne h1
  · rw [l2 (by omega)] at h3
    exact headed_ne h3
  · rw [l1 (by omega)] at h2
    exact headed_ne h2

theorem few_log {md : String} {calls : List ProfCall} (few : ∀ vs c, .bulkMapVirtual vs c ∈ calls → vs.length ≤ 8) :
    ∀ vs c r, (SessionOp.table (.bulkMapVirtual vs c), r) ∈ stringLog md calls → vs.length ≤ 8 := by
  intro vs c r hin
  unfold stringLog at hin
  rw [List.mem_cons] at hin
  rcases hin with hin | hin
  · injection hin with hin _
    injection hin with hin
    cases hin
  · obtain ⟨⟨c', r'⟩, hz, hx⟩ := List.mem_filterMap.mp hin
    have hz := (List.of_mem_zip hz).1
    cases c' with
    | bulkMapVirtual vs' c' =>
      unfold asTable at hx
      injection hx with hx
      injection hx with hx _
      injection hx with hx
      injection hx with h1 h2
      subst h1 h2
      exact few _ _ hz
    | allocString t =>
      unfold asTable at hx
      injection hx with hx
      injection hx with hx _
      injection hx with hx
      cases hx
    | mapVirtual v c =>
      unfold asTable at hx
      injection hx with hx
      injection hx with hx _
      injection hx with hx
      cases hx
    | _ => cases hx

theorem enough {e d i e' d' i' r n m l : Nat} (s0 : e = 8 + 32 * r) (s1 : d = n) (s2 : i = 24 + 16 * m) (l0 : e ≤ e' + 262144) (l1 : d ≤ d' + 262144) (l2 : i ≤ i' + 262144)
    (l3 : i' < 8 ∨ 8 ≤ i' ∧ i' % 16 = 8) (h0 : 8192 ≤ r) (h1 : 262144 + 9 + l ≤ n) (h2 : 16384 ≤ m) : 8 ≤ e' ∧ 9 + l ≤ d' ∧ i' = 24 + 16 * ((i' - 24) / 16) := by omega

/-- **C67.** A process that is killed late enough leaves a profile that opens, if it did not map more than eight ids in one call: with 8192 events, 16384 mappings and a page of
text besides the metadata, the first pages of all three streams are in the file. -/
theorem C67_killed_late (start pid : Nat) (hs : start < 2 ^ 64) (hp : pid < 2 ^ 32) (args : List String) (plain : PlainArgs args) (counter : CounterKind)
    (calls : List ProfCall) (few : ∀ vs c, .bulkMapVirtual vs c ∈ calls → vs.length ≤ 8) (h0 : 8192 ≤ (recorded calls).length)
    (h1 : 262144 + 9 + (utf8 (metadataText start pid args counter)).length ≤ nextAddr (profileLog start pid args counter calls))
    (h2 : 16384 ≤ (mappings (profileLog start pid args counter calls)).length) :
    ∃ i j k, ShowsPart start pid args counter calls (killedFile (metadataText start pid args counter) calls) i j k := by
  unfold profileLog at h1 h2
  obtain ⟨pages, raws, P⟩ := parts_exist (metadataText start pid args counter) calls
  obtain ⟨m, hm, hl, _, hsm⟩ := killed_parts P
  obtain ⟨s0, s1, s2⟩ := stream_sizes P
  have l0 : (streamOf .events pages).length ≤ (streamOf .events (pages.take m)).length + 262144 := (hl 0 (by decide)).1
  have l1 : (streamOf .stringData pages).length ≤ (streamOf .stringData (pages.take m)).length + 262144 := (hl 1 (by decide)).1
  have l2 : (streamOf .stringIndex pages).length ≤ (streamOf .stringIndex (pages.take m)).length + 262144 := (hl 2 (by decide)).1
  have l3 := hsm (few_log few)
  obtain ⟨a1, a2, a3⟩ := enough s0 s1 s2 l0 l1 l2 l3 h0 h1 h2
  obtain ⟨i, q, h, _⟩ := cut_shows start pid hs hp args plain counter calls P m a1 a2 _ a3
  rw [hm]
  exact ⟨i, _, q, h⟩

theorem recorded_snoc' (calls : List ProfCall) (c : ProfCall) : recorded (calls ++ [c]) = (ledger calls |>.step c).events := by
  simp [recorded, ledger]

/-- **C67.** The restriction to at most eight ids is needed: if the first mapping of a session maps between 8191 and 16382 ids in one call, the page that this call writes
ends in the middle of an index entry, and a process that is killed after the call leaves a profile on which the decoder panics. -/
theorem C67_torn_index (md : String) (calls : List ProfCall) (vs : List StringId) (c : StringId) (hc : 100000003 ≤ c.toNat) (hv : ∀ v ∈ vs, v.toNat ≤ 100000000)
    (hm : mappings (stringLog md calls) = []) (h1 : 8191 ≤ vs.length) (h2 : vs.length ≤ 16382) (h3 : 8192 ≤ (recorded calls).length)
    (h4 : 262144 + 8 ≤ nextAddr (stringLog md calls)) (fuel : Nat) : IsPanic (EventDecoder.new diag fuel (killedFile md (calls ++ [.bulkMapVirtual vs c]))) := by
  obtain ⟨ps, hps, hfile, hidx⟩ := bulk_page md calls vs c hc hv hm h1 h2
  obtain ⟨pages, raws, P⟩ := parts_exist md (calls ++ [.bulkMapVirtual vs c])
  obtain ⟨m, hk, hl, _⟩ := killed_parts P
  obtain ⟨s0, s1, _⟩ := stream_sizes P
  rw [hk] at hfile
  have hp : pages.take m = ps := storeOf_inj (fun p hp => ⟨(P.bodies p (List.mem_of_mem_take hp)).1, by have := (P.bodies p (List.mem_of_mem_take hp)).2; omega⟩)
    (fun p hp => ⟨(hps p hp).1, by have := (hps p hp).2; omega⟩) (List.append_cancel_left hfile)
  have l0 : (streamOf .events pages).length ≤ (streamOf .events (pages.take m)).length + 262144 := (hl 0 (by decide)).1
  have l1 : (streamOf .stringData pages).length ≤ (streamOf .stringData (pages.take m)).length + 262144 := (hl 1 (by decide)).1
  have r0 : recorded (calls ++ [.bulkMapVirtual vs c]) = recorded calls := by
    rw [recorded_snoc']; rfl
  have r1 : nextAddr (stringLog md calls) ≤ nextAddr (stringLog md (calls ++ [.bulkMapVirtual vs c])) := by
    have hlen : calls.length = (runProf calls (profInit md)).1.length := (runProf_length calls _).symm
    have e : stringLog md (calls ++ [.bulkMapVirtual vs c]) = stringLog md calls ++ ([ProfCall.bulkMapVirtual vs c].zip (runProf [ProfCall.bulkMapVirtual vs c] (runProf calls (profInit md)).2).1).filterMap asTable := by
      unfold stringLog profOutcomes
      rw [runProf_append, List.zip_append hlen, List.filterMap_append, List.cons_append]
    rw [e]
    unfold nextAddr
    rw [List.map_append, List.sum_append]
    omega
  rw [r0] at s0
  rw [hk]
  obtain ⟨L, hL, tab⟩ := P.table
  obtain ⟨D0, hD0⟩ := tab.dhead
  have hpd := streamOf_take .stringData pages m
  rw [hD0] at hpd
  obtain ⟨D, hD, _⟩ := prefix_header hpd (by rw [fileHeader_length rfl]; omega)
  have hpi := streamOf_take .stringIndex pages m
  rw [P.index, List.append_assoc] at hpi
  rw [← hp] at hidx
  obtain ⟨I, hI, _⟩ := prefix_header hpi (by rw [fileHeader_length rfl]; omega)
  have hIl : (streamOf .stringIndex (pages.take m)).length = 8 + I.length := by rw [hI, List.length_append, fileHeader_length rfl]
  rcases P.cut m with hc | ⟨q, hq, hev⟩
  · omega
  · exact C66_index_size fuel _ (pages.take m) (fun p hp => ⟨(P.bodies p (List.mem_of_mem_take hp)).1, by have := (P.bodies p (List.mem_of_mem_take hp)).2; omega⟩)
      (by unfold Headed; rw [header_top]) ((raws.take q).flatMap RawEvent.serialize) D I (by unfold Headed; rw [hev, header_events]) (by unfold Headed; rw [hD, header_data])
      (by unfold Headed; rw [hI, header_index]) (by omega)

/-! ### Sessions that meet the hypotheses -/

/-- Many events and much text. -/
def manyEvents (a b : Nat) : List ProfCall := List.replicate a (.instant 1 2 3 4) ++ [.allocString (.comps (List.replicate b (.ref 7)))]

theorem instants_recorded (n : Nat) (l : Ledger) : ((List.replicate n (ProfCall.instant 1 2 3 4)).foldl Ledger.step l).events.length = l.events.length + n := by
  induction n generalizing l with
  | zero => rfl
  | succ n ih =>
    rw [List.replicate_succ, List.foldl_cons, ih]
    have : ((l.step (ProfCall.instant 1 2 3 4)).events).length = l.events.length + 1 := by
      simp [Ledger.step, single]
    rw [this]
    omega

theorem maps_recorded (n : Nat) (l : Ledger) : ((List.replicate n (ProfCall.mapVirtual 5 200000000)).foldl Ledger.step l).events = l.events := by
  induction n generalizing l with
  | zero => rfl
  | succ n ih => rw [List.replicate_succ, List.foldl_cons, ih]; rfl

theorem manyEvents_recorded (a b n : Nat) : (recorded (manyEvents a b ++ List.replicate n (.mapVirtual 5 200000000))).length = a := by
  unfold recorded ledger manyEvents
  rw [List.foldl_append, List.foldl_append, maps_recorded]
  show (((List.replicate a (ProfCall.instant 1 2 3 4)).foldl Ledger.step .empty).step (.allocString (.comps (List.replicate b (.ref 7))))).events.length = a
  have := instants_recorded a .empty
  simp only [Ledger.step]
  rw [this]
  exact Nat.zero_add a

theorem stringLog_snoc (md : String) (calls : List ProfCall) (c : ProfCall) :
    stringLog md (calls ++ [c]) = stringLog md calls ++ (asTable (c, (c.run (runProf calls (profInit md)).2).1)).toList := by
  have hlen : calls.length = (runProf calls (profInit md)).1.length := (runProf_length calls _).symm
  unfold stringLog profOutcomes
  rw [runProf_append, List.zip_append hlen, List.filterMap_append, List.cons_append]
  simp only [runProf, List.zip_cons_cons, List.zip_nil_left, List.filterMap_cons, List.filterMap_nil]
  cases asTable (c, (c.run (runProf calls (profInit md)).2).1) <;> rfl

theorem instants_log (md : String) (n : Nat) : stringLog md (List.replicate n (.instant 1 2 3 4)) = stringLog md [] := by
  induction n with
  | zero => rfl
  | succ n ih => rw [List.replicate_succ', stringLog_snoc, ih]; simp [asTable]

theorem refs_size (n : Nat) : (encText (List.replicate n (.ref 7))).length = 9 * n + 1 := by
  induction n with
  | zero => rfl
  | succ n ih =>
    have e : (encText (List.replicate (n + 1) (.ref 7))).length = 9 + (encText (List.replicate n (.ref 7))).length := by
      simp only [List.replicate_succ, encText, List.flatMap_cons, List.length_append]
      simp [encComponent]
      omega
    rw [e, ih]
    omega

theorem manyEvents_log (md : String) (a b : Nat) : mappings (stringLog md (manyEvents a b)) = [] ∧
    nextAddr (stringLog md (manyEvents a b)) = 9 + (utf8 md).length + (9 * b + 1) := by
  unfold manyEvents
  rw [stringLog_snoc, instants_log]
  simp only [asTable, Option.toList]
  constructor
  · simp [mappings, stringLog, profOutcomes, runProf]
  · rw [nextAddr_snoc]
    have h1 : textSize (SessionOp.table (.alloc (.comps (List.replicate b (.ref 7)))),
        ((ProfCall.allocString (.comps (List.replicate b (.ref 7)))).run (runProf (List.replicate a (.instant 1 2 3 4)) (profInit md)).2).1) = 9 * b + 1 :=
      refs_size b
    have h2 : nextAddr (stringLog md []) = 8 + ((utf8 md).length + 1) := by
      simp [nextAddr, stringLog, profOutcomes, runProf, textSize, components, encText_value_length]
    rw [h1, h2]
    omega

theorem manyEvents_few (a b n : Nat) : ∀ vs c, ProfCall.bulkMapVirtual vs c ∈ manyEvents a b ++ List.replicate n (.mapVirtual 5 200000000) → vs.length ≤ 8 := by
  intro vs c h
  simp [manyEvents] at h

theorem maps_log (md : String) (calls : List ProfCall) (n : Nat) :
    (mappings (stringLog md (calls ++ List.replicate n (.mapVirtual 5 200000000)))).length = (mappings (stringLog md calls)).length + n ∧
    nextAddr (stringLog md (calls ++ List.replicate n (.mapVirtual 5 200000000))) = nextAddr (stringLog md calls) := by
  induction n with
  | zero => simp
  | succ n ih =>
    obtain ⟨ih1, ih2⟩ := ih
    have hans : ((ProfCall.mapVirtual 5 200000000).run (runProf (calls ++ List.replicate n (.mapVirtual 5 200000000)) (profInit md)).2).1 = .ok none := by
      rw [answer_after]
      have ha : toAddr 200000000 = .ok 99999997 := by decide
      have hv : (5 : UInt64) ≤ maxUserVirtualStringId := by decide
      simp only [request, if_pos hv, ha]
      obtain ⟨b, hb⟩ := call_ok (cut_inv md (calls ++ List.replicate n (.mapVirtual 5 200000000))) 2 (.writeAtomic 16 (indexEntryFill 5 99999997)) (index_good _ _) trivial
      rw [hb]
      rfl
    rw [List.replicate_succ', ← List.append_assoc, stringLog_snoc, hans]
    simp only [asTable, Option.toList]
    rw [nextAddr_snoc, ih2, mappings_snoc, List.length_append, ih1]
    exact ⟨rfl, rfl⟩

theorem early_session (md : String) (calls : List ProfCall) (h : (recorded calls).length < 8192) (fuel : Nat) :
    ∃ why, EventDecoder.new diag fuel (killedFile md calls) = .error (.err why) := isErr_elim (C67_killed_early md calls (.inl h) fuel)

theorem late_session (a b n : Nat) (ha : 8192 ≤ a) (hb : 262144 ≤ 9 * b) (hn : 16384 ≤ n) :
    ∃ i j k, ShowsPart 1000 42 ["rustc", "a.rs"] .wallTime (manyEvents a b ++ List.replicate n (.mapVirtual 5 200000000))
      (killedFile (metadataText 1000 42 ["rustc", "a.rs"] .wallTime) (manyEvents a b ++ List.replicate n (.mapVirtual 5 200000000))) i j k := by
  refine C67_killed_late 1000 42 (by decide) (by decide) _ (by decide) .wallTime _ (manyEvents_few a b n) ?_ ?_ ?_
  · rw [manyEvents_recorded]; exact ha
  · unfold profileLog
    rw [(maps_log _ _ _).2, (manyEvents_log _ _ _).2]
    have key : ∀ l, 262144 + 9 + l ≤ 9 + l + (9 * b + 1) := by intro l; omega
    exact key _
  · unfold profileLog
    rw [(maps_log _ _ _).1]
    omega

theorem torn_session (a b n : Nat) (ha : 8192 ≤ a) (hb : 262144 ≤ 9 * b) (hn : 8191 ≤ n) (hn' : n ≤ 16382) :
    ∀ fuel, ∃ why, EventDecoder.new diag fuel (killedFile (metadataText 1000 42 ["rustc", "a.rs"] .wallTime) (manyEvents a b ++ [.bulkMapVirtual (List.replicate n 5) 200000000])) =
      .error (.panic why) := by
  intro fuel
  refine isPanic_elim ?_
  refine C67_torn_index _ (manyEvents a b) _ _ (by decide) ?_ (manyEvents_log _ _ _).1 (by rw [List.length_replicate]; exact hn) (by rw [List.length_replicate]; exact hn') ?_ ?_ fuel
  · intro v hv
    rw [List.eq_of_mem_replicate hv]
    decide
  · have := manyEvents_recorded a b 0
    rw [List.replicate_zero, List.append_nil] at this
    omega
  · rw [(manyEvents_log _ _ _).2]
    have key : ∀ l, 262144 + 8 ≤ 9 + l + (9 * b + 1) := by intro l; omega
    exact key _

/-- A process killed late, with 8192 events: its profile opens. -/
example : ∃ i j k, ShowsPart 1000 42 ["rustc", "a.rs"] .wallTime (manyEvents 8192 30000 ++ List.replicate 16384 (.mapVirtual 5 200000000))
    (killedFile (metadataText 1000 42 ["rustc", "a.rs"] .wallTime) (manyEvents 8192 30000 ++ List.replicate 16384 (.mapVirtual 5 200000000))) i j k := by
  have h := late_session 8192 30000 16384 (by omega) (by omega) (by omega)
  exact h

/-- The same session with one mapping of ten thousand ids instead: the decoder panics. -/
example : ∀ fuel, ∃ why, EventDecoder.new diag fuel (killedFile (metadataText 1000 42 ["rustc", "a.rs"] .wallTime)
    (manyEvents 8192 30000 ++ [.bulkMapVirtual (List.replicate 10000 5) 200000000])) = .error (.panic why) := by
  have h := torn_session (diag := diag) 8192 30000 10000 (by omega) (by omega) (by omega) (by omega)
  exact h

/-- A small session that is killed cannot be opened. -/
example (fuel : Nat) : ∃ why, EventDecoder.new diag fuel (killedFile (metadataText 1000 42 ["rustc", "a.rs"] .wallTime) exCalls) = .error (.err why) := by
  have hr : (recorded exCalls).length < 8192 := by rw [exCalls_recorded]; simp
  exact early_session _ _ hr fuel

end Verif.Props
