import Verif.Spec.Crash
import Verif.Proofs.ConcProfiler

/-! # Lemmas about files cut short -/

namespace Verif.Mm

open Verif Verif.Spec Verif.Decode Verif.Props Verif.Conc

/-- What was handed to sink `i`, call by call. -/
def pieces (i : Nat) (h : History) : List Bytes := (h.filter (fun x => x.1 = i)).map (fun x => payload x.2)

theorem pieces_flatten (i : Nat) (h : History) : (pieces i h).flatten = written i h := by
  simp [pieces, written, List.flatMap]

theorem pieces_snoc_same (i : Nat) (h : History) (c : SinkCall) : pieces i (h ++ [(i, c)]) = pieces i h ++ [payload c] := by
  simp [pieces]

theorem pieces_snoc_other {i j : Nat} (hne : j ≠ i) (h : History) (c : SinkCall) : pieces i (h ++ [(j, c)]) = pieces i h := by
  simp [pieces, hne]

/-- If everything written to a sink comes in atomic records, then every page of that sink ends at the end of a record. -/
theorem page_ends (tagOf : Nat → PageTag) (h : History) (hg : AllGood h) (i : Nat) (hun : TagUnshared tagOf i h)
    (hrec : ∀ c, (i, c) ∈ h → AtomicRecord c) :
    ∃ pages, WInv tagOf h (run tagOf h).2 pages ∧
      (∀ k, ∃ m, streamOf (tagOf i) (pages.take k) = ((pieces i h).take m).flatten) ∧
      ∃ m, streamOf (tagOf i) pages = ((pieces i h).take m).flatten ∧ ((run tagOf h).2.sinks i).buffer = ((pieces i h).drop m).flatten := by
  induction h using List.reverseRecOn with
  | nil => exact ⟨[], WInv.init tagOf, fun k => ⟨0, by simp [streamOf]⟩, 0, by simp [streamOf], by simp [pieces, run, World.exec, World.init]⟩
  | append_singleton h x ih =>
    obtain ⟨j, c⟩ := x
    obtain ⟨pages, inv, hk, m, hm, hb⟩ := ih (fun x hx => hg x (by simp [hx])) (fun x hx => hun x (by simp [hx])) (fun c hc => hrec c (by simp [hc]))
    obtain ⟨r, w', new, hcall, hinv, _, _, he, hoth, hat⟩ := inv.step j c (hg (j, c) (by simp))
    have hw : (run tagOf (h ++ [(j, c)])).2 = w' := by
      simp only [run, exec_append, World.exec]
      rw [show (World.exec tagOf h World.init).2 = (run tagOf h).2 from rfl, hcall]
    rw [hw]
    refine ⟨_, hinv, ?_⟩
    by_cases hj : j = i
    · subst hj
      rw [pieces_snoc_same]
      have hlast : ((pieces j h ++ [payload c]).take (pieces j h).length).flatten = written j h := by
        rw [List.take_left, pieces_flatten]
      have old : ∀ k, ∃ m, streamOf (tagOf j) (pages.take k) = ((pieces j h ++ [payload c]).take m).flatten := by
        intro k
        obtain ⟨m, hm⟩ := hk k
        by_cases hle : m ≤ (pieces j h).length
        · exact ⟨m, by rw [hm, List.take_append_of_le_length hle]⟩
        · refine ⟨(pieces j h).length, ?_⟩
          rw [hm, List.take_left, List.take_of_length_le (by omega)]
      have hmp : ∃ m', m' ≤ (pieces j h).length ∧ streamOf (tagOf j) pages = ((pieces j h).take m').flatten ∧
          ((run tagOf h).2.sinks j).buffer = ((pieces j h).drop m').flatten := by
        by_cases hle : m ≤ (pieces j h).length
        · exact ⟨m, hle, hm, hb⟩
        · refine ⟨(pieces j h).length, Nat.le_refl _, ?_, ?_⟩
          · rw [hm, List.take_of_length_le (by omega), List.take_length]
          · rw [hb, List.drop_eq_nil_of_le (by omega), List.drop_length]
      obtain ⟨m', hle', hm', hb'⟩ := hmp
      rcases hat (hrec c (by simp)) with ⟨hn, hbuf⟩ | ⟨hn, hbuf⟩
      · subst hn
        simp only [List.map_nil, List.append_nil]
        refine ⟨old, m', ?_, ?_⟩
        · rw [hm', List.take_append_of_le_length hle']
        · rw [hbuf, hb', List.drop_append_of_le_length hle']
          simp
      · subst hn
        simp only [List.map_cons, List.map_nil]
        have hall : streamOf (tagOf j) (pages ++ [⟨tagOf j, ((run tagOf h).2.sinks j).buffer⟩]) = written j h := by
          rw [streamOf_append, hm', hb']
          simp only [streamOf, List.filter_cons, decide_true, if_true, List.filter_nil, List.flatMap_cons, List.flatMap_nil, List.append_nil]
          rw [← List.flatten_append, List.take_append_drop, pieces_flatten]
        refine ⟨?_, (pieces j h).length, ?_, ?_⟩
        · intro k
          by_cases hkl : k ≤ pages.length
          · rw [List.take_append_of_le_length hkl]
            exact old k
          · rw [List.take_of_length_le (by simp; omega), hall]
            exact ⟨_, hlast.symm⟩
        · rw [hall, hlast]
        · rw [hbuf, List.drop_left]
          simp
    · rw [pieces_snoc_other hj]
      have hne : tagOf j ≠ tagOf i := fun heq => hj (hun (j, c) (by simp) heq)
      have hnil : ∀ k, streamOf (tagOf i) ((new.map (Page.mk (tagOf j))).take k) = [] := by
        intro k
        rw [← List.map_take, streamOf_map_other hne]
      refine ⟨?_, m, ?_, ?_⟩
      · intro k
        rw [List.take_append, streamOf_append, hnil, List.append_nil]
        exact hk k
      · rw [streamOf_append, streamOf_map_other hne, List.append_nil, hm]
      · rw [hoth i (Ne.symm hj), hb]

/-! ## The sink calls of a session -/

theorem world_after (c : ProfCall) (s : ProfState) : (c.run s).2.world =
    match request ⟨s.guards, s.detached⟩ c with
    | .done _ => s.world
    | .sink q _ => (World.call profTags q.1 q.2 s.world).2 := by
  rw [request_run]
  simp only [Request.perform]
  split <;> simp_all

theorem answer_after (c : ProfCall) (s : ProfState) : (c.run s).1 =
    match request ⟨s.guards, s.detached⟩ c with
    | .done a => a
    | .sink q k => k (World.call profTags q.1 q.2 s.world).1 := by
  rw [request_run]
  simp only [Request.perform]
  split <;> simp_all

/-- The bytes of the mappings in the string index. -/
def mapBytes (maps : List (StringId × StringId)) : Bytes := maps.flatMap fun m => entryBytes (m.1, m.2.toNat - 100000003)

/-- The sinks have received the headers, records of 32 bytes for events, and the mappings of the log. -/
structure CutInv (tl : TableLog) (w : World) : Prop where
  inv : ∃ h, AllGood h ∧ (∀ x ∈ h, x.1 ≤ 2) ∧ w = (run profTags h).2 ∧
    (∀ c, ((0 : Nat), c) ∈ h → AtomicRecord c) ∧
    (∃ ps, pieces 0 h = fileHeaderWrites magicEventStream ++ ps ∧ ∀ p ∈ ps, 32 ∣ p.length) ∧
    written 2 h = fileHeader magicStringIndex ++ entryBytes (100000001, 8) ++ mapBytes (mappings tl) ∧
    (∀ x ∈ h, ¬ Flushes x.2) ∧
    ((∀ vs c r, (SessionOp.table (.bulkMapVirtual vs c), r) ∈ tl → vs.length ≤ 8) →
      (∀ c, ((2 : Nat), c) ∈ h → AtomicRecord c) ∧ ∃ ps, pieces 2 h = fileHeaderWrites magicStringIndex ++ ps ∧ ∀ p ∈ ps, 16 ∣ p.length)
  maps : ∀ m ∈ mappings tl, m.1.toNat ≤ 100000000 ∧ 100000003 ≤ m.2.toNat

theorem mappings_snoc_none {tl : TableLog} {x} (h : mappings [x] = []) : mappings (tl ++ [x]) = mappings tl := by
  have : mappings (tl ++ [x]) = mappings tl ++ mappings [x] := by simp [mappings]
  rw [this, h, List.append_nil]

theorem mappings_snoc {tl : TableLog} (x) : mappings (tl ++ [x]) = mappings tl ++ mappings [x] := by simp [mappings]

theorem run_snoc (h : History) (i : Nat) (c : SinkCall) : (World.call profTags i c (run profTags h).2).2 = (run profTags (h ++ [(i, c)])).2 := by
  simp only [run, exec_append, World.exec]

theorem flushes_snoc {h : History} (hf : ∀ x ∈ h, ¬ Flushes x.2) {i : Nat} {c : SinkCall} (hc : ¬ Flushes c) : ∀ x ∈ h ++ [(i, c)], ¬ Flushes x.2 := by
  intro x hx
  simp only [List.mem_append, List.mem_singleton] at hx
  rcases hx with hx | rfl
  · exact hf x hx
  · exact hc

/-- A call on the events or string data sink. -/
theorem CutInv.other {tl : TableLog} {w : World} (ci : CutInv tl w) (i : Nat) (hi : i ≤ 1) (c : SinkCall) (hg : Good c) (hnf : ¬ Flushes c)
    (h0 : i = 0 → AtomicRecord c ∧ 32 ∣ (payload c).length) (x) (hx : mappings x = []) : CutInv (tl ++ x) (World.call profTags i c w).2 := by
  obtain ⟨⟨h, g, s, rfl, ha, ⟨ps, hp, h32⟩, hw, hf, hsm⟩, hm⟩ := ci
  have e : mappings (tl ++ x) = mappings tl := by
    have : mappings (tl ++ x) = mappings tl ++ mappings x := by simp [mappings]
    rw [this, hx, List.append_nil]
  refine ⟨⟨h ++ [(i, c)], allGood_snoc g hg, sinks_snoc s (by omega) c, run_snoc h i c, ?_, ?_, ?_, flushes_snoc hf hnf, ?_⟩, by rw [e]; exact hm⟩
  · intro c' hc'
    simp only [List.mem_append, List.mem_singleton, Prod.mk.injEq] at hc'
    rcases hc' with hc' | ⟨h1, h2⟩
    · exact ha c' hc'
    · subst h2; exact (h0 h1.symm).1
  · by_cases hi0 : i = 0
    · subst hi0
      refine ⟨ps ++ [payload c], by rw [pieces_snoc_same, hp, List.append_assoc], ?_⟩
      intro p hpm
      simp only [List.mem_append, List.mem_singleton] at hpm
      rcases hpm with hpm | rfl
      · exact h32 p hpm
      · exact (h0 rfl).2
    · exact ⟨ps, by rw [pieces_snoc_other hi0, hp], h32⟩
  · rw [written_snoc_other (by omega), hw, e]
  · intro hsmall
    obtain ⟨h1, ps, h2, h3⟩ := hsm fun vs c r hin => hsmall vs c r (by simp [hin])
    refine ⟨?_, ps, by rw [pieces_snoc_other (by omega), h2], h3⟩
    intro c' hc'
    simp only [List.mem_append, List.mem_singleton, Prod.mk.injEq] at hc'
    rcases hc' with hc' | ⟨h1, h2⟩
    · exact h1 c' hc'
    · omega

/-- A call on the string index. -/
theorem CutInv.index {tl : TableLog} {w : World} (ci : CutInv tl w) (c : SinkCall) (hg : Good c) (hnf : ¬ Flushes c) (x)
    (hat : (∀ vs c r, (SessionOp.table (.bulkMapVirtual vs c), r) ∈ x → vs.length ≤ 8) → AtomicRecord c ∧ 16 ∣ (payload c).length)
    (hp : payload c = mapBytes (mappings x)) (hx : ∀ m ∈ mappings x, m.1.toNat ≤ 100000000 ∧ 100000003 ≤ m.2.toNat) :
    CutInv (tl ++ x) (World.call profTags 2 c w).2 := by
  obtain ⟨⟨h, g, s, rfl, ha, ⟨ps, hps, h32⟩, hw, hf, hsm⟩, hm⟩ := ci
  have e : mappings (tl ++ x) = mappings tl ++ mappings x := by simp [mappings]
  refine ⟨⟨h ++ [(2, c)], allGood_snoc g hg, sinks_snoc s (by omega) c, run_snoc h 2 c, ?_, ?_, ?_, flushes_snoc hf hnf, ?_⟩, ?_⟩
  · intro c' hc'
    simp only [List.mem_append, List.mem_singleton, Prod.mk.injEq] at hc'
    rcases hc' with hc' | ⟨h1, h2⟩
    · exact ha c' hc'
    · omega
  · exact ⟨ps, by rw [pieces_snoc_other (by omega), hps], h32⟩
  · rw [written_snoc_same, hw, e, hp]
    simp [mapBytes]
  · intro hsmall
    obtain ⟨h1, ps, h2, h3⟩ := hsm fun vs c r hin => hsmall vs c r (by simp [hin])
    obtain ⟨a1, a2⟩ := hat fun vs c r hin => hsmall vs c r (by simp [hin])
    refine ⟨?_, ps ++ [payload c], by rw [pieces_snoc_same, h2, List.append_assoc], ?_⟩
    · intro c' hc'
      simp only [List.mem_append, List.mem_singleton, Prod.mk.injEq] at hc'
      rcases hc' with hc' | ⟨_, rfl⟩
      · exact h1 c' hc'
      · exact a1
    · intro p hp
      simp only [List.mem_append, List.mem_singleton] at hp
      rcases hp with hp | rfl
      · exact h3 p hp
      · exact a2
  · intro m hmm
    rw [e, List.mem_append] at hmm
    exact hmm.elim (hm m) (hx m)

theorem CutInv.none {tl : TableLog} {w : World} (ci : CutInv tl w) (x) (hx : mappings x = []) : CutInv (tl ++ x) w := by
  obtain ⟨⟨h, g, s, rfl, ha, hps, hw, hf, hsm⟩, hm⟩ := ci
  have e : mappings (tl ++ x) = mappings tl := by
    have : mappings (tl ++ x) = mappings tl ++ mappings x := by simp [mappings]
    rw [this, hx, List.append_nil]
  exact ⟨⟨h, g, s, rfl, ha, hps, by rw [hw, e], hf, fun hs => hsm fun vs c r hin => hs vs c r (by simp [hin])⟩, by rw [e]; exact hm⟩

theorem call_ok {tl : TableLog} {w : World} (ci : CutInv tl w) (i : Nat) (c : SinkCall) (hg : Good c) (hr : ReturnsAddr c) :
    ∃ a, (World.call profTags i c w).1 = .ok (some a) := by
  obtain ⟨⟨h, g, s, rfl, _⟩, _⟩ := ci
  obtain ⟨r, h1, h2⟩ := call_good h g i c hg
  exact ⟨_, by rw [h1, h2 hr]⟩

theorem CutInv.step {tl : TableLog} {s : ProfState} (ci : CutInv tl s.world) (c : ProfCall) :
    CutInv (tl ++ (asTable (c, (c.run s).1)).toList) (c.run s).2.world := by
  have rec_done : ∀ e, CutInv (tl ++ [])
      (match record e with | .done _ => s.world | .sink q _ => (World.call profTags q.1 q.2 s.world).2) := by
    intro e
    cases e with
    | error f => exact ci.none [] rfl
    | ok raw =>
      have hg : Good (.writeAtomic 32 (rawEventFill raw)) := rawEvent_good raw
      refine ci.other 0 (by omega) (.writeAtomic 32 (rawEventFill raw)) hg (fun hf => hf) (fun _ => ⟨?_, ?_⟩) [] rfl
      · show (32 : Nat) ≤ 262144
        omega
      · show 32 ∣ (payload (.writeAtomic 32 (rawEventFill raw))).length
        rw [rawEvent_payload, serialize_length]
  rw [world_after, answer_after]
  cases c with
  | allocString t =>
    simp only [request, asTable, Option.toList]
    exact ci.other 1 (by omega) _ (alloc_good t) (fun hf => hf) (by omega) _ (by simp [mappings])
  | allocForeign b =>
    simp only [request, asTable, Option.toList]
    exact ci.other 1 (by omega) (.writeAtomic b.length (fun _ => .ok b)) ⟨b, rfl, rfl⟩ (fun hf => hf) (by omega) _ (by simp [mappings])
  | mapVirtual v c =>
    simp only [request]
    by_cases hv : v ≤ maxUserVirtualStringId
    · rw [if_pos hv]
      have hv' : v.toNat ≤ 100000000 := by simpa [maxUserVirtualStringId, UInt64.le_iff_toNat_le] using hv
      cases ha : toAddr c with
      | error f => exact ci.none _ (by simp [asTable, mappings])
      | ok a =>
        have hc := toAddr_iff.mp ha
        obtain ⟨b, hb⟩ := call_ok ci 2 (.writeAtomic 16 (indexEntryFill v a)) (index_good v a) trivial
        simp only [hb, entryAnswer, asTable, Option.toList]
        have ea : a = c.toNat - 100000003 := by omega
        refine ci.index _ (index_good v a) (fun hf => hf) _ (fun _ => ⟨?_, ?_⟩) ?_ ?_
        · show (16 : Nat) ≤ 262144; omega
        · rw [index_payload]; simp
        · rw [index_payload]
          simp [mappings, mapBytes, entryBytes, ea]
        · intro m hm
          simp only [mappings, List.flatMap_cons, List.flatMap_nil, List.append_nil, List.mem_singleton] at hm
          subst hm
          exact ⟨hv', by show 100000003 ≤ c.toNat; omega⟩
    · rw [if_neg hv]
      exact ci.none _ (by simp [asTable, mappings])
  | bulkMapVirtual vs c =>
    simp only [request]
    cases ha : toAddr c with
    | error f => exact ci.none _ (by simp [asTable, mappings])
    | ok a =>
      have hc := toAddr_iff.mp ha
      by_cases hv : ∀ v ∈ vs, v.toNat ≤ 100000000
      · simp only [bulkEntries_ok a vs hv]
        obtain ⟨b, hb⟩ := call_ok ci 2 (.writeBytes (vs.flatMap (fun v => entryBytes (v, a)))) trivial trivial
        simp only [hb, entryAnswer, asTable, Option.toList]
        have ea : a = c.toNat - 100000003 := by omega
        have hlen : (vs.flatMap (fun v => entryBytes (v, a))).length = 16 * vs.length := by
          clear hb hv
          induction vs with
          | nil => rfl
          | cons v vs ih => rw [List.flatMap_cons, List.length_append, ih, List.length_cons]; simp [entryBytes]; omega
        refine ci.index (.writeBytes (vs.flatMap (fun v => entryBytes (v, a)))) trivial (fun hf => hf) _ (fun hs => ⟨?_, ?_⟩) ?_ ?_
        · have := hs vs c _ (List.mem_singleton.mpr rfl)
          show (vs.flatMap (fun v => entryBytes (v, a))).length ≤ 128
          omega
        · show 16 ∣ (vs.flatMap (fun v => entryBytes (v, a))).length
          exact ⟨_, hlen⟩
        · simp [mappings, mapBytes, payload, ea, List.flatMap_map]
        · intro m hm
          simp only [mappings, List.flatMap_cons, List.flatMap_nil, List.append_nil, List.mem_map] at hm
          obtain ⟨v, hvm, rfl⟩ := hm
          exact ⟨hv v hvm, by show 100000003 ≤ c.toNat; omega⟩
      · obtain ⟨why, hw⟩ := isPanic_elim (bulkEntries_panic a vs hv)
        simp only [hw]
        exact ci.none _ (by simp [asTable, mappings])
  | instant k id t now => exact rec_done _
  | integer k id t v => exact rec_done _
  | start g k id t now => exact ci.none [] rfl
  | startDetached g k id t now => exact ci.none [] rfl
  | finish g now =>
    simp only [request]
    cases s.guards g with
    | none => exact ci.none [] rfl
    | some gd => exact rec_done _
  | finishOverride g id now =>
    simp only [request]
    cases s.guards g with
    | none => exact ci.none [] rfl
    | some gd => exact rec_done _
  | finishDetached g now =>
    simp only [request]
    cases s.detached g with
    | none => exact ci.none [] rfl
    | some gd => exact rec_done _

theorem CutInv.run {tl : TableLog} {s : ProfState} (i : CutInv tl s.world) (calls : List ProfCall) :
    CutInv (tl ++ (calls.zip (runProf calls s).1).filterMap asTable) (runProf calls s).2.world := by
  induction calls generalizing tl s with
  | nil => simpa [runProf] using i
  | cons c cs ih =>
    have h2 := ih (i.step c)
    simp only [runProf, List.zip_cons_cons]
    rw [List.append_assoc] at h2
    have e : (asTable (c, (c.run s).1)).toList ++ (cs.zip (runProf cs (c.run s).2).1).filterMap asTable =
        ((c, (c.run s).1) :: cs.zip (runProf cs (c.run s).2).1).filterMap asTable := by
      rw [List.filterMap_cons]
      cases asTable (c, (c.run s).1) <;> simp
    rw [← e]
    exact h2

theorem cut_init (md : String) : CutInv [(.table (.allocMetadata (.str md)), .ok none)] (profInit md).world := by
  refine ⟨⟨creation md, ?_, ?_, (creation_run md).symm, ?_, ?_, ?_, ?_, ?_⟩, by simp [mappings]⟩
  · intro x hx
    simp only [creation, fileHeaderWrites, List.map_cons, List.map_nil, List.mem_append, List.mem_cons, List.not_mem_nil, or_false] at hx
    rcases hx with ((h | h) | h) | h
    · rcases h with rfl | rfl <;> trivial
    · rcases h with rfl | rfl <;> trivial
    · rcases h with rfl | rfl <;> trivial
    · rcases h with rfl | rfl
      · exact alloc_good _
      · exact index_good _ _
  · intro x hx
    simp only [creation, fileHeaderWrites, List.map_cons, List.map_nil, List.mem_append, List.mem_cons, List.not_mem_nil, or_false] at hx
    rcases hx with ((h | h) | h) | h
    all_goals rcases h with rfl | rfl <;> simp
  · intro c hx
    simp only [creation, fileHeaderWrites, List.map_cons, List.map_nil, List.mem_append, List.mem_cons, List.not_mem_nil, or_false, Prod.mk.injEq] at hx
    rcases hx with ((h | h) | h) | h
    · rcases h with ⟨_, rfl⟩ | ⟨_, rfl⟩ <;> (unfold AtomicRecord; decide)
    all_goals rcases h with ⟨h, _⟩ | ⟨h, _⟩ <;> omega
  · exact ⟨[], by simp [pieces, creation, fileHeaderWrites, payload], by simp⟩
  · have e : pieces 2 (creation md) = [magicStringIndex, leBytes 4 9, leBytes 8 100000001 ++ leBytes 8 8] := by
      simp only [pieces, creation, fileHeaderWrites, List.map_cons, List.map_nil, List.cons_append, List.nil_append]
      rw [List.filter_cons_of_neg (by decide), List.filter_cons_of_neg (by decide), List.filter_cons_of_neg (by decide), List.filter_cons_of_neg (by decide),
        List.filter_cons_of_pos (by decide), List.filter_cons_of_pos (by decide), List.filter_cons_of_neg (by simp), List.filter_cons_of_pos (by simp), List.filter_nil]
      simp only [List.map_cons, List.map_nil, index_payload]
      rfl
    rw [← pieces_flatten, e]
    simp [mappings, mapBytes, fileHeader, fileHeaderWrites, entryBytes]
    decide
  · intro x hx
    simp only [creation, fileHeaderWrites, List.map_cons, List.map_nil, List.mem_append, List.mem_cons, List.not_mem_nil, or_false] at hx
    rcases hx with ((h | h) | h) | h
    all_goals rcases h with rfl | rfl <;> exact fun hf => hf
  · intro _
    constructor
    · intro c hx
      simp only [creation, fileHeaderWrites, List.map_cons, List.map_nil, List.mem_append, List.mem_cons, List.not_mem_nil, or_false, Prod.mk.injEq] at hx
      rcases hx with ((h | h) | h) | h
      · rcases h with ⟨h, _⟩ | ⟨h, _⟩ <;> omega
      · rcases h with ⟨h, _⟩ | ⟨h, _⟩ <;> omega
      · rcases h with ⟨_, rfl⟩ | ⟨_, rfl⟩ <;> (unfold AtomicRecord; decide)
      · rcases h with ⟨h, _⟩ | ⟨_, rfl⟩
        · omega
        · show (16 : Nat) ≤ 262144; omega
    · refine ⟨[leBytes 8 100000001 ++ leBytes 8 8], ?_, by simp⟩
      simp only [pieces, creation, fileHeaderWrites, List.map_cons, List.map_nil, List.cons_append, List.nil_append]
      rw [List.filter_cons_of_neg (by decide), List.filter_cons_of_neg (by decide), List.filter_cons_of_neg (by decide), List.filter_cons_of_neg (by decide),
        List.filter_cons_of_pos (by decide), List.filter_cons_of_pos (by decide), List.filter_cons_of_neg (by simp), List.filter_cons_of_pos (by simp), List.filter_nil]
      simp only [List.map_cons, List.map_nil, index_payload]
      rfl

theorem cut_inv (md : String) (calls : List ProfCall) : CutInv (stringLog md calls) (runProf calls (profInit md)).2.world := by
  have := (cut_init md).run calls
  simpa [stringLog, profOutcomes] using this

/-! ## The file and its pages -/

/-- What was written is determined by the state. -/
theorem written_determined {h h' : History} (hg : AllGood h) (hg' : AllGood h') (hs : ∀ x ∈ h, x.1 ≤ 2) (hs' : ∀ x ∈ h', x.1 ≤ 2)
    (he : (run profTags h).2 = (run profTags h').2) (i : Nat) (hi : i ≤ 2) : written i h = written i h' := by
  obtain ⟨pages, inv, _⟩ := run_inv profTags h hg
  obtain ⟨pages', inv', _⟩ := run_inv profTags h' hg'
  have h1 := inv.store
  rw [he, inv'.store] at h1
  have h2 : storeOf pages' = storeOf pages := by injection h1
  have h3 : pages' = pages := storeOf_inj (fun p hp => ⟨(inv'.bodies p hp).1, by have := (inv'.bodies p hp).2; omega⟩)
    (fun p hp => ⟨(inv.bodies p hp).1, by have := (inv.bodies p hp).2; omega⟩) h2
  rw [← inv.content i (tagUnshared_prof hs hi), ← inv'.content i (tagUnshared_prof hs' hi), he, h3]

theorem streamOf_take (t : PageTag) (pages : List Page) (k : Nat) : streamOf t (pages.take k) <+: streamOf t pages := by
  conv => rhs; rw [← List.take_append_drop k pages]
  rw [streamOf_append]
  exact List.prefix_append _ _

theorem serialize_flat_take (raws : List RawEvent) (q : Nat) (hq : q ≤ raws.length) (rest : Bytes) (hr : rest <+: raws.flatMap RawEvent.serialize)
    (hl : rest.length = 32 * q) : rest = (raws.take q).flatMap RawEvent.serialize := by
  have e : raws.flatMap RawEvent.serialize = (raws.take q).flatMap RawEvent.serialize ++ (raws.drop q).flatMap RawEvent.serialize := by
    rw [← List.flatMap_append, List.take_append_drop]
  have hl' : ((raws.take q).flatMap RawEvent.serialize).length = 32 * q := by
    rw [serialize_flat_length, List.length_take, Nat.min_eq_left hq]
  rw [List.prefix_iff_eq_take.mp hr, hl, e, ← hl', List.take_left]

/-- The parts of the file of a session. -/
structure Parts (F : Bytes) (md : String) (calls : List ProfCall) (pages : List Page) (raws : List RawEvent) : Prop where
  file : F = fileHeader magicTopLevel ++ storeOf pages
  bodies : ∀ p ∈ pages, 0 < p.body.length ∧ p.body.length ≤ 262144
  events : streamOf .events pages = fileHeader magicEventStream ++ raws.flatMap RawEvent.serialize
  enc : List.Forall₂ Enc raws (recorded calls)
  table : ∃ L, L.filter isTab = stringLog md calls ∧ TabOk L (streamOf .stringData pages) (streamOf .stringIndex pages)
  index : streamOf .stringIndex pages = fileHeader magicStringIndex ++ entryBytes (100000001, 8) ++ mapBytes (mappings (stringLog md calls))
  maps : ∀ m ∈ mappings (stringLog md calls), m.1.toNat ≤ 100000000 ∧ 100000003 ≤ m.2.toNat
  cut : ∀ k, (streamOf .events (pages.take k)).length < 8 ∨
    ∃ q, q ≤ raws.length ∧ streamOf .events (pages.take k) = fileHeader magicEventStream ++ (raws.take q).flatMap RawEvent.serialize

theorem parts_exist (md : String) (calls : List ProfCall) : ∃ pages raws, Parts (savedFile md calls) md calls pages raws := by
  obtain ⟨L, h, raws, si, hf, he, hr⟩ := (prof_inv md calls).w.inv
  obtain ⟨⟨h2, g2, s2, hw2, ha, ⟨ps, hps, h32⟩, hidx, _⟩, hmaps⟩ := cut_inv md calls
  have hdet : ∀ i, i ≤ 2 → written i h = written i h2 := fun i hi =>
    written_determined si.good g2 si.sinks s2 (by rw [← si.world, hw2]) i hi
  have hg : AllGood (h2 ++ drops) := by
    intro x hx
    simp [drops] at hx
    rcases hx with hx | rfl | rfl | rfl
    · exact g2 x hx
    all_goals trivial
  have hs : ∀ x ∈ h2 ++ drops, x.1 ≤ 2 := by
    intro x hx
    simp [drops] at hx
    rcases hx with hx | rfl | rfl | rfl
    · exact s2 x hx
    all_goals simp
  have hw : ∀ i, written i (h2 ++ drops) = written i h2 := by
    intro i
    rw [written_append]
    have : written i drops = [] := by
      simp only [written, List.flatMap_eq_nil_iff, List.mem_filter, drops]
      rintro x ⟨hx, _⟩
      simp at hx
      rcases hx with rfl | rfl | rfl <;> rfl
    rw [this, List.append_nil]
  have f : ∀ i, i ≤ 2 → Flushed i (h2 ++ drops) := by
    intro i hi
    have : i = 0 ∨ i = 1 ∨ i = 2 := by omega
    rcases this with rfl | rfl | rfl
    · exact .inr ⟨h2, .drop, [(1, .drop), (2, .drop)], rfl, trivial, by simp⟩
    · exact .inr ⟨h2 ++ [(0, .drop)], .drop, [(2, .drop)], by simp [drops], trivial, by simp⟩
    · exact .inr ⟨h2 ++ [(0, .drop), (1, .drop)], .drop, [], by simp [drops], trivial, by simp⟩
  obtain ⟨pages, inv, hcut, _⟩ := page_ends profTags (h2 ++ drops) hg 0 (tagUnshared_prof hs (by decide)) (by
    intro c hc
    simp only [drops, List.mem_append, List.mem_cons, Prod.mk.injEq, List.not_mem_nil, or_false] at hc
    rcases hc with hc | ⟨_, rfl⟩ | ⟨_, rfl⟩ | ⟨_, rfl⟩
    · exact ha c hc
    all_goals trivial)
  have hst : ∀ i, i ≤ 2 → streamOf (profTags i) pages = written i h2 := by
    intro i hi
    have := inv.content i (tagUnshared_prof hs hi)
    rw [flushed_buffer profTags _ hg i (f i hi), List.append_nil, hw] at this
    exact this
  have hev : streamOf .events pages = fileHeader magicEventStream ++ raws.flatMap RawEvent.serialize := by
    have := hst 0 (by decide)
    rw [← hdet 0 (by decide), si.events, he] at this
    exact this
  refine ⟨pages, raws, ?_, inv.bodies, hev, hr, ⟨L, hf, ?_⟩, ?_, hmaps, ?_⟩
  · unfold savedFile
    congr 1
    have : (World.exec profTags drops (runProf calls (profInit md)).2.world).2.store.data = storeAfter profTags (h2 ++ drops) := by
      simp [storeAfter, run, exec_append, hw2]
    rw [show ([(0, .drop), (1, .drop), (2, .drop)] : History) = drops from rfl, this, storeAfter, inv.store]
  · have h1 := hst 1 (by decide)
    have h2' := hst 2 (by decide)
    rw [show profTags 1 = PageTag.stringData from rfl] at h1
    rw [show profTags 2 = PageTag.stringIndex from rfl] at h2'
    rw [h1, h2', ← hdet 1 (by decide), ← hdet 2 (by decide)]
    exact si.tab
  · have h2' := hst 2 (by decide)
    rw [show profTags 2 = PageTag.stringIndex from rfl] at h2'
    rw [h2', hidx]
  · intro k
    obtain ⟨m, hm⟩ := hcut k
    rw [show profTags 0 = PageTag.events from rfl] at hm
    have hp : pieces 0 (h2 ++ drops) = fileHeaderWrites magicEventStream ++ (ps ++ [[]]) := by
      have : pieces 0 (h2 ++ drops) = pieces 0 h2 ++ [[]] := by
        simp [pieces, drops, payload]
      rw [this, hps, List.append_assoc]
    rw [hp] at hm
    match m, hm with
    | 0, hm => left; rw [hm]; simp
    | 1, hm => left; rw [hm]; show ([magicEventStream] : List Bytes).flatten.length < 8; decide
    | m + 2, hm =>
      right
      have hm' : streamOf .events (pages.take k) = fileHeader magicEventStream ++ ((ps ++ [[]]).take m).flatten := by
        rw [hm]
        simp [fileHeaderWrites, fileHeader]
      have h32' : 32 ∣ (((ps ++ [[]]).take m).flatten).length := by
        rw [List.length_flatten]
        apply List.dvd_sum
        intro x hx
        obtain ⟨p, hp, rfl⟩ := List.mem_map.mp hx
        have := List.mem_of_mem_take hp
        simp only [List.mem_append, List.mem_singleton] at this
        rcases this with this | rfl
        · exact h32 p this
        · simp
      have hpre := streamOf_take .events pages k
      rw [hm', hev, List.prefix_append_right_inj] at hpre
      obtain ⟨q, hq⟩ := h32'
      have hle := hpre.length_le
      rw [serialize_flat_length, hq] at hle
      have hqr : q ≤ raws.length := by omega
      exact ⟨q, hqr, by rw [hm', serialize_flat_take raws q hqr _ hpre hq]⟩

/-! ## The remaining string table -/

/-- The bytes a call that returned an id stored. -/
def stored : SessionOp → Option Bytes
  | .table (.alloc t) => some (encText (components t))
  | .custom size fill => match fill (List.replicate size 0) with | .ok b => some b | .error _ => none
  | _ => none

theorem mem_strings' {L : TableLog} {s : StringId × Bytes} (h : s ∈ strings L) : ∃ o, (o, .ok (some s.1)) ∈ L ∧ stored o = some s.2 := by
  obtain ⟨⟨o, r⟩, hx, he⟩ := List.mem_filterMap.mp h
  match o, r, he, hx with
  | .table (.alloc t), .ok (some id), he, hx =>
    simp only [Option.some.injEq] at he
    subst he
    exact ⟨_, hx, rfl⟩
  | .custom size fill, .ok (some id), he, hx =>
    simp only at he
    split at he
    · rename_i b hb
      simp only [Option.some.injEq] at he
      subst he
      exact ⟨_, hx, by simp only [stored, hb]⟩
    · cases he

/-- Every string occupies its place: no value wrote more than it asked for. -/
def Fit (L : TableLog) : Prop := ∀ x ∈ L, ∀ b, stored x.1 = some b → b.length ≤ textSize x

theorem fit_stringLog (md : String) (calls : List ProfCall) : Fit (stringLog md calls) := by
  intro x hx b hb
  unfold stringLog at hx
  simp only [List.mem_cons] at hx
  rcases hx with rfl | hx
  · cases hb
  · obtain ⟨⟨c, r⟩, hc, he⟩ := List.mem_filterMap.mp hx
    cases c <;> simp only [asTable] at he <;> cases he <;> simp only [stored] at hb <;> cases hb <;> exact Nat.le_refl _

theorem fit_filter {L : TableLog} (h : Fit (L.filter isTab)) : Fit L := by
  intro x hx b hb
  refine h x (List.mem_filter.mpr ⟨hx, ?_⟩) b hb
  obtain ⟨o, r⟩ := x
  cases o <;> first | rfl | cases hb

/-- Strings lie one after the other in the string data. -/
def Apart (x y : SessionOp × Except Fault (Option StringId)) : Prop :=
  ∀ o i b o' j b', x = (o, .ok (some i)) → stored o = some b → y = (o', .ok (some j)) → stored o' = some b' → i.toNat + b.length ≤ j.toNat

theorem apart_of_ids {L : TableLog} (hf : Fit L) (ids : ∀ l1 l2 o id, L = l1 ++ (o, .ok (some id)) :: l2 → id.toNat = nextAddr l1 + 100000003) :
    L.Pairwise Apart := by
  induction L using List.reverseRecOn with
  | nil => exact .nil
  | append_singleton L y ih =>
    rw [List.pairwise_append]
    refine ⟨ih (fun x hx => hf x (by simp [hx])) fun l1 l2 o id h => ids l1 (l2 ++ [y]) o id (by rw [h]; simp), by simp, ?_⟩
    intro x hx z hz o i b o' j b' e1 hb e2 _
    simp only [List.mem_singleton] at hz
    subst hz
    have hfx := hf x (by simp [hx]) b (by rw [e1]; exact hb)
    obtain ⟨l1, l2, hL⟩ := List.append_of_mem hx
    have h1 := ids l1 (l2 ++ [z]) o i (by rw [hL, e1]; simp)
    have h2 := ids L [] o' j (by rw [e2])
    have h3 : nextAddr l1 + textSize x ≤ nextAddr L := by
      rw [hL]
      simp only [nextAddr, List.map_append, List.map_cons, List.sum_append, List.sum_cons]
      omega
    omega

theorem strings_filter (L : TableLog) : strings (L.filter isTab) = strings L := by
  induction L with
  | nil => rfl
  | cons x L ih =>
    cases hx : isTab x with
    | true =>
      rw [List.filter_cons_of_pos hx]
      simp only [strings, List.filterMap_cons] at ih ⊢
      rw [ih]
    | false =>
      rw [List.filter_cons_of_neg (by simp [hx]), ih]
      obtain ⟨o, r⟩ := x
      cases o <;> simp_all [isTab, strings]

/-- Where a string that begins with the documented encoding of a text is. -/
theorem stored_at {L : TableLog} {D I : Bytes} (tab : TabOk L D I) {s : StringId × Bytes} {cs : List StringComponent} {junk : Bytes} (h : s ∈ strings L)
    (hs : s.2 = encText cs ++ junk) : ∃ a, s.1.toNat = a + 100000003 ∧ 8 ≤ a ∧ encText cs <+: D.drop a := by
  obtain ⟨o, hx, he⟩ := mem_strings' h
  match o, he, hx with
  | .table (.alloc t), he, hx =>
    simp only [stored, Option.some.injEq] at he
    obtain ⟨a, h1, h2, h3⟩ := tab.alloc s.1 (components t) ⟨.table (.alloc t), rfl, hx⟩
    refine ⟨a, h1, h2, ?_⟩
    rw [he, hs] at h3
    exact (List.prefix_append _ _).trans h3
  | .custom size fill, he, hx =>
    simp only [stored] at he
    split at he
    · rename_i b hb
      simp only [Option.some.injEq] at he
      exact tab.alloc s.1 cs ⟨.custom size fill, ⟨junk, by rw [hb, he, hs]⟩, hx⟩
    · cases he

theorem strings_sorted {L : TableLog} (h : L.Pairwise Apart) :
    (strings L).Pairwise fun a b => a.1.toNat + a.2.length ≤ b.1.toNat := by
  have key : ∀ (x : SessionOp × Except Fault (Option StringId)) (s : StringId × Bytes), s ∈ strings [x] → ∃ o, x = (o, .ok (some s.1)) ∧ stored o = some s.2 := by
    intro x s hs
    obtain ⟨o, h1, h2⟩ := mem_strings' hs
    simp only [List.mem_singleton] at h1
    exact ⟨o, h1.symm, h2⟩
  unfold strings at key ⊢
  rw [List.pairwise_filterMap]
  refine h.imp ?_
  intro x y hxy a ha b hb
  obtain ⟨o, e1, e2⟩ := key x a (by rw [List.mem_filterMap]; exact ⟨x, by simp, ha⟩)
  obtain ⟨o', e3, e4⟩ := key y b (by rw [List.mem_filterMap]; exact ⟨y, by simp, hb⟩)
  exact hxy o _ _ o' _ _ e1 e2 e3 e4

/-- The number of strings that end within the first `n` bytes of the string data. -/
def fitting (strs : List (StringId × Bytes)) (n : Nat) : Nat :=
  (strs.takeWhile fun s => decide (s.1.toNat + s.2.length ≤ n + 100000003)).length

theorem fitting_take {strs : List (StringId × Bytes)} {n : Nat} {s} (h : s ∈ strs.take (fitting strs n)) :
    s.1.toNat + s.2.length ≤ n + 100000003 := by
  have : strs.take (fitting strs n) = strs.takeWhile fun s => decide (s.1.toNat + s.2.length ≤ n + 100000003) := by
    unfold fitting
    exact (List.prefix_iff_eq_take.mp (List.takeWhile_prefix _)).symm
  rw [this] at h
  have := List.all_eq_true.mp (List.all_takeWhile (p := fun s : StringId × Bytes => decide (s.1.toNat + s.2.length ≤ n + 100000003)) (l := strs)) s h
  simpa using this

theorem fitting_drop {strs : List (StringId × Bytes)} {n : Nat}
    (hs : strs.Pairwise fun a b => a.1.toNat + a.2.length ≤ b.1.toNat) {s} (h : s ∈ strs.drop (fitting strs n)) :
    n + 100000003 < s.1.toNat + s.2.length := by
  induction strs with
  | nil => simp at h
  | cons a strs ih =>
    rw [List.pairwise_cons] at hs
    unfold fitting at h
    rw [List.takeWhile_cons] at h
    split at h
    · rename_i hfit
      simp only [List.length_cons, List.drop_succ_cons] at h
      exact ih hs.2 h
    · rename_i hfit
      simp only [decide_eq_true_eq] at hfit
      simp only [List.length_nil, List.drop_zero, List.mem_cons] at h
      rcases h with rfl | h
      · omega
      · have := hs.1 s h
        omega

theorem tableOf_snoc (md : String) (strs) (maps : List (StringId × StringId)) (m : StringId × StringId) :
    tableOf md strs (maps ++ [m]) = tableOf md strs maps ++ [(.table (.mapVirtual m.1 m.2), .ok none)] := by
  simp [tableOf]

theorem tableOf_allocated {md : String} {strs} {maps : List (StringId × StringId)} {id : StringId} {cs : List StringComponent} :
    Allocated (tableOf md strs maps) id cs ↔ ∃ junk, (id, encText cs ++ junk) ∈ strs := by
  constructor
  · rintro ⟨o, ho, hm⟩
    simp only [tableOf, List.cons_append, List.mem_cons, List.mem_append, List.mem_map, Prod.mk.injEq] at hm
    rcases hm with ⟨rfl, h2⟩ | ⟨s, hs, rfl, h2⟩ | ⟨m, hm, rfl, h2⟩
    · cases h2
    · injection h2 with h2
      injection h2 with h2
      subst h2
      obtain ⟨junk, ho⟩ := ho
      injection ho with ho
      exact ⟨junk, by rw [← ho]; exact hs⟩
    · cases h2
  · rintro ⟨junk, h⟩
    refine ⟨.custom (encText cs ++ junk).length fun _ => .ok (encText cs ++ junk), ⟨junk, rfl⟩, ?_⟩
    simp only [tableOf, List.cons_append, List.mem_cons, List.mem_append, List.mem_map]
    exact .inr (.inl ⟨_, h, rfl⟩)

/-- The index of the remaining table. -/
def cutIndex (maps : List (StringId × StringId)) : List (StringId × Nat) :=
  (100000001, 8) :: maps.map fun m => (m.1, m.2.toNat - 100000003)

theorem tableOf_index (md : String) (strs) (maps : List (StringId × StringId)) (hm : ∀ m ∈ maps, m.1.toNat ≤ 100000000 ∧ 100000003 ≤ m.2.toNat) (v : StringId) :
    (collectMap (cutIndex maps) v = none ∧ Unbound (tableOf md strs maps) v) ∨
    ∃ a, collectMap (cutIndex maps) v = some a ∧
      ((∃ c, Bound (tableOf md strs maps) v (.concrete c) ∧ c.toNat = a + 100000003 ∧ v.toNat ≤ 100000000) ∨
        (Bound (tableOf md strs maps) v (.text [.value md]) ∧ v = 100000001 ∧ a = 8)) := by
  induction maps using List.reverseRecOn with
  | nil =>
    have hb : ∀ y ∈ strs.map (fun s : StringId × Bytes => ((SessionOp.custom s.2.length (fun _ => .ok s.2), .ok (some s.1)) : SessionOp × Except Fault (Option StringId))), binds v y = none := by
      intro y hy
      obtain ⟨s, _, rfl⟩ := List.mem_map.mp hy
      rfl
    by_cases hv : v = 100000001
    · right
      refine ⟨8, by simp [cutIndex, collectMap, hv], .inr ⟨⟨[], _, _, rfl, ?_, ?_⟩, hv, rfl⟩⟩
      · simp [binds, hv, components]
      · intro y hy
        exact hb y (by simpa using hy)
    · left
      refine ⟨by simp [cutIndex, collectMap, hv], ?_⟩
      intro y hy
      simp only [tableOf, List.map_nil, List.append_nil, List.mem_cons] at hy
      rcases hy with rfl | hy
      · simp [binds, hv]
      · exact hb y hy
  | append_singleton maps m ih =>
    have e : cutIndex (maps ++ [m]) = cutIndex maps ++ [(m.1, m.2.toNat - 100000003)] := by simp [cutIndex]
    obtain ⟨hm1, hm2⟩ := hm m (by simp)
    rw [tableOf_snoc, e, collectMap_snoc]
    by_cases hv : v = m.1
    · right
      refine ⟨m.2.toNat - 100000003, by simp [hv], .inl ⟨m.2, ?_, by omega, by rw [hv]; exact hm1⟩⟩
      rw [bound_snoc]
      exact .inl (by simp [binds, hv])
    · have hbn : binds v (SessionOp.table (.mapVirtual m.1 m.2), .ok none) = none := by simp [binds, hv]
      rw [if_neg (by simpa using hv)]
      rcases ih (fun m' h' => hm m' (by simp [h'])) with ⟨h1, h2⟩ | ⟨a, h1, ⟨c, h2, h3⟩ | ⟨h2, h3⟩⟩
      · exact .inl ⟨h1, unbound_snoc.mpr ⟨h2, hbn⟩⟩
      · exact .inr ⟨a, h1, .inl ⟨c, bound_snoc.mpr (.inr ⟨hbn, h2⟩), h3⟩⟩
      · exact .inr ⟨a, h1, .inr ⟨bound_snoc.mpr (.inr ⟨hbn, h2⟩), h3⟩⟩

theorem prefix_fits {P D D' : Bytes} {a : Nat} (h : P <+: D.drop a) (hD : D' <+: D) (hl : a + P.length ≤ D'.length) : P <+: D'.drop a := by
  obtain ⟨E, rfl⟩ := hD
  rw [List.drop_append_of_le_length (by omega)] at h
  exact List.prefix_of_prefix_length_le h (List.prefix_append _ _) (by rw [List.length_drop]; omega)

/-- What remains of the string table is a string table for what remains of the session. -/
theorem remaining_rel {md : String} {strs : List (StringId × Bytes)} {maps : List (StringId × StringId)} {D : Bytes}
    (hm : ∀ m ∈ maps, m.1.toNat ≤ 100000000 ∧ 100000003 ≤ m.2.toNat)
    (hs : ∀ s ∈ strs, ∀ cs junk, s.2 = encText cs ++ junk → ∃ a, s.1.toNat = a + 100000003 ∧ 8 ≤ a ∧ encText cs <+: D.drop a)
    (hmd : encText [.value md] <+: D.drop 8) : TabRel (tableOf md strs maps) ⟨D, collectMap (cutIndex maps)⟩ := by
  have hbv : ∀ id c, Bound (tableOf md strs maps) id (.concrete c) →
      ∃ a, collectMap (cutIndex maps) id = some a ∧ c.toNat = a + 100000003 ∧ id.toNat ≤ 100000000 := by
    intro id c hb
    rcases tableOf_index md strs maps hm id with ⟨_, h⟩ | ⟨a, h1, ⟨c', h2, h3, h4⟩ | ⟨h2, _⟩⟩
    · exact (unbound_bound h hb).elim
    · have := bound_unique hb h2
      injection this with this
      subst this
      exact ⟨a, h1, h3, h4⟩
    · cases bound_unique hb h2
  have hbt : ∀ id cs, Bound (tableOf md strs maps) id (.text cs) →
      collectMap (cutIndex maps) id = some 8 ∧ id = 100000001 ∧ cs = [.value md] := by
    intro id cs hb
    rcases tableOf_index md strs maps hm id with ⟨_, h⟩ | ⟨a, h1, ⟨c', h2, _⟩ | ⟨h2, h3, rfl⟩⟩
    · exact (unbound_bound h hb).elim
    · cases bound_unique hb h2
    · have := bound_unique hb h2
      injection this with this
      exact ⟨h1, h3, this⟩
  have hs' : ∀ (id : StringId) (cs : List StringComponent), Allocated (tableOf md strs maps) id cs →
      ∃ a, id.toNat = a + 100000003 ∧ 8 ≤ a ∧ encText cs <+: D.drop a := by
    intro id cs h
    obtain ⟨junk, h⟩ := tableOf_allocated.mp h
    exact hs _ h cs junk rfl
  constructor
  · intro id cs he
    rcases he with hal | ⟨c, hb, hc⟩ | hb
    · obtain ⟨a, h1, h2, h3⟩ := hs' _ _ hal
      refine ⟨a, getAddr_regular _ h1, h2, h3, ?_⟩
      rintro c (rfl | hb) _
      · exact h1
      · obtain ⟨_, _, _, h⟩ := hbv id c hb
        omega
    · obtain ⟨a, h1, h2, h3⟩ := hbv id c hb
      obtain ⟨a', g1, g2, g3⟩ := hs' _ _ hc
      have ea : a' = a := by omega
      subst ea
      refine ⟨a', by rw [getAddr_virtual _ (by omega)]; exact congrArg _ h1, g2, g3, ?_⟩
      rintro c' (rfl | hb') hal
      · obtain ⟨b, g4, _, _⟩ := hs' _ _ hal
        omega
      · have := bound_unique hb hb'
        injection this with this
        subst this
        exact h2
    · obtain ⟨h1, h2, h3⟩ := hbt id cs hb
      subst h3
      refine ⟨8, by rw [getAddr_virtual _ (by rw [h2]; decide)]; exact congrArg _ h1, by omega, hmd, ?_⟩
      rintro c' (rfl | hb') hal
      · obtain ⟨b, g4, _, _⟩ := hs' _ _ hal
        simp only [h2] at g4
        have : (100000001 : UInt64).toNat = 100000001 := rfl
        omega
      · cases bound_unique hb hb'
  · rintro id (⟨h1, h2⟩ | h)
    · rw [getAddr_virtual _ h1]
      rcases tableOf_index md strs maps hm id with ⟨h3, _⟩ | ⟨a, _, ⟨c', h3, _⟩ | ⟨h3, _⟩⟩
      · exact congrArg _ h3
      · exact (unbound_bound h2 h3).elim
      · exact (unbound_bound h2 h3).elim
    · unfold StringTable.getAddr
      rw [if_neg (by rw [isVirtual_iff]; omega), if_pos (by rw [invalid_iff]; omega)]
  · intro id a cs h
    cases h with
    | allocated h h' => exact getAddr_regular _ h'
    | mapped h h' h'' =>
      obtain ⟨a', g1, g2, g3⟩ := hbv _ _ h
      rw [getAddr_virtual _ (by omega)]
      have : a' = a := by omega
      subst this
      exact congrArg _ g1
    | @metadata l1 l2 t r hl hn =>
      have hb : Bound (tableOf md strs maps) 100000001 (.text (components t)) := ⟨l1, _, l2, hl, by simp [binds], hn⟩
      obtain ⟨g1, _, _⟩ := hbt _ _ hb
      have : l1 = [] := by
        cases l1 with
        | nil => rfl
        | cons x l1 =>
          simp only [tableOf, List.cons_append, List.cons.injEq] at hl
          have hmem : ((SessionOp.table (.allocMetadata t), .ok r) : SessionOp × Except Fault (Option StringId)) ∈ l1 ++ (SessionOp.table (.allocMetadata t), .ok r) :: l2 := by simp
          rw [← hl.2] at hmem
          simp only [List.mem_append, List.mem_map, Prod.mk.injEq, SessionOp.table.injEq] at hmem
          rcases hmem with ⟨_, _, h, _⟩ | ⟨_, _, h, _⟩ <;> simp at h
      subst this
      rw [getAddr_virtual _ (by decide)]
      exact congrArg _ g1

end Verif.Mm
