import Verif.Spec.CroxOrder
import Verif.Props.Crox

/-!
# C87: crox does not depend on how threads interleave
-/

namespace Verif.Props

open Verif Verif.Mm Verif.Spec Verif.Decode Verif.Analyze Verif.Crox

theorem crox_moments_same {a b : List LightweightEvent} (hs : SameTimes a b) (t : UInt32) : momentsOn t a = momentsOn t b := by
  have key : ∀ l : List LightweightEvent, l.filterMap moments = (l.map (·.payload)).filterMap (fun p => moments ⟨0, 0, p⟩) := by
    intro l
    rw [List.filterMap_map]
    rfl
  unfold momentsOn
  rw [key, key, hs t]

theorem crox_timed_same {a b : List LightweightEvent} (hs : SameTimes a b) (t : UInt32) : Timed t a ↔ Timed t b := by
  rw [timed_iff, timed_iff, crox_moments_same hs]

theorem crox_first_same {a b : List LightweightEvent} (hs : SameTimes a b) (t : UInt32) : firstOf t a = firstOf t b := by
  rw [firsts_eq, firsts_eq, crox_moments_same hs]

theorem crox_last_same {a b : List LightweightEvent} (hs : SameTimes a b) (t : UInt32) : lastOf t a = lastOf t b := by
  rw [lasts_eq, lasts_eq, crox_moments_same hs]

theorem crox_spans_mem (es : List LightweightEvent) (x : UInt32 × (Nat × Nat)) :
    x ∈ threadSpans es ↔ Timed x.1 es ∧ x.2 = (firstOf x.1 es, lastOf x.1 es) := by
  obtain ⟨t, a, b⟩ := x
  constructor
  · intro h
    obtain ⟨h1, h2⟩ := spans_entry h
    exact ⟨(spans_keys es t).1 (List.mem_map.2 ⟨_, h, rfl⟩), by rw [h1, h2]⟩
  · rintro ⟨h1, h2⟩
    obtain ⟨⟨t', a', b'⟩, h3, h4⟩ := List.mem_map.1 ((spans_keys es t).2 h1)
    simp only at h4
    subst h4
    obtain ⟨h5, h6⟩ := spans_entry h3
    simp only at h2
    rw [h2, ← h5, ← h6]
    exact h3

theorem crox_spans_same {a b : List LightweightEvent} (hs : SameTimes a b) : (threadSpans a).Perm (threadSpans b) := by
  refine (List.perm_ext_iff_of_nodup (List.Nodup.of_map _ (spans_inv a).1) (List.Nodup.of_map _ (spans_inv b).1)).2 fun x => ?_
  rw [crox_spans_mem, crox_spans_mem, crox_timed_same hs, crox_first_same hs, crox_last_same hs]

/-- Two sorted arrangements of entries no two of which have one time are equal. -/
theorem crox_sorted_unique {s s' : List (Nat × UInt32) → List (Nat × UInt32)} (h : SortsByTime s) (h' : SortsByTime s') {l l' : List (Nat × UInt32)}
    (hp : l.Perm l') (hd : ∀ x ∈ l, ∀ y ∈ l, x.1 = y.1 → x = y) : s l = s' l' := by
  have hpp : (s l).Perm (s' l') := (h l).1.trans (hp.trans (h' l').1.symm)
  refine hpp.eq_of_pairwise ?_ (h l).2 (h' l').2
  intro x y hx hy hxy hyx
  exact hd x ((h l).1.mem_iff.1 hx) y (hp.mem_iff.2 ((h' l').1.mem_iff.1 hy)) (Nat.le_antisymm hxy hyx)

/-- **C87.** If no two threads begin or end at one moment, the lanes do not depend on how the threads' events interleave, nor on the
order in which the hash map of threads is walked. -/
theorem C87_lanes (collapse : Bool) (sortEnds sortStarts sortEnds' sortStarts' : List (Nat × UInt32) → List (Nat × UInt32))
    (hE : SortsByTime sortEnds) (hS : SortsByTime sortStarts) (hE' : SortsByTime sortEnds') (hS' : SortsByTime sortStarts')
    (a b : List LightweightEvent) (hs : SameTimes a b) (ht : NoTies a) :
    laneMapping collapse sortEnds sortStarts a = laneMapping collapse sortEnds' sortStarts' b := by
  unfold laneMapping
  have h1 := crox_sorted_unique hE hE' ((crox_spans_same hs).map fun x => (x.2.2, x.1)) (by
    rintro x hx y hy hxy
    obtain ⟨x', hx', rfl⟩ := List.mem_map.1 hx
    obtain ⟨y', hy', rfl⟩ := List.mem_map.1 hy
    rw [crox_spans_mem] at hx' hy'
    by_contra hne
    have hk : x'.1 ≠ y'.1 := fun h => hne (Prod.ext hxy h)
    refine (ht _ _ hx'.1 hy'.1 hk).2 ?_
    simpa [hx'.2, hy'.2] using hxy)
  have h2 := crox_sorted_unique hS hS' ((crox_spans_same hs).map fun x => (x.2.1, x.1)) (by
    rintro x hx y hy hxy
    obtain ⟨x', hx', rfl⟩ := List.mem_map.1 hx
    obtain ⟨y', hy', rfl⟩ := List.mem_map.1 hy
    rw [crox_spans_mem] at hx' hy'
    by_contra hne
    have hk : x'.1 ≠ y'.1 := fun h => hne (Prod.ext hxy h)
    refine (ht _ _ hx'.1 hy'.1 hk).1 ?_
    simpa [hx'.2, hy'.2] using hxy)
  rw [h1, h2]

/-- **C87.** In any case the number of lanes does not depend on either. -/
theorem C87_lane_count (sortEnds sortStarts sortEnds' sortStarts' : List (Nat × UInt32) → List (Nat × UInt32))
    (hE : SortsByTime sortEnds) (hS : SortsByTime sortStarts) (hE' : SortsByTime sortEnds') (hS' : SortsByTime sortStarts')
    (a b : List LightweightEvent) (hs : SameTimes a b) :
    ∃ ma mb, laneMapping true sortEnds sortStarts a = .ok ma ∧ laneMapping true sortEnds' sortStarts' b = .ok mb ∧
      ∀ v, v ∈ ma.map (·.2) ↔ v ∈ mb.map (·.2) := by
  obtain ⟨ma, ka, h1, h2, h3, h4, -⟩ := C44_fewest_lanes sortEnds sortStarts hE hS a
  obtain ⟨mb, kb, g1, g2, g3, g4, -⟩ := C44_fewest_lanes sortEnds' sortStarts' hE' hS' b
  have hact : ∀ s t, ActiveAt a s t ↔ ActiveAt b s t := by
    intro s t
    unfold ActiveAt
    rw [crox_timed_same hs, crox_first_same hs, crox_last_same hs]
  have hk : ka = kb := by
    refine Nat.le_antisymm ?_ ?_
    · rcases h3 with h | ⟨s, W, hW, hl, hA⟩
      · omega
      · rw [← hl]; exact g4 s W hW fun t h => (hact s t).1 (hA t h)
    · rcases g3 with h | ⟨s, W, hW, hl, hA⟩
      · omega
      · rw [← hl]; exact h4 s W hW fun t h => (hact s t).2 (hA t h)
  exact ⟨ma, mb, h1, g1, fun v => by rw [h2, g2, hk]⟩

/-- Two threads that begin and end together: then it is the order of the hash map that decides which gets lane 0, for one and the same
stream of events. -/
theorem C87_ties_need_the_hash_order : ∃ (sort sort' : List (Nat × UInt32) → List (Nat × UInt32)) (es : List LightweightEvent),
    SortsByTime sort ∧ SortsByTime sort' ∧ laneMapping true sort sort es = .ok [(1, 0), (2, 1)] ∧
      laneMapping true sort' sort' es = .ok [(2, 0), (1, 1)] := by
  refine ⟨fun l => l.insertionSort (fun a b => a.1 ≤ b.1), fun l => l.reverse.insertionSort (fun a b => a.1 ≤ b.1),
    [⟨0, 1, .timestamp (.interval 0 10)⟩, ⟨1, 2, .timestamp (.interval 0 10)⟩], sorts_insertion, ?_, by decide +kernel, by decide +kernel⟩
  intro l
  exact ⟨(sorts_insertion l.reverse).1.trans (List.reverse_perm l), (sorts_insertion l.reverse).2⟩

theorem crox_perm_same {a b : List Event} (hs : SameThreads a b) : a.Perm b := by
  classical
  rw [List.perm_iff_count]
  intro e
  have h : ∀ l : List Event, l.count e = (l.filter (fun x => decide (x.threadId = e.threadId))).count e := by
    intro l
    rw [List.count_filter (by simp)]
  rw [h a, h b, hs]

/-- **C87.** crox accepts all interleavings of the threads' events or none; it writes the same records, if in another order. -/
theorem C87_records (minimum : Option Nat) (pid : Nat) (lanes : List (UInt32 × Nat)) (a b : List Event) (hs : SameThreads a b)
    (xs : List CroxEvent) (h : croxEvents minimum pid lanes a = .ok xs) :
    ∃ ys, croxEvents minimum pid lanes b = .ok ys ∧ xs.Perm ys := by
  have hf : ∀ e ∈ a, Forward e := by
    intro e he s t hst
    by_contra hlt
    obtain ⟨f, hfail⟩ := (C45_panics_iff minimum pid lanes a).2 ⟨e, he, s, t, hst, by omega⟩
    rw [h] at hfail
    cases hfail
  have hp := crox_perm_same hs
  have hb := C45_emits minimum pid lanes b fun e he => hf e (hp.mem_iff.2 he)
  rw [C45_emits minimum pid lanes a hf] at h
  injection h with h
  subst h
  exact ⟨_, hb, (hp.filter _).map _⟩

/-- **C87.** Without the flag the records of each thread even come in the same order. -/
theorem C87_thread_order (minimum : Option Nat) (pid : Nat) (a b : List Event) (hs : SameThreads a b)
    (xs ys : List CroxEvent) (ha : croxEvents minimum pid [] a = .ok xs) (hb : croxEvents minimum pid [] b = .ok ys) (n : Nat) :
    xs.filter (fun x => decide (x.tid = n)) = ys.filter (fun x => decide (x.tid = n)) := by
  have emits : ∀ (l : List Event) (zs : List CroxEvent), croxEvents minimum pid [] l = .ok zs →
      zs = (l.filter (longEnough minimum)).map (croxRecord pid UInt32.toNat) := by
    intro l zs h
    have hf : ∀ e ∈ l, Forward e := by
      intro e he s t hst
      by_contra hlt
      obtain ⟨f, hfail⟩ := (C45_panics_iff minimum pid [] l).2 ⟨e, he, s, t, hst, by omega⟩
      rw [h] at hfail
      cases hfail
    rw [C45_emits minimum pid [] l hf] at h
    injection h with h
    exact h.symm
  have key : ∀ l : List Event, ((l.filter (longEnough minimum)).map (croxRecord pid UInt32.toNat)).filter (fun x => decide (x.tid = n)) =
      ((l.filter (fun e => decide (e.threadId.toNat = n))).filter (longEnough minimum)).map (croxRecord pid UInt32.toNat) := by
    intro l
    rw [List.filter_map, List.filter_filter, List.filter_filter]
    refine congrArg (List.map _) (List.filter_congr fun e _ => ?_)
    show (decide (e.threadId.toNat = n) && longEnough minimum e) = (longEnough minimum e && decide (e.threadId.toNat = n))
    exact Bool.and_comm _ _
  rw [emits a xs ha, emits b ys hb, key, key]
  congr 2
  by_cases hn : n < 2 ^ 32
  · have ht : ∀ e : Event, decide (e.threadId.toNat = n) = decide (e.threadId = UInt32.ofNat n) := by
      intro e
      rw [decide_eq_decide]
      constructor
      · intro h; subst h; simp
      · intro h; rw [h, UInt32.toNat_ofNat']; exact Nat.mod_eq_of_lt hn
    simp only [ht]
    exact hs _
  · have h0 : ∀ l : List Event, l.filter (fun e => decide (e.threadId.toNat = n)) = [] := by
      intro l
      rw [List.filter_eq_nil_iff]
      intro e _
      have := e.threadId.toNat_lt
      simp only [decide_eq_true_eq]
      omega
    rw [h0, h0]

/-- The light-weight events under full ones: there are as many, and each thread has the same payloads in both. -/
theorem crox_light_of_full (p : ProfilingData)
    (hag : ∀ i l e, p.decodeLightweight i = .ok l → p.decodeFull l.eventIndex = .ok e → l = ⟨i, e.threadId, e.payload⟩) (i k : Nat) (es : List Event)
    (h : collectFrom p.itemFull i k = .ok es) :
    ∃ les, collectFrom p.decodeLightweight i k = .ok les ∧ ∀ t : UInt32,
      (les.filter (fun e => decide (e.threadId = t))).map (·.payload) = (es.filter (fun e => decide (e.threadId = t))).map (·.payload) := by
  induction k generalizing i es with
  | zero =>
    simp only [collectFrom, Except.ok.injEq] at h
    subst h
    exact ⟨[], rfl, fun _ => rfl⟩
  | succ k ih =>
    simp only [collectFrom, bind, Except.bind] at h
    split at h
    · cases h
    · rename_i e he
      split at h
      · cases h
      · rename_i es' hes
        cases h
        obtain ⟨les, h1, h2⟩ := ih (i + 1) es' hes
        simp only [ProfilingData.itemFull, bind, Except.bind] at he
        split at he
        · cases he
        · rename_i l hl
          obtain rfl := hag i l e hl he
          refine ⟨⟨i, e.threadId, e.payload⟩ :: les, by simp only [collectFrom, bind, Except.bind, hl, h1], fun t => ?_⟩
          by_cases ht : e.threadId = t
          · simp [ht, h2 t]
          · simp [ht, h2 t]

/-- What crox emits for a profile, given the lanes. -/
theorem croxTool_with (opt : Opt) (sortEnds sortStarts : List (Nat × UInt32) → List (Nat × UInt32)) (env : Tools.Env) (stem : Bytes)
    (p : ProfilingData) (es : List Event) (lanes : List (UInt32 × Nat)) (hp : Paths.openProfile env.v8New env.fuel env.files stem = .ok p)
    (hes : p.fullEvents = .ok es)
    (hag : ∀ i l e, p.decodeLightweight i = .ok l → p.decodeFull l.eventIndex = .ok e → l = ⟨i, e.threadId, e.payload⟩)
    (hf : ∀ e ∈ es, Forward e) (hl : Tools.croxLanes opt sortEnds sortStarts p = .ok lanes) :
    Tools.croxTool env opt sortEnds sortStarts stem =
      ((es.filter (longEnough opt.minimumDuration)).map (croxRecord p.metadata.processId fun t => (lookup t lanes).getD t.toNat),
        .ok (p.metadata.processId, processName p.metadata.processId p.metadata.cmd, sortIndex p.metadata.startTime)) := by
  unfold ProfilingData.fullEvents at hes
  cases hn : p.numEvents with
  | error f => rw [hn] at hes; cases hes
  | ok n =>
    rw [hn] at hes
    have hlp := croxLoop_events p opt lanes _ es hag 0 n hes (C45_emits opt.minimumDuration _ lanes es hf)
    simp only [Tools.croxTool, hp, Tools.croxBody, hl, hn, hlp]

/-- **C87.** The whole run: two profiles with the same metadata whose threads recorded the same events, interleaved differently. If, in case
threads are to be collapsed, no two begin or end together, crox emits the same records, in some order, and names and sorts the process alike. -/
theorem C87_tool (opt : Opt) (sortEnds sortStarts sortEnds' sortStarts' : List (Nat × UInt32) → List (Nat × UInt32))
    (hE : SortsByTime sortEnds) (hS : SortsByTime sortStarts) (hE' : SortsByTime sortEnds') (hS' : SortsByTime sortStarts')
    (env env' : Tools.Env) (stem stem' : Bytes) (p q : ProfilingData) (es fs : List Event)
    (hp : Paths.openProfile env.v8New env.fuel env.files stem = .ok p) (hq : Paths.openProfile env'.v8New env'.fuel env'.files stem' = .ok q)
    (hes : p.fullEvents = .ok es) (hfs : q.fullEvents = .ok fs)
    (hagp : ∀ i l e, p.decodeLightweight i = .ok l → p.decodeFull l.eventIndex = .ok e → l = ⟨i, e.threadId, e.payload⟩)
    (hagq : ∀ i l e, q.decodeLightweight i = .ok l → q.decodeFull l.eventIndex = .ok e → l = ⟨i, e.threadId, e.payload⟩)
    (hmeta : p.metadata = q.metadata) (hs : SameThreads es fs) (hf : ∀ e ∈ es, Forward e)
    (ht : opt.collapseThreads = true → ∀ les, p.lightEvents = .ok les → NoTies les) :
    (Tools.croxTool env opt sortEnds sortStarts stem).1.Perm (Tools.croxTool env' opt sortEnds' sortStarts' stem').1 ∧
      (Tools.croxTool env opt sortEnds sortStarts stem).2 = (Tools.croxTool env' opt sortEnds' sortStarts' stem').2 := by
  have hperm := crox_perm_same hs
  have hl : ∃ lanes, Tools.croxLanes opt sortEnds sortStarts p = .ok lanes ∧ Tools.croxLanes opt sortEnds' sortStarts' q = .ok lanes := by
    unfold Tools.croxLanes
    cases hc : opt.collapseThreads with
    | false => exact ⟨[], rfl, rfl⟩
    | true =>
      unfold ProfilingData.fullEvents at hes hfs
      cases hn : p.numEvents with
      | error f => rw [hn] at hes; cases hes
      | ok n =>
        cases hm : q.numEvents with
        | error f => rw [hm] at hfs; cases hfs
        | ok m =>
          rw [hn] at hes
          rw [hm] at hfs
          obtain ⟨la, h1, h2⟩ := crox_light_of_full p hagp 0 n es hes
          obtain ⟨lb, g1, g2⟩ := crox_light_of_full q hagq 0 m fs hfs
          have ha : p.lightEvents = .ok la := by simp only [ProfilingData.lightEvents, bind, Except.bind, hn, h1]
          have hb : q.lightEvents = .ok lb := by simp only [ProfilingData.lightEvents, bind, Except.bind, hm, g1]
          have hst : SameTimes la lb := fun t => by rw [h2, g2, hs t]
          obtain ⟨lanes, hlanes, -⟩ := C43_lanes_apart sortEnds sortStarts hE hS la
          have heq := C87_lanes true sortEnds sortStarts sortEnds' sortStarts' hE hS hE' hS' la lb hst (ht hc la ha)
          refine ⟨lanes, ?_, ?_⟩
          · simp only [if_true, ha, bind, Except.bind, hlanes]
          · simp only [if_true, hb, bind, Except.bind, ← heq, hlanes]
  obtain ⟨lanes, l1, l2⟩ := hl
  rw [croxTool_with opt sortEnds sortStarts env stem p es lanes hp hes hagp hf l1,
    croxTool_with opt sortEnds' sortStarts' env' stem' q fs lanes hq hfs hagq (fun e he => hf e (hperm.mem_iff.2 he)) l2, ← hmeta]
  exact ⟨(hperm.filter _).map _, rfl⟩

/-- Two threads, interleaved in two ways. -/
def croxWays : List Event × List Event :=
  ([ev "Query" "a" 1 0 8000, ev "Query" "b" 2 5000 9000, ev "Query" "c" 1 8000 9500],
   [ev "Query" "b" 2 5000 9000, ev "Query" "a" 1 0 8000, ev "Query" "c" 1 8000 9500])

theorem croxWays_same : SameThreads croxWays.1 croxWays.2 := by
  intro t
  by_cases h1 : (1 : UInt32) = t
  · subst h1; decide
  · by_cases h2 : (2 : UInt32) = t
    · subst h2; decide
    · simp [croxWays, ev, h1, h2]

example : croxWays.1 ≠ croxWays.2 := by decide

example : ∃ xs ys, croxEvents (some 2) 7 [] croxWays.1 = .ok xs ∧ croxEvents (some 2) 7 [] croxWays.2 = .ok ys ∧ xs.length = 2 ∧ xs ≠ ys :=
  ⟨_, _, rfl, rfl, by decide +kernel, by decide +kernel⟩

/-- The lanes of the three threads of C43's example, with the first two events exchanged. -/
example : NoTies exThreads := by
  have hk : ∀ t, Timed t exThreads → t = 7 ∨ t = 9 ∨ t = 8 := by
    rintro t ⟨e, he, ht, hm⟩
    simp only [exThreads, List.mem_cons, List.not_mem_nil, or_false] at he
    rcases he with rfl | rfl | rfl | rfl | rfl <;> simp_all [moments]
  intro t u h1 h2 hne
  rcases hk t h1 with rfl | rfl | rfl <;> rcases hk u h2 with rfl | rfl | rfl <;>
    first | exact absurd rfl hne | exact ⟨by decide +kernel, by decide +kernel⟩

/-- A decoder of version 8 with the given events. -/
def oldRecorded (es : List OldEvent) : OldDecoder where
  numEvents := .ok es.length
  metadata := ⟨1000000, 7, utf8 "rustc"⟩
  decodeFull := fun i => match es[i]? with
    | some e => .ok e
    | none => .error (.panic "no such event")
  decodeLightweight := fun i => match es[i]? with
    | some e => .ok ⟨i, e.threadId, e.payload⟩
    | none => .error (.panic "no such event")

theorem oldRecorded_agrees (es : List OldEvent) (i : Nat) (l : LightweightEvent) (e : Event) (hl : (v8Data (oldRecorded es)).decodeLightweight i = .ok l)
    (he : (v8Data (oldRecorded es)).decodeFull l.eventIndex = .ok e) : l = ⟨i, e.threadId, e.payload⟩ := by
  simp only [v8Data, oldRecorded] at hl he
  cases h : es[i]? with
  | none => rw [h] at hl; cases hl
  | some o =>
    rw [h] at hl
    cases hl
    simp only [v8Lightweight] at he
    rw [h] at he
    cases he
    rfl

/-- `croxWays` as events of version 8. -/
def oldWays : List OldEvent × List OldEvent :=
  let e1 : OldEvent := ⟨utf8 "Query", utf8 "a", [], .timestamp (.interval 0 8000), 1⟩
  let e2 : OldEvent := ⟨utf8 "Query", utf8 "b", [], .timestamp (.interval 5000 9000), 2⟩
  let e3 : OldEvent := ⟨utf8 "Query", utf8 "c", [], .timestamp (.interval 8000 9500), 1⟩
  ([e1, e2, e3], [e2, e1, e3])

/-- Some profile of version 8 with these events. -/
def oldEnv (es : List OldEvent) : Tools.Env where
  v8New := fun _ => .ok (oldRecorded es)
  fuel := 0
  checks := true
  files := fun _ => some (utf8 "MMPD" ++ [8, 0, 0, 0])

/-- The hypotheses of `C87_tool` are met, with the threads collapsed. -/
example : (Tools.croxTool (oldEnv oldWays.1) ⟨true, some 2⟩ (fun l => l.insertionSort (fun a b => a.1 ≤ b.1)) (fun l => l.insertionSort (fun a b => a.1 ≤ b.1)) (utf8 "x")).1.Perm
    (Tools.croxTool (oldEnv oldWays.2) ⟨true, some 2⟩ (fun l => l.reverse.insertionSort (fun a b => a.1 ≤ b.1)) (fun l => l.insertionSort (fun a b => a.1 ≤ b.1)) (utf8 "y")).1 := by
  have hrev : SortsByTime (fun l => l.reverse.insertionSort (fun a b => a.1 ≤ b.1)) := fun l =>
    ⟨(sorts_insertion l.reverse).1.trans (List.reverse_perm l), (sorts_insertion l.reverse).2⟩
  have hopen : ∀ es stem, Paths.openProfile (oldEnv es).v8New (oldEnv es).fuel (oldEnv es).files stem = .ok (v8Data (oldRecorded es)) := fun _ _ => rfl
  refine (C87_tool ⟨true, some 2⟩ _ _ _ _ sorts_insertion sorts_insertion hrev sorts_insertion _ _ _ _ (v8Data (oldRecorded oldWays.1))
    (v8Data (oldRecorded oldWays.2)) croxWays.1 croxWays.2 (hopen _ _) (hopen _ _) rfl rfl (oldRecorded_agrees _) (oldRecorded_agrees _) rfl croxWays_same ?_ ?_).1
  · intro e he
    simp only [croxWays, List.mem_cons, List.not_mem_nil, or_false] at he
    rcases he with rfl | rfl | rfl <;> (intro s t hst; cases hst; decide)
  · intro _ les hles
    have : les = [⟨0, 1, .timestamp (.interval 0 8000)⟩, ⟨1, 2, .timestamp (.interval 5000 9000)⟩, ⟨2, 1, .timestamp (.interval 8000 9500)⟩] := by
      cases hles; rfl
    subst this
    intro t u h1 h2 hne
    have hk : ∀ t, Timed t [(⟨0, 1, .timestamp (.interval 0 8000)⟩ : LightweightEvent), ⟨1, 2, .timestamp (.interval 5000 9000)⟩, ⟨2, 1, .timestamp (.interval 8000 9500)⟩] →
        t = 1 ∨ t = 2 := by
      rintro t ⟨e, he, ht, -⟩
      simp only [List.mem_cons, List.not_mem_nil, or_false] at he
      rcases he with rfl | rfl | rfl <;> simp_all
    rcases hk t h1 with rfl | rfl <;> rcases hk u h2 with rfl | rfl <;>
      first | exact absurd rfl hne | exact ⟨by decide +kernel, by decide +kernel⟩

end Verif.Props
