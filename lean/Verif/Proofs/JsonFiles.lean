import Verif.Proofs.Decimal
import Verif.Proofs.JsonOut
import Verif.Spec.JsonFiles
import Verif.Props.Crox
import Verif.Proofs.Path

/-! # The contents of the JSON files: lemmas -/

namespace Verif.Json

open Verif Verif.Mm Verif.Spec Verif.Decode Verif.Analyze Verif.Tools Verif.Crox

/-! ## Members -/

theorem field_of_mem {fs : List (Bytes × Value)} {name : String} {x : Value} (hn : (fs.map (·.1)).Nodup) (h : (utf8 name, x) ∈ fs) :
    Field (.obj fs) name x := by
  refine ⟨fs, rfl, ?_⟩
  induction fs with
  | nil => cases h
  | cons g fs ih =>
    rw [List.map_cons, List.nodup_cons] at hn
    rcases List.mem_cons.mp h with rfl | hf'
    · rw [List.filter_cons_of_pos (by simp)]
      have : fs.filter (fun y => decide (y.1 = utf8 name)) = [] := by
        rw [List.filter_eq_nil_iff]
        intro y hy hc
        exact hn.1 (List.mem_map.mpr ⟨y, hy, by simpa using hc⟩)
      rw [this]
    · have hne : g.1 ≠ utf8 name := fun hc => hn.1 (hc ▸ List.mem_map.mpr ⟨_, hf', rfl⟩)
      rw [List.filter_cons_of_neg (by simpa using hne)]
      exact ih hn.2 hf'

theorem fieldValues_of_field {fs : List (Bytes × Value)} {name : String} {x : Value} (h : Field (.obj fs) name x) :
    fieldValues (utf8 name) fs = [x] := by
  obtain ⟨fs', h1, h2⟩ := h
  cases h1
  rw [fieldValues, h2]
  rfl

theorem field_obj {v : Value} {name : String} {x : Value} (h : Field v name x) : ∃ fs, v = .obj fs := ⟨h.choose, h.choose_spec.1⟩

theorem structOf_fields {v : Value} (hk : ProperKeys v) (l : List (String × Value)) (h : ∀ x ∈ l, Field v x.1 x.2) (hne : l ≠ []) :
    structOf (l.map fun x => utf8 x.1) v = some (l.map (·.2)) := by
  obtain ⟨y, l', rfl⟩ := List.exists_cons_of_ne_nil hne
  obtain ⟨fs, rfl⟩ := field_obj (h y (by simp))
  cases hk with
  | obj hk _ =>
    rw [structOf, if_pos (by rw [List.all_eq_true]; exact hk)]
    have := mapM_of_pairs (f := fun n => match fieldValues n fs with
        | [v] => some v
        | _ => none) ((y :: l').map fun x => (utf8 x.1, x.2)) (by
      intro x hx
      obtain ⟨z, hz, rfl⟩ := List.mem_map.mp hx
      rw [fieldValues_of_field (h z hz)])
    rw [List.map_map, List.map_map] at this
    exact this

/-- A value of a member of a value. -/
theorem properKeys_field {v x : Value} {name : String} (hk : ProperKeys v) (h : Field v name x) : ProperKeys x := by
  obtain ⟨fs, rfl, hf⟩ := h
  cases hk with
  | obj _ hk =>
    have : (utf8 name, x) ∈ fs.filter (fun f => decide (f.1 = utf8 name)) := by rw [hf]; simp
    exact hk _ (List.mem_filter.mp this).1

theorem properKeys_elem {vs : List Value} {v : Value} (hk : ProperKeys (.arr vs)) (h : v ∈ vs) : ProperKeys v := by
  cases hk with
  | arr hk => exact hk v h

/-! ## Reading results in any layout -/

theorem durationOf_saved {v : Value} {d : Nat} (hk : ProperKeys v) (h : SavedDuration d v) (hf : d / 1000000000 < 2 ^ 64) : durationOf v = some d := by
  obtain ⟨h1, h2, h3⟩ := h
  have hs : structOf [utf8 "secs", utf8 "nanos"] v = some [.num (d / 1000000000), .num (d % 1000000000)] :=
    structOf_fields hk [("secs", .num (d / 1000000000)), ("nanos", .num (d % 1000000000))] (by
      simp only [List.forall_mem_cons]
      exact ⟨h1, h2, fun _ h => by cases h⟩) (by simp)
  have hgo : durationOf.go v = some d := by
    unfold durationOf.go
    rw [hs]
    simp only []
    have h1 : d % 1000000000 < 1000000000 := Nat.mod_lt _ (by decide)
    rw [if_pos ⟨hf, by omega, by omega⟩]
    congr 1
    omega
  obtain ⟨fs, rfl, h3⟩ := h3
  unfold durationOf
  simp only []
  rw [if_neg, hgo]
  rw [List.any_eq_true]
  rintro ⟨f, hf', hc⟩
  obtain ⟨n, hn, he⟩ := h3 f hf'
  simp only [List.mem_cons, List.not_mem_nil, or_false] at hn
  rcases hn with rfl | rfl <;> simp [he] at hc

theorem queryOf_saved {q : Bytes × QueryData} {v : Value} (hk : ProperKeys v) (h : SavedQuery q v) (h0 : FitsQuery q) : queryOf v = some q := by
  obtain ⟨f0, f1, f2, f3, f4, f5, f6, f7, f8⟩ := h0
  obtain ⟨t, s, b, l, ih, a1, a2, a3, a4, a5, a6, a7, a8, a9, a10, a11, a12, a13, a14⟩ := h
  have hs := structOf_fields hk [("label", .str q.1), ("time", t), ("self_time", s), ("number_of_cache_misses", .num q.2.numberOfCacheMisses),
    ("number_of_cache_hits", .num q.2.numberOfCacheHits), ("invocation_count", .num q.2.invocationCount), ("blocked_time", b),
    ("incremental_load_time", l), ("incremental_hashing_time", ih)] (by
      simp only [List.forall_mem_cons]
      exact ⟨a1, a2, a4, a6, a7, a8, a9, a11, a13, fun _ h => by cases h⟩) (by simp)
  simp only [List.map_cons, List.map_nil] at hs
  unfold queryOf
  rw [hs]
  simp only [textOf_str f0, durationOf_saved (properKeys_field hk a2) a3 f1, durationOf_saved (properKeys_field hk a4) a5 f2, natOf_num f3, natOf_num f4,
    natOf_num f5, durationOf_saved (properKeys_field hk a9) a10 f6, durationOf_saved (properKeys_field hk a11) a12 f7,
    durationOf_saved (properKeys_field hk a13) a14 f8, bind, Option.bind]

theorem artifactOf_saved {a : Bytes × Nat} {v : Value} (hk : ProperKeys v) (h : SavedArtifact a v) (h1 : validUtf8 a.1 = true) (h2 : a.2 < 2 ^ 64) :
    artifactOf v = some a := by
  have hs := structOf_fields hk [("label", .str a.1), ("value", .num a.2)] (by
      simp only [List.forall_mem_cons]
      exact ⟨h.1, h.2, fun _ h => by cases h⟩) (by simp)
  simp only [List.map_cons, List.map_nil] at hs
  unfold artifactOf
  rw [hs]
  simp only [textOf_str h1, natOf_num h2, bind, Option.bind]

theorem mapM_forall2 {α β : Type} {R : α → β → Prop} {f : β → Option α} {l : List α} {vs : List β} (h : List.Forall₂ R l vs)
    (hf : ∀ a v, a ∈ l → v ∈ vs → R a v → f v = some a) : vs.mapM f = some l := by
  induction h with
  | nil => rfl
  | cons hr _ ih =>
    rw [List.mapM_cons, hf _ _ (by simp) (by simp) hr, ih fun a v ha hv => hf a v (by simp [ha]) (by simp [hv])]
    rfl

theorem fitsQuery {r : Results} (h : Fits r) {q : Bytes × QueryData} (hq : q ∈ r.queryData) : FitsQuery q := by
  obtain ⟨t1, t2, t3, t4, t5⟩ := h.times q hq
  obtain ⟨c1, c2, c3⟩ := h.counts q hq
  exact ⟨h.labels q hq, t1, t2, c1, c2, c3, t3, t4, t5⟩

theorem resultsOf_saved {r : Results} {v : Value} (hk : ProperKeys v) (h : SavedResults r v) (hf : Fits r) : resultsOf v = some r := by
  obtain ⟨qs, as, t, a1, a2, a3, a4, a5, a6⟩ := h
  have hs := structOf_fields hk [("query_data", .arr qs), ("artifact_sizes", .arr as), ("total_time", t)] (by
      simp only [List.forall_mem_cons]
      exact ⟨a1, a3, a5, fun _ h => by cases h⟩) (by simp)
  simp only [List.map_cons, List.map_nil] at hs
  have hk1 := properKeys_field hk a1
  have hk2 := properKeys_field hk a3
  unfold resultsOf
  rw [hs]
  simp only [listOf, mapM_forall2 a2 fun q v hq hv hs => queryOf_saved (properKeys_elem hk1 hv) hs (fitsQuery hf hq),
    mapM_forall2 a4 fun a v ha hv hs => artifactOf_saved (properKeys_elem hk2 hv) hs (hf.artifacts a ha).1 (hf.artifacts a ha).2,
    durationOf_saved (properKeys_field hk a5) a6 hf.total, bind, Option.bind]

/-! ## The values that are written -/

theorem saved_duration (d : Nat) : SavedDuration d (durationValue d) := by
  refine ⟨field_of_mem duration_names.1 (by simp), field_of_mem duration_names.1 (by simp), _, rfl, ?_⟩
  simp only [List.forall_mem_cons]
  exact ⟨⟨_, by simp, rfl⟩, ⟨_, by simp, rfl⟩, fun _ h => by cases h⟩

theorem saved_query (q : Bytes × QueryData) : SavedQuery q (queryValue q) :=
  ⟨_, _, _, _, _, field_of_mem query_names.1 (by simp), field_of_mem query_names.1 (.tail _ (.head _)), saved_duration _,
    field_of_mem query_names.1 (.tail _ (.tail _ (.head _))), saved_duration _,
    field_of_mem query_names.1 (.tail _ (.tail _ (.tail _ (.head _)))),
    field_of_mem query_names.1 (.tail _ (.tail _ (.tail _ (.tail _ (.head _))))),
    field_of_mem query_names.1 (.tail _ (.tail _ (.tail _ (.tail _ (.tail _ (.head _)))))),
    field_of_mem query_names.1 (.tail _ (.tail _ (.tail _ (.tail _ (.tail _ (.tail _ (.head _))))))), saved_duration _,
    field_of_mem query_names.1 (.tail _ (.tail _ (.tail _ (.tail _ (.tail _ (.tail _ (.tail _ (.head _)))))))), saved_duration _,
    field_of_mem query_names.1 (.tail _ (.tail _ (.tail _ (.tail _ (.tail _ (.tail _ (.tail _ (.tail _ (.head _))))))))), saved_duration _⟩

theorem saved_artifact (a : Bytes × Nat) : SavedArtifact a (artifactValue a) :=
  ⟨field_of_mem artifact_names.1 (by simp), field_of_mem artifact_names.1 (by simp)⟩

theorem saved_results (r : Results) : SavedResults r (resultsValue r) := by
  refine ⟨_, _, _, field_of_mem results_names.1 (.head _), ?_, field_of_mem results_names.1 (.tail _ (.head _)), ?_,
    field_of_mem results_names.1 (.tail _ (.tail _ (.head _))), saved_duration _⟩
  · rw [List.forall₂_map_right_iff]
    exact List.forall₂_same.mpr fun q _ => saved_query q
  · rw [List.forall₂_map_right_iff]
    exact List.forall₂_same.mpr fun q _ => saved_artifact q

/-! ## crox -/

/-- What one record says. -/
def RecordOf (p : ProfilingData) (lanes : List (UInt32 × Nat)) (l : LightweightEvent) (x : CroxEvent) : Prop :=
  ∃ e s t, p.decodeFull l.eventIndex = .ok e ∧ l.payload = .timestamp (.interval s t) ∧ s ≤ t ∧
    x = { name := e.label, category := e.eventKind, ts := asMicros s, dur := asMicros (t - s), pid := p.metadata.processId,
          tid := (lookup l.threadId lanes).getD l.threadId.toNat, args := getArgs e.additionalData }

theorem croxLoop_records (p : ProfilingData) (opt : Opt) (lanes : List (UInt32 × Nat)) (k i : Nat)
    (h : (croxLoop p opt lanes i k).2 = .ok ()) : ∃ les, collectFrom p.decodeLightweight i k = .ok les ∧
      List.Forall₂ (RecordOf p lanes) (les.filter fun l => longSpan opt.minimumDuration l.payload) (croxLoop p opt lanes i k).1 := by
  induction k generalizing i with
  | zero => exact ⟨[], rfl, .nil⟩
  | succ k ih =>
    cases he : p.decodeLightweight i with
    | error f => simp only [croxLoop, bind, Except.bind, he] at h; cases h
    | ok l =>
      cases hx : croxEvent opt.minimumDuration p.metadata.processId lanes l.threadId l.payload (p.decodeFull l.eventIndex) with
      | error f => simp only [croxLoop, bind, Except.bind, he, hx] at h; cases h
      | ok x =>
        simp only [croxLoop, bind, Except.bind, he, hx] at h ⊢
        obtain ⟨les, h1, h2⟩ := ih (i + 1) h
        refine ⟨l :: les, ?_, ?_⟩
        · simp only [collectFrom, bind, Except.bind, he, h1]
        · have hskip : ∀ b, b = false → longSpan opt.minimumDuration l.payload = b → x = none →
              List.Forall₂ (RecordOf p lanes) ((l :: les).filter fun l => longSpan opt.minimumDuration l.payload) (x.toList ++ (croxLoop p opt lanes (i + 1) k).1) := by
            rintro b rfl hb rfl
            rw [List.filter_cons_of_neg (by simp [hb])]
            exact h2
          have hmake : ∀ y, longSpan opt.minimumDuration l.payload = true → x = some y → RecordOf p lanes l y →
              List.Forall₂ (RecordOf p lanes) ((l :: les).filter fun l => longSpan opt.minimumDuration l.payload) (x.toList ++ (croxLoop p opt lanes (i + 1) k).1) := by
            rintro y hb rfl hr
            rw [List.filter_cons_of_pos (by simpa using hb)]
            exact .cons hr h2
          cases hpl : l.payload with
          | integer v => rw [hpl] at hx; cases hx; exact hskip false rfl (by rw [hpl]; rfl) rfl
          | timestamp ts =>
            cases ts with
            | instant t => rw [hpl] at hx; cases hx; exact hskip false rfl (by rw [hpl]; rfl) rfl
            | interval s t =>
              rw [hpl] at hx
              by_cases hst : s ≤ t
              · simp only [croxEvent, duration, if_pos hst, unwrap, bind, Except.bind] at hx
                have hlong : longSpan opt.minimumDuration l.payload = true ∨ longSpan opt.minimumDuration l.payload = false ∧
                    ∃ mn, opt.minimumDuration = some mn ∧ (t - s) / 1000 < mn := by
                  rw [hpl]
                  cases opt.minimumDuration with
                  | none => exact .inl rfl
                  | some mn =>
                    by_cases hlt : mn * 1000 ≤ t - s
                    · exact .inl (by simp [longSpan, hlt])
                    · exact .inr ⟨by simp [longSpan, hlt], mn, rfl, by omega⟩
                rcases hlong with hlong | ⟨hlong, mn, hmn, hlt⟩
                · have hrec : ∀ f : Except Fault Event, p.decodeFull l.eventIndex = f → (∃ e, f = .ok e ∧ x = some
                      { name := e.label, category := e.eventKind, ts := asMicros s, dur := asMicros (t - s), pid := p.metadata.processId,
                        tid := (lookup l.threadId lanes).getD l.threadId.toNat, args := getArgs e.additionalData }) →
                      List.Forall₂ (RecordOf p lanes) ((l :: les).filter fun l => longSpan opt.minimumDuration l.payload)
                        (x.toList ++ (croxLoop p opt lanes (i + 1) k).1) := by
                    rintro f hd ⟨e, rfl, hxe⟩
                    exact hmake _ hlong hxe ⟨e, s, t, hd, hpl, hst, rfl⟩
                  rw [hpl] at hlong
                  cases hmn : opt.minimumDuration with
                  | none =>
                    simp only [hmn, Bool.false_eq_true, if_false] at hx
                    rw [← hmn]
                    refine hrec _ rfl ?_
                    cases hd : p.decodeFull l.eventIndex with
                    | error f => rw [hd] at hx; cases hx
                    | ok e => rw [hd] at hx; cases hx; exact ⟨e, rfl, rfl⟩
                  | some mn =>
                    have hlt : ¬ (t - s) / 1000 < mn := by
                      rw [hmn] at hlong
                      simp only [longSpan, decide_eq_true_eq] at hlong
                      omega
                    simp only [hmn, hlt, decide_false, Bool.false_eq_true, if_false] at hx
                    rw [← hmn]
                    refine hrec _ rfl ?_
                    cases hd : p.decodeFull l.eventIndex with
                    | error f => rw [hd] at hx; cases hx
                    | ok e => rw [hd] at hx; cases hx; exact ⟨e, rfl, rfl⟩
                · simp only [hmn, hlt, decide_true, if_true] at hx
                  cases hx
                  exact hskip false rfl hlong rfl
              · simp only [croxEvent, duration, if_neg hst, unwrap, bind, Except.bind] at hx
                cases hx

theorem numberArgs_keys (i : Nat) (as : List Bytes) : (numberArgs i as).map (·.1) = (List.range' i as.length).map fun j => utf8 ("arg" ++ toString j) := by
  induction as generalizing i with
  | nil => rfl
  | cons a as ih => simp only [numberArgs, List.map_cons, ih, List.length_cons, List.range'_succ, decimal_eq_toString]

theorem numberArgs_nodup (as : List Bytes) : ((numberArgs 0 as).map (·.1)).Nodup := by
  rw [numberArgs_keys]
  apply List.Nodup.map _ List.nodup_range'
  intro a b hab
  simp only [utf8_append] at hab
  have h2 := List.append_cancel_left hab
  rw [← decimal_eq_toString, ← decimal_eq_toString] at h2
  have ha := parseNum_decimal a []
  have hb := parseNum_decimal b []
  rw [h2, hb] at ha
  simpa using ha.symm

theorem numberArgs_get (i : Nat) (as : List Bytes) (j : Nat) (a : Bytes) (h : as[j]? = some a) : (utf8 ("arg" ++ toString (i + j)), a) ∈ numberArgs i as := by
  induction as generalizing i j with
  | nil => simp at h
  | cons b as ih =>
    rw [numberArgs, decimal_eq_toString]
    cases j with
    | zero =>
      rw [List.getElem?_cons_zero, Option.some.injEq] at h
      subst h
      exact .head _
    | succ j =>
      rw [List.getElem?_cons_succ] at h
      have := ih (i + 1) j h
      rw [show i + 1 + j = i + (j + 1) by omega] at this
      exact .tail _ this

theorem traceArgs_value {argOrder : List (Bytes × Bytes) → List (Bytes × Bytes)} (ho : ∀ l, (argOrder l).Perm l) (args : List Bytes) :
    TraceArgs args (match getArgs args with
      | none => .null
      | some as => .obj ((argOrder as).map fun a => (a.1, .str a.2))) := by
  unfold getArgs
  by_cases h : args = []
  · subst h; exact .inl ⟨rfl, rfl⟩
  · rw [if_pos h]
    refine .inr ⟨h, ?_, _, rfl, ?_⟩
    · intro i a ha
      apply field_of_mem
      · rw [List.map_map]
        have : ((fun x : Bytes × Value => x.1) ∘ fun a : Bytes × Bytes => (a.1, Value.str a.2)) = (·.1) := rfl
        rw [this]
        exact ((ho _).map _).nodup_iff.mpr (numberArgs_nodup args)
      · refine List.mem_map.mpr ⟨_, (ho _).mem_iff.mpr (numberArgs_get 0 args i a ha), ?_⟩
        rw [Nat.zero_add]
    · intro f hf
      obtain ⟨a, ha, rfl⟩ := List.mem_map.mp hf
      have : a.1 ∈ (numberArgs 0 args).map (·.1) := List.mem_map.mpr ⟨a, (ho _).mem_iff.mp ha, rfl⟩
      rw [numberArgs_keys] at this
      obtain ⟨j, hj, he⟩ := List.mem_map.mp this
      rw [List.range_eq_range']
      exact ⟨_, List.mem_map.mpr ⟨j, hj, rfl⟩, he.symm⟩

theorem event_names : [utf8 "name", utf8 "cat", utf8 "ph", utf8 "ts", utf8 "dur", utf8 "pid", utf8 "tid", utf8 "args"].Nodup := by decide +kernel

theorem traceEvent_value {argOrder : List (Bytes × Bytes) → List (Bytes × Bytes)} (ho : ∀ l, (argOrder l).Perm l) {p : ProfilingData}
    {lanes : List (UInt32 × Nat)} {l : LightweightEvent} {x : CroxEvent} (h : RecordOf p lanes l x) :
    ∃ e, p.decodeFull l.eventIndex = .ok e ∧
      TraceEvent p.metadata.processId (fun t => (lookup t lanes).getD t.toNat) l e (eventValue argOrder x) := by
  obtain ⟨e, s, t, hd, hpl, hst, rfl⟩ := h
  refine ⟨e, hd, s, t, _, hpl, hst, field_of_mem event_names (.head _), field_of_mem event_names (.tail _ (.head _)),
    field_of_mem event_names (.tail _ (.tail _ (.head _))), ?_, ?_, field_of_mem event_names (.tail _ (.tail _ (.tail _ (.tail _ (.tail _ (.head _)))))),
    field_of_mem event_names (.tail _ (.tail _ (.tail _ (.tail _ (.tail _ (.tail _ (.head _))))))),
    field_of_mem event_names (.tail _ (.tail _ (.tail _ (.tail _ (.tail _ (.tail _ (.tail _ (.head _)))))))), traceArgs_value ho e.additionalData, _, rfl, ?_⟩
  · rw [← asMicros_eq]
    exact field_of_mem event_names (.tail _ (.tail _ (.tail _ (.head _))))
  · rw [← asMicros_eq]
    exact field_of_mem event_names (.tail _ (.tail _ (.tail _ (.tail _ (.head _)))))
  · simp only [List.forall_mem_cons]
    exact ⟨⟨_, by simp, rfl⟩, ⟨_, by simp, rfl⟩, ⟨_, by simp, rfl⟩, ⟨_, by simp, rfl⟩, ⟨_, by simp, rfl⟩, ⟨_, by simp, rfl⟩, ⟨_, by simp, rfl⟩,
      ⟨_, by simp, rfl⟩, fun _ h => by cases h⟩

theorem meta_names : [utf8 "args", utf8 "cat", utf8 "name", utf8 "ph", utf8 "pid", utf8 "tid", utf8 "ts"].Nodup := by decide +kernel

theorem traceMeta_value (pid : Nat) (name arg : String) (x : Value) :
    TraceMeta pid name arg x (.obj [(utf8 "args", .obj [(utf8 arg, x)]), (utf8 "cat", .str []), (utf8 "name", .str (utf8 name)),
      (utf8 "ph", .str (utf8 "M")), (utf8 "pid", .num pid), (utf8 "tid", .num 0), (utf8 "ts", .num 0)]) := by
  refine ⟨.obj [(utf8 arg, x)], field_of_mem meta_names (.tail _ (.tail _ (.head _))), field_of_mem meta_names (.tail _ (.head _)),
    field_of_mem meta_names (.tail _ (.tail _ (.tail _ (.head _)))), field_of_mem meta_names (.tail _ (.tail _ (.tail _ (.tail _ (.tail _ (.tail _ (.head _))))))),
    field_of_mem meta_names (.tail _ (.tail _ (.tail _ (.tail _ (.head _))))), field_of_mem meta_names (.tail _ (.tail _ (.tail _ (.tail _ (.tail _ (.head _)))))),
    field_of_mem meta_names (.head _), field_of_mem (by simp) (.head _), ⟨_, rfl, ?_⟩, _, rfl, ?_⟩
  · simp only [List.forall_mem_cons]
    exact ⟨⟨_, by simp, rfl⟩, fun _ h => by cases h⟩
  · simp only [List.forall_mem_cons]
    exact ⟨⟨_, by simp, rfl⟩, ⟨_, by simp, rfl⟩, ⟨_, by simp, rfl⟩, ⟨_, by simp, rfl⟩, ⟨_, by simp, rfl⟩, ⟨_, by simp, rfl⟩, ⟨_, by simp, rfl⟩,
      fun _ h => by cases h⟩

/-! ## Directories -/

open Verif.Paths Verif.Proofs in
theorem extension_iff (p ext : Bytes) : extension p = some ext ↔ ∃ dir name stem, Names p dir name ∧ HasExtension name stem ext := by
  unfold extension
  constructor
  · intro h
    cases hf : fileName p with
    | none => rw [hf] at h; cases h
    | some dn =>
      obtain ⟨dir, name⟩ := dn
      rw [hf] at h
      simp only [] at h
      have hsplit := List.takeWhile_append_dropWhile (p := fun b => decide (b ≠ dot)) (l := name.reverse)
      cases hd : name.reverse.dropWhile fun b => decide (b ≠ dot) with
      | nil => rw [hd] at h; cases h
      | cons x r =>
        have hx : x = dot := by
          have := List.head?_dropWhile_not (fun b => decide (b ≠ dot)) name.reverse
          rw [hd] at this
          simpa using this
        have hnot : dot ∉ name.reverse.takeWhile fun b => decide (b ≠ dot) := by
          intro hm
          have := List.mem_takeWhile_imp hm
          simp at this
        rw [hd] at h hsplit
        simp only [] at h
        by_cases hr : r = []
        · rw [if_pos hr] at h; cases h
        · rw [if_neg hr] at h
          cases h
          refine ⟨dir, name, r.reverse, (fileName_iff _ _ _).mp hf, ?_, by simpa using hr, ?_⟩
          · have := congrArg List.reverse hsplit
            rw [List.reverse_reverse, hx] at this
            rw [List.reverse_append, List.reverse_cons] at this
            exact this.symm
          · simpa [dot] using hnot
  · rintro ⟨dir, name, stem, hn, rfl, h1, h2⟩
    rw [(fileName_iff _ _ _).mpr hn]
    simp only []
    have : (stem ++ [0x2E] ++ ext).reverse = ext.reverse ++ dot :: stem.reverse := by simp [dot]
    rw [this]
    have hw := takeWhile_dropWhile_append (fun b => decide (b ≠ dot)) ext.reverse (dot :: stem.reverse)
      (by intro x hx; simp only [decide_eq_true_eq]; rintro rfl; exact h2 (by simpa [dot] using hx))
      (by intro x hx; cases hx; simp)
    rw [hw.1, hw.2]
    simp [h1]

theorem mm_profdata : utf8 ".mm_profdata" = [0x2E] ++ Paths.fileExtension ∧ (0x2E : UInt8) ∉ Paths.fileExtension := by decide +kernel

theorem extension_profile (p : Bytes) : Paths.extension p = some Paths.fileExtension ↔ IsProfile p := by
  rw [extension_iff]
  constructor
  · rintro ⟨dir, name, stem, hn, rfl, h1, _⟩
    refine ⟨dir, stem, ?_, h1⟩
    rw [mm_profdata.1, ← List.append_assoc]
    exact hn
  · rintro ⟨dir, stem, hn, h1⟩
    refine ⟨dir, _, stem, hn, ?_, h1, mm_profdata.2⟩
    rw [mm_profdata.1, ← List.append_assoc]

end Verif.Json
