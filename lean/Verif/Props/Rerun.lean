import Verif.Proofs.Rerun
import Verif.Props.EndToEnd

/-! # Property C64: `summarize aggregate` on several runs of one program -/

namespace Verif.Props
open Verif Verif.Mm Verif.Spec Verif.Decode Verif.Analyze Verif.Aggregate Verif.Tools Verif.Paths

/-- **C64.** Streams of scoped timings on one thread each, with the same texts and the same nesting event by event, are aggregated
without a panic, whatever the times are; and the report is the one of C49. -/
theorem C64_same_structure (p : List Event) (ps : List (List Event)) (hp : ∀ q ∈ p :: ps, PostOrdered q ∧ OneThread q)
    (hs : ∀ q ∈ ps, SameStructure p q) :
    ∃ tr r, Emits (SamplePoints.new p) tr ∧ aggregateProfiles (p :: ps) = .ok r ∧
      IsSection .smallest (lows ((p :: ps).map gaps)) (sentences tr) r.smallestDurations ∧
      IsSection .largest (highs ((p :: ps).map gaps)) (sentences tr) r.largestDurations ∧
      IsSection .smallest (spreads ((p :: ps).map gaps)) (sentences tr) r.smallestVariances ∧
      IsSection .largest (spreads ((p :: ps).map gaps)) (sentences tr) r.largestVariances := by
  obtain ⟨tr, htr⟩ := (C47_points p).1.mpr (hp p (by simp)).2
  have : ∃ trs, List.Forall₂ (fun p tr => Emits (SamplePoints.new p) tr) ps trs ∧ ∀ t ∈ trs, (successive t).map shape = (successive tr).map shape := by
    have hp' : ∀ q ∈ ps, OneThread q := fun q hq => (hp q (by simp [hq])).2
    clear hp
    induction ps with
    | nil => exact ⟨[], .nil, by simp⟩
    | cons q qs ih =>
      obtain ⟨t, h1, h2⟩ := same_shapes (hs q (by simp)) (hp' q (by simp)) htr
      obtain ⟨ts, h3, h4⟩ := ih (fun x hx => hs x (by simp [hx])) (fun x hx => hp' x (by simp [hx]))
      refine ⟨t :: ts, .cons h1 h3, ?_⟩
      intro x hx
      rcases List.mem_cons.mp hx with rfl | hx
      · exact h2
      · exact h4 x hx
  obtain ⟨trs, h1, h2⟩ := this
  obtain ⟨r, hr, h3⟩ := C49_report p ps tr trs (.cons htr h1) (fun q hq => (hp q hq).1) h2
  exact ⟨tr, r, htr, hr, h3⟩

/-- **C64.** Run a scoped program on one thread any number of times, with a counter that goes forward with every reading; let the
runs make the same calls and record the same texts. Then `summarize aggregate` of the files never panics, whatever the counter
showed; and it reports the extremes and the spreads of the times between the points of the runs. -/
theorem C64_reruns (a : Session) (bs : List Session) (hr : ∀ s ∈ a :: bs, s.Readable) (hs : ∀ s ∈ a :: bs, Scoped .empty s.calls)
    (ht : ∀ s ∈ a :: bs, Ticking s.calls) (h1 : ∀ s ∈ a :: bs, SingleThreaded (recorded s.calls)) (hp : ∀ b ∈ bs, SameProgram a b) :
    ∃ ea ebs, a.Seen ea ∧ List.Forall₂ Session.Seen bs ebs ∧ ∃ n, ∀ (env : Env) (stems : List Bytes), n ≤ env.fuel →
      List.Forall₂ (fun (s : Session) stem => env.files (profilerPath stem) = some s.file) (a :: bs) stems →
      ∃ tr r, Emits (SamplePoints.new ea) tr ∧ aggregateTool env stems = .ok r ∧
        IsSection .smallest (lows ((ea :: ebs).map gaps)) (sentences tr) r.smallestDurations ∧
        IsSection .largest (highs ((ea :: ebs).map gaps)) (sentences tr) r.largestDurations ∧
        IsSection .smallest (spreads ((ea :: ebs).map gaps)) (sentences tr) r.smallestVariances ∧
        IsSection .largest (spreads ((ea :: ebs).map gaps)) (sentences tr) r.largestVariances := by
  have steady : ∀ s ∈ a :: bs, Steady s.calls := fun s hs => List.Pairwise.imp (fun h => Nat.le_of_lt h) (ht s hs).forward
  -- all sessions are read back
  have read : ∀ ss : List Session, (∀ s ∈ ss, s.Readable) → ∃ ess, List.Forall₂ Session.Seen ss ess ∧ ∃ n, ∀ (env : Env) (stems : List Bytes), n ≤ env.fuel →
      List.Forall₂ (fun (s : Session) stem => env.files (profilerPath stem) = some s.file) ss stems → readAll env stems = .ok ess := by
    intro ss
    induction ss with
    | nil => exact fun _ => ⟨[], .nil, 0, fun env stems _ h => by cases h; rfl⟩
    | cons s ss ih =>
      intro hr
      obtain ⟨ess, h2, n, h3⟩ := ih (fun x hx => hr x (by simp [hx]))
      obtain ⟨es, h4, m, h5⟩ := C62_read_back s (hr s (by simp))
      refine ⟨es :: ess, .cons h4 h2, max n m, fun env stems hf h => ?_⟩
      cases h with
      | cons h6 h7 => simp only [readAll, h5 env _ (by omega) h6, h3 env _ (by omega) h7, bind, Except.bind]
  obtain ⟨ess, h2, n, h3⟩ := read (a :: bs) hr
  cases h2 with
  | cons hea hebs =>
    rename_i ea ebs
    refine ⟨ea, ebs, hea, hebs, n, fun env stems hf h => ?_⟩
    have good : ∀ q ∈ ea :: ebs, PostOrdered q ∧ OneThread q := by
      have : ∀ (ss : List Session) (ess : List (List Event)), List.Forall₂ Session.Seen ss ess → (∀ s ∈ ss, s ∈ a :: bs) →
          ∀ q ∈ ess, PostOrdered q ∧ OneThread q := by
        intro ss ess h
        induction h with
        | nil => simp
        | @cons s _ _ _ hs0 _ ih =>
          intro hin q hq
          have hs1 := hin s (by simp)
          rcases List.mem_cons.mp hq with rfl | hq
          · exact ⟨seen_postOrdered s _ hs0 (hs s hs1) (steady s hs1) (h1 s hs1), seen_oneThread s _ hs0 (h1 s hs1)⟩
          · exact ih (fun x hx => hin x (by simp [hx])) q hq
      exact this (a :: bs) (ea :: ebs) (.cons hea hebs) (fun _ h => h)
    have same : ∀ q ∈ ebs, SameStructure ea q := by
      have : ∀ (ss : List Session) (ess : List (List Event)), List.Forall₂ Session.Seen ss ess → (∀ s ∈ ss, s ∈ bs) →
          ∀ q ∈ ess, SameStructure ea q := by
        intro ss ess h
        induction h with
        | nil => simp
        | @cons s _ _ _ hs0 _ ih =>
          intro hin q hq
          have hs1 := hin s (by simp)
          rcases List.mem_cons.mp hq with rfl | hq
          · exact sessions_same_structure (hp s hs1) (ht a (by simp)) (ht s (by simp [hs1])) hea hs0
          · exact ih (fun x hx => hin x (by simp [hx])) q hq
      exact this bs ebs hebs (fun _ h => h)
    obtain ⟨tr, r, h4, h5, h6⟩ := C64_same_structure ea ebs good same
    refine ⟨tr, r, h4, ?_, h6⟩
    simp only [aggregateTool, h3 env stems hf h, bind, Except.bind, h5]

/-- Two intervals one after the other. -/
def twoActs (t1 t2 t3 t4 : Nat) : List Event := [ev "Query" "a" 0 t1 t2, ev "Query" "b" 0 t3 t4]

/-- **C64.** The counter has to go forward: if it only does not go backwards, there are two runs of one program that are scoped
and on one thread, and whose aggregation panics. (Of two intervals, one after the other, at one and the same moment the second is
taken to contain the first.) -/
theorem C64_ties_panic : PostOrdered (twoActs 0 1 2 3) ∧ OneThread (twoActs 0 1 2 3) ∧ PostOrdered (twoActs 5 5 5 5) ∧ OneThread (twoActs 5 5 5 5) ∧
    List.Forall₂ Alike (twoActs 0 1 2 3) (twoActs 5 5 5 5) ∧
    aggregateProfiles [twoActs 0 1 2 3, twoActs 5 5 5 5] = .error (.panic "`summarize aggregate` requires identical sequences of events") := by
  have po : ∀ a b c d, a ≤ b → b ≤ c → c ≤ d → PostOrdered (twoActs a b c d) := by
    intro a b c d h1 h2 h3
    refine ⟨?_, ?_⟩
    · intro e he
      simp only [twoActs, List.mem_cons, List.not_mem_nil, or_false] at he
      rcases he with rfl | rfl <;> intro s t ht <;> simp [times, ev] at ht <;> omega
    · simp only [twoActs, List.pairwise_cons, List.mem_cons, List.not_mem_nil, or_false, List.Pairwise.nil, and_true]
      refine ⟨?_, by simp⟩
      rintro b rfl s t s' t' h1 h2
      simp [span, ev] at h1 h2
      omega
  have ot : ∀ a b c d, OneThread (twoActs a b c d) := by
    intro a b c d x hx y hy _ _
    simp only [twoActs, List.mem_cons, List.not_mem_nil, or_false] at hx hy
    rcases hx with rfl | rfl <;> rcases hy with rfl | rfl <;> rfl
  refine ⟨po _ _ _ _ (by decide) (by decide) (by decide), ot _ _ _ _, po _ _ _ _ (by decide) (by decide) (by decide), ot _ _ _ _,
    .cons ⟨rfl, rfl, rfl, rfl, rfl⟩ (.cons ⟨rfl, rfl, rfl, rfl, rfl⟩ .nil), by decide +kernel⟩

/-! ### Runs of a program -/

/-- The calls of `exSession`, with other ids (`+ d`) and other readings of the counter. -/
def rerunCalls (d : StringId) (t1 t2 t3 t4 t5 : UInt64) : List ProfCall :=
  [.allocString (.str "Query"), .allocString (.str "type_of"), .allocString (.str "u32"), .allocString (labelAndArgs (100000189 + d) [100000197 + d]),
   .start 0 (100000183 + d) (100000201 + d) 7 t1, .start 1 (100000183 + d) (100000189 + d) 7 t2, .instant (100000183 + d) (100000189 + d) 7 t3, .finish 1 t4,
   .finish 0 t5, .integer (100000183 + d) (100000189 + d) 7 4096]

/-- The program of `exSession`, run again as a process with a longer number. -/
def exRerun : Session := { exSession with pid := 4242, calls := rerunCalls 2 1 200 300 301 302 }

theorem exRerun_recorded : recorded exRerun.calls =
    [⟨100000185, 100000191, 7, .instant 300⟩, ⟨100000185, 100000191, 7, .interval 200 301⟩, ⟨100000185, 100000203, 7, .interval 1 302⟩,
     ⟨100000185, 100000191, 7, .integer 4096⟩] := by
  decide +kernel

theorem exRerun_outcomes : (profOutcomes (metadataText exRerun.start exRerun.pid exRerun.args exRerun.counter) exRerun.calls).take 4 =
      [.ok (some 100000185), .ok (some 100000191), .ok (some 100000199), .ok (some 100000203)] := by decide +kernel

/-- The texts the sessions' ids stand for and are shown as. -/
theorem rerun_texts (s : Session) (i1 i2 i3 i4 : StringId) (rest : List ProfCall)
    (hc : s.calls = .allocString (.str "Query") :: .allocString (.str "type_of") :: .allocString (.str "u32") ::
      .allocString (labelAndArgs i2 [i3]) :: rest)
    (ho : (profOutcomes (metadataText s.start s.pid s.args s.counter) s.calls).take 4 = [.ok (some i1), .ok (some i2), .ok (some i3), .ok (some i4)]) :
    (Means s.log i1 "Query" ∧ Means s.log i2 "type_of" ∧ Means s.log i4 (joined "type_of" ["u32"])) ∧
    Shown s.log i1 "Query" ∧ Shown s.log i2 "type_of" ∧ Shown s.log i4 (joined "type_of" ["u32"]) := by
  have hz : (s.calls.zip (profOutcomes (metadataText s.start s.pid s.args s.counter) s.calls)).take 4 =
      [(.allocString (.str "Query"), .ok (some i1)), (.allocString (.str "type_of"), .ok (some i2)),
       (.allocString (.str "u32"), .ok (some i3)), (.allocString (labelAndArgs i2 [i3]), .ok (some i4))] := by
    rw [List.zip, List.take_zipWith, ho, hc]
    rfl
  have mem : ∀ x ∈ (s.calls.zip (profOutcomes (metadataText s.start s.pid s.args s.counter) s.calls)).take 4,
      x ∈ s.calls.zip (profOutcomes (metadataText s.start s.pid s.args s.counter) s.calls) := fun x hx => List.mem_of_mem_take hx
  rw [hz] at mem
  have str : ∀ t id, (ProfCall.allocString (.str t), .ok (some id)) ∈ s.calls.zip (profOutcomes (metadataText s.start s.pid s.args s.counter) s.calls) →
      Means s.log id t ∧ Shown s.log id t := fun t id h =>
    ⟨entry_means (.inl ⟨.table (.alloc (.str t)), rfl, List.mem_cons_of_mem _ (List.mem_filterMap.mpr ⟨_, h, rfl⟩)⟩) (reads_str _ _), C29_plain_shown _ _ _ _ _ _ _ h⟩
  have h1 := str "Query" i1 (mem _ (by simp))
  have h2 := str "type_of" i2 (mem _ (by simp))
  have h3 := str "u32" i3 (mem _ (by simp))
  have e4 : Entry s.log i4 (components (labelAndArgs i2 [i3])) := .inl ⟨.table (.alloc (labelAndArgs i2 [i3])), rfl, List.mem_cons_of_mem _ (List.mem_filterMap.mpr
      ⟨(ProfCall.allocString (labelAndArgs i2 [i3]), .ok (some i4)), mem _ (by simp), rfl⟩)⟩
  have r4 : Reads s.log (components (labelAndArgs i2 [i3])) (joined "type_of" ["u32"]) := reads_event_id h2.1 ⟨h3.1, trivial⟩
  exact ⟨⟨h1.1, h2.1, entry_means e4 r4⟩, h1.2, h2.2, C29_shown_in_full _ _ _ _ _ _ _ _ e4 r4 (.inr (by rw [encText_labelAndArgs]; simp))⟩

theorem exSession_texts :
    (Means exSession.log 100000183 "Query" ∧ Means exSession.log 100000189 "type_of" ∧ Means exSession.log 100000201 (joined "type_of" ["u32"])) ∧
    Shown exSession.log 100000183 "Query" ∧ Shown exSession.log 100000189 "type_of" ∧ Shown exSession.log 100000201 (joined "type_of" ["u32"]) :=
  rerun_texts exSession 100000183 100000189 100000197 100000201 _ rfl (by decide +kernel)

theorem exRerun_texts :
    (Means exRerun.log 100000185 "Query" ∧ Means exRerun.log 100000191 "type_of" ∧ Means exRerun.log 100000203 (joined "type_of" ["u32"])) ∧
    Shown exRerun.log 100000185 "Query" ∧ Shown exRerun.log 100000191 "type_of" ∧ Shown exRerun.log 100000203 (joined "type_of" ["u32"]) :=
  rerun_texts exRerun 100000185 100000191 100000199 100000203 _ rfl exRerun_outcomes

theorem exRerun_readable : exRerun.Readable := by
  obtain ⟨⟨h1, h2, h4⟩, _⟩ := exRerun_texts
  refine ⟨by decide, by decide, by decide, ?_, ?_⟩
  · rw [exRerun_recorded]
    intro r hr
    simp only [List.mem_cons, List.not_mem_nil, or_false] at hr
    rcases hr with rfl | rfl | rfl | rfl <;> exact ⟨_, h1⟩
  · rw [exRerun_recorded]
    intro r hr
    simp only [List.mem_cons, List.not_mem_nil, or_false] at hr
    rcases hr with rfl | rfl | rfl | rfl
    · exact ⟨_, h2⟩
    · exact ⟨_, h2⟩
    · exact ⟨_, h4⟩
    · exact ⟨_, h2⟩

theorem exRerun_scoped : Scoped .empty exRerun.calls := by
  refine ⟨by simp [Scopes.empty], by decide, ?_, by decide, 7, by decide, by decide, 7, by decide, by decide, trivial⟩
  intro u
  simp only [Scopes.empty, Scopes.enter]
  split <;> simp

theorem exRerun_same : SameProgram exSession exRerun := by
  obtain ⟨_, a1, a2, a4⟩ := exSession_texts
  obtain ⟨_, b1, b2, b4⟩ := exRerun_texts
  have iff : ∀ {i j : StringId} {t : String}, Shown exSession.log i t → Shown exRerun.log j t →
      ∀ text, Shown exSession.log i text ↔ Shown exRerun.log j text := by
    intro i j t hi hj text
    constructor
    · intro h; rw [shown_unique _ _ _ _ h hi]; exact hj
    · intro h; rw [shown_unique _ _ _ _ h hj]; exact hi
  refine ⟨?_, ?_, ?_⟩
  · exact .cons trivial (.cons trivial (.cons trivial (.cons trivial (.cons rfl (.cons rfl (.cons trivial (.cons rfl (.cons rfl (.cons trivial .nil)))))))))
  · rw [exSession_recorded, exRerun_recorded]
    intro i r r' h1 h2
    match i with
    | 0 => cases h1; cases h2; exact iff a1 b1
    | 1 => cases h1; cases h2; exact iff a1 b1
    | 2 => cases h1; cases h2; exact iff a1 b1
    | 3 => cases h1; cases h2; exact iff a1 b1
    | i + 4 => simp at h1
  · rw [exSession_recorded, exRerun_recorded]
    intro i r r' h1 h2
    match i with
    | 0 => cases h1; cases h2; exact iff a2 b2
    | 1 => cases h1; cases h2; exact iff a2 b2
    | 2 => cases h1; cases h2; exact iff a4 b4
    | 3 => cases h1; cases h2; exact iff a2 b2
    | i + 4 => simp at h1

/-- The program has two runs to which C64 applies. -/
example : ∃ ea ebs, exSession.Seen ea ∧ List.Forall₂ Session.Seen [exRerun] ebs ∧ ∃ n, ∀ (env : Env) (stems : List Bytes), n ≤ env.fuel →
      List.Forall₂ (fun (s : Session) stem => env.files (profilerPath stem) = some s.file) [exSession, exRerun] stems →
      ∃ r, aggregateTool env stems = .ok r := by
  obtain ⟨ea, ebs, h1, h2, n, h3⟩ := C64_reruns exSession [exRerun]
    (by simp only [List.mem_cons, List.not_mem_nil, or_false]; rintro s (rfl | rfl); exacts [exSession_readable, exRerun_readable])
    (by simp only [List.mem_cons, List.not_mem_nil, or_false]; rintro s (rfl | rfl); exacts [exSession_scoped, exRerun_scoped])
    (by
      simp only [List.mem_cons, List.not_mem_nil, or_false]
      rintro s (rfl | rfl)
      · refine ⟨by decide, by decide, ?_⟩
        intro k id t v hv
        simp [exSession] at hv
        rw [hv.2.2.2]; decide
      · refine ⟨by decide, by decide, ?_⟩
        intro k id t v hv
        simp [exRerun, rerunCalls] at hv
        rw [hv.2.2.2]; decide)
    (by
      simp only [List.mem_cons, List.not_mem_nil, or_false]
      rintro s (rfl | rfl) a ha b hb _ _
      · rw [exSession_recorded] at ha hb
        simp only [List.mem_cons, List.not_mem_nil, or_false] at ha hb
        rcases ha with rfl | rfl | rfl | rfl <;> rcases hb with rfl | rfl | rfl | rfl <;> rfl
      · rw [exRerun_recorded] at ha hb
        simp only [List.mem_cons, List.not_mem_nil, or_false] at ha hb
        rcases ha with rfl | rfl | rfl | rfl <;> rcases hb with rfl | rfl | rfl | rfl <;> rfl)
    (by simp only [List.mem_cons, List.not_mem_nil, or_false]; rintro s rfl; exact exRerun_same)
  refine ⟨ea, ebs, h1, h2, n, fun env stems hf hs => ?_⟩
  obtain ⟨_, r, _, h4, _⟩ := h3 env stems hf hs
  exact ⟨r, h4⟩

end Verif.Props
