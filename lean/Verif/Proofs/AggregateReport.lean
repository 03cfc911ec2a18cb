import Verif.Proofs.Aggregate

/-! # The report of `summarize aggregate` -/

namespace Verif.Aggregate

open Verif Verif.Mm Verif.Decode Verif.Analyze Verif.Spec

/-! ## Profiles -/

theorem openAll_ok {profiles : List (List Event)} {trs : List (List (SamplePoint (WithParent Event)))}
    (h : List.Forall₂ (fun p tr => Emits (SamplePoints.new p) tr) profiles trs) :
    ∃ its, openAll profiles = .ok its ∧ List.Forall₂ Runs its (trs.map successive) := by
  induction h with
  | nil => exact ⟨[], rfl, .nil⟩
  | cons h _ ih =>
    obtain ⟨its, h1, h2⟩ := ih
    obtain ⟨it, h3, h4⟩ := open_of_emits h
    exact ⟨it :: its, by simp only [openAll, h3, h1, bind, Except.bind], .cons h4 h2⟩

theorem openAll_inv {profiles : List (List Event)} {its : List SampleIntervals} (h : openAll profiles = .ok its) :
    (∀ it ∈ its, Opened it) ∧ ∀ ls, List.Forall₂ Runs its ls → ∃ trs : List (List (SamplePoint (WithParent Event))),
      List.Forall₂ (fun p tr => Emits (SamplePoints.new p) tr) profiles trs ∧ ls = trs.map successive := by
  induction profiles generalizing its with
  | nil =>
    simp only [openAll, Except.ok.injEq] at h
    subst h
    refine ⟨by simp, fun ls hls => ?_⟩
    cases hls
    exact ⟨[], .nil, rfl⟩
  | cons p ps ih =>
    simp only [openAll, bind, Except.bind] at h
    cases h1 : SampleIntervals.new (SamplePoints.new p) with
    | error f => rw [h1] at h; cases h
    | ok it =>
      rw [h1] at h
      cases h2 : openAll ps with
      | error f => rw [h2] at h; cases h
      | ok its' =>
        rw [h2] at h
        simp only [Except.ok.injEq] at h
        subst h
        obtain ⟨h3, h4⟩ := ih h2
        refine ⟨?_, ?_⟩
        · intro x hx
          rcases List.mem_cons.1 hx with rfl | hx
          · exact opened_new h1
          · exact h3 x hx
        · intro ls hls
          cases hls with
          | cons hr hrs =>
            obtain ⟨trs, h5, h6⟩ := h4 _ hrs
            obtain ⟨tr, h7, h8⟩ := emits_of_open h1 hr
            exact ⟨tr :: trs, .cons h7 h5, by rw [h8, h6]; rfl⟩

theorem successive_length (p : SamplePoint (WithParent Event)) (ps : List (SamplePoint (WithParent Event))) :
    (successive (p :: ps)).length = ps.length := by
  induction ps generalizing p with
  | nil => rfl
  | cons q qs ih => simp [successive, ih]

theorem successive_length_le (ps : List (SamplePoint (WithParent Event))) : (successive ps).length ≤ ps.length := by
  cases ps with
  | nil => exact Nat.le_refl _
  | cons p ps => rw [successive_length]; simp

theorem new_length (es : List Event) : (SamplePoints.new es).revEvents.length ≤ es.length := by
  unfold SamplePoints.new
  simp only
  refine Nat.le_trans (List.length_filter_le _ _) ?_
  simp

theorem good_of_emits {es : List Event} {tr : List (SamplePoint (WithParent Event))} (h : Emits (SamplePoints.new es) tr) :
    Good (SamplePoints.new es) := good_new (oneThread_of_emits h)

theorem emits_length {es : List Event} {tr : List (SamplePoint (WithParent Event))} (h : Emits (SamplePoints.new es) tr) :
    tr.length ≤ es.length * 2 := by
  obtain ⟨ps, h1, h2⟩ := emits_exists (good_of_emits h)
  rw [emits_unique h h1]
  have := new_length es
  unfold measure at h2
  have h3 : (SamplePoints.new es).stack = [] := rfl
  rw [h3] at h2
  simp only [List.length_nil] at h2
  omega

theorem mem_successive {ps : List (SamplePoint (WithParent Event))} {i : SampleInterval (WithParent Event)}
    (h : i ∈ successive ps) : i.start ∈ ps ∧ i.stop ∈ ps := by
  induction ps with
  | nil => simp [successive] at h
  | cons p ps ih =>
    cases ps with
    | nil => simp [successive] at h
    | cons q qs =>
      simp only [successive, List.mem_cons] at h
      rcases h with rfl | h
      · simp
      · have := ih h
        exact ⟨by simp only [List.mem_cons] at this ⊢; tauto, by simp only [List.mem_cons] at this ⊢; tauto⟩

/-- The text of a source. -/
def prose (d : Source) : Bytes :=
  match describe 0 (.one d) with
  | .ok (.text b) => b
  | _ => []

theorem prose_fits {i : SampleInterval (WithParent Event)} (h : Fits i) : prose (shape i) = sentence i := by
  unfold prose
  rw [describe_fits 0 h]

theorem columns_shapes (l : List (SampleInterval (WithParent Event))) (ls : List (List (SampleInterval (WithParent Event)))) :
    (columns l ls).map (·.descriptions) = l.map shape := by
  induction l generalizing ls with
  | nil => rfl
  | cons i l ih => simp [columns, ih]

/-- The report, if the profiles match. -/
theorem report_ok {p : List Event} {ps : List (List Event)} {tr : List (SamplePoint (WithParent Event))}
    {trs : List (List (SamplePoint (WithParent Event)))} (he : Emits (SamplePoints.new p) tr)
    (hes : List.Forall₂ (fun p tr => Emits (SamplePoints.new p) tr) ps trs)
    (hm : Matching (successive tr) (trs.map successive)) :
    ∃ r, aggregateProfiles (p :: ps) = .ok r ∧
      IsSection .smallest ((columns (successive tr) (trs.map successive)).map (·.minDuration)) ((successive tr).map sentence) r.smallestDurations ∧
      IsSection .largest ((columns (successive tr) (trs.map successive)).map (·.maxDuration)) ((successive tr).map sentence) r.largestDurations ∧
      IsSection .smallest ((columns (successive tr) (trs.map successive)).map (·.rangeSize)) ((successive tr).map sentence) r.smallestVariances ∧
      IsSection .largest ((columns (successive tr) (trs.map successive)).map (·.rangeSize)) ((successive tr).map sentence) r.largestVariances := by
  obtain ⟨its, h1, h2⟩ := openAll_ok (List.Forall₂.cons he hes)
  cases h2 with
  | @cons it _ its _ hr hrs =>
    have hlen : (successive tr).length < p.length * 2 + 1 := by
      have := successive_length_le tr
      have := emits_length he
      omega
    have hloop := loop_ok hr hrs hm (p.length * 2 + 1) hlen {}
    obtain ⟨t, ht, hi⟩ := totals_all (columns (successive tr) (trs.map successive)) [] totals_init
    rw [List.nil_append] at hi
    rw [ht] at hloop
    have hdesc : ∀ a ∈ columns (successive tr) (trs.map successive), ∀ n, describe n (.one a.descriptions) = .ok (.text (prose a.descriptions)) := by
      have hf : ∀ i ∈ successive tr, Fits i := emits_fits he (good_of_emits he)
      intro a ha n
      have hm : a.descriptions ∈ (columns (successive tr) (trs.map successive)).map (·.descriptions) := List.mem_map.2 ⟨a, ha, rfl⟩
      rw [columns_shapes] at hm
      obtain ⟨i, hi, h3⟩ := List.mem_map.1 hm
      rw [← h3, describe_fits n (hf i hi), prose_fits (hf i hi)]
    have hprose : (successive tr).map sentence = (columns (successive tr) (trs.map successive)).map fun a => prose a.descriptions := by
      have h3 : (columns (successive tr) (trs.map successive)).map (fun a => prose a.descriptions) =
          ((columns (successive tr) (trs.map successive)).map (·.descriptions)).map prose := by rw [List.map_map]; rfl
      rw [h3, columns_shapes, List.map_map]
      apply List.map_congr_left
      intro i hi
      exact (prose_fits (emits_fits he (good_of_emits he) i hi)).symm
    rw [hprose]
    generalize columns (successive tr) (trs.map successive) = as at hi hdesc ht ⊢
    obtain ⟨hc, ⟨-, d1, d2⟩, ⟨-, v1, v2⟩⟩ := hi
    have sec : ∀ (w : Which) (f : AggregatedSampleInterval → Nat) (m : List (Nat × ExtremaSources Source)),
        ExtInv w 10 (as.map fun a => (f a, a.descriptions)) m →
        ∃ lines, describeAll t.intervalsCount m = .ok lines ∧ IsSection w (as.map f) (as.map fun a => prose a.descriptions) lines := by
      intro w f m hi
      obtain ⟨lines, h3, h4, -⟩ := section_ok (g := prose) hi (by
        intro x hx
        obtain ⟨a, ha, rfl⟩ := List.mem_map.1 hx
        exact hdesc a ha _)
      refine ⟨lines, ?_, ?_⟩
      · rw [hc]
        simpa using h3
      · have : (as.map fun a => (f a, a.descriptions)).map (·.1) = as.map f := by rw [List.map_map]; rfl
        rw [this, List.map_map] at h4
        exact h4
    obtain ⟨s1, e1, i1⟩ := sec .smallest (·.minDuration) t.durations.smallest (by have h := d1; rw [List.map_map] at h; exact h)
    obtain ⟨s2, e2, i2⟩ := sec .largest (·.maxDuration) t.durations.largest (by have h := d2; rw [List.map_map] at h; exact h)
    obtain ⟨s3, e3, i3⟩ := sec .smallest (·.rangeSize) t.variances.smallest (by have h := v1; rw [List.map_map] at h; exact h)
    obtain ⟨s4, e4, i4⟩ := sec .largest (·.rangeSize) t.variances.largest (by have h := v2; rw [List.map_map] at h; exact h)
    refine ⟨⟨s1, s2, s3, s4⟩, ?_, i1, i2, i3, i4⟩
    simp only [aggregateProfiles, h1, bind, Except.bind, List.head?_cons, Option.getD_some, hloop, e1, e2, e3, e4]

/-- If there is a report, the profiles match. -/
theorem report_inv {p : List Event} {ps : List (List Event)} {r : Report} (h : aggregateProfiles (p :: ps) = .ok r) :
    ∃ (tr : List (SamplePoint (WithParent Event))) (trs : List (List (SamplePoint (WithParent Event)))),
      Emits (SamplePoints.new p) tr ∧ List.Forall₂ (fun p tr => Emits (SamplePoints.new p) tr) ps trs ∧
      Matching (successive tr) (trs.map successive) := by
  simp only [aggregateProfiles, bind, Except.bind] at h
  cases h1 : openAll (p :: ps) with
  | error f => rw [h1] at h; cases h
  | ok its =>
    rw [h1] at h
    simp only at h
    obtain ⟨ho, hrun⟩ := openAll_inv h1
    cases its with
    | nil =>
      exfalso
      simp only [openAll, bind, Except.bind] at h1
      split at h1
      · cases h1
      · split at h1
        · cases h1
        · simp at h1
    | cons it its =>
      cases h2 : aggregateLoop (((p :: ps).head?.getD []).length * 2 + 1) (it :: its) {} with
      | error f => rw [h2] at h; cases h
      | ok t =>
        obtain ⟨l, ls, h3, h4, h5⟩ := loop_inv ho h2
        obtain ⟨trs, h6, h7⟩ := hrun _ (List.Forall₂.cons h3 h4)
        cases h6 with
        | @cons _ tr _ trs h8 h9 =>
          simp only [List.map_cons, List.cons.injEq] at h7
          rw [h7.1, h7.2] at h5
          exact ⟨tr, trs, h8, h9, h5⟩

/-! ## Gaps -/

theorem differences_snoc (l : List Nat) (a b : Nat) : differences (l ++ [a, b]) = differences (l ++ [a]) ++ [b - a] := by
  induction l with
  | nil => rfl
  | cons x l ih =>
    cases l with
    | nil => rfl
    | cons y l =>
      simp only [List.cons_append, differences] at ih ⊢
      rw [ih]

theorem successive_differences (ps : List (SamplePoint (WithParent Event))) :
    (successive ps).map timeBetween = (differences (ps.map momentOf).reverse).reverse := by
  induction ps with
  | nil => rfl
  | cons p ps ih =>
    cases ps with
    | nil => rfl
    | cons q qs =>
      simp only [successive, List.map_cons, List.reverse_cons, List.append_assoc, List.cons_append, List.nil_append] at ih ⊢
      rw [differences_snoc, List.reverse_append, ih]
      rfl

theorem endpoints_append (a b : List Event) : endpoints (a ++ b) = endpoints a ++ endpoints b := by simp [endpoints]

theorem endpoints_new (es : List Event) : (endpoints (SamplePoints.new es).revEvents).Perm (endpoints es) := by
  have h1 : ∀ l : List Event, endpoints (l.filter fun e => !isInteger e.payload) = endpoints l := by
    intro l
    induction l with
    | nil => rfl
    | cons e l ih =>
      rw [endpoints_cons, List.filter_cons]
      cases hi : isInteger e.payload with
      | true =>
        simp only [Bool.not_true, Bool.false_eq_true, if_false, ih]
        cases hp : e.payload with
        | integer v => simp [endpoints, hp]
        | timestamp t => rw [hp] at hi; cases hi
      | false => simp only [Bool.not_false, if_true]; rw [endpoints_cons, ih]
  unfold SamplePoints.new
  simp only
  rw [h1]
  exact (List.reverse_perm es).flatMap_right _

theorem moments_sorted {es : List Event} {tr : List (SamplePoint (WithParent Event))} (he : Emits (SamplePoints.new es) tr)
    (hp : PostOrdered es) : (tr.map momentOf).reverse = (endpoints es).insertionSort (· ≤ ·) := by
  have hg := good_of_emits he
  have h1 : (tr.map momentOf).Perm (endpoints es) := by
    have := emits_moments he hg
    have h2 : (SamplePoints.new es).stack = [] := rfl
    rw [h2, List.map_nil, List.append_nil] at this
    exact this.trans (endpoints_new es)
  have h2 : (tr.map momentOf).reverse.Pairwise (· ≤ ·) := by
    rw [List.pairwise_reverse, List.pairwise_map]
    exact emits_sorted he hg (ordered_new hp)
  have h3 : ((endpoints es).insertionSort (· ≤ ·)).Pairwise (· ≤ ·) := List.pairwise_insertionSort _ _
  exact List.Perm.eq_of_pairwise (fun a b _ _ h1 h2 => Nat.le_antisymm h1 h2) h2 h3
    ((List.reverse_perm _).trans (h1.trans (List.perm_insertionSort _ _).symm))

theorem successive_gaps {es : List Event} {tr : List (SamplePoint (WithParent Event))} (he : Emits (SamplePoints.new es) tr)
    (hp : PostOrdered es) : (successive tr).map timeBetween = (gaps es).reverse := by
  rw [successive_differences, moments_sorted he hp]
  rfl

theorem successive_le {ps : List (SamplePoint (WithParent Event))} (h : ps.Pairwise fun p q => momentOf q ≤ momentOf p) :
    ∀ i ∈ successive ps, momentOf i.start ≤ momentOf i.stop := by
  induction ps with
  | nil => simp [successive]
  | cons p ps ih =>
    cases ps with
    | nil => simp [successive]
    | cons q qs =>
      rw [List.pairwise_cons] at h
      intro i hi
      simp only [successive, List.mem_cons] at hi
      rcases hi with rfl | hi
      · exact h.1 q (by simp)
      · exact ih h.2 i hi

theorem durations_iff {es : List Event} {tr : List (SamplePoint (WithParent Event))} (he : Emits (SamplePoints.new es) tr) :
    (∀ i ∈ successive tr, i.duration = .ok (timeBetween i)) ↔ ∀ i ∈ successive tr, momentOf i.start ≤ momentOf i.stop := by
  have ht := timestamp_ok he (good_of_emits he)
  constructor
  · intro h i hi
    exact (duration_between (h i hi)).2
  · intro h i hi
    have := mem_successive hi
    exact duration_ok (ht _ this.1) (ht _ this.2) (h i hi)

/-! ## Columns -/

theorem columnAt_succ (gs : List (List Nat)) (i : Nat) : columnAt gs (i + 1) = columnAt (gs.map List.tail) i := by
  unfold columnAt
  rw [List.map_map]
  apply List.map_congr_left
  intro g _
  cases g <;> simp [List.getD]

theorem heads_eq (ls : List (List (SampleInterval (WithParent Event)))) : heads ls = columnAt (ls.map (List.map timeBetween)) 0 := by
  unfold heads columnAt
  rw [List.map_map]
  apply List.map_congr_left
  intro l _
  cases l <;> simp [List.getD]

theorem columns_values (l : List (SampleInterval (WithParent Event))) (ls : List (List (SampleInterval (WithParent Event)))) :
    (columns l ls).map (·.minDuration) = lows ((l :: ls).map (List.map timeBetween)) ∧
    (columns l ls).map (·.rangeSize) = spreads ((l :: ls).map (List.map timeBetween)) ∧
    (columns l ls).map (·.maxDuration) = highs ((l :: ls).map (List.map timeBetween)) := by
  induction l generalizing ls with
  | nil => exact ⟨rfl, rfl, rfl⟩
  | cons i l ih =>
    obtain ⟨ih1, ih2, ih3⟩ := ih (ls.map List.tail)
    have htail : ∀ k, columnAt (((i :: l) :: ls).map (List.map timeBetween)) (k + 1) =
        columnAt ((l :: ls.map List.tail).map (List.map timeBetween)) k := by
      intro k
      rw [columnAt_succ]
      congr 1
      simp [List.map_tail]
    have h0 : columnAt (((i :: l) :: ls).map (List.map timeBetween)) 0 = timeBetween i :: heads ls := by
      rw [heads_eq]
      simp [columnAt]
    have hmin : (columnAt (((i :: l) :: ls).map (List.map timeBetween)) 0).min?.getD 0 = (heads ls).foldl min (timeBetween i) := by
      rw [h0, List.min?_cons']; rfl
    have hmax : (columnAt (((i :: l) :: ls).map (List.map timeBetween)) 0).max?.getD 0 = (heads ls).foldl max (timeBetween i) := by
      rw [h0, List.max?_cons']; rfl
    have hw : width (((i :: l) :: ls).map (List.map timeBetween)) = width ((l :: ls.map List.tail).map (List.map timeBetween)) + 1 := by
      simp [width]
    have hle : ∀ (xs : List Nat) (a b : Nat), a ≤ b → xs.foldl min a ≤ xs.foldl max b := by
      intro xs
      induction xs with
      | nil => intro a b h; exact h
      | cons x xs ih => intro a b h; exact ih _ _ (by omega)
    have hc : columns (i :: l) ls = ⟨shape i, (heads ls).foldl min (timeBetween i),
        (heads ls).foldl max (timeBetween i) - (heads ls).foldl min (timeBetween i)⟩ :: columns l (ls.map List.tail) := rfl
    rw [hc]
    generalize ((i :: l) :: ls).map (List.map timeBetween) = G at *
    generalize (l :: ls.map List.tail).map (List.map timeBetween) = H at *
    refine ⟨?_, ?_, ?_⟩
    · rw [List.map_cons, ih1]
      unfold lows
      rw [hw, List.range_succ_eq_map, List.map_cons, hmin, List.map_map]
      congr 1
      apply List.map_congr_left
      intro k _
      simp only [Function.comp, htail, Nat.succ_eq_add_one]
    · rw [List.map_cons, ih2]
      unfold spreads
      rw [hw, List.range_succ_eq_map, List.map_cons, hmin, hmax, List.map_map]
      congr 1
      apply List.map_congr_left
      intro k _
      simp only [Function.comp, htail, Nat.succ_eq_add_one]
    · rw [List.map_cons, ih3]
      unfold highs
      rw [hw, List.range_succ_eq_map, List.map_cons, hmax, List.map_map]
      congr 1
      · simp only [AggregatedSampleInterval.maxDuration]
        have := hle (heads ls) (timeBetween i) (timeBetween i) (Nat.le_refl _)
        omega
      · apply List.map_congr_left
        intro k _
        simp only [Function.comp, htail, Nat.succ_eq_add_one]

/-! ## Backwards -/

theorem columnAt_reverse {gs : List (List Nat)} {n : Nat} (h : ∀ g ∈ gs, g.length = n) {i : Nat} (hi : i < n) :
    columnAt (gs.map List.reverse) i = columnAt gs (n - 1 - i) := by
  unfold columnAt
  rw [List.map_map]
  apply List.map_congr_left
  intro g hg
  have hl := h g hg
  simp only [Function.comp, List.getD]
  rw [List.getElem?_reverse (by omega), hl]

theorem range_reverse_map {α : Type} (n : Nat) (f : Nat → α) :
    ((List.range n).map f).reverse = (List.range n).map fun i => f (n - 1 - i) := by
  apply List.ext_getElem
  · simp
  · intro i h1 h2
    simp at h1 h2
    simp

theorem reverse_values {gs : List (List Nat)} (h : ∀ g ∈ gs, g.length = width gs) (F : List Nat → Nat) :
    (List.range (width (gs.map List.reverse))).map (fun i => F (columnAt (gs.map List.reverse) i)) =
      ((List.range (width gs)).map fun i => F (columnAt gs i)).reverse := by
  have hw : width (gs.map List.reverse) = width gs := by
    unfold width
    cases gs <;> simp
  rw [hw, range_reverse_map]
  apply List.map_congr_left
  intro i hi
  rw [columnAt_reverse h (List.mem_range.1 hi)]

theorem section_reverse {w : Which} {vs : List Nat} {ts : List Bytes} {lines : List (Nat × Described)} (hl : vs.length = ts.length)
    (h : IsSection w vs.reverse ts.reverse lines) : IsSection w vs ts lines := by
  obtain ⟨h1, h2, h3⟩ := h
  refine ⟨h1, ?_, ?_⟩
  · intro k
    rw [h2]
    unfold IsExtreme
    have hm : (moreExtreme w k vs.reverse).Perm (moreExtreme w k vs) := by
      cases w <;> simp only [moreExtreme] <;> exact (List.reverse_perm vs).filter _
    rw [List.mem_reverse, hm.dedup.length_eq]
  · intro k d hkd
    have := h3 k d hkd
    rw [List.count_reverse, List.length_reverse, List.zip, ← List.reverse_zipWith hl] at this
    simp only [List.mem_reverse] at this
    exact this

end Verif.Aggregate
