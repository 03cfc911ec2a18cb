import Verif.Model.Summarize
import Mathlib.Data.Rat.Defs
import Mathlib.Algebra.Order.Ring.Rat
import Mathlib.Algebra.Order.Field.Basic
import Mathlib.Tactic.Positivity
import Mathlib.Tactic.Linarith
import Mathlib.Data.Rat.Floor

/-! # C53, C54: the table printed by `summarize summarize` -/

namespace Verif.Spec

open Verif Verif.Mm Verif.Analyze Verif.Summarize

/-- Comparing a percentage with a limit is monotone in the time: less time is not above a limit that more time is below. -/
def Monotone {F : Type} (fl : Float64 F) : Prop :=
  ∀ (a b total : Nat) (x : F), a ≤ b → fl.lt (fl.percent b total) x = true → fl.lt (fl.percent a total) x = true

/-- The value under each title. -/
def cellFor {F : Type} (fl : Float64 F) (total : Nat) (x : Bytes × QueryData) (title : Bytes) : Cell F :=
  if title = utf8 "Item" then .text x.1
  else if title = utf8 "Self time" then .duration x.2.selfTime
  else if title = utf8 "% of total time" then .percent (fl.percent x.2.selfTime total)
  else if title = utf8 "Time" then .duration x.2.time
  else if title = utf8 "Item count" then .count x.2.invocationCount
  else if title = utf8 "Cache hits" then .count x.2.numberOfCacheHits
  else if title = utf8 "Blocked time" then .duration x.2.blockedTime
  else if title = utf8 "Incremental load time" then .duration x.2.incrementalLoadTime
  else .duration x.2.incrementalHashingTime

end Verif.Spec

namespace Verif.Props

open Verif Verif.Mm Verif.Analyze Verif.Summarize Verif.Spec

/-! ## The scan -/

theorem scan_cacheHits : ∀ (xs : List (Bytes × QueryData)) (f : Flags),
    (scan xs f).cacheHits = (f.cacheHits || xs.any fun x => decide (x.2.numberOfCacheHits > 0))
  | [], f => by simp [scan]
  | (l, d) :: xs, f => by
    have e : (f.see d).cacheHits = (f.cacheHits || decide (d.numberOfCacheHits > 0)) := by
      unfold Flags.see
      by_cases h : d.numberOfCacheHits > 0 <;> simp [h]
    rw [List.any_cons, ← Bool.or_assoc, ← e]
    simp only [scan]
    split
    · next h => simp only [Bool.and_eq_true] at h; simp [h.1.1]
    · exact scan_cacheHits xs _

theorem scan_blockedTime : ∀ (xs : List (Bytes × QueryData)) (f : Flags),
    (scan xs f).blockedTime = (f.blockedTime || xs.any fun x => decide (x.2.blockedTime > 0))
  | [], f => by simp [scan]
  | (l, d) :: xs, f => by
    have e : (f.see d).blockedTime = (f.blockedTime || decide (d.blockedTime > 0)) := by
      unfold Flags.see
      by_cases h : d.blockedTime > 0 <;> simp [h]
    rw [List.any_cons, ← Bool.or_assoc, ← e]
    simp only [scan]
    split
    · next h => simp only [Bool.and_eq_true] at h; simp [h.1.2]
    · exact scan_blockedTime xs _

theorem scan_load : ∀ (xs : List (Bytes × QueryData)) (f : Flags),
    (scan xs f).incrementalLoadTime = (f.incrementalLoadTime || xs.any fun x => decide (x.2.incrementalLoadTime > 0))
  | [], f => by simp [scan]
  | (l, d) :: xs, f => by
    have e : (f.see d).incrementalLoadTime = (f.incrementalLoadTime || decide (d.incrementalLoadTime > 0)) := by
      unfold Flags.see
      by_cases h : d.incrementalLoadTime > 0 <;> simp [h]
    rw [List.any_cons, ← Bool.or_assoc, ← e]
    simp only [scan]
    split
    · next h => simp only [Bool.and_eq_true] at h; simp [h.2]
    · exact scan_load xs _

theorem scan_hashing : ∀ (xs : List (Bytes × QueryData)) (f : Flags),
    ((scan xs f).incrementalHashingTime = true → (f.incrementalHashingTime || xs.any fun x => decide (x.2.incrementalHashingTime > 0)) = true) ∧
    (((scan xs f).cacheHits && (scan xs f).blockedTime && (scan xs f).incrementalLoadTime) = false →
      (scan xs f).incrementalHashingTime = (f.incrementalHashingTime || xs.any fun x => decide (x.2.incrementalHashingTime > 0)))
  | [], f => by simp [scan]
  | (l, d) :: xs, f => by
    have e : (f.see d).incrementalHashingTime = (f.incrementalHashingTime || decide (d.incrementalHashingTime > 0)) := by
      unfold Flags.see
      by_cases h : d.incrementalHashingTime > 0 <;> simp [h]
    rw [List.any_cons, ← Bool.or_assoc, ← e]
    simp only [scan]
    split
    · next h =>
      refine ⟨fun hh => by simp [hh], fun hh => ?_⟩
      rw [h] at hh
      cases hh
    · exact scan_hashing xs _

/-- All of cache hits, blocked time and load time occur among the items. -/
def allThree (xs : List (Bytes × QueryData)) : Prop :=
  (∃ x ∈ xs, 0 < x.2.numberOfCacheHits) ∧ (∃ x ∈ xs, 0 < x.2.blockedTime) ∧ (∃ x ∈ xs, 0 < x.2.incrementalLoadTime)

theorem scan_hashing_exact : ∀ (xs done : List (Bytes × QueryData)) (f : Flags),
    (f.cacheHits = true ↔ ∃ x ∈ done, 0 < x.2.numberOfCacheHits) → (f.blockedTime = true ↔ ∃ x ∈ done, 0 < x.2.blockedTime) →
    (f.incrementalLoadTime = true ↔ ∃ x ∈ done, 0 < x.2.incrementalLoadTime) → ¬ allThree done →
    ((scan xs f).incrementalHashingTime = true ↔ f.incrementalHashingTime = true ∨
      ∃ pre x post, xs = pre ++ x :: post ∧ 0 < x.2.incrementalHashingTime ∧ ¬ allThree (done ++ pre))
  | [], done, f, _, _, _, _ => by simp [scan]
  | (l, d) :: xs, done, f, h1, h2, h3, hn => by
    have e1 : (f.see d).cacheHits = true ↔ ∃ x ∈ done ++ [(l, d)], 0 < x.2.numberOfCacheHits := by
      have : (f.see d).cacheHits = true ↔ f.cacheHits = true ∨ 0 < d.numberOfCacheHits := by
        unfold Flags.see; by_cases h : d.numberOfCacheHits > 0 <;> simp [h]
      rw [this, h1]
      simp [or_and_right, exists_or]
    have e2 : (f.see d).blockedTime = true ↔ ∃ x ∈ done ++ [(l, d)], 0 < x.2.blockedTime := by
      have : (f.see d).blockedTime = true ↔ f.blockedTime = true ∨ 0 < d.blockedTime := by
        unfold Flags.see; by_cases h : d.blockedTime > 0 <;> simp [h]
      rw [this, h2]
      simp [or_and_right, exists_or]
    have e3 : (f.see d).incrementalLoadTime = true ↔ ∃ x ∈ done ++ [(l, d)], 0 < x.2.incrementalLoadTime := by
      have : (f.see d).incrementalLoadTime = true ↔ f.incrementalLoadTime = true ∨ 0 < d.incrementalLoadTime := by
        unfold Flags.see; by_cases h : d.incrementalLoadTime > 0 <;> simp [h]
      rw [this, h3]
      simp [or_and_right, exists_or]
    have e4 : (f.see d).incrementalHashingTime = true ↔ f.incrementalHashingTime = true ∨ 0 < d.incrementalHashingTime := by
      unfold Flags.see; by_cases h : d.incrementalHashingTime > 0 <;> simp [h]
    have split : (∃ pre x post, (l, d) :: xs = pre ++ x :: post ∧ 0 < x.2.incrementalHashingTime ∧ ¬ allThree (done ++ pre)) ↔
        0 < d.incrementalHashingTime ∨
          ∃ pre x post, xs = pre ++ x :: post ∧ 0 < x.2.incrementalHashingTime ∧ ¬ allThree (done ++ [(l, d)] ++ pre) := by
      constructor
      · rintro ⟨pre, x, post, he, hx, hp⟩
        cases pre with
        | nil =>
          left
          cases he
          exact hx
        | cons y pre =>
          right
          simp only [List.cons_append, List.cons.injEq] at he
          obtain ⟨rfl, rfl⟩ := he
          exact ⟨pre, x, post, rfl, hx, by simpa using hp⟩
      · rintro (hx | ⟨pre, x, post, rfl, hx, hp⟩)
        · exact ⟨[], (l, d), xs, rfl, hx, by simpa using hn⟩
        · exact ⟨(l, d) :: pre, x, post, rfl, hx, by simpa using hp⟩
    rw [split]
    simp only [scan]
    split_ifs with hall
    · simp only [Bool.and_eq_true] at hall
      have h3' : allThree (done ++ [(l, d)]) := ⟨e1.1 hall.1.1, e2.1 hall.1.2, e3.1 hall.2⟩
      rw [e4]
      constructor
      · rintro (h | h)
        · exact Or.inl h
        · exact Or.inr (Or.inl h)
      · rintro (h | h | ⟨pre, x, post, -, -, hp⟩)
        · exact Or.inl h
        · exact Or.inr h
        · exfalso
          apply hp
          obtain ⟨⟨a, a1, a2⟩, ⟨b, b1, b2⟩, ⟨c, c1, c2⟩⟩ := h3'
          exact ⟨⟨a, List.mem_append_left _ a1, a2⟩, ⟨b, List.mem_append_left _ b1, b2⟩, ⟨c, List.mem_append_left _ c1, c2⟩⟩
    · rw [scan_hashing_exact xs (done ++ [(l, d)]) _ e1 e2 e3 (by
        rintro ⟨a, b, c⟩
        exact hall (by simp [e1.2 a, e2.2 b, e3.2 c])), e4, or_assoc]

/-! ## The rows -/

theorem rowCells_titles {F : Type} (fl : Float64 F) (total : Nat) (f : Flags) (l : Bytes) (d : QueryData) :
    rowCells f l d (fl.percent d.selfTime total) = (titles f).map (cellFor fl total (l, d)) := by
  have n1 : (utf8 "Self time" = utf8 "Item") = False := by simp only [eq_iff_iff, iff_false]; decide +kernel
  have n2 : (utf8 "% of total time" = utf8 "Item") = False := by simp only [eq_iff_iff, iff_false]; decide +kernel
  have n3 : (utf8 "Time" = utf8 "Item") = False := by simp only [eq_iff_iff, iff_false]; decide +kernel
  have n4 : (utf8 "Item count" = utf8 "Item") = False := by simp only [eq_iff_iff, iff_false]; decide +kernel
  have n5 : (utf8 "Cache hits" = utf8 "Item") = False := by simp only [eq_iff_iff, iff_false]; decide +kernel
  have n6 : (utf8 "Blocked time" = utf8 "Item") = False := by simp only [eq_iff_iff, iff_false]; decide +kernel
  have n7 : (utf8 "Incremental load time" = utf8 "Item") = False := by simp only [eq_iff_iff, iff_false]; decide +kernel
  have n8 : (utf8 "Incremental result hashing time" = utf8 "Item") = False := by simp only [eq_iff_iff, iff_false]; decide +kernel
  have m2 : (utf8 "% of total time" = utf8 "Self time") = False := by simp only [eq_iff_iff, iff_false]; decide +kernel
  have m3 : (utf8 "Time" = utf8 "Self time") = False := by simp only [eq_iff_iff, iff_false]; decide +kernel
  have m4 : (utf8 "Item count" = utf8 "Self time") = False := by simp only [eq_iff_iff, iff_false]; decide +kernel
  have m5 : (utf8 "Cache hits" = utf8 "Self time") = False := by simp only [eq_iff_iff, iff_false]; decide +kernel
  have m6 : (utf8 "Blocked time" = utf8 "Self time") = False := by simp only [eq_iff_iff, iff_false]; decide +kernel
  have m7 : (utf8 "Incremental load time" = utf8 "Self time") = False := by simp only [eq_iff_iff, iff_false]; decide +kernel
  have m8 : (utf8 "Incremental result hashing time" = utf8 "Self time") = False := by simp only [eq_iff_iff, iff_false]; decide +kernel
  have o3 : (utf8 "Time" = utf8 "% of total time") = False := by simp only [eq_iff_iff, iff_false]; decide +kernel
  have o4 : (utf8 "Item count" = utf8 "% of total time") = False := by simp only [eq_iff_iff, iff_false]; decide +kernel
  have o5 : (utf8 "Cache hits" = utf8 "% of total time") = False := by simp only [eq_iff_iff, iff_false]; decide +kernel
  have o6 : (utf8 "Blocked time" = utf8 "% of total time") = False := by simp only [eq_iff_iff, iff_false]; decide +kernel
  have o7 : (utf8 "Incremental load time" = utf8 "% of total time") = False := by simp only [eq_iff_iff, iff_false]; decide +kernel
  have o8 : (utf8 "Incremental result hashing time" = utf8 "% of total time") = False := by simp only [eq_iff_iff, iff_false]; decide +kernel
  have p4 : (utf8 "Item count" = utf8 "Time") = False := by simp only [eq_iff_iff, iff_false]; decide +kernel
  have p5 : (utf8 "Cache hits" = utf8 "Time") = False := by simp only [eq_iff_iff, iff_false]; decide +kernel
  have p6 : (utf8 "Blocked time" = utf8 "Time") = False := by simp only [eq_iff_iff, iff_false]; decide +kernel
  have p7 : (utf8 "Incremental load time" = utf8 "Time") = False := by simp only [eq_iff_iff, iff_false]; decide +kernel
  have p8 : (utf8 "Incremental result hashing time" = utf8 "Time") = False := by simp only [eq_iff_iff, iff_false]; decide +kernel
  have q5 : (utf8 "Cache hits" = utf8 "Item count") = False := by simp only [eq_iff_iff, iff_false]; decide +kernel
  have q6 : (utf8 "Blocked time" = utf8 "Item count") = False := by simp only [eq_iff_iff, iff_false]; decide +kernel
  have q7 : (utf8 "Incremental load time" = utf8 "Item count") = False := by simp only [eq_iff_iff, iff_false]; decide +kernel
  have q8 : (utf8 "Incremental result hashing time" = utf8 "Item count") = False := by simp only [eq_iff_iff, iff_false]; decide +kernel
  have r6 : (utf8 "Blocked time" = utf8 "Cache hits") = False := by simp only [eq_iff_iff, iff_false]; decide +kernel
  have r7 : (utf8 "Incremental load time" = utf8 "Cache hits") = False := by simp only [eq_iff_iff, iff_false]; decide +kernel
  have r8 : (utf8 "Incremental result hashing time" = utf8 "Cache hits") = False := by simp only [eq_iff_iff, iff_false]; decide +kernel
  have s7 : (utf8 "Incremental load time" = utf8 "Blocked time") = False := by simp only [eq_iff_iff, iff_false]; decide +kernel
  have s8 : (utf8 "Incremental result hashing time" = utf8 "Blocked time") = False := by simp only [eq_iff_iff, iff_false]; decide +kernel
  have t8 : (utf8 "Incremental result hashing time" = utf8 "Incremental load time") = False := by simp only [eq_iff_iff, iff_false]; decide +kernel
  obtain ⟨a, b, c, e⟩ := f
  cases a <;> cases b <;> cases c <;> cases e <;>
    simp only [rowCells, titles, filterCells, cellFor, List.filter_cons, List.filter_nil, List.map_cons, List.map_nil,
      if_true, if_false, Bool.false_eq_true, n1, n2, n3, n4, n5, n6, n7, n8, m2, m3, m4, m5, m6, m7, m8, o3, o4, o5, o6, o7, o8,
      p4, p5, p6, p7, p8, q5, q6, q7, q8, r6, r7, r8, s7, s8, t8]

theorem rows_eq {F : Type} (fl : Float64 F) (hm : Monotone fl) (f : Flags) (total : Nat) (above : F) :
    ∀ (xs : List (Bytes × QueryData)) (sum : F), xs.Pairwise (fun l r => r.2.selfTime ≤ l.2.selfTime) →
    rows fl f total above xs sum =
      (((xs.filter fun x => !fl.lt (fl.percent x.2.selfTime total) above).map fun x => (titles f).map (cellFor fl total x)),
       ((xs.filter fun x => !fl.lt (fl.percent x.2.selfTime total) above).map fun x => fl.percent x.2.selfTime total).foldl fl.add sum)
  | [], _, _ => rfl
  | (l, d) :: xs, sum, hs => by
    rw [List.pairwise_cons] at hs
    simp only [rows]
    cases hlt : fl.lt (fl.percent d.selfTime total) above with
    | true =>
      have : ((l, d) :: xs).filter (fun x => !fl.lt (fl.percent x.2.selfTime total) above) = [] := by
        rw [List.filter_eq_nil_iff]
        intro x hx
        rcases List.mem_cons.1 hx with rfl | hx
        · simp [hlt]
        · simp [hm _ _ total above (hs.1 x hx) hlt]
      rw [if_pos rfl, this]
      rfl
    | false =>
      have : ((l, d) :: xs).filter (fun x => !fl.lt (fl.percent x.2.selfTime total) above) =
          (l, d) :: xs.filter (fun x => !fl.lt (fl.percent x.2.selfTime total) above) := by
        rw [List.filter_cons]
        simp [hlt]
      rw [this, rows_eq fl hm f total above xs _ hs.2]
      simp only [Bool.false_eq_true, if_false, List.map_cons, List.foldl_cons]
      rw [rowCells_titles]

theorem bySelfTime_sorted (data : List (Bytes × QueryData)) :
    (bySelfTime data).Pairwise fun l r => r.2.selfTime ≤ l.2.selfTime := by
  have i1 : Std.Total (fun l r : Bytes × QueryData => r.2.selfTime ≤ l.2.selfTime) := ⟨fun a b => by omega⟩
  have i2 : IsTrans (Bytes × QueryData) (fun l r => r.2.selfTime ≤ l.2.selfTime) := ⟨fun a b c => by omega⟩
  exact List.pairwise_insertionSort _ data

/-! ## C54 -/

/-- **C54.** The rows are exactly the items that are not below the limit, by decreasing self time; under every title there is the
value the title promises; the share is the sum of the percentages shown; the total and the artifacts are those of the results. -/
theorem C54_rows {F : Type} (fl : Float64 F) (hm : Monotone fl) (above : F) (r : Results) (o : Output F)
    (h : summarize fl above r = some o) :
    ∃ shown : List (Bytes × QueryData), shown.Perm (r.queryData.filter fun x => !fl.lt (fl.percent x.2.selfTime r.totalTime) above) ∧
      shown.Pairwise (fun l r => r.2.selfTime ≤ l.2.selfTime) ∧
      o.rows = shown.map (fun x => o.titles.map (cellFor fl r.totalTime x)) ∧
      o.share = (if fl.eq above fl.zero then none
        else some ((shown.map fun x => fl.percent x.2.selfTime r.totalTime).foldl fl.add fl.zero)) ∧
      o.total = r.totalTime ∧ o.artifacts = r.artifactSizes := by
  unfold summarize at h
  split at h
  · cases h
  · split at h
    · cases h
    · simp only [rows_eq fl hm _ _ _ _ _ (bySelfTime_sorted r.queryData), Option.some.injEq] at h
      subst h
      refine ⟨_, (List.perm_insertionSort _ r.queryData).filter _, ?_, rfl, rfl, rfl, rfl⟩
      exact (bySelfTime_sorted r.queryData).filter _

/-- **C54.** The limit is refused exactly if it is above one hundred or below zero. -/
theorem C54_limits {F : Type} (fl : Float64 F) (above : F) (r : Results) :
    summarize fl above r = none ↔ fl.lt fl.hundred above = true ∨ fl.lt above fl.zero = true := by
  unfold summarize
  split
  · next h => simp [h]
  · next h =>
    split
    · next h' => simp [h']
    · next h' => simp [h, h']

/-! ## C53 -/

theorem mem_titles (f : Flags) :
    (utf8 "Cache hits" ∈ titles f ↔ f.cacheHits = true) ∧ (utf8 "Blocked time" ∈ titles f ↔ f.blockedTime = true) ∧
    (utf8 "Incremental load time" ∈ titles f ↔ f.incrementalLoadTime = true) ∧
    (utf8 "Incremental result hashing time" ∈ titles f ↔ f.incrementalHashingTime = true) := by
  obtain ⟨a, b, c, e⟩ := f
  revert a b c e
  decide +kernel

theorem any_sorted (r : Results) (p : Bytes × QueryData → Bool) :
    (bySelfTime r.queryData).any p = true ↔ ∃ x ∈ r.queryData, p x = true := by
  rw [List.any_eq_true]
  constructor
  · rintro ⟨x, h1, h2⟩; exact ⟨x, (List.mem_insertionSort _).1 h1, h2⟩
  · rintro ⟨x, h1, h2⟩; exact ⟨x, (List.mem_insertionSort _).2 h1, h2⟩

theorem summarize_titles {F : Type} {fl : Float64 F} {above : F} {r : Results} {o : Output F} (h : summarize fl above r = some o) :
    o.titles = titles (scan (bySelfTime r.queryData) {}) := by
  unfold summarize at h
  split at h
  · cases h
  · split at h
    · cases h
    · simp only [Option.some.injEq] at h
      rw [← h]

/-- **C53.** The columns for cache hits, blocked time and load time are shown exactly if some item has such a value. The hashing
column is shown only if some item has a value, and — if one of the other three is missing — whenever some item has. -/
theorem C53_columns {F : Type} (fl : Float64 F) (above : F) (r : Results) (o : Output F) (h : summarize fl above r = some o) :
    (utf8 "Cache hits" ∈ o.titles ↔ ∃ x ∈ r.queryData, 0 < x.2.numberOfCacheHits) ∧
    (utf8 "Blocked time" ∈ o.titles ↔ ∃ x ∈ r.queryData, 0 < x.2.blockedTime) ∧
    (utf8 "Incremental load time" ∈ o.titles ↔ ∃ x ∈ r.queryData, 0 < x.2.incrementalLoadTime) ∧
    (utf8 "Incremental result hashing time" ∈ o.titles → ∃ x ∈ r.queryData, 0 < x.2.incrementalHashingTime) ∧
    ((∃ x ∈ r.queryData, 0 < x.2.incrementalHashingTime) →
      (∀ x ∈ r.queryData, x.2.numberOfCacheHits = 0) ∨ (∀ x ∈ r.queryData, x.2.blockedTime = 0) ∨
        (∀ x ∈ r.queryData, x.2.incrementalLoadTime = 0) → utf8 "Incremental result hashing time" ∈ o.titles) := by
  rw [summarize_titles h]
  obtain ⟨t1, t2, t3, t4⟩ := mem_titles (scan (bySelfTime r.queryData) {})
  have c1 := scan_cacheHits (bySelfTime r.queryData) {}
  have c2 := scan_blockedTime (bySelfTime r.queryData) {}
  have c3 := scan_load (bySelfTime r.queryData) {}
  have c4 := scan_hashing (bySelfTime r.queryData) {}
  simp only [Bool.false_or] at c1 c2 c3 c4
  have a1 : (scan (bySelfTime r.queryData) {}).cacheHits = true ↔ ∃ x ∈ r.queryData, 0 < x.2.numberOfCacheHits := by
    rw [c1, any_sorted]; simp
  have a2 : (scan (bySelfTime r.queryData) {}).blockedTime = true ↔ ∃ x ∈ r.queryData, 0 < x.2.blockedTime := by
    rw [c2, any_sorted]; simp
  have a3 : (scan (bySelfTime r.queryData) {}).incrementalLoadTime = true ↔ ∃ x ∈ r.queryData, 0 < x.2.incrementalLoadTime := by
    rw [c3, any_sorted]; simp
  have a4 : ((bySelfTime r.queryData).any fun x => decide (x.2.incrementalHashingTime > 0)) = true ↔
      ∃ x ∈ r.queryData, 0 < x.2.incrementalHashingTime := by
    rw [any_sorted]; simp
  refine ⟨t1.trans a1, t2.trans a2, t3.trans a3, fun hh => a4.1 (c4.1 (t4.1 hh)), fun hx hor => t4.2 ?_⟩
  rw [c4.2, a4]
  · exact hx
  · rcases hor with hz | hz | hz
    · have : (scan (bySelfTime r.queryData) {}).cacheHits = false := by
        rw [Bool.eq_false_iff]; intro hc
        obtain ⟨x, h1, h2⟩ := a1.1 hc
        have := hz x h1
        omega
      simp [this]
    · have : (scan (bySelfTime r.queryData) {}).blockedTime = false := by
        rw [Bool.eq_false_iff]; intro hc
        obtain ⟨x, h1, h2⟩ := a2.1 hc
        have := hz x h1
        omega
      simp [this]
    · have : (scan (bySelfTime r.queryData) {}).incrementalLoadTime = false := by
        rw [Bool.eq_false_iff]; intro hc
        obtain ⟨x, h1, h2⟩ := a3.1 hc
        have := hz x h1
        omega
      simp [this]

/-- **C53.** Exactly when the hashing column is shown: some item has hashing time and does not come, in the order of self times,
after items that together have cache hits, blocked time and load time. -/
theorem C53_hashing_exact {F : Type} (fl : Float64 F) (above : F) (r : Results) (o : Output F) (h : summarize fl above r = some o) :
    ∃ sorted : List (Bytes × QueryData), sorted.Perm r.queryData ∧ sorted.Pairwise (fun l r => r.2.selfTime ≤ l.2.selfTime) ∧
      (utf8 "Incremental result hashing time" ∈ o.titles ↔
        ∃ pre x post, sorted = pre ++ x :: post ∧ 0 < x.2.incrementalHashingTime ∧ ¬ allThree pre) := by
  refine ⟨bySelfTime r.queryData, List.perm_insertionSort _ _, bySelfTime_sorted _, ?_⟩
  rw [summarize_titles h, (mem_titles _).2.2.2, scan_hashing_exact _ [] {} (by simp) (by simp) (by simp) (by simp [allThree])]
  simp

/-! ## Exact percentages -/

/-- Percentages as exact fractions. -/
def exactPercent : Float64 ℚ where
  percent s t := (s : ℚ) / t * 100
  lt a b := decide (a < b)
  eq a b := decide (a = b)
  zero := 0
  hundred := 100
  add := (· + ·)

theorem exactPercent_monotone : Monotone exactPercent := by
  intro a b total x hab h
  simp only [exactPercent, decide_eq_true_eq] at h ⊢
  refine lt_of_le_of_lt ?_ h
  have : (a : ℚ) ≤ b := by exact_mod_cast hab
  have ht : (0 : ℚ) ≤ total := by positivity
  have := div_le_div_of_nonneg_right this ht
  linarith

/-! ## Floating-point numbers -/

/-- The results of floating-point operations on what `summarize` computes with: not a number, infinity, or a finite number. -/
inductive FloatNum where
  | nan
  | inf
  | fin (q : ℚ)

/-- `a < b` on floating-point numbers: never if one is not a number. -/
def FloatNum.lt : FloatNum → FloatNum → Bool
  | .fin a, .fin b => decide (a < b)
  | .fin _, .inf => true
  | _, _ => false

/-- `a == b` on floating-point numbers: never if one is not a number. -/
def FloatNum.eq : FloatNum → FloatNum → Bool
  | .fin a, .fin b => decide (a = b)
  | .inf, .inf => true
  | _, _ => false

/-- `summarize/src/main.rs:249,253,258`: floating-point arithmetic that rounds the result of every operation, and every integer that is converted, by `rnd`. -/
def rounded (rnd : ℚ → ℚ) : Float64 FloatNum where
  percent s t :=
    if t = 0 then (if s = 0 then .nan else .inf)
    else .fin (rnd (rnd (rnd s / rnd t) * 100))
  lt := FloatNum.lt
  eq := FloatNum.eq
  zero := .fin 0
  hundred := .fin 100
  add
    | .fin a, .fin b => .fin (rnd (a + b))
    | .nan, _ => .nan
    | _, .nan => .nan
    | _, _ => .inf

/-- **C54.** Comparing percentages with a limit is monotone in the time for every arithmetic whose rounding is monotone and keeps positive integers
positive, as that of `f64` is; hence `C54_rows` holds for it. A limit that is not a number is accepted, and hides nothing. -/
theorem C54_floats (rnd : ℚ → ℚ) (hmono : ∀ a b, a ≤ b → rnd a ≤ rnd b) (hpos : ∀ n : Nat, 0 < n → 0 < rnd n) :
    Monotone (rounded rnd) ∧
    ∀ r : Results, ∃ o, summarize (rounded rnd) .nan r = some o ∧ o.rows.length = r.queryData.length := by
  have hm : Monotone (rounded rnd) := by
    intro a b total x hab h
    simp only [rounded] at h ⊢
    by_cases ht : total = 0
    · simp only [if_pos ht] at h ⊢
      by_cases hb : b = 0
      · have ha : a = 0 := by omega
        rw [if_pos hb] at h
        rw [if_pos ha]
        exact h
      · rw [if_neg hb] at h
        cases x <;> simp [FloatNum.lt] at h
    · simp only [if_neg ht] at h ⊢
      cases x with
      | nan => simp [FloatNum.lt] at h
      | inf => rfl
      | fin q =>
        simp only [FloatNum.lt, decide_eq_true_eq] at h ⊢
        refine lt_of_le_of_lt (hmono _ _ (mul_le_mul_of_nonneg_right (hmono _ _ ?_) (by norm_num))) h
        exact div_le_div_of_nonneg_right (hmono _ _ (by exact_mod_cast hab)) (hpos total (Nat.pos_of_ne_zero ht)).le
  refine ⟨hm, fun r => ?_⟩
  cases hs : summarize (rounded rnd) .nan r with
  | none =>
    rcases (C54_limits _ _ _).1 hs with h | h <;> simp [rounded, FloatNum.lt] at h
  | some o =>
    refine ⟨o, rfl, ?_⟩
    obtain ⟨shown, h1, -, h3, -⟩ := C54_rows _ hm _ _ _ hs
    rw [h3, List.length_map, h1.length_eq, List.filter_eq_self.2]
    intro x _
    simp only [rounded, Bool.not_eq_true']
    split_ifs <;> rfl

/-- Such a rounding: down to a quarter, but positive integers are kept. -/
example : (∀ a b : ℚ, a ≤ b → (fun q : ℚ => (⌊q * 4⌋ : ℚ) / 4) a ≤ (fun q : ℚ => (⌊q * 4⌋ : ℚ) / 4) b) ∧
    ∀ n : Nat, 0 < n → 0 < (fun q : ℚ => (⌊q * 4⌋ : ℚ) / 4) n := by
  constructor
  · intro a b h
    have : ⌊a * 4⌋ ≤ ⌊b * 4⌋ := Int.floor_le_floor (by linarith)
    have : (⌊a * 4⌋ : ℚ) ≤ ⌊b * 4⌋ := by exact_mod_cast this
    simp only
    linarith
  · intro n hn
    have h1 : (1 : ℤ) ≤ ⌊(n : ℚ) * 4⌋ := by
      rw [Int.le_floor]
      have : (1 : ℚ) ≤ n := by exact_mod_cast hn
      push_cast
      linarith
    have : (1 : ℚ) ≤ (⌊(n : ℚ) * 4⌋ : ℚ) := by exact_mod_cast h1
    simp only
    linarith

/-- **C53.** The claim is false as desired: here an item has hashing time, yet there is no such column, because the scan stopped at
the item before. -/
theorem C53_hashing_hidden (above : ℚ) (h0 : 0 ≤ above) (h1 : above ≤ 100) :
    ∃ (r : Results) (o : Output ℚ), summarize exactPercent above r = some o ∧ (∃ x ∈ r.queryData, 0 < x.2.incrementalHashingTime) ∧
      utf8 "Incremental result hashing time" ∉ o.titles := by
  obtain ⟨r, hr⟩ : ∃ r : Results, r = ⟨[(utf8 "a", { selfTime := 9, numberOfCacheHits := 1, blockedTime := 1, incrementalLoadTime := 1 }),
    (utf8 "b", { selfTime := 5, incrementalHashingTime := 5 })], [], 14⟩ := ⟨_, rfl⟩
  cases hs : summarize exactPercent above r with
  | none =>
    rcases (C54_limits _ _ _).1 hs with h | h <;> simp [exactPercent] at h <;> linarith
  | some o =>
    refine ⟨r, o, hs, ⟨(utf8 "b", { selfTime := 5, incrementalHashingTime := 5 }), by rw [hr]; simp, by decide⟩, ?_⟩
    rw [summarize_titles hs, hr]
    decide +kernel

/-- Some results. -/
def exResults : Results := ⟨[(utf8 "a", { time := 9, selfTime := 2, invocationCount := 1 }),
  (utf8 "b", { time := 7, selfTime := 7, numberOfCacheHits := 3, invocationCount := 4 }), (utf8 "c", { time := 1, selfTime := 1 })], [], 10⟩

example : (summarize exactPercent 20 exResults).map (fun o => (o.titles, o.rows)) =
    some ([utf8 "Item", utf8 "Self time", utf8 "% of total time", utf8 "Time", utf8 "Item count", utf8 "Cache hits"],
      [[.text (utf8 "b"), .duration 7, .percent 70, .duration 7, .count 4, .count 3],
       [.text (utf8 "a"), .duration 2, .percent 20, .duration 9, .count 1, .count 0]]) := by decide +kernel

end Verif.Props
