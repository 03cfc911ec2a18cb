import Verif.Spec.Diff
import Verif.Proofs.Analysis
import Mathlib.Data.List.Induction

/-! # Proofs about `summarize diff` -/

namespace Verif.Proofs

open Verif Verif.Mm Verif.Analyze Verif.Diff Verif.Spec

/-! ## Lookup -/

theorem buildLookupFrom_snoc {α : Type} (xs : List (Bytes × α)) (x : Bytes × α) : ∀ (i : Nat) (m : List (Bytes × Nat)),
    buildLookupFrom i (xs ++ [x]) m = Analyze.insert x.1 (i + xs.length) (buildLookupFrom i xs m) := by
  induction xs with
  | nil => intro i m; obtain ⟨l, a⟩ := x; rfl
  | cons y ys ih =>
    intro i m
    obtain ⟨l, a⟩ := y
    simp only [List.cons_append, buildLookupFrom, ih, List.length_cons]
    congr 1
    omega

theorem latest_snoc {α : Type} (l : Bytes) (xs : List (Bytes × α)) (x : Bytes × α) :
    latest l (xs ++ [x]) = if x.1 = l then some x.2 else latest l xs := by
  unfold latest
  rw [List.filter_append]
  by_cases h : x.1 = l <;> simp [h]

theorem lookup_latest {α : Type} (l : Bytes) (data : List (Bytes × α)) :
    (lookup l (buildLookup data) = none ∧ latest l data = none) ∨
    ∃ i a, lookup l (buildLookup data) = some i ∧ data[i]? = some (l, a) ∧ latest l data = some a := by
  unfold buildLookup
  induction data using List.reverseRecOn with
  | nil => exact Or.inl ⟨rfl, rfl⟩
  | append_singleton xs x ih =>
    rw [buildLookupFrom_snoc, lookup_insert, latest_snoc]
    by_cases h : x.1 = l
    · right
      refine ⟨0 + xs.length, x.2, by simp [h], ?_, by simp [h]⟩
      rw [← h]
      simp
    · have h' : ¬ l = x.1 := fun e => h e.symm
      rcases ih with ⟨h1, h2⟩ | ⟨i, a, h1, h2, h3⟩
      · left
        simp [h, h', h1, h2]
      · right
        refine ⟨i, a, by simp [h, h', h1], ?_, by simp [h, h3]⟩
        rw [List.getElem?_append_left, h2]
        by_contra hc
        rw [List.getElem?_eq_none (by omega)] at h2
        cases h2

theorem fetch_latest {α : Type} (l : Bytes) (data : List (Bytes × α)) :
    fetch data (buildLookup data) l = .ok ((latest l data).map fun a => (l, a)) := by
  unfold fetch
  rcases lookup_latest l data with ⟨h1, h2⟩ | ⟨i, a, h1, h2, h3⟩
  · rw [h1, h2]; rfl
  · rw [h1, h3]
    simp only [h2]
    rfl

theorem latest_isSome {α : Type} (l : Bytes) (data : List (Bytes × α)) : (∃ a, latest l data = some a) ↔ l ∈ data.map (·.1) := by
  unfold latest
  constructor
  · rintro ⟨a, h⟩
    have := List.mem_of_getLast? h
    simp only [List.mem_map, List.mem_filter, decide_eq_true_eq] at this
    obtain ⟨x, ⟨h1, h2⟩, -⟩ := this
    exact List.mem_map.2 ⟨x, h1, h2⟩
  · intro h
    obtain ⟨x, h1, h2⟩ := List.mem_map.1 h
    have : ((data.filter fun x => decide (x.1 = l)).map (·.2)) ≠ [] := by
      intro hh
      have : x ∈ data.filter fun x => decide (x.1 = l) := by simp [h1, h2]
      rw [List.map_eq_nil_iff] at hh
      rw [hh] at this
      simp at this
    exact ⟨_, List.getLast?_eq_some_getLast this⟩

theorem latest_mem {α : Type} {l : Bytes} {data : List (Bytes × α)} {a : α} (h : latest l data = some a) : (l, a) ∈ data := by
  have := List.mem_of_getLast? h
  simp only [List.mem_map, List.mem_filter, decide_eq_true_eq] at this
  obtain ⟨⟨l', a'⟩, ⟨h1, h2⟩, h3⟩ := this
  simp only at h2 h3
  rw [← h2, ← h3]
  exact h1

/-! ## Label sets -/

theorem labelSet_aux (labels : List Bytes) : ∀ s : List Bytes, s.Nodup →
    (labels.foldl (fun s l => if l ∈ s then s else s ++ [l]) s).Nodup ∧
    ∀ l, l ∈ labels.foldl (fun s l => if l ∈ s then s else s ++ [l]) s ↔ l ∈ s ∨ l ∈ labels := by
  induction labels with
  | nil => intro s hs; exact ⟨hs, by simp⟩
  | cons x xs ih =>
    intro s hs
    simp only [List.foldl_cons]
    by_cases hx : x ∈ s
    · rw [if_pos hx]
      obtain ⟨h1, h2⟩ := ih s hs
      refine ⟨h1, fun l => ?_⟩
      rw [h2]
      constructor
      · rintro (h | h)
        · exact Or.inl h
        · exact Or.inr (by simp [h])
      · rintro (h | h)
        · exact Or.inl h
        · rcases List.mem_cons.1 h with rfl | h
          · exact Or.inl hx
          · exact Or.inr h
    · rw [if_neg hx]
      obtain ⟨h1, h2⟩ := ih (s ++ [x]) (by
        rw [List.nodup_append]
        exact ⟨hs, by simp, by intro a ha b hb; simp at hb; subst hb; rintro rfl; exact hx ha⟩)
      refine ⟨h1, fun l => ?_⟩
      rw [h2]
      simp [or_assoc]

theorem labelSet_nodup (labels : List Bytes) : (labelSet labels).Nodup := (labelSet_aux labels [] List.nodup_nil).1

theorem mem_labelSet (labels : List Bytes) (l : Bytes) : l ∈ labelSet labels ↔ l ∈ labels := by
  rw [labelSet, (labelSet_aux labels [] List.nodup_nil).2]
  simp

/-! ## mapAll -/

theorem mapAll_ok {α β : Type} {f : α → Except Fault β} {g : α → β} : ∀ {l : List α}, (∀ a ∈ l, f a = .ok (g a)) →
    mapAll f l = .ok (l.map g)
  | [], _ => rfl
  | a :: as, h => by
    have ih := mapAll_ok (l := as) fun b hb => h b (by simp [hb])
    simp only [mapAll, h a (by simp), ih, bind, Except.bind, List.map_cons]

/-! ## Numbers -/

theorem asNanos_signed (d : SignedDuration) : d.asNanos = signed d := by
  unfold SignedDuration.asNanos signed
  cases d.isPositive <;> simp

theorem signed_fromNanos {n : Int} (h : n.natAbs < 2 ^ 64) : signed (.fromNanos n) = n := by
  unfold SignedDuration.fromNanos signed
  rw [Nat.mod_eq_of_lt h]
  by_cases hn : n ≥ 0
  · simp only [hn, decide_true, if_true]; omega
  · simp only [hn, decide_false, Bool.false_eq_true, if_false]; omega

theorem signed_sub {a b : Nat} (ha : a < 2 ^ 64) (hb : b < 2 ^ 64) :
    signed ((SignedDuration.ofDuration a).sub (SignedDuration.ofDuration b)) = (a : Int) - b := by
  unfold SignedDuration.sub
  rw [asNanos_signed, asNanos_signed]
  have e : ∀ n : Nat, signed (SignedDuration.ofDuration n) = (n : Int) := fun n => rfl
  rw [e, e, signed_fromNanos (by omega)]

theorem asI64_small {n : Nat} (h : n < 2 ^ 63) : asI64 n = n := by
  unfold asI64
  rw [Nat.mod_eq_of_lt (by omega), if_pos h]

theorem fitI64_sub (checks : Bool) {a b : Nat} (ha : a < 2 ^ 63) (hb : b < 2 ^ 63) :
    fitI64 checks (asI64 a - asI64 b) = .ok ((a : Int) - b) := by
  rw [asI64_small ha, asI64_small hb]
  unfold fitI64
  rw [if_pos (by omega)]

theorem fitI64_neg (checks : Bool) {a : Nat} (ha : a < 2 ^ 63) : fitI64 checks (-(asI64 a)) = .ok (-(a : Int)) := by
  rw [asI64_small ha]
  unfold fitI64
  rw [if_pos (by omega)]

/-! ## Rows -/

theorem queryDiff_row (checks : Bool) (base change : Results) (hb : Modest base) (hc : Modest change) (l : Bytes)
    (h : l ∈ base.queryData.map (·.1) ∨ l ∈ change.queryData.map (·.1)) :
    ∃ q, queryDiff checks base.queryData change.queryData l = .ok q ∧ q.label = l ∧ RowDiff base.queryData change.queryData q := by
  unfold queryDiff
  simp only [fetch_latest, bind, Except.bind]
  cases h1 : latest l base.queryData with
  | none =>
    cases h2 : latest l change.queryData with
    | none =>
      rcases h with h | h
      · obtain ⟨a, ha⟩ := (latest_isSome _ _).2 h
        rw [h1] at ha; cases ha
      · obtain ⟨a, ha⟩ := (latest_isSome _ _).2 h
        rw [h2] at ha; cases ha
    | some c =>
      obtain ⟨-, -, -, -, -, m1, m2, m3⟩ := hc.data _ (latest_mem h2)
      refine ⟨_, rfl, rfl, ?_⟩
      constructor <;>
        simp [delta, column, relative, h1, h2, QueryDataDiff.asDiff, SignedDuration.ofDuration, signed, asI64_small, m1, m2, m3]
  | some b =>
    obtain ⟨b1, b2, b3, b4, b5, b6, b7, b8⟩ := hb.data _ (latest_mem h1)
    cases h2 : latest l change.queryData with
    | none =>
      simp only [Option.map_some, Option.map_none, QueryDataDiff.invert, bind, Except.bind, fitI64_neg checks b6,
        fitI64_neg checks b7, fitI64_neg checks b8]
      refine ⟨_, rfl, rfl, ?_⟩
      constructor <;> simp [delta, column, relative, h1, h2, signed]
    | some c =>
      obtain ⟨c1, c2, c3, c4, c5, c6, c7, c8⟩ := hc.data _ (latest_mem h2)
      simp only [Option.map_some, QueryDataDiff.sub, bind, Except.bind, fitI64_sub checks c6 b6, fitI64_sub checks c7 b7,
        fitI64_sub checks c8 b8]
      refine ⟨_, rfl, rfl, ?_⟩
      constructor <;>
        simp [delta, column, relative, h1, h2, signed_sub c1 b1, signed_sub c2 b2, signed_sub c3 b3, signed_sub c4 b4, signed_sub c5 b5]

theorem artifactDiff_row (checks : Bool) (base change : Results) (hb : Modest base) (hc : Modest change) (l : Bytes)
    (h : l ∈ base.artifactSizes.map (·.1) ∨ l ∈ change.artifactSizes.map (·.1)) :
    artifactDiff checks base.artifactSizes change.artifactSizes l =
      .ok ⟨l, delta id l base.artifactSizes change.artifactSizes⟩ := by
  unfold artifactDiff
  simp only [fetch_latest, bind, Except.bind]
  cases h1 : latest l base.artifactSizes with
  | none =>
    cases h2 : latest l change.artifactSizes with
    | none =>
      rcases h with h | h
      · obtain ⟨a, ha⟩ := (latest_isSome _ _).2 h
        rw [h1] at ha; cases ha
      · obtain ⟨a, ha⟩ := (latest_isSome _ _).2 h
        rw [h2] at ha; cases ha
    | some c =>
      have m := hc.sizes _ (latest_mem h2)
      simp [delta, column, h1, h2, asI64_small m]
  | some b =>
    have m1 := hb.sizes _ (latest_mem h1)
    cases h2 : latest l change.artifactSizes with
    | none => simp [delta, column, h1, h2, fitI64_neg checks m1]
    | some c =>
      have m2 := hc.sizes _ (latest_mem h2)
      simp [delta, column, h1, h2, fitI64_sub checks m2 m1]

end Verif.Proofs
