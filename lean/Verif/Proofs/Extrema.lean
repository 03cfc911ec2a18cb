import Verif.Spec.Aggregate
import Verif.Proofs.Analysis

/-! # Extreme values -/

namespace Verif.Aggregate

open Verif Verif.Mm Verif.Decode Verif.Analyze Verif.Spec

variable {S : Type}

/-! ## The map -/

theorem mem_addEntry (v : Nat) (s : S) (m : List (Nat × ExtremaSources S)) (k : Nat) :
    k ∈ (addEntry v s m).map (·.1) ↔ k = v ∨ k ∈ m.map (·.1) := by
  induction m with
  | nil => simp [addEntry]
  | cons a m ih =>
    obtain ⟨k', x⟩ := a
    simp only [addEntry]
    split
    · simp
    · split
      · rename_i h1 h2; subst h2; simp
      · simp only [List.map_cons, List.mem_cons, ih]; tauto

theorem sorted_addEntry (v : Nat) (s : S) {m : List (Nat × ExtremaSources S)} (h : (m.map (·.1)).Pairwise (· < ·)) :
    ((addEntry v s m).map (·.1)).Pairwise (· < ·) := by
  induction m with
  | nil => simp [addEntry]
  | cons a m ih =>
    obtain ⟨k', x⟩ := a
    simp only [List.map_cons, List.pairwise_cons] at h
    simp only [addEntry]
    split
    · rename_i hlt
      simp only [List.map_cons, List.pairwise_cons, List.mem_cons]
      refine ⟨?_, h⟩
      rintro y (rfl | hy)
      · exact hlt
      · have := h.1 y hy; omega
    · split
      · simpa using h
      · rename_i h1 h2
        simp only [List.map_cons, List.pairwise_cons]
        refine ⟨?_, ih h.2⟩
        intro y hy
        rw [mem_addEntry] at hy
        rcases hy with rfl | hy
        · omega
        · exact h.1 y hy

theorem length_addEntry (v : Nat) (s : S) {m : List (Nat × ExtremaSources S)} (h : (m.map (·.1)).Pairwise (· < ·)) :
    (addEntry v s m).length = if v ∈ m.map (·.1) then m.length else m.length + 1 := by
  induction m with
  | nil => simp [addEntry]
  | cons a m ih =>
    obtain ⟨k', x⟩ := a
    simp only [List.map_cons, List.pairwise_cons] at h
    simp only [addEntry]
    split
    · rename_i hlt
      rw [if_neg]
      · simp
      · simp only [List.map_cons, List.mem_cons, not_or]
        refine ⟨by omega, fun hv => ?_⟩
        have := h.1 v hv; omega
    · split
      · rename_i h1 h2; subst h2; simp
      · rename_i h1 h2
        simp only [List.length_cons, ih h.2, List.map_cons, List.mem_cons, h2, false_or]
        split <;> rfl

theorem entry_addEntry (v : Nat) (s : S) {m : List (Nat × ExtremaSources S)} (h : (m.map (·.1)).Pairwise (· < ·))
    (k : Nat) (x : ExtremaSources S) (hm : (k, x) ∈ addEntry v s m) :
    (k ≠ v ∧ (k, x) ∈ m) ∨ (k = v ∧ ∃ y, (v, y) ∈ m ∧ x = y.add s) ∨ (k = v ∧ v ∉ m.map (·.1) ∧ x = ExtremaSources.empty.add s) := by
  induction m with
  | nil => simp [addEntry] at hm; right; right; simp [hm]
  | cons a m ih =>
    obtain ⟨k', y⟩ := a
    simp only [List.map_cons, List.pairwise_cons] at h
    simp only [addEntry] at hm
    split at hm
    · rename_i hlt
      have hv : v ∉ ((k', y) :: m).map (·.1) := by
        simp only [List.map_cons, List.mem_cons, not_or]
        refine ⟨by omega, fun hv => ?_⟩
        have := h.1 v hv; omega
      rcases List.mem_cons.1 hm with he | hm'
      · cases he; exact Or.inr (Or.inr ⟨rfl, hv, rfl⟩)
      · left
        refine ⟨?_, hm'⟩
        rintro rfl
        exact hv (List.mem_map.2 ⟨(_, x), hm', rfl⟩)
    · split at hm
      · rename_i h1 h2
        subst h2
        rcases List.mem_cons.1 hm with he | hm'
        · cases he; exact Or.inr (Or.inl ⟨rfl, y, by simp, rfl⟩)
        · left
          refine ⟨?_, by simp [hm']⟩
          rintro rfl
          have := h.1 k (List.mem_map.2 ⟨(_, x), hm', rfl⟩)
          omega
      · rename_i h1 h2
        rcases List.mem_cons.1 hm with he | hm
        · cases he; left; exact ⟨fun hh => h2 hh.symm, by simp⟩
        · rcases ih h.2 hm with h3 | ⟨h3, z, h4, h5⟩ | ⟨h3, h4, h5⟩
          · exact Or.inl ⟨h3.1, by simp [h3.2]⟩
          · exact Or.inr (Or.inl ⟨h3, z, by simp [h4], h5⟩)
          · refine Or.inr (Or.inr ⟨h3, ?_, h5⟩)
            simp only [List.map_cons, List.mem_cons, not_or]
            exact ⟨h2, h4⟩

/-! ## Sources -/

theorem remember_snoc (l : List S) (s : S) : remember (l ++ [s]) = (remember l).add s := by
  match l with
  | [] => rfl
  | [a] => rfl
  | a :: b :: l => simp [remember, ExtremaSources.add, ExtremaSources.size]

theorem sourcesOf_snoc (k : Nat) (xs : List (Nat × S)) (v : Nat) (s : S) :
    sourcesOf k (xs ++ [(v, s)]) = sourcesOf k xs ++ if v = k then [s] else [] := by
  unfold sourcesOf
  rw [List.filter_append, List.map_append]
  by_cases h : v = k <;> simp [h]

theorem sourcesOf_nil {k : Nat} {xs : List (Nat × S)} (h : k ∉ xs.map (·.1)) : sourcesOf k xs = [] := by
  unfold sourcesOf
  rw [List.filter_eq_nil_iff.2]
  · rfl
  · intro x hx
    simp only [decide_eq_true_eq]
    rintro rfl
    exact h (List.mem_map.2 ⟨x, hx, rfl⟩)

/-! ## The invariant -/

/-- `a` is more extreme than `b`. -/
def Beats (w : Which) (a b : Nat) : Prop := match w with
  | .smallest => a < b
  | .largest => b < a

theorem beats_trans {w : Which} {a b c : Nat} (h1 : Beats w a b) (h2 : Beats w b c) : Beats w a c := by
  cases w <;> simp only [Beats] at * <;> omega

theorem beats_irrefl {w : Which} {a : Nat} : ¬ Beats w a a := by cases w <;> simp [Beats]

theorem beats_total {w : Which} {a b : Nat} (h : a ≠ b) : Beats w a b ∨ Beats w b a := by
  cases w <;> simp only [Beats] <;> omega

theorem lessExtreme_iff (w : Which) (a b : Nat) : lessExtreme w a b = true ↔ Beats w b a := by
  cases w <;> simp [lessExtreme, Beats]

theorem mem_moreExtreme (w : Which) (k v : Nat) (vs : List Nat) : v ∈ moreExtreme w k vs ↔ v ∈ vs ∧ Beats w v k := by
  cases w <;> simp [moreExtreme, Beats]

theorem least_spec (w : Which) {m : List (Nat × ExtremaSources S)} (h : (m.map (·.1)).Pairwise (· < ·)) :
    match leastExtreme w m with
    | none => m = []
    | some least => least ∈ m.map (·.1) ∧ ∀ k ∈ m.map (·.1), k ≠ least → Beats w k least := by
  cases w with
  | smallest =>
    simp only [leastExtreme]
    rw [List.getLast?_eq_head?_reverse]
    have hr : (m.map (·.1)).reverse.Pairwise (fun a b => b < a) := List.pairwise_reverse.2 h
    cases hl : (m.map (·.1)).reverse with
    | nil => simp at hl; simpa using hl
    | cons a l =>
      rw [hl, List.pairwise_cons] at hr
      simp only [List.head?_cons]
      have hmem : ∀ k, k ∈ m.map (·.1) ↔ k ∈ a :: l := fun k => by rw [← hl, List.mem_reverse]
      refine ⟨(hmem a).2 (by simp), ?_⟩
      intro k hk hne
      rcases List.mem_cons.1 ((hmem k).1 hk) with rfl | hk
      · exact absurd rfl hne
      · exact hr.1 k hk
  | largest =>
    simp only [leastExtreme]
    cases m with
    | nil => rfl
    | cons a m =>
      simp only [List.map_cons, List.pairwise_cons, List.head?_cons, List.mem_cons, true_or, true_and] at h ⊢
      intro k hk hne
      rcases hk with rfl | hk
      · exact absurd rfl hne
      · exact h.1 k hk

/-- What holds of the map after adding `xs`. -/
structure ExtInv (w : Which) (limit : Nat) (xs : List (Nat × S)) (m : List (Nat × ExtremaSources S)) : Prop where
  sorted : (m.map (·.1)).Pairwise (· < ·)
  len : m.length ≤ limit
  src : ∀ k x, (k, x) ∈ m → x = remember (sourcesOf k xs)
  mem : ∀ k ∈ m.map (·.1), k ∈ xs.map (·.1)
  rest : ∀ v ∈ xs.map (·.1), v ∉ m.map (·.1) → m.length = limit ∧ ∀ k ∈ m.map (·.1), Beats w k v

theorem ext_nil (w : Which) (limit : Nat) : ExtInv w limit ([] : List (Nat × S)) [] :=
  ⟨by simp, by simp, by simp, by simp, by simp⟩

theorem src_addEntry {w : Which} {limit : Nat} {xs : List (Nat × S)} {m : List (Nat × ExtremaSources S)}
    (hi : ExtInv w limit xs m) (v : Nat) (s : S) (hnew : v ∉ m.map (·.1) → v ∉ xs.map (·.1)) (k : Nat) (x : ExtremaSources S)
    (hm : (k, x) ∈ addEntry v s m) : x = remember (sourcesOf k (xs ++ [(v, s)])) := by
  rw [sourcesOf_snoc]
  rcases entry_addEntry v s hi.sorted k x hm with ⟨h1, h2⟩ | ⟨rfl, y, h2, rfl⟩ | ⟨rfl, h2, rfl⟩
  · rw [if_neg (Ne.symm h1), List.append_nil]
    exact hi.src k x h2
  · rw [if_pos rfl, remember_snoc, ← hi.src k y h2]
  · rw [if_pos rfl, remember_snoc, sourcesOf_nil (hnew h2)]
    rfl

/-- One addition. -/
theorem ext_add {w : Which} {limit : Nat} (hl : 0 < limit) {xs : List (Nat × S)} {m : List (Nat × ExtremaSources S)}
    (hi : ExtInv w limit xs m) (v : Nat) (s : S) :
    ∃ m', addTo w limit m v s = .ok m' ∧ ExtInv w limit (xs ++ [(v, s)]) m' := by
  unfold addTo
  have hkeys : ∀ k, k ∈ (xs ++ [(v, s)]).map (·.1) ↔ k ∈ xs.map (·.1) ∨ k = v := fun k => by simp
  by_cases hlt : m.length < limit
  · rw [if_pos hlt]
    have hnew : v ∉ m.map (·.1) → v ∉ xs.map (·.1) := by
      intro h1 h2
      have := (hi.rest v h2 h1).1
      omega
    refine ⟨_, rfl, sorted_addEntry v s hi.sorted, ?_, src_addEntry hi v s hnew, ?_, ?_⟩
    · rw [length_addEntry v s hi.sorted]
      split <;> omega
    · intro k hk
      rw [mem_addEntry] at hk
      rw [hkeys]
      rcases hk with h | h
      · exact Or.inr h
      · exact Or.inl (hi.mem k h)
    · intro u hu hn
      rw [mem_addEntry, not_or] at hn
      rw [hkeys] at hu
      rcases hu with hu | hu
      · have := (hi.rest u hu hn.2).1
        omega
      · exact absurd hu hn.1
  · rw [if_neg hlt]
    have hfull : m.length = limit := by have := hi.len; omega
    have hls := least_spec w hi.sorted
    cases hle : leastExtreme w m with
    | none =>
      rw [hle] at hls
      simp only at hls
      subst hls
      simp at hfull
      omega
    | some least =>
      rw [hle] at hls
      simp only at hls
      obtain ⟨hlm, hlb⟩ := hls
      simp only []
      by_cases hx : lessExtreme w v least = true
      · -- the value is dropped
        rw [if_neg (by simp [hx])]
        rw [lessExtreme_iff] at hx
        have hall : ∀ k ∈ m.map (·.1), Beats w k v := by
          intro k hk
          by_cases hkl : k = least
          · subst hkl; exact hx
          · exact beats_trans (hlb k hk hkl) hx
        have hvn : v ∉ m.map (·.1) := fun h => beats_irrefl (hall v h)
        refine ⟨m, rfl, hi.sorted, hi.len, ?_, ?_, ?_⟩
        · intro k x hkx
          rw [sourcesOf_snoc, if_neg, List.append_nil]
          · exact hi.src k x hkx
          · rintro rfl
            exact hvn (List.mem_map.2 ⟨_, hkx, rfl⟩)
        · intro k hk
          rw [hkeys]
          exact Or.inl (hi.mem k hk)
        · intro u hu hn
          rw [hkeys] at hu
          rcases hu with hu | rfl
          · exact hi.rest u hu hn
          · exact ⟨hfull, hall⟩
      · rw [if_pos (by simpa using hx)]
        rw [lessExtreme_iff] at hx
        have hnew : v ∉ m.map (·.1) → v ∉ xs.map (·.1) := by
          intro h1 h2
          exact hx ((hi.rest v h2 h1).2 least hlm)
        have hsrc := src_addEntry hi v s hnew
        have hlen := length_addEntry v s hi.sorted
        have hsort := sorted_addEntry v s hi.sorted
        by_cases hv : v ∈ m.map (·.1)
        · rw [if_pos hv] at hlen
          rw [if_neg (show ¬ (addEntry v s m).length > limit by omega), if_pos (show (addEntry v s m).length = limit by omega)]
          refine ⟨_, rfl, hsort, by omega, hsrc, ?_, ?_⟩
          · intro k hk
            rw [mem_addEntry] at hk
            rw [hkeys]
            rcases hk with h | h
            · exact Or.inr h
            · exact Or.inl (hi.mem k h)
          · intro u hu hn
            rw [mem_addEntry, not_or] at hn
            rw [hkeys] at hu
            rcases hu with hu | hu
            · obtain ⟨h1, h2⟩ := hi.rest u hu hn.2
              refine ⟨by omega, ?_⟩
              intro k hk
              rw [mem_addEntry] at hk
              rcases hk with rfl | hk
              · exact h2 k hv
              · exact h2 k hk
            · exact absurd hu hn.1
        · rw [if_neg hv] at hlen
          have hvl : v ≠ least := by rintro rfl; exact hv hlm
          have hvb : Beats w v least := by
            rcases beats_total (w := w) hvl with h | h
            · exact h
            · exact absurd h hx
          rw [if_pos (show (addEntry v s m).length > limit by omega)]
          have hmem' : ∀ k, k ∈ (removeEntry least (addEntry v s m)).map (·.1) ↔ k ≠ least ∧ (k = v ∨ k ∈ m.map (·.1)) := by
            intro k
            rw [← mem_addEntry (s := s)]
            unfold removeEntry
            simp only [List.mem_map, List.mem_filter, decide_eq_true_eq]
            constructor
            · rintro ⟨a, ⟨h1, h2⟩, rfl⟩; exact ⟨h2, a, h1, rfl⟩
            · rintro ⟨h1, a, h2, rfl⟩; exact ⟨a, ⟨h2, h1⟩, rfl⟩
          have hlen' : (removeEntry least (addEntry v s m)).length = limit := by
            have hnd : ((addEntry v s m).map (·.1)).Nodup := hsort.imp (fun h => Nat.ne_of_lt h)
            have h1 : ((removeEntry least (addEntry v s m)).map (·.1)).length + 1 = ((addEntry v s m).map (·.1)).length := by
              have h2 : (removeEntry least (addEntry v s m)).map (·.1) = ((addEntry v s m).map (·.1)).erase least := by
                rw [hnd.erase_eq_filter]
                unfold removeEntry
                rw [List.filter_map]
                congr 1
                apply List.filter_congr
                intro x _
                by_cases hx : x.1 = least <;> simp [hx]
              rw [h2, List.length_erase_of_mem ((mem_addEntry v s m least).2 (Or.inr hlm))]
              have : 0 < ((addEntry v s m).map (·.1)).length := by rw [List.length_map]; omega
              omega
            simp only [List.length_map] at h1
            omega
          rw [if_pos hlen']
          refine ⟨_, rfl, ?_, by omega, ?_, ?_, ?_⟩
          · unfold removeEntry
            exact List.Pairwise.sublist ((List.filter_sublist).map _) hsort
          · intro k x hkx
            exact hsrc k x (List.mem_filter.1 hkx).1
          · intro k hk
            rw [hmem'] at hk
            rw [hkeys]
            rcases hk.2 with h | h
            · exact Or.inr h
            · exact Or.inl (hi.mem k h)
          · intro u hu hn
            refine ⟨hlen', ?_⟩
            have hall : ∀ k, k ≠ least ∧ (k = v ∨ k ∈ m.map (·.1)) → Beats w k least := by
              rintro k ⟨h1, rfl | h2⟩
              · exact hvb
              · exact hlb k h2 h1
            intro k hk
            rw [hmem'] at hk
            by_cases hul : u = least
            · subst hul; exact hall k hk
            · rw [hmem'] at hn
              have hun : ¬ (u = v ∨ u ∈ m.map (·.1)) := fun h => hn ⟨hul, h⟩
              rw [not_or] at hun
              rw [hkeys] at hu
              rcases hu with hu | hu
              · have := (hi.rest u hu hun.2).2 least hlm
                exact beats_trans (hall k hk) this
              · exact absurd hu hun.1

/-- The keys are the most extreme values. -/
theorem ext_keys {w : Which} {limit : Nat} {xs : List (Nat × S)} {m : List (Nat × ExtremaSources S)} (hi : ExtInv w limit xs m)
    (k : Nat) : k ∈ m.map (·.1) ↔ IsExtreme w limit (xs.map (·.1)) k := by
  have hnd : (m.map (·.1)).Nodup := hi.sorted.imp (fun h => Nat.ne_of_lt h)
  constructor
  · intro hk
    refine ⟨hi.mem k hk, ?_⟩
    have hsub : (moreExtreme w k (xs.map (·.1))).dedup ⊆ (m.map (·.1)).erase k := by
      intro u hu
      rw [List.mem_dedup, mem_moreExtreme] at hu
      have hne : u ≠ k := by rintro rfl; exact beats_irrefl hu.2
      have hum : u ∈ m.map (·.1) := by
        by_contra hn
        have := (hi.rest u hu.1 hn).2 k hk
        exact beats_irrefl (beats_trans this hu.2)
      exact (List.mem_erase_of_ne hne).2 hum
    have h1 := ((List.nodup_dedup _).subperm hsub).length_le
    rw [List.length_erase_of_mem hk, List.length_map] at h1
    have h2 := hi.len
    have h3 : 0 < m.length := by
      cases m with
      | nil => simp at hk
      | cons a m => simp
    omega
  · rintro ⟨hk, hlt⟩
    by_contra hn
    obtain ⟨h1, h2⟩ := hi.rest k hk hn
    have hsub : m.map (·.1) ⊆ (moreExtreme w k (xs.map (·.1))).dedup := by
      intro u hu
      rw [List.mem_dedup, mem_moreExtreme]
      exact ⟨hi.mem u hu, h2 u hu⟩
    have h3 := (hnd.subperm hsub).length_le
    rw [List.length_map] at h3
    omega

/-! ## Both maps -/

/-- What holds of the pair of maps after adding ranges. -/
def BothInv (limit : Nat) (rs : List (Nat × Nat × S)) (x : Extrema S) : Prop :=
  x.limit = limit ∧ ExtInv .smallest limit (rs.map fun r => (r.1, r.2.2)) x.smallest ∧
    ExtInv .largest limit (rs.map fun r => (r.2.1, r.2.2)) x.largest

theorem both_add {limit : Nat} (hl : 0 < limit) {rs : List (Nat × Nat × S)} {x : Extrema S} (hi : BothInv limit rs x)
    (lo hi' : Nat) (s : S) : ∃ x', x.addRange lo hi' s = .ok x' ∧ BothInv limit (rs ++ [(lo, hi', s)]) x' := by
  obtain ⟨h0, h1, h2⟩ := hi
  obtain ⟨a, ha, ha'⟩ := ext_add hl h1 lo s
  obtain ⟨b, hb, hb'⟩ := ext_add hl h2 hi' s
  refine ⟨{ x with smallest := a, largest := b }, ?_, h0, ?_, ?_⟩
  · simp only [Extrema.addRange, h0, ha, hb, bind, Except.bind]
  · simpa using ha'
  · simpa using hb'

end Verif.Aggregate
