import Verif.Spec.Crox
import Verif.Proofs.Analysis
import Mathlib.Data.Finset.Card
import Mathlib.Data.List.Induction
import Mathlib.Data.List.Sort
import Mathlib.Data.List.Perm.Basic

/-!
# Lanes
-/

namespace Verif.Crox

open Verif Verif.Mm Verif.Decode Verif.Analyze Verif.Spec

/-! ## Thread spans -/

theorem moments_eq (e : LightweightEvent) : moments e = (timestampOf e).map minMax := by
  unfold moments timestampOf
  cases e.payload with
  | integer v => rfl
  | timestamp t => cases t <;> rfl

/-- The moments of a thread. -/
def momentsOn (t : UInt32) (es : List LightweightEvent) : List (Nat × Nat) :=
  (es.filter (fun e => decide (e.threadId = t))).filterMap moments

theorem firsts_eq (t : UInt32) (es : List LightweightEvent) : firstOf t es = ((momentsOn t es).map (·.1)).min?.getD 0 := by
  unfold firstOf momentsOn
  rw [List.map_filterMap]

theorem lasts_eq (t : UInt32) (es : List LightweightEvent) : lastOf t es = ((momentsOn t es).map (·.2)).max?.getD 0 := by
  unfold lastOf momentsOn
  rw [List.map_filterMap]

theorem momentsOn_snoc (t : UInt32) (es : List LightweightEvent) (e : LightweightEvent) :
    momentsOn t (es ++ [e]) = momentsOn t es ++ if e.threadId = t then (moments e).toList else [] := by
  unfold momentsOn
  rw [List.filter_append, List.filterMap_append]
  congr 1
  by_cases h : e.threadId = t
  · simp only [List.filter_cons, h, decide_true, if_true, List.filter_nil, List.filterMap_cons]
    cases moments e <;> rfl
  · simp [h]

theorem timed_iff (t : UInt32) (es : List LightweightEvent) : Timed t es ↔ momentsOn t es ≠ [] := by
  unfold Timed momentsOn
  constructor
  · rintro ⟨e, he, ht, hm⟩ hnil
    rw [List.filterMap_eq_nil_iff] at hnil
    rw [hnil e (List.mem_filter.2 ⟨he, by simp [ht]⟩)] at hm
    cases hm
  · intro h
    obtain ⟨x, hx⟩ := List.exists_mem_of_ne_nil _ h
    obtain ⟨e, he, hm⟩ := List.mem_filterMap.1 hx
    rw [List.mem_filter] at he
    exact ⟨e, he.1, by simpa using he.2, by rw [hm]; rfl⟩

theorem min_snoc (l : List Nat) (x : Nat) : (l ++ [x]).min? = some (match l.min? with
    | some a => min a x
    | none => x) := by
  cases l with
  | nil => rfl
  | cons a l => simp only [List.cons_append, List.min?_cons', List.foldl_append, List.foldl_cons, List.foldl_nil]

theorem max_snoc (l : List Nat) (x : Nat) : (l ++ [x]).max? = some (match l.max? with
    | some a => max a x
    | none => x) := by
  cases l with
  | nil => rfl
  | cons a l => simp only [List.cons_append, List.max?_cons', List.foldl_append, List.foldl_cons, List.foldl_nil]

/-- The spans collected. -/
theorem spans_inv (es : List LightweightEvent) :
    ((threadSpans es).map (·.1)).Nodup ∧
    ∀ t, match lookup t (threadSpans es) with
      | some (a, b) => ((momentsOn t es).map (·.1)).min? = some a ∧ ((momentsOn t es).map (·.2)).max? = some b
      | none => momentsOn t es = [] := by
  induction es using List.reverseRecOn with
  | nil => exact ⟨List.nodup_nil, fun t => rfl⟩
  | append_singleton es e ih =>
    obtain ⟨ih1, ih2⟩ := ih
    have hfold : threadSpans (es ++ [e]) = widen (threadSpans es) e := by simp [threadSpans]
    rw [hfold]
    generalize threadSpans es = m at ih1 ih2
    unfold widen
    cases hts : timestampOf e with
    | none =>
      have hm : moments e = none := by rw [moments_eq, hts]; rfl
      refine ⟨ih1, fun t => ?_⟩
      have := ih2 t
      rw [momentsOn_snoc, hm]
      simpa using this
    | some ts =>
      have hm : moments e = some (minMax ts) := by rw [moments_eq, hts]; rfl
      have h0 := ih2 e.threadId
      cases hl : lookup e.threadId m with
      | none =>
        rw [hl] at h0
        simp only at h0
        simp only []
        refine ⟨keys_nodup_insert _ _ ih1, fun t => ?_⟩
        rw [lookup_insert, momentsOn_snoc, hm]
        by_cases ht : e.threadId = t
        · subst ht
          simp [h0]
        · simp only [if_neg ht, List.append_nil]
          exact ih2 t
      | some x =>
        obtain ⟨a, b⟩ := x
        rw [hl] at h0
        simp only at h0
        simp only []
        refine ⟨keys_nodup_insert _ _ ih1, fun t => ?_⟩
        rw [lookup_insert, momentsOn_snoc, hm]
        by_cases ht : e.threadId = t
        · subst ht
          simp only [if_true, Option.toList_some, List.map_append, List.map_cons, List.map_nil, min_snoc, max_snoc, h0.1, h0.2,
            and_self]
        · simp only [if_neg ht, List.append_nil]
          exact ih2 t

theorem spans_entry {es : List LightweightEvent} {t : UInt32} {a b : Nat} (h : (t, (a, b)) ∈ threadSpans es) :
    a = firstOf t es ∧ b = lastOf t es := by
  obtain ⟨h1, h2⟩ := spans_inv es
  have h3 := h2 t
  rw [lookup_of_mem h1 h] at h3
  simp only at h3
  rw [firsts_eq, lasts_eq, h3.1, h3.2]
  exact ⟨rfl, rfl⟩

theorem spans_keys (es : List LightweightEvent) (t : UInt32) : t ∈ (threadSpans es).map (·.1) ↔ Timed t es := by
  obtain ⟨h1, h2⟩ := spans_inv es
  rw [timed_iff, ← lookup_isSome]
  have h3 := h2 t
  cases hl : lookup t (threadSpans es) with
  | none => rw [hl] at h3; simp only at h3; simp [h3]
  | some x =>
    rw [hl] at h3
    simp only at h3
    simp only [Option.isSome_some, true_iff]
    intro hn
    rw [hn] at h3
    simp at h3

theorem first_le_last {es : List LightweightEvent} {t : UInt32} (h : Timed t es) : firstOf t es ≤ lastOf t es := by
  rw [timed_iff] at h
  rw [firsts_eq, lasts_eq]
  have hx : ∀ x ∈ momentsOn t es, x.1 ≤ x.2 := by
    intro x hx
    obtain ⟨e, he, hm⟩ := List.mem_filterMap.1 hx
    unfold moments at hm
    split at hm
    · cases hm; exact Nat.le_refl _
    · cases hm; exact Nat.le_trans (Nat.min_le_left _ _) (Nat.le_max_left _ _)
    · cases hm
  obtain ⟨x, hm⟩ := List.exists_mem_of_ne_nil _ h
  cases ha : ((momentsOn t es).map (·.1)).min? with
  | none => rw [List.min?_eq_none_iff] at ha; simp at ha; exact absurd ha h
  | some a =>
    cases hb : ((momentsOn t es).map (·.2)).max? with
    | none => rw [List.max?_eq_none_iff] at hb; simp at hb; exact absurd hb h
    | some b =>
      rw [List.min?_eq_some_iff] at ha
      rw [List.max?_eq_some_iff] at hb
      have h1 := ha.2 x.1 (List.mem_map.2 ⟨x, hm, rfl⟩)
      have h2 := hb.2 x.2 (List.mem_map.2 ⟨x, hm, rfl⟩)
      have h3 := hx x hm
      simp only [Option.getD_some]
      omega

/-! ## The loop -/

/-- What holds between iterations: `P` are the threads placed, `C` those whose end has been used. -/
structure LaneInv (st en : UInt32 → Nat) (P C : List UInt32) (m : List (UInt32 × Nat)) (cur : Nat) : Prop where
  keysNodup : (m.map (·.1)).Nodup
  keys : ∀ t, t ∈ m.map (·.1) ↔ t ∈ P
  count : P.length = C.length + cur
  used : ∀ t ∈ C, t ∈ P
  small : ∀ t v, lookup t m = some v → v < cur
  full : ∀ v, v < cur → ∃ t, lookup t m = some v
  last : ∀ y ∈ P, y ∉ C → ∀ z ∈ P, z ≠ y → lookup z m = lookup y m → z ∈ C ∧ en z < st y
  apart : ∀ x ∈ P, ∀ y ∈ P, x ≠ y → lookup x m = lookup y m → en x < st y ∨ en y < st x
  busy : cur = 0 ∨ ∃ (s : Nat) (W : List UInt32), W.Nodup ∧ W.length = cur ∧ ∀ w ∈ W, w ∈ P ∧ st w ≤ s ∧ s ≤ en w

theorem lane_loop (st en : UInt32 → Nat) (starts ends : List (Nat × UInt32)) (P C : List UInt32) (m : List (UInt32 × Nat))
    (cur : Nat) (hi : LaneInv st en P C m cur)
    (hle : ∀ t, t ∈ P ∨ t ∈ starts.map (·.2) → st t ≤ en t)
    (hst : ∀ x ∈ starts, x.1 = st x.2) (hen : ∀ x ∈ ends, x.1 = en x.2)
    (hss : starts.Pairwise (fun a b => a.1 ≤ b.1)) (hes : ends.Pairwise (fun a b => a.1 ≤ b.1))
    (hP : ∀ p ∈ P, ∀ x ∈ starts, st p ≤ x.1)
    (hsn : (P ++ starts.map (·.2)).Nodup) (hcn : (C ++ ends.map (·.2)).Nodup)
    (hperm : ∀ t, t ∈ P ++ starts.map (·.2) ↔ t ∈ C ++ ends.map (·.2)) :
    ∃ m' cur' C', laneLoop ends starts m cur = .ok m' ∧ LaneInv st en (P ++ starts.map (·.2)) C' m' cur' := by
  induction starts generalizing ends P C m cur with
  | nil =>
    refine ⟨m, cur, C, ?_, by simpa using hi⟩
    cases ends with
    | nil => rfl
    | cons a b => cases a; rfl
  | cons x starts ih =>
    obtain ⟨start, thread⟩ := x
    have hx : start = st thread := hst (start, thread) (List.mem_cons_self ..)
    have hlenpc : (P ++ ((start, thread) :: starts).map (·.2)).length = (C ++ ends.map (·.2)).length :=
      ((List.perm_ext_iff_of_nodup hsn hcn).2 hperm).length_eq
    cases ends with
    | nil =>
      exfalso
      have := hi.count
      simp only [List.length_append, List.length_map, List.length_cons, List.length_nil] at hlenpc
      omega
    | cons y ends =>
      obtain ⟨nextEnd, next⟩ := y
      have hy : nextEnd = en next := hen (nextEnd, next) (List.mem_cons_self ..)
      simp only [List.map_cons] at hsn hcn hperm hle ⊢
      have hsn' : (P ++ [thread] ++ starts.map (·.2)).Nodup := by simpa using hsn
      have htP : thread ∉ P := by
        rw [List.nodup_append] at hsn
        intro h
        exact hsn.2.2 thread h thread (by simp) rfl
      have hnC : next ∉ C := by
        rw [List.nodup_append] at hcn
        intro h
        exact hcn.2.2 next h next (by simp) rfl
      have hnolook : lookup thread m = none := by
        cases hl : lookup thread m with
        | none => rfl
        | some v => exact absurd ((hi.keys thread).1 ((lookup_isSome _ _).1 (by rw [hl]; rfl))) htP
      have hthle : st thread ≤ en thread := hle thread (by simp)
      have htC : thread ∉ C := fun h => htP (hi.used _ h)
      have hP' : ∀ p ∈ P ++ [thread], ∀ x ∈ starts, st p ≤ x.1 := by
        intro p hp x hxs
        rcases List.mem_append.1 hp with hp | hp
        · exact hP p hp x (by simp [hxs])
        · simp only [List.mem_singleton] at hp
          subst hp
          rw [← hx]
          exact (List.pairwise_cons.1 hss).1 x hxs
      have hle' : ∀ t, t ∈ P ++ [thread] ∨ t ∈ starts.map (·.2) → st t ≤ en t := by
        intro t ht
        apply hle
        simp only [List.mem_append, List.mem_singleton, List.mem_cons] at ht ⊢
        tauto
      have hkeys' : ∀ v t, t ∈ (insert thread v m).map (·.1) ↔ t ∈ P ++ [thread] := by
        intro v t
        rw [mem_keys_insert, hi.keys]
        simp only [List.mem_append, List.mem_singleton]
        tauto
      have hlk : ∀ v t, t ∈ P → lookup t (insert thread v m) = lookup t m := by
        intro v t ht
        rw [lookup_insert, if_neg]
        rintro rfl
        exact htP ht
      have hlt : ∀ v, lookup thread (insert thread v m) = some v := by intro v; rw [lookup_insert, if_pos rfl]
      simp only [laneLoop]
      by_cases hgt : start > nextEnd
      · rw [if_pos hgt]
        -- `next` is already placed
        have hnP : next ∈ P := by
          have : next ∈ P ++ thread :: starts.map (·.2) := (hperm next).2 (by simp)
          rcases List.mem_append.1 this with h | h
          · exact h
          · exfalso
            have hnle := hle next (Or.inr h)
            rcases List.mem_cons.1 h with h | h
            · subst h; omega
            · obtain ⟨z, hz, hzn⟩ := List.mem_map.1 h
              have h1 := (List.pairwise_cons.1 hss).1 z hz
              have h2 := hst z (by simp [hz])
              rw [hzn] at h2
              simp only at h1
              omega
        cases hln : lookup next m with
        | none =>
          exfalso
          have := (hi.keys next).2 hnP
          rw [← lookup_isSome, hln] at this
          cases this
        | some lane =>
          simp only [Option.getD_some]
          have hsm := hi.small next lane hln
          have hinv : LaneInv st en (P ++ [thread]) (C ++ [next]) (insert thread lane m) cur := by
            refine ⟨keys_nodup_insert _ _ hi.keysNodup, hkeys' lane, ?_, ?_, ?_, ?_, ?_, ?_, ?_⟩
            · have := hi.count
              simp only [List.length_append, List.length_singleton]
              omega
            · intro t ht
              rcases List.mem_append.1 ht with h | h
              · exact List.mem_append_left _ (hi.used t h)
              · simp only [List.mem_singleton] at h; subst h; exact List.mem_append_left _ hnP
            · intro t v hv
              rw [lookup_insert] at hv
              split at hv
              · cases hv; exact hsm
              · exact hi.small t v hv
            · intro v hv
              obtain ⟨t, ht⟩ := hi.full v hv
              refine ⟨t, ?_⟩
              rw [hlk lane t ((hi.keys t).1 ((lookup_isSome _ _).1 (by rw [ht]; rfl))), ht]
            · intro w hw hwC z hz hzw hl
              simp only [List.mem_append, List.mem_singleton, not_or] at hw hwC hz ⊢
              rcases hw with hw | hw
              · rw [hlk lane w hw] at hl
                rcases hz with hz | hz
                · rw [hlk lane z hz] at hl
                  have := hi.last w hw hwC.1 z hz hzw hl
                  exact ⟨Or.inl this.1, this.2⟩
                · exfalso
                  subst hz
                  rw [hlt lane, ← hln] at hl
                  have := hi.last w hw hwC.1 next hnP (fun h => hwC.2 h.symm) hl
                  exact hnC this.1
              · subst hw
                rcases hz with hz | hz
                · rw [hlt lane, hlk lane z hz, ← hln] at hl
                  by_cases hzn : z = next
                  · subst hzn
                    exact ⟨Or.inr rfl, by omega⟩
                  · have := hi.last next hnP hnC z hz hzn hl
                    have hnle := hle next (Or.inl hnP)
                    exact ⟨Or.inl this.1, by omega⟩
                · exact absurd hz hzw
            · intro a ha b hb hab hl
              simp only [List.mem_append, List.mem_singleton] at ha hb
              have hnew : ∀ z ∈ P, lookup z m = some lane → en z < st thread := by
                intro z hz hl
                by_cases hzn : z = next
                · subst hzn; omega
                · have := hi.last next hnP hnC z hz hzn (by rw [hl, hln])
                  have hnle := hle next (Or.inl hnP)
                  omega
              rcases ha with ha | ha
              · rcases hb with hb | hb
                · rw [hlk lane a ha, hlk lane b hb] at hl
                  exact hi.apart a ha b hb hab hl
                · subst hb
                  rw [hlk lane a ha, hlt lane] at hl
                  exact Or.inl (hnew a ha hl)
              · subst ha
                rcases hb with hb | hb
                · rw [hlk lane b hb, hlt lane] at hl
                  exact Or.inr (hnew b hb hl.symm)
                · exact absurd hb.symm hab
            · rcases hi.busy with h | ⟨s, W, h1, h2, h3⟩
              · exact Or.inl h
              · exact Or.inr ⟨s, W, h1, h2, fun w hw => ⟨List.mem_append_left _ (h3 w hw).1, (h3 w hw).2⟩⟩
          obtain ⟨m', cur', C', hm', hi'⟩ := ih ends (P ++ [thread]) (C ++ [next]) (insert thread lane m) cur hinv hle'
            (fun z hz => hst z (by simp [hz])) (fun z hz => hen z (by simp [hz])) (List.pairwise_cons.1 hss).2
            (List.pairwise_cons.1 hes).2 hP' hsn' (by simpa using hcn) (by
              intro t
              have := hperm t
              simp only [List.mem_append, List.mem_cons, List.not_mem_nil, false_or, or_false, or_assoc] at this ⊢
              exact this)
          exact ⟨m', cur', C', hm', by simpa using hi'⟩
      · rw [if_neg hgt]
        have hinv : LaneInv st en (P ++ [thread]) C (insert thread cur m) (cur + 1) := by
          refine ⟨keys_nodup_insert _ _ hi.keysNodup, hkeys' cur, ?_, ?_, ?_, ?_, ?_, ?_, ?_⟩
          · have := hi.count
            simp only [List.length_append, List.length_singleton]
            omega
          · intro t ht
            exact List.mem_append_left _ (hi.used t ht)
          · intro t v hv
            rw [lookup_insert] at hv
            split at hv
            · cases hv; omega
            · have := hi.small t v hv; omega
          · intro v hv
            by_cases hvc : v = cur
            · subst hvc; exact ⟨thread, hlt _⟩
            · obtain ⟨t, ht⟩ := hi.full v (by omega)
              refine ⟨t, ?_⟩
              rw [hlk cur t ((hi.keys t).1 ((lookup_isSome _ _).1 (by rw [ht]; rfl))), ht]
          · intro w hw hwC z hz hzw hl
            simp only [List.mem_append, List.mem_singleton] at hw hz
            rcases hw with hw | hw
            · rw [hlk cur w hw] at hl
              rcases hz with hz | hz
              · rw [hlk cur z hz] at hl
                exact hi.last w hw hwC z hz hzw hl
              · exfalso
                subst hz
                rw [hlt cur] at hl
                have := hi.small w cur hl.symm
                omega
            · subst hw
              rcases hz with hz | hz
              · exfalso
                rw [hlt cur, hlk cur z hz] at hl
                have := hi.small z cur hl
                omega
              · exact absurd hz hzw
          · intro a ha b hb hab hl
            simp only [List.mem_append, List.mem_singleton] at ha hb
            rcases ha with ha | ha
            · rcases hb with hb | hb
              · rw [hlk cur a ha, hlk cur b hb] at hl
                exact hi.apart a ha b hb hab hl
              · exfalso
                subst hb
                rw [hlk cur a ha, hlt cur] at hl
                have := hi.small a cur hl
                omega
            · subst ha
              rcases hb with hb | hb
              · exfalso
                rw [hlk cur b hb, hlt cur] at hl
                have := hi.small b cur hl.symm
                omega
              · exact absurd hb.symm hab
          · right
            refine ⟨start, (P.filter (fun t => decide (t ∉ C))) ++ [thread], ?_, ?_, ?_⟩
            · have hPn : P.Nodup := (List.nodup_append.1 hsn).1
              rw [List.nodup_append]
              refine ⟨hPn.filter _, by simp, ?_⟩
              intro a ha b hb
              simp only [List.mem_singleton] at hb
              subst hb
              rintro rfl
              exact htP (List.mem_filter.1 ha).1
            · have hPn : P.Nodup := (List.nodup_append.1 hsn).1
              have hCn : C.Nodup := (List.nodup_append.1 hcn).1
              have hsplit : (P.filter (fun t => decide (t ∉ C))).length + (P.filter (fun t => decide (t ∈ C))).length = P.length := by
                have := List.length_eq_length_filter_add (l := P) (fun t => decide (t ∈ C))
                have h2 : P.filter (fun t => decide (t ∉ C)) = P.filter (fun t => !decide (t ∈ C)) := by
                  apply List.filter_congr
                  intro t _
                  simp
                rw [h2]
                omega
              have hCP : (P.filter (fun t => decide (t ∈ C))).length = C.length := by
                apply List.Perm.length_eq
                rw [List.perm_ext_iff_of_nodup (hPn.filter _) hCn]
                intro t
                rw [List.mem_filter]
                simp only [decide_eq_true_eq]
                exact ⟨fun h => h.2, fun h => ⟨hi.used t h, h⟩⟩
              have := hi.count
              simp only [List.length_append, List.length_singleton]
              omega
            · intro w hw
              rcases List.mem_append.1 hw with hw | hw
              · rw [List.mem_filter] at hw
                simp only [decide_eq_true_eq] at hw
                have hwE : w ∈ C ++ next :: ends.map (·.2) := (hperm w).1 (List.mem_append_left _ hw.1)
                have hwge : nextEnd ≤ en w := by
                  rcases List.mem_append.1 hwE with h | h
                  · exact absurd h hw.2
                  · rcases List.mem_cons.1 h with h | h
                    · subst h; omega
                    · obtain ⟨z, hz, hzw⟩ := List.mem_map.1 h
                      have h1 := (List.pairwise_cons.1 hes).1 z hz
                      have h2 := hen z (by simp [hz])
                      rw [hzw] at h2
                      simp only at h1
                      omega
                exact ⟨List.mem_append_left _ hw.1, hP w hw.1 _ (List.mem_cons_self ..), by omega⟩
              · simp only [List.mem_singleton] at hw
                subst hw
                exact ⟨by simp, by omega, by omega⟩
        obtain ⟨m', cur', C', hm', hi'⟩ := ih ((nextEnd, next) :: ends) (P ++ [thread]) C (insert thread cur m) (cur + 1) hinv hle'
          (fun z hz => hst z (by simp [hz])) hen (List.pairwise_cons.1 hss).2 hes hP' hsn' hcn (by
            intro t
            have := hperm t
            simp only [List.map_cons, List.mem_append, List.mem_cons, List.not_mem_nil, false_or, or_false, or_assoc] at this ⊢
            exact this)
        exact ⟨m', cur', C', hm', by simpa using hi'⟩

theorem lane_init (st en : UInt32 → Nat) : LaneInv st en [] [] [] 0 := by
  refine ⟨List.nodup_nil, by simp, rfl, by simp, ?_, by simp, by simp, by simp, Or.inl rfl⟩
  intro t v h
  simp [lookup] at h

/-- The lanes of a profile. -/
theorem lanes_ok {es : List LightweightEvent} {sortEnds sortStarts : List (Nat × UInt32) → List (Nat × UInt32)}
    (hE : SortsByTime sortEnds) (hS : SortsByTime sortStarts) :
    ∃ m cur P C, laneMapping true sortEnds sortStarts es = .ok m ∧ LaneInv (fun t => firstOf t es) (fun t => lastOf t es) P C m cur ∧
      ∀ t, t ∈ P ↔ Timed t es := by
  obtain ⟨hn, -⟩ := spans_inv es
  obtain ⟨hs, hss⟩ := hS ((threadSpans es).map fun x => (x.2.1, x.1))
  obtain ⟨he, hes⟩ := hE ((threadSpans es).map fun x => (x.2.2, x.1))
  have hl : laneMapping true sortEnds sortStarts es =
    laneLoop (sortEnds ((threadSpans es).map fun x => (x.2.2, x.1))) (sortStarts ((threadSpans es).map fun x => (x.2.1, x.1))) [] 0 := rfl
  rw [hl]
  generalize sortStarts ((threadSpans es).map fun x => (x.2.1, x.1)) = starts at hs hss ⊢
  generalize sortEnds ((threadSpans es).map fun x => (x.2.2, x.1)) = ends at he hes ⊢
  have h1 : (starts.map (·.2)).Perm ((threadSpans es).map (·.1)) := by
    have := hs.map (fun x : Nat × UInt32 => x.2)
    rwa [List.map_map] at this
  have h2 : (ends.map (·.2)).Perm ((threadSpans es).map (·.1)) := by
    have := he.map (fun x : Nat × UInt32 => x.2)
    rwa [List.map_map] at this
  have hmem : ∀ t, t ∈ starts.map (·.2) ↔ Timed t es := fun t => by rw [h1.mem_iff, spans_keys]
  obtain ⟨m, cur, C, hm, hi⟩ := lane_loop (fun t => firstOf t es) (fun t => lastOf t es) starts ends [] [] [] 0 (lane_init _ _)
    (by
      intro t ht
      rcases ht with h | h
      · simp at h
      · exact first_le_last ((hmem t).1 h))
    (by
      intro x hx
      obtain ⟨⟨t, a, b⟩, hy, rfl⟩ := List.mem_map.1 (hs.mem_iff.1 hx)
      exact (spans_entry hy).1)
    (by
      intro x hx
      obtain ⟨⟨t, a, b⟩, hy, rfl⟩ := List.mem_map.1 (he.mem_iff.1 hx)
      exact (spans_entry hy).2)
    hss hes (by simp) (by simpa using h1.nodup_iff.2 hn) (by simpa using h2.nodup_iff.2 hn)
    (by intro t; simp only [List.nil_append]; rw [h1.mem_iff, h2.mem_iff])
  exact ⟨m, cur, _, C, hm, hi, by simpa using hmem⟩

/-- Sorting functions exist. -/
theorem sorts_insertion : SortsByTime (fun l => l.insertionSort (fun a b => a.1 ≤ b.1)) := by
  intro l
  haveI : IsTotal (Nat × UInt32) (fun a b => a.1 ≤ b.1) := ⟨fun a b => Nat.le_total _ _⟩
  haveI : IsTrans (Nat × UInt32) (fun a b => a.1 ≤ b.1) := ⟨fun a b c => Nat.le_trans⟩
  exact ⟨List.perm_insertionSort _ _, List.pairwise_insertionSort _ _⟩

/-! ## Micros -/

theorem asMicros_eq (n : Nat) : asMicros n = n / 1000 := by
  unfold asMicros
  omega

/-! ## Search -/

theorem findSub_some {pat s : Bytes} {i : Nat} (h : findSub pat s = some i) :
    i + pat.length ≤ s.length ∧ (s.drop i).take pat.length = pat ∧
      ∀ j, j < i → (s.drop j).take pat.length ≠ pat := by
  induction s generalizing i with
  | nil =>
    simp only [findSub] at h
    split at h
    · rename_i hp; cases h; subst hp; simp
    · cases h
  | cons b s ih =>
    simp only [findSub] at h
    split at h
    · rename_i hp
      cases h
      refine ⟨?_, hp, by simp⟩
      have := congrArg List.length hp
      rw [List.length_take] at this
      omega
    · rename_i hp
      rw [Option.map_eq_some_iff] at h
      obtain ⟨k, hk, rfl⟩ := h
      obtain ⟨h1, h2, h3⟩ := ih hk
      refine ⟨by simp only [List.length_cons]; omega, h2, ?_⟩
      intro j hj
      cases j with
      | zero => exact hp
      | succ j => exact h3 j (by omega)

theorem findSub_none {pat s : Bytes} (h : findSub pat s = none) : ∀ j, j ≤ s.length → (s.drop j).take pat.length ≠ pat := by
  induction s with
  | nil =>
    simp only [findSub] at h
    split at h
    · cases h
    · rename_i hp
      intro j hj hh
      simp at hh
      exact hp hh
  | cons b s ih =>
    simp only [findSub] at h
    split at h
    · cases h
    · rename_i hp
      rw [Option.map_eq_none_iff] at h
      intro j hj
      cases j with
      | zero => exact hp
      | succ j => exact ih h j (by simpa using hj)

end Verif.Crox
