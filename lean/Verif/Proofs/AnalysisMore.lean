import Verif.Proofs.Nesting
import Mathlib.Data.List.Perm.Basic
import Mathlib.Algebra.BigOperators.Group.List.Basic

/-!
# Artifact sizes, absence of panics, total time, interleavings
-/

namespace Verif.Analyze

open Verif Verif.Mm Verif.Decode Verif.Spec

/-! ## Artifact sizes -/

theorem bytesLt_iff (a b : Bytes) : bytesLt a b = true ↔ a < b := by
  induction a generalizing b with
  | nil =>
    cases b with
    | nil => simp [bytesLt]
    | cons y b => simp [bytesLt]
  | cons x a ih =>
    cases b with
    | nil => simp [bytesLt]
    | cons y b =>
      simp only [bytesLt]
      rw [List.cons_lt_cons_iff]
      split
      · rename_i h; simp [h]
      · rename_i h
        split
        · rename_i h'
          simp only [Bool.false_eq_true, false_iff, not_or, not_and]
          exact ⟨h, fun heq => absurd (heq ▸ h') (UInt8.lt_irrefl _)⟩
        · rename_i h'
          have : x = y := UInt8.le_antisymm (UInt8.not_lt.1 h') (UInt8.not_lt.1 h)
          simp [this, ih]

theorem bytes_trichotomy {a b : Bytes} (h1 : a ≠ b) (h2 : ¬ a < b) : b < a := by
  induction a generalizing b with
  | nil =>
    cases b with
    | nil => exact absurd rfl h1
    | cons y b => exact absurd (by simp) h2
  | cons x a ih =>
    cases b with
    | nil => simp
    | cons y b =>
      rw [List.cons_lt_cons_iff] at h2 ⊢
      simp only [not_or, not_and] at h2
      by_cases hxy : x = y
      · subst hxy
        right
        exact ⟨rfl, ih (fun h => h1 (by rw [h])) (h2.2 rfl)⟩
      · left
        rcases UInt8.lt_or_lt_of_ne hxy with h | h
        · exact absurd h h2.1
        · exact h

theorem addU64_ok {checks : Bool} {a b c : Nat} (h : addU64 checks a b = .ok c) :
    c = (a + b) % 2 ^ 64 ∧ (checks = true → a + b < 2 ^ 64) := by
  unfold addU64 at h
  split at h
  · rename_i hlt; cases h; exact ⟨(Nat.mod_eq_of_lt hlt).symm, fun _ => hlt⟩
  · cases checks with
    | true => cases h
    | false => cases h; exact ⟨rfl, fun h => by cases h⟩

theorem addU64_succeeds {checks : Bool} {a b : Nat} (h : checks = false ∨ a + b < 2 ^ 64) : ∃ c, addU64 checks a b = .ok c := by
  unfold addU64
  split
  · exact ⟨_, rfl⟩
  · rename_i hlt
    rcases h with rfl | h
    · exact ⟨_, rfl⟩
    · exact absurd h hlt

/-- Adding to the sorted map. -/
theorem addArtifact_ok {checks : Bool} {l : Bytes} {v : Nat} {m m' : List (Bytes × Nat)}
    (hs : (m.map (·.1)).Pairwise (· < ·)) (h : addArtifact checks l v m = .ok m') :
    (m'.map (·.1)).Pairwise (· < ·) ∧ (∀ k, k ∈ m'.map (·.1) ↔ k = l ∨ k ∈ m.map (·.1)) ∧
    (∀ k, lookup k m' = if l = k then some (((lookup l m).getD 0 + v) % 2 ^ 64) else lookup k m) ∧
    (checks = true → (lookup l m).getD 0 + v < 2 ^ 64) := by
  induction m generalizing m' with
  | nil =>
    simp only [addArtifact] at h
    cases h1 : addU64 checks 0 v with
    | error f => rw [h1] at h; cases h
    | ok s =>
      rw [h1] at h; cases h
      obtain ⟨e1, e2⟩ := addU64_ok h1
      refine ⟨by simp, by simp, ?_, by simpa [lookup] using e2⟩
      intro k
      simp only [lookup, e1]
      split <;> simp
  | cons x m ih =>
    obtain ⟨k0, a⟩ := x
    simp only [List.map_cons, List.pairwise_cons] at hs
    simp only [addArtifact] at h
    split at h
    · rename_i hk
      subst hk
      cases h1 : addU64 checks a v with
      | error f => rw [h1] at h; cases h
      | ok s =>
        rw [h1] at h; cases h
        obtain ⟨e1, e2⟩ := addU64_ok h1
        refine ⟨by simpa using hs, by simp, ?_, by simpa [lookup] using e2⟩
        intro k
        simp only [lookup, e1]
        split <;> simp
    · rename_i hk
      split at h
      · rename_i hlt
        rw [bytesLt_iff] at hlt
        cases h1 : addU64 checks 0 v with
        | error f => rw [h1] at h; cases h
        | ok s =>
          rw [h1] at h; cases h
          obtain ⟨e1, e2⟩ := addU64_ok h1
          have hnot : l ∉ m.map (·.1) := fun hm => absurd (List.lt_trans hlt (hs.1 l hm)) (List.lt_irrefl l)
          have hlook : lookup l m = none := by
            cases hl : lookup l m with
            | none => rfl
            | some y => exact absurd ((lookup_isSome l m).1 (by rw [hl]; rfl)) hnot
          have hlook2 : lookup l ((k0, a) :: m) = none := by simp only [lookup, if_neg hk, hlook]
          refine ⟨?_, by simp, ?_, by rw [hlook2]; simpa using e2⟩
          · simp only [List.map_cons, List.pairwise_cons, List.mem_cons]
            refine ⟨?_, hs⟩
            rintro k (rfl | hm)
            · exact hlt
            · exact List.lt_trans hlt (hs.1 k hm)
          · intro k
            rw [hlook2]
            rw [lookup.eq_def]
            simp only [e1]
            split <;> simp
      · rename_i hlt
        rw [bytesLt_iff] at hlt
        cases h1 : addArtifact checks l v m with
        | error f => rw [h1] at h; cases h
        | ok m2 =>
          rw [h1] at h; cases h
          obtain ⟨i1, i2, i3, i4⟩ := ih hs.2 h1
          have hgt : k0 < l := bytes_trichotomy (Ne.symm hk) hlt
          have hlook2 : lookup l ((k0, a) :: m) = lookup l m := by simp only [lookup, if_neg hk]
          refine ⟨?_, ?_, ?_, by rw [hlook2]; exact i4⟩
          · simp only [List.map_cons, List.pairwise_cons]
            refine ⟨?_, i1⟩
            intro k hm
            rcases (i2 k).1 hm with rfl | hm
            · exact hgt
            · exact hs.1 k hm
          · intro k
            simp only [List.map_cons, List.mem_cons, i2]
            tauto
          · intro k
            rw [hlook2]
            simp only [lookup, i3]
            by_cases hk0 : k0 = k
            · rw [if_pos hk0, if_pos hk0, if_neg]
              rintro rfl; exact hk hk0
            · rw [if_neg hk0, if_neg hk0]

theorem addArtifact_succeeds {checks : Bool} {l : Bytes} {v : Nat} (m : List (Bytes × Nat))
    (h : checks = false ∨ (lookup l m).getD 0 + v < 2 ^ 64) : ∃ m', addArtifact checks l v m = .ok m' := by
  induction m with
  | nil =>
    simp only [addArtifact]
    obtain ⟨c, hc⟩ := addU64_succeeds (checks := checks) (a := 0) (b := v) (by simpa [lookup] using h)
    rw [hc]
    exact ⟨_, rfl⟩
  | cons x m ih =>
    obtain ⟨k0, a⟩ := x
    simp only [addArtifact]
    split
    · rename_i hk
      obtain ⟨c, hc⟩ := addU64_succeeds (checks := checks) (a := a) (b := v) (by simpa [lookup, hk] using h)
      rw [hc]
      exact ⟨_, rfl⟩
    · rename_i hk
      split
      · obtain ⟨c, hc⟩ := addU64_succeeds (checks := checks) (a := 0) (b := v) (by
          rcases h with h | h
          · exact Or.inl h
          · right; omega)
        rw [hc]
        exact ⟨_, rfl⟩
      · obtain ⟨m', hm'⟩ := ih (by simpa [lookup, hk] using h)
        rw [hm']
        exact ⟨_, rfl⟩

theorem artifactTotal_cons (l : Bytes) (e : Event) (es : List Event) :
    artifactTotal l (e :: es) = artifactTotal l es + if isArtifact l e then intOf e else 0 := by
  unfold artifactTotal
  rw [List.filter_cons]
  split <;> simp; omega

/-- The artifact sizes after a stream. -/
structure ArtInv (checks : Bool) (es : List Event) (m : List (Bytes × Nat)) : Prop where
  sorted : (m.map (·.1)).Pairwise (· < ·)
  keys : ∀ l, l ∈ m.map (·.1) ↔ ∃ e ∈ es, isArtifact l e = true
  vals : ∀ l, (lookup l m).getD 0 = artifactTotal l es % 2 ^ 64
  bound : checks = true → ∀ l, artifactTotal l es < 2 ^ 64

theorem isArtifact_iff {l : Bytes} {e : Event} : isArtifact l e = true ↔
    (∃ v, e.payload = .integer v) ∧ e.label = l ∧ e.eventKind = utf8 "ArtifactSize" := by
  unfold isArtifact
  cases h : e.payload with
  | integer v => simp [hasLabel, hasKind]
  | timestamp t => simp

theorem step_artifacts {checks : Bool} {st st' : State} {e : Event} (hs : step checks st e = .ok st') :
    if isArtifact e.label e = true then addArtifact checks e.label (intOf e) st.artifactSizes = .ok st'.artifactSizes
    else st'.artifactSizes = st.artifactSizes := by
  cases hp : e.payload with
  | timestamp ts =>
    have hna : ¬ isArtifact e.label e = true := by
      rw [isArtifact_iff]; rintro ⟨⟨v, hv⟩, -⟩; rw [hp] at hv; cases hv
    rw [if_neg hna]
    cases ts with
    | interval s t => exact (step_interval (times_some.2 hp) hs).2.choose_spec.2.2.1
    | instant s =>
      unfold step at hs
      simp only [hp] at hs
      split at hs
      · change (record e.label (fun data => .ok (hit data)) st.queryData >>= _) = _ at hs
        cases h2 : record e.label (fun data => .ok (hit data)) st.queryData with
        | error f => rw [h2] at hs; cases hs
        | ok m2 => rw [h2] at hs; cases hs; rfl
      · cases hs; rfl
  | integer v =>
    unfold step at hs
    simp only [hp] at hs
    split at hs
    · rename_i hk
      rw [if_pos (isArtifact_iff.2 ⟨⟨v, hp⟩, rfl, hk⟩)]
      have : intOf e = v := by unfold intOf; rw [hp]
      rw [this]
      cases h2 : addArtifact checks e.label v st.artifactSizes with
      | error f => rw [h2] at hs; cases hs
      | ok a => rw [h2] at hs; cases hs; rfl
    · rename_i hk
      rw [if_neg (fun h => hk (isArtifact_iff.1 h).2.2)]
      cases hs; rfl

theorem artInv_run {checks : Bool} {es : List Event} {st : State} (h : run checks es = .ok st) :
    ArtInv checks es st.artifactSizes := by
  induction es generalizing st with
  | nil =>
    cases h
    exact ⟨by simp, by simp, by simp [lookup, artifactTotal], by simp [artifactTotal]⟩
  | cons e es ih =>
    simp only [run] at h
    cases hr : run checks es with
    | error f => rw [hr] at h; cases h
    | ok st0 =>
      rw [hr] at h
      change step checks st0 e = _ at h
      have hi := ih hr
      have hs := step_artifacts h
      split at hs
      · rename_i ha
        obtain ⟨a1, a2, a3, a4⟩ := addArtifact_ok hi.sorted hs
        have hother : ∀ l, isArtifact l e = true ↔ l = e.label := by
          intro l
          obtain ⟨b1, b2, b3⟩ := isArtifact_iff.1 ha
          rw [isArtifact_iff]
          constructor
          · rintro ⟨-, h, -⟩; exact h.symm
          · rintro rfl; exact ⟨b1, rfl, b3⟩
        refine ⟨a1, ?_, ?_, ?_⟩
        · intro l
          rw [a2, hi.keys]
          simp only [List.mem_cons, exists_eq_or_imp, hother]
        · intro l
          rw [a3, artifactTotal_cons]
          simp only [hother]
          by_cases hl : e.label = l
          · subst hl
            have := hi.vals e.label
            simp only [if_true, Option.getD_some]
            rw [this, Nat.mod_add_mod]
          · rw [if_neg hl, if_neg (Ne.symm hl)]; simpa using hi.vals l
        · intro hc l
          rw [artifactTotal_cons]
          simp only [hother]
          split
          · rename_i hl
            subst hl
            have h1 := a4 hc
            rw [hi.vals, Nat.mod_eq_of_lt (hi.bound hc _)] at h1
            exact h1
          · simpa using hi.bound hc l
      · rename_i ha
        have hother : ∀ l, ¬ isArtifact l e = true := by
          intro l hl
          obtain ⟨b1, b2, b3⟩ := isArtifact_iff.1 hl
          exact ha (isArtifact_iff.2 ⟨b1, rfl, b3⟩)
        rw [hs]
        refine ⟨hi.sorted, ?_, ?_, ?_⟩
        · intro l
          rw [hi.keys]
          simp only [List.mem_cons, exists_eq_or_imp, hother, Bool.false_eq_true, false_or]
        · intro l
          rw [artifactTotal_cons, if_neg (hother l)]; exact hi.vals l
        · intro hc l
          rw [artifactTotal_cons, if_neg (hother l)]; exact hi.bound hc l

/-! ## No panic on properly nested streams -/

theorem subtractParent_succeeds {stack : List Event} {d : Nat} {m : List (Bytes × QueryData)}
    (h : ∀ p, stack.head? = some p → ∃ b, subtractFrom p.eventKind d (dataOf p.label m) = .ok b) :
    ∃ m', subtractParent stack d m = .ok m' := by
  cases stack with
  | nil => exact ⟨m, rfl⟩
  | cons p ps =>
    obtain ⟨b, hb⟩ := h p rfl
    unfold dataOf at hb
    refine ⟨insert p.label b m, ?_⟩
    simp only [subtractParent, record, hb]
    rfl

theorem run_succeeds {checks : Bool} {es : List Event} (hn : ProperlyNested es)
    (ha : checks = false ∨ ∀ l, artifactTotal l es < 2 ^ 64) : ∃ st, run checks es = .ok st := by
  induction es with
  | nil => exact ⟨_, rfl⟩
  | cons e es ih =>
    obtain ⟨he, hea, hes⟩ := nested_cons hn
    obtain ⟨st, hst⟩ := ih hes (by
      rcases ha with h | h
      · exact Or.inl h
      · right
        intro l
        have := h l
        rw [artifactTotal_cons] at this
        omega)
    have hi := inv_run hst
    have hart := artInv_run hst
    simp only [run, hst]
    change ∃ st', step checks st e = .ok st'
    cases ht : times e with
    | some x =>
      obtain ⟨s, t⟩ := x
      have hii : isInterval e = true := isInterval_iff.2 ⟨s, t, ht⟩
      obtain ⟨m1, hm1⟩ := subtractParent_succeeds (stack := popStack e.payload (stackOf e.threadId es)) (d := t - s)
        (m := st.queryData) (by
          intro p hp
          have hsp : stackParent e es = some p := by unfold stackParent; rw [if_pos hii, hp]
          have hd := hi.data p.label
          have hl : hasLabel p.label p = true := by simp [hasLabel]
          apply subtractFrom_succeeds
          · have h1 := subs_room hn (hasLabel p.label)
            rw [hsp, any_some, hl, len_of_times ht] at h1
            have h2 := hd.self
            simp only [if_true] at h1
            omega
          · intro hk
            have h1 := subs_room hn (fun e => hasLabel p.label e && isHash e)
            rw [hsp, any_some] at h1
            simp only [hl, isHash_iff.2 hk, len_of_times ht, Bool.and_self, if_true] at h1
            have h2 := hd.hash
            omega
          · intro hk
            have h1 := subs_room hn (fun e => hasLabel p.label e && isLoad e)
            rw [hsp, any_some] at h1
            simp only [hl, isLoad_iff.2 hk, len_of_times ht, Bool.and_self, if_true] at h1
            have h2 := hd.load
            omega)
      exact step_interval_succeeds ht (he s t ht) (by rw [hi.threads, threadSpec_getD]; exact hm1)
    | none =>
      unfold step
      cases hp : e.payload with
      | timestamp ts =>
        cases ts with
        | interval a b => rw [times_some.2 hp] at ht; cases ht
        | instant a =>
          simp only []
          split
          · exact ⟨_, rfl⟩
          · exact ⟨_, rfl⟩
      | integer v =>
        simp only []
        split
        · rename_i hk
          have hia : isArtifact e.label e = true := isArtifact_iff.2 ⟨⟨v, hp⟩, rfl, hk⟩
          obtain ⟨m', hm'⟩ := addArtifact_succeeds (checks := checks) (l := e.label) (v := v) st.artifactSizes (by
            rcases ha with h | h
            · exact Or.inl h
            · right
              have h1 := h e.label
              rw [artifactTotal_cons, if_pos hia] at h1
              have : intOf e = v := by unfold intOf; rw [hp]
              rw [hart.vals, Nat.mod_eq_of_lt (by omega)]
              omega)
          rw [hm']
          exact ⟨_, rfl⟩
        · exact ⟨_, rfl⟩

/-! ## Total time -/

theorem startsOf_cons (t : UInt32) (e : Event) (es : List Event) :
    startsOf t (e :: es) = (if e.threadId = t then ((times e).map (·.1)).toList else []) ++ startsOf t es := by
  unfold startsOf
  rw [List.filterMap_cons]
  split
  · rename_i h
    split at h
    · rw [if_pos (by assumption), h]; rfl
    · rw [if_neg (by assumption)]; rfl
  · rename_i b h
    split at h
    · rw [if_pos (by assumption), h]; rfl
    · cases h

theorem endsOf_cons (t : UInt32) (e : Event) (es : List Event) :
    endsOf t (e :: es) = (if e.threadId = t then ((times e).map (·.2)).toList else []) ++ endsOf t es := by
  unfold endsOf
  rw [List.filterMap_cons]
  split
  · rename_i h
    split at h
    · rw [if_pos (by assumption), h]; rfl
    · rw [if_neg (by assumption)]; rfl
  · rename_i b h
    split at h
    · rw [if_pos (by assumption), h]; rfl
    · cases h

theorem spanOf_eq (t : UInt32) (es : List Event) :
    (startsOf t es).min? = (spanOf t es).map (·.1) ∧ (endsOf t es).max? = (spanOf t es).map (·.2) := by
  induction es with
  | nil => simp [startsOf, endsOf, spanOf]
  | cons e es ih =>
    obtain ⟨ih1, ih2⟩ := ih
    rw [startsOf_cons, endsOf_cons]
    simp only [spanOf]
    by_cases ht : e.threadId = t
    · simp only [if_pos ht]
      cases hu : times e with
      | none => simpa using ⟨ih1, ih2⟩
      | some x =>
        obtain ⟨s, u⟩ := x
        simp only [Option.map_some, Option.toList_some, List.cons_append, List.nil_append]
        rw [List.min?_cons, List.max?_cons, ih1, ih2]
        cases spanOf t es with
        | none => simp
        | some y => simp [Nat.min_comm, Nat.max_comm]
    · simp only [if_neg ht]
      simpa using ⟨ih1, ih2⟩

theorem spanOf_le {t : UInt32} {es : List Event} (h : ∀ e ∈ es, Forward e) {a b : Nat} (hs : spanOf t es = some (a, b)) :
    a ≤ b := by
  induction es generalizing a b with
  | nil => simp [spanOf] at hs
  | cons e es ih =>
    have ih := fun a b => @ih (fun x hx => h x (by simp [hx])) a b
    have he := h e (by simp)
    simp only [spanOf] at hs
    split at hs
    · split at hs
      · rename_i s u hu
        have := he s u hu
        split at hs
        · cases hs; exact this
        · rename_i a' b' hab
          cases hs
          have := ih a' b' hab
          omega
      · exact ih a b hs
    · exact ih a b hs

theorem spanOf_isSome {t : UInt32} {es : List Event} : (spanOf t es).isSome ↔ t ∈ threadsOf es := by
  unfold threadsOf
  rw [List.mem_toFinset]
  induction es with
  | nil => simp [spanOf]
  | cons e es ih =>
    simp only [spanOf, List.filter_cons]
    cases hu : times e with
    | none =>
      have : isInterval e = false := by unfold isInterval; rw [hu]; rfl
      simp only [this, Bool.false_eq_true, if_false, ite_self]
      exact ih
    | some x =>
      obtain ⟨s, u⟩ := x
      have : isInterval e = true := by unfold isInterval; rw [hu]; rfl
      simp only [this, if_true, List.map_cons, List.mem_cons]
      by_cases ht : e.threadId = t
      · rw [if_pos ht]
        cases spanOf t es <;> simp [ht]
      · rw [if_neg ht, ih]
        simp [Ne.symm ht]

theorem totalTime_ok {ts : List (UInt32 × PerThread)} (h : ∀ x ∈ ts, x.2.start ≤ x.2.stop) :
    totalTime ts = .ok (ts.map fun x => x.2.stop - x.2.start).sum := by
  induction ts with
  | nil => rfl
  | cons x ts ih =>
    obtain ⟨t, p⟩ := x
    have h1 := h (t, p) (by simp)
    simp only [totalTime, if_pos h1, ih (fun y hy => h y (by simp [hy]))]
    rfl

theorem total_of_inv {es : List Event} {st : State} (hi : Inv es st) :
    totalTime st.threads = .ok (∑ t ∈ threadsOf es, spanLength t es) := by
  have hval : ∀ x ∈ st.threads, threadSpec x.1 es = some x.2 := by
    intro x hx
    rw [← hi.threads]
    exact lookup_of_mem hi.threadKeys hx
  rw [totalTime_ok]
  · congr 1
    have hkeys : threadsOf es = (st.threads.map (·.1)).toFinset := by
      ext t
      rw [← spanOf_isSome, List.mem_toFinset, ← lookup_isSome, hi.threads]
      unfold threadSpec
      cases spanOf t es <;> simp
    rw [hkeys, List.sum_toFinset _ hi.threadKeys, List.map_map]
    congr 1
    apply List.map_congr_left
    intro x hx
    have := hval x hx
    unfold threadSpec at this
    rw [Option.map_eq_some_iff] at this
    obtain ⟨y, hy, hxy⟩ := this
    simp only [Function.comp]
    unfold spanLength
    rw [(spanOf_eq x.1 es).1, (spanOf_eq x.1 es).2, hy, ← hxy]
    rfl
  · intro x hx
    have := hval x hx
    unfold threadSpec at this
    rw [Option.map_eq_some_iff] at this
    obtain ⟨⟨a, b⟩, hy, hxy⟩ := this
    have := spanOf_le hi.forward hy
    rw [← hxy]
    exact this

theorem analyze_run {checks : Bool} {es : List Event} {r : Results} (h : analyze checks es = .ok r) :
    ∃ st, run checks es = .ok st ∧ r.queryData = st.queryData ∧ r.artifactSizes = st.artifactSizes ∧
      totalTime st.threads = .ok r.totalTime := by
  unfold analyze at h
  rw [steps_reverse] at h
  cases hr : run checks es with
  | error f => rw [hr] at h; cases h
  | ok st =>
    rw [hr] at h
    change (totalTime st.threads >>= _) = _ at h
    cases ht : totalTime st.threads with
    | error f => rw [ht] at h; cases h
    | ok n => rw [ht] at h; cases h; exact ⟨st, rfl, rfl, rfl, ht⟩

theorem analyze_of_run {checks : Bool} {es : List Event} {st : State} (h : run checks es = .ok st) :
    ∃ r, analyze checks es = .ok r := by
  unfold analyze
  rw [steps_reverse, h]
  change ∃ r, (totalTime st.threads >>= _) = _
  rw [total_of_inv (inv_run h)]
  exact ⟨_, rfl⟩

/-! ## Roots -/

theorem rootTime_add {es : List Event} (h : ProperlyNested es) : rootTime es + subs (fun _ => true) es = timeOf (fun _ => true) es := by
  rw [← kidsAt_subs h, ← lensAt_time]
  unfold rootTime kidsAt lensAt
  rw [← Finset.sum_add_distrib]
  apply Finset.sum_congr rfl
  intro i hi
  have hb : ∀ j, j < es.length → at? (fun _ => true) es j = true := by
    intro j hj
    unfold at?
    rw [List.getElem?_eq_getElem hj]
    rfl
  rw [hb i (by simpa using hi)]
  cases hp : parentOf es i with
  | none => simp
  | some k =>
    obtain ⟨_, a, p, _, h2, _⟩ := parentOf_spec hp
    simp [hb k (List.getElem?_eq_some_iff.1 h2).1]

/-- Length of the roots of a thread. -/
def rootsOn (t : UInt32) (es : List Event) : Nat :=
  ∑ i ∈ Finset.range es.length, if parentOf es i = none ∧ at? (onThread t) es i = true then lenAt es i else 0

theorem rootsOn_cons (t : UInt32) (e : Event) (es : List Event) : rootsOn t (e :: es) = rootsOn t es +
    if es.findIdx? (fun p => encloses p e) = none ∧ onThread t e = true then len e else 0 := by
  unfold rootsOn
  rw [List.length_cons, Finset.sum_range_succ']
  have : ∀ j, at? (onThread t) (e :: es) (j + 1) = at? (onThread t) es j := fun j => congrFun (at_succ (onThread t) e es) j
  simp only [lenAt_succ, lenAt_zero, parentOf, at_zero, Option.map_eq_none_iff, this]

theorem roots_fit {es : List Event} (h : ProperlyNested es) {t : UInt32} (x T : Nat) (hx : x ≤ T)
    (he : ∀ e ∈ es, ∀ s u, times e = some (s, u) → e.threadId = t → u ≤ T)
    (hs : ∀ i e s u, es[i]? = some e → times e = some (s, u) → e.threadId = t → parentOf es i = none → x ≤ s) :
    rootsOn t es + x ≤ T := by
  induction es generalizing x with
  | nil => simpa [rootsOn] using hx
  | cons e es ih =>
    obtain ⟨hf, hea, hes⟩ := nested_cons h
    rw [rootsOn_cons]
    have hpc : ∀ i, parentOf (e :: es) (i + 1) = none ↔ parentOf es i = none := by
      intro i; simp [parentOf]
    split
    · rename_i hc
      obtain ⟨hc1, hc2⟩ := hc
      simp only [onThread, Bool.and_eq_true, decide_eq_true_eq] at hc2
      obtain ⟨s, u, hsu⟩ := isInterval_iff.1 hc2.1
      have hxs := hs 0 e s u (by simp) hsu hc2.2 (by simp [parentOf, hc1])
      have hu := he e (by simp) s u hsu hc2.2
      have hst := hf s u hsu
      have := ih hes u hu (fun a ha => he a (by simp [ha])) (by
        intro i a s' u' ha hau hat hpn
        have hin := hea a (List.mem_of_getElem? ha) s u s' u' hsu hau (by rw [hc2.2, hat])
        rcases hin.2 with q | q
        · exfalso
          rw [List.findIdx?_eq_none_iff] at hc1
          have := hc1 a (List.mem_of_getElem? ha)
          rw [encloses_iff.2 ⟨s', u', s, u, hau, hsu, by rw [hat, hc2.2], q, hin.1⟩] at this
          cases this
        · exact q)
      rw [len_of_times hsu]
      omega
    · rw [Nat.add_zero]
      apply ih hes x hx (fun a ha => he a (by simp [ha]))
      intro i a s' u' ha hau hat hpn
      exact hs (i + 1) a s' u' (by simpa using ha) hau hat ((hpc i).2 hpn)

theorem mem_span {t : UInt32} {es : List Event} {e : Event} {s u : Nat} (he : e ∈ es) (ht : e.threadId = t)
    (hu : times e = some (s, u)) : ∃ a b, spanOf t es = some (a, b) ∧ a ≤ s ∧ u ≤ b := by
  induction es with
  | nil => simp at he
  | cons e' es ih =>
    simp only [spanOf]
    rcases List.mem_cons.1 he with rfl | he
    · rw [if_pos ht, hu]
      simp only
      cases spanOf t es with
      | none => exact ⟨s, u, rfl, by omega, by omega⟩
      | some y => exact ⟨_, _, rfl, by omega, by omega⟩
    · obtain ⟨a, b, hab, h1, h2⟩ := ih he
      split
      · split
        · rw [hab]
          exact ⟨_, _, rfl, by omega, by omega⟩
        · exact ⟨a, b, hab, h1, h2⟩
      · exact ⟨a, b, hab, h1, h2⟩

theorem rootsOn_le {es : List Event} (h : ProperlyNested es) (t : UInt32) : rootsOn t es ≤ spanLength t es := by
  unfold spanLength
  rw [(spanOf_eq t es).1, (spanOf_eq t es).2]
  cases hs : spanOf t es with
  | none =>
    have : rootsOn t es + 0 ≤ 0 := by
      apply roots_fit h 0 0 (Nat.le_refl _)
      · intro e he s u hu ht
        obtain ⟨a, b, hab, _⟩ := mem_span he ht hu
        rw [hs] at hab; cases hab
      · intro i e s u he hu ht
        obtain ⟨a, b, hab, _⟩ := mem_span (List.mem_of_getElem? he) ht hu
        rw [hs] at hab; cases hab
    simpa using this
  | some x =>
    obtain ⟨a, b⟩ := x
    have hab := spanOf_le h.1 hs
    have := roots_fit h (t := t) a b hab
      (by
        intro e he s u hu ht
        obtain ⟨a', b', hab', h1, h2⟩ := mem_span he ht hu
        rw [hs] at hab'; cases hab'; exact h2)
      (by
        intro i e s u he hu ht _
        obtain ⟨a', b', hab', h1, h2⟩ := mem_span (List.mem_of_getElem? he) ht hu
        rw [hs] at hab'; cases hab'; exact h1)
    simp only [Option.map_some, Option.getD_some]
    omega

theorem rootTime_threads (es : List Event) : rootTime es = ∑ t ∈ threadsOf es, rootsOn t es := by
  unfold rootTime rootsOn
  rw [Finset.sum_comm]
  apply Finset.sum_congr rfl
  intro i hi
  by_cases hp : parentOf es i = none
  · simp only [hp, if_true, true_and]
    simp only [Finset.mem_range] at hi
    by_cases hint : isInterval es[i] = true
    · have hmem : es[i].threadId ∈ threadsOf es := by
        unfold threadsOf
        rw [List.mem_toFinset, List.mem_map]
        exact ⟨es[i], List.mem_filter.2 ⟨List.getElem_mem hi, hint⟩, rfl⟩
      have : ∀ t, (at? (onThread t) es i = true) ↔ t = es[i].threadId := by
        intro t
        unfold at? onThread
        rw [List.getElem?_eq_getElem hi]
        simp [hint, eq_comm]
      simp only [this, Finset.sum_ite_eq', hmem, if_true]
    · have : lenAt es i = 0 := by
        unfold lenAt
        rw [List.getElem?_eq_getElem hi]
        simp only [Option.map_some, Option.getD_some]
        apply len_none
        unfold isInterval at hint
        simpa using hint
      simp [this]
  · simp [hp]

theorem rootTime_le {es : List Event} (h : ProperlyNested es) : rootTime es ≤ ∑ t ∈ threadsOf es, spanLength t es := by
  rw [rootTime_threads]
  exact Finset.sum_le_sum fun t _ => rootsOn_le h t

end Verif.Analyze
