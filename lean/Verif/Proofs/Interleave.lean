import Verif.Proofs.AnalysisMore

/-!
# The analysis only depends on what happens on each thread
-/

namespace Verif.Analyze

open Verif Verif.Mm Verif.Decode Verif.Spec

/-- The events of one thread. -/
def onT (t : UInt32) (es : List Event) : List Event := es.filter (fun e => decide (e.threadId = t))

theorem onT_cons (t : UInt32) (e : Event) (es : List Event) :
    onT t (e :: es) = if e.threadId = t then e :: onT t es else onT t es := by
  unfold onT
  rw [List.filter_cons]
  simp only [decide_eq_true_eq]

/-- Sum over a stream of a cost that only depends on an event and the later events of its thread. -/
def cost (c : Event → List Event → Nat) : List Event → Nat
  | [] => 0
  | e :: es => cost c es + c e es

theorem onT_insert {t : UInt32} {e : Event} (A B : List Event) (h : e.threadId ≠ t) : onT t (A ++ e :: B) = onT t (A ++ B) := by
  unfold onT
  rw [List.filter_append, List.filter_append, List.filter_cons]
  simp [h]

theorem cost_move {c : Event → List Event → Nat} (hc : ∀ e es, c e es = c e (onT e.threadId es)) {e : Event}
    (A B : List Event) (h : ∀ a ∈ A, a.threadId ≠ e.threadId) : cost c (A ++ e :: B) = cost c (e :: (A ++ B)) := by
  induction A with
  | nil => rfl
  | cons a A ih =>
    have ih := ih fun x hx => h x (by simp [hx])
    have ha := h a (by simp)
    simp only [List.cons_append, cost] at ih ⊢
    have h1 : c a (A ++ e :: B) = c a (A ++ B) := by
      rw [hc, hc a (A ++ B), onT_insert A B (Ne.symm ha)]
    have h2 : c e (a :: (A ++ B)) = c e (A ++ B) := by
      rw [hc, hc e (A ++ B), onT_cons, if_neg ha]
    rw [ih, h1, h2]
    omega

/-- Take the first event of a thread out of a stream. -/
theorem split_thread {t : UInt32} {e : Event} {es rest : List Event} (h : onT t es = e :: rest) :
    ∃ A B, es = A ++ e :: B ∧ (∀ a ∈ A, a.threadId ≠ t) ∧ e.threadId = t ∧ onT t B = rest := by
  induction es with
  | nil => simp [onT] at h
  | cons a es ih =>
    rw [onT_cons] at h
    split at h
    · rename_i ha
      cases h
      exact ⟨[], es, rfl, by simp, ha, rfl⟩
    · rename_i ha
      obtain ⟨A, B, rfl, h1, h2, h3⟩ := ih h
      exact ⟨a :: A, B, rfl, by simpa using ⟨ha, h1⟩, h2, h3⟩

theorem same_cons {e : Event} {es es' : List Event} (h : SameThreads (e :: es) es') :
    ∃ A B, es' = A ++ e :: B ∧ (∀ a ∈ A, a.threadId ≠ e.threadId) ∧ SameThreads es (A ++ B) := by
  have h0 := (h e.threadId).symm
  change onT _ _ = onT _ _ at h0
  rw [onT_cons, if_pos rfl] at h0
  obtain ⟨A, B, rfl, h1, h2, h3⟩ := split_thread h0
  refine ⟨A, B, rfl, h1, ?_⟩
  intro t
  have ht := h t
  change onT t _ = onT t _ at ht ⊢
  rw [onT_cons] at ht
  by_cases hte : e.threadId = t
  · subst hte
    rw [← h3]
    unfold onT
    rw [List.filter_append]
    have : A.filter (fun x => decide (x.threadId = e.threadId)) = [] :=
      List.filter_eq_nil_iff.2 (fun a ha => by simpa using h1 a ha)
    rw [this]
    rfl
  · rw [if_neg hte, onT_insert A B hte] at ht
    exact ht

theorem cost_same {c : Event → List Event → Nat} (hc : ∀ e es, c e es = c e (onT e.threadId es)) {es es' : List Event}
    (h : SameThreads es es') : cost c es = cost c es' := by
  induction es generalizing es' with
  | nil =>
    cases es' with
    | nil => rfl
    | cons a es' =>
      have := h a.threadId
      rw [List.filter_cons] at this
      simp at this
  | cons e es ih =>
    obtain ⟨A, B, rfl, h1, h2⟩ := same_cons h
    rw [cost_move hc A B h1]
    simp only [cost]
    rw [ih h2, hc e es, hc e (A ++ B)]
    congr 2
    exact h2 e.threadId

theorem same_perm {es es' : List Event} (h : SameThreads es es') : es.Perm es' := by
  induction es generalizing es' with
  | nil =>
    cases es' with
    | nil => exact List.Perm.refl _
    | cons a es' =>
      have := h a.threadId
      rw [List.filter_cons] at this
      simp at this
  | cons e es ih =>
    obtain ⟨A, B, rfl, h1, h2⟩ := same_cons h
    exact ((ih h2).cons e).trans List.perm_middle.symm

/-- The stack of a thread comes from its own events. -/
theorem stackOf_onT (t : UInt32) (es : List Event) : stackOf t es = stackOf t (onT t es) := by
  induction es with
  | nil => rfl
  | cons e es ih =>
    rw [onT_cons]
    by_cases ht : e.threadId = t
    · rw [if_pos ht]
      simp only [stackOf, ih]
    · rw [if_neg ht, ← ih]
      simp only [stackOf, onThread, ht, decide_false, Bool.and_false, Bool.false_eq_true, if_false]

theorem subs_cost (p : Event → Bool) (es : List Event) :
    subs p es = cost (fun e es => if (stackParent e es).any p then len e else 0) es := by
  induction es with
  | nil => rfl
  | cons e es ih => simp only [subs, cost, ih]

theorem subs_same {es es' : List Event} (h : SameThreads es es') (p : Event → Bool) : subs p es = subs p es' := by
  rw [subs_cost, subs_cost]
  apply cost_same _ h
  intro e es
  unfold stackParent
  rw [stackOf_onT]

theorem timeOf_same {es es' : List Event} (h : SameThreads es es') (p : Event → Bool) : timeOf p es = timeOf p es' := by
  unfold timeOf
  exact (((same_perm h).filter p).map len).sum_eq

theorem countOf_same {es es' : List Event} (h : SameThreads es es') (p : Event → Bool) : countOf p es = countOf p es' := by
  unfold countOf
  exact ((same_perm h).filter p).length_eq

theorem artifact_same {es es' : List Event} (h : SameThreads es es') (l : Bytes) :
    artifactTotal l es = artifactTotal l es' := by
  unfold artifactTotal
  exact (((same_perm h).filter _).map intOf).sum_eq

theorem data_unique {l : Bytes} {es es' : List Event} (h : SameThreads es es') {d d' : QueryData} (hd : DataInv l es d)
    (hd' : DataInv l es' d') : d = d' := by
  obtain ⟨a1, a2, a3, a4, a5, a6, a7, a8⟩ := hd
  obtain ⟨b1, b2, b3, b4, b5, b6, b7, b8⟩ := hd'
  rw [← subs_same h, ← timeOf_same h] at b1 b2 b3
  rw [← timeOf_same h] at b4 b5
  rw [← countOf_same h] at b6 b7 b8
  cases d; cases d'
  simp only [QueryData.mk.injEq] at *
  refine ⟨?_, ?_, ?_, ?_, ?_, ?_, ?_, ?_⟩ <;> omega

/-- A sorted map is determined by its entries. -/
theorem sorted_ext {m m' : List (Bytes × Nat)} (h : (m.map (·.1)).Pairwise (· < ·)) (h' : (m'.map (·.1)).Pairwise (· < ·))
    (hl : ∀ k, lookup k m = lookup k m') : m = m' := by
  induction m generalizing m' with
  | nil =>
    cases m' with
    | nil => rfl
    | cons x m' =>
      have := hl x.1
      simp [lookup] at this
  | cons x m ih =>
    cases m' with
    | nil =>
      have := hl x.1
      simp [lookup] at this
    | cons y m' =>
      obtain ⟨k, a⟩ := x
      obtain ⟨k', a'⟩ := y
      simp only [List.map_cons, List.pairwise_cons] at h h'
      have hk : k = k' := by
        by_contra hne
        have h1 : k ∈ ((k', a') :: m').map (·.1) := (lookup_isSome _ _).1 (by rw [← hl]; simp [lookup])
        have h2 : k' ∈ ((k, a) :: m).map (·.1) := (lookup_isSome _ _).1 (by rw [hl]; simp [lookup])
        simp only [List.map_cons, List.mem_cons, hne, Ne.symm hne, false_or] at h1 h2
        exact List.lt_irrefl k (List.lt_trans (h.1 k' h2) (h'.1 k h1))
      subst hk
      have ha : a = a' := by simpa [lookup] using hl k
      subst ha
      rw [ih h.2 h'.2]
      intro q
      by_cases hq : k = q
      · subst hq
        have n1 : lookup k m = none := by
          cases hlk : lookup k m with
          | none => rfl
          | some _ => exact absurd (h.1 k ((lookup_isSome _ _).1 (by rw [hlk]; rfl))) (List.lt_irrefl k)
        have n2 : lookup k m' = none := by
          cases hlk : lookup k m' with
          | none => rfl
          | some _ => exact absurd (h'.1 k ((lookup_isSome _ _).1 (by rw [hlk]; rfl))) (List.lt_irrefl k)
        rw [n1, n2]
      · have := hl q
        simpa [lookup, hq] using this

theorem art_lookup {checks : Bool} {es : List Event} {m : List (Bytes × Nat)} (h : ArtInv checks es m) (l : Bytes) (v : Nat) :
    lookup l m = some v ↔ (∃ e ∈ es, isArtifact l e = true) ∧ v = artifactTotal l es % 2 ^ 64 := by
  have h1 := h.vals l
  rw [← h.keys, ← lookup_isSome]
  cases hl : lookup l m with
  | none => simp
  | some w => rw [hl] at h1; simp only [Option.getD_some] at h1; subst h1; simp [eq_comm]

theorem artifacts_unique {checks : Bool} {es es' : List Event} (h : SameThreads es es') {m m' : List (Bytes × Nat)}
    (hm : ArtInv checks es m) (hm' : ArtInv checks es' m') : m = m' := by
  apply sorted_ext hm.sorted hm'.sorted
  intro l
  apply Option.ext
  intro v
  rw [art_lookup hm, art_lookup hm', artifact_same h]
  have : (∃ e ∈ es, isArtifact l e = true) ↔ ∃ e ∈ es', isArtifact l e = true := by
    constructor
    · rintro ⟨e, he, h1⟩; exact ⟨e, (same_perm h).mem_iff.1 he, h1⟩
    · rintro ⟨e, he, h1⟩; exact ⟨e, (same_perm h).mem_iff.2 he, h1⟩
  rw [this]

theorem startsOf_onT (t : UInt32) (es : List Event) : startsOf t es = startsOf t (onT t es) := by
  induction es with
  | nil => rfl
  | cons e es ih =>
    rw [onT_cons, startsOf_cons]
    split
    · rename_i ht; rw [startsOf_cons, if_pos ht, ih]
    · exact ih

theorem endsOf_onT (t : UInt32) (es : List Event) : endsOf t es = endsOf t (onT t es) := by
  induction es with
  | nil => rfl
  | cons e es ih =>
    rw [onT_cons, endsOf_cons]
    split
    · rename_i ht; rw [endsOf_cons, if_pos ht, ih]
    · exact ih

theorem total_same {es es' : List Event} (h : SameThreads es es') :
    (∑ t ∈ threadsOf es, spanLength t es) = ∑ t ∈ threadsOf es', spanLength t es' := by
  have h1 : threadsOf es = threadsOf es' := by
    unfold threadsOf
    exact List.toFinset_eq_of_perm _ _ (((same_perm h).filter _).map _)
  rw [h1]
  apply Finset.sum_congr rfl
  intro t _
  unfold spanLength
  rw [startsOf_onT, endsOf_onT, startsOf_onT t es', endsOf_onT t es']
  have : onT t es = onT t es' := h t
  rw [this]

theorem pairwise_of_threads {es : List Event} (h : ∀ t, (onT t es).Pairwise InOrder) : es.Pairwise InOrder := by
  induction es with
  | nil => exact List.Pairwise.nil
  | cons e es ih =>
    refine List.pairwise_cons.2 ⟨?_, ih ?_⟩
    · intro a ha s t s' t' h1 h2 h3
      have := h e.threadId
      rw [onT_cons, if_pos rfl, List.pairwise_cons] at this
      exact this.1 a (List.mem_filter.2 ⟨ha, by simp [h3]⟩) s t s' t' h1 h2 h3
    · intro t
      have := h t
      rw [onT_cons] at this
      split at this
      · exact (List.pairwise_cons.1 this).2
      · exact this

/-- Proper nesting is a matter of each thread. -/
theorem nested_same {es es' : List Event} (h : SameThreads es es') (hn : ProperlyNested es) : ProperlyNested es' := by
  refine ⟨fun e he => hn.1 e ((same_perm h).mem_iff.2 he), pairwise_of_threads fun t => ?_⟩
  have : onT t es' = onT t es := (h t).symm
  rw [this]
  exact hn.2.sublist List.filter_sublist

end Verif.Analyze
