import Verif.Proofs.Analysis
import Mathlib.Algebra.BigOperators.Group.Finset.Piecewise

/-!
# Properly nested streams: parents, children and self times
-/

namespace Verif.Analyze

open Verif Verif.Mm Verif.Decode Verif.Spec

/-! ## Enclosing -/

theorem encloses_iff {p e : Event} : encloses p e = true ↔ ∃ s t s' t', times p = some (s, t) ∧ times e = some (s', t') ∧
    p.threadId = e.threadId ∧ s ≤ s' ∧ t' ≤ t := by
  unfold encloses
  cases hp : times p with
  | none => simp
  | some x =>
    cases he : times e with
    | none => simp
    | some y =>
      obtain ⟨s, t⟩ := x; obtain ⟨s', t'⟩ := y
      simp only [Bool.and_eq_true, decide_eq_true_eq]
      constructor
      · rintro ⟨h1, h2, h3⟩; exact ⟨s, t, s', t', rfl, rfl, h1, h2, h3⟩
      · rintro ⟨a, b, c, d, h1, h2, h3, h4, h5⟩; cases h1; cases h2; exact ⟨h3, h4, h5⟩

theorem nested_cons {e : Event} {es : List Event} (h : ProperlyNested (e :: es)) :
    Forward e ∧ (∀ a ∈ es, InOrder e a) ∧ ProperlyNested es := by
  obtain ⟨h1, h2⟩ := h
  rw [List.pairwise_cons] at h2
  exact ⟨h1 e (by simp), h2.1, fun x hx => h1 x (by simp [hx]), h2.2⟩

theorem nested_skip {e a : Event} {es : List Event} (h : ProperlyNested (e :: a :: es)) : ProperlyNested (e :: es) := by
  obtain ⟨h1, h2⟩ := h
  refine ⟨fun x hx => h1 x ?_, h2.sublist ?_⟩
  · rcases List.mem_cons.1 hx with rfl | hx
    · simp
    · simp [hx]
  · exact (List.Sublist.refl _).cons _ |>.cons_cons _

/-! ## The stack holds the enclosing intervals -/

/-- The chain of enclosing intervals of an event, nearest first, among the later events. -/
def ancestorsOf : Event → List Event → List Event
  | _, [] => []
  | e, a :: es => if encloses a e then a :: ancestorsOf a es else ancestorsOf e es

theorem popStack_popStack {c d : EventPayload} {S : List Event}
    (h : ∀ x ∈ S, contains x.payload c = true → contains x.payload d = true) :
    popStack c (popStack d S) = popStack c S := by
  induction S with
  | nil => rfl
  | cons x S ih =>
    have hx := h x (by simp)
    have ih := ih fun y hy => h y (by simp [hy])
    simp only [popStack]
    by_cases hd : contains x.payload d = true
    · rw [if_pos hd]; simp only [popStack]
    · rw [if_neg hd, if_neg (fun hc => hd (hx hc)), ih]

theorem stack_ancestors {e : Event} {es : List Event} (hi : isInterval e = true) (h : ProperlyNested (e :: es)) :
    popStack e.payload (stackOf e.threadId es) = ancestorsOf e es := by
  induction es generalizing e with
  | nil => rfl
  | cons a es ih =>
    have ih1 := ih hi (nested_skip h)
    obtain ⟨he, hea, ha⟩ := nested_cons h
    simp only [stackOf, ancestorsOf]
    by_cases ht : onThread e.threadId a = true
    · rw [if_pos ht]
      simp only [onThread, Bool.and_eq_true, decide_eq_true_eq] at ht
      simp only [popStack, contains_eq hi ht.2]
      by_cases hc : encloses a e = true
      · rw [if_pos hc, if_pos hc]
        rw [← ht.2, ih ht.1 ha]
      · rw [if_neg hc, if_neg hc, ← ih1]
        apply popStack_popStack
        intro x hx hxe
        obtain ⟨hmem, hxt⟩ := mem_stackOf hx
        simp only [onThread, Bool.and_eq_true, decide_eq_true_eq] at hxt
        rw [contains_eq hi hxt.2] at hxe
        rw [contains_eq ht.1 (by rw [hxt.2, ht.2])]
        obtain ⟨s, t, s', t', h1, h2, h3, h4, h5⟩ := encloses_iff.1 hxe
        obtain ⟨sa, ta, h6⟩ := isInterval_iff.1 ht.1
        have q1 := hea a (by simp) s' t' sa ta h2 h6 ht.2.symm
        have q2 := (nested_cons ha).2.1 x hmem sa ta s t h6 h1 (by rw [hxt.2, ht.2])
        have q3 := he s' t' h2
        have q4 := (nested_cons ha).1 sa ta h6
        refine encloses_iff.2 ⟨s, t, sa, ta, h1, h6, by rw [hxt.2, ht.2], ?_, q2.1⟩
        rcases q1.2 with q | q
        · exact absurd (encloses_iff.2 ⟨sa, ta, s', t', h6, h2, ht.2, q, q1.1⟩) hc
        · omega
    · rw [if_neg ht, ih1, if_neg]
      intro hc
      obtain ⟨s, t, s', t', h1, h2, h3, h4, h5⟩ := encloses_iff.1 hc
      apply ht
      simp only [onThread, Bool.and_eq_true, decide_eq_true_eq]
      exact ⟨isInterval_iff.2 ⟨s, t, h1⟩, h3⟩

theorem ancestors_head (e : Event) (es : List Event) : (ancestorsOf e es).head? = es.find? (fun p => encloses p e) := by
  induction es with
  | nil => rfl
  | cons a es ih =>
    simp only [ancestorsOf, List.find?_cons]
    cases h : encloses a e with
    | true => simp
    | false => simpa using ih

theorem stackParent_nested {e : Event} {es : List Event} (h : ProperlyNested (e :: es)) :
    stackParent e es = es.find? (fun p => encloses p e) := by
  unfold stackParent
  by_cases hi : isInterval e = true
  · rw [if_pos hi, stack_ancestors hi h, ancestors_head]
  · rw [if_neg hi]
    symm
    rw [List.find?_eq_none]
    intro x _ hx
    obtain ⟨s, t, s', t', h1, h2, -⟩ := encloses_iff.1 hx
    exact hi (isInterval_iff.2 ⟨s', t', h2⟩)

/-! ## Parents by index -/

theorem parentOf_spec {es : List Event} {i j : Nat} (h : parentOf es i = some j) :
    i < j ∧ ∃ a p, es[i]? = some a ∧ es[j]? = some p ∧ encloses p a = true ∧
      ∀ k x, i < k → k < j → es[k]? = some x → encloses x a = false := by
  induction es generalizing i j with
  | nil => simp [parentOf] at h
  | cons e es ih =>
    cases i with
    | zero =>
      simp only [parentOf, Option.map_eq_some_iff] at h
      obtain ⟨k, hk, rfl⟩ := h
      rw [List.findIdx?_eq_some_iff_getElem] at hk
      obtain ⟨hlt, h1, h2⟩ := hk
      refine ⟨by omega, e, es[k], by simp, by simp [hlt], h1, ?_⟩
      intro k' x h3 h4 h5
      obtain ⟨m, rfl⟩ : ∃ m, k' = m + 1 := ⟨k' - 1, by omega⟩
      simp only [List.getElem?_cons_succ] at h5
      have := h2 m (by omega)
      rw [List.getElem?_eq_some_iff] at h5
      obtain ⟨hm, rfl⟩ := h5
      simpa using this
    | succ i =>
      simp only [parentOf, Option.map_eq_some_iff] at h
      obtain ⟨k, hk, rfl⟩ := h
      obtain ⟨h1, a, p, h2, h3, h4, h5⟩ := ih hk
      refine ⟨by omega, a, p, by simpa using h2, by simpa using h3, h4, ?_⟩
      intro k' x h6 h7 h8
      obtain ⟨m, rfl⟩ : ∃ m, k' = m + 1 := ⟨k' - 1, by omega⟩
      exact h5 m x (by omega) (by omega) (by simpa using h8)

theorem lenAt_zero (e : Event) (es : List Event) : lenAt (e :: es) 0 = len e := by simp [lenAt]
theorem lenAt_succ (e : Event) (es : List Event) (i : Nat) : lenAt (e :: es) (i + 1) = lenAt es i := by simp [lenAt]

theorem parentOf_succ_eq (e : Event) (es : List Event) (i j : Nat) :
    parentOf (e :: es) (i + 1) = some (j + 1) ↔ parentOf es i = some j := by
  simp [parentOf, Option.map_eq_some_iff]

theorem parentOf_ne_zero (es : List Event) (i : Nat) : parentOf es i ≠ some 0 := by
  intro h
  have := (parentOf_spec h).1
  omega

theorem childTime_zero (es : List Event) : childTime es 0 = 0 := by
  unfold childTime
  apply Finset.sum_eq_zero
  intro i _
  rw [if_neg (parentOf_ne_zero es i)]

theorem childTime_succ (e : Event) (es : List Event) (j : Nat) :
    childTime (e :: es) (j + 1) = childTime es j + if es.findIdx? (fun p => encloses p e) = some j then len e else 0 := by
  unfold childTime
  rw [List.length_cons, Finset.sum_range_succ']
  simp only [lenAt_succ, parentOf_succ_eq, lenAt_zero]
  congr 1
  simp [parentOf]

/-- The children of an interval fit between any time before their starts and its end. -/
theorem children_fit {es : List Event} (h : ProperlyNested es) {j : Nat} {p : Event} {s t : Nat} (hp : es[j]? = some p)
    (ht : times p = some (s, t)) (x : Nat) (hx : x ≤ t)
    (hc : ∀ i a s' t', parentOf es i = some j → es[i]? = some a → times a = some (s', t') → x ≤ s') :
    childTime es j + x ≤ t := by
  induction es generalizing j x with
  | nil => simp at hp
  | cons e es ih =>
    cases j with
    | zero => rw [childTime_zero]; omega
    | succ j =>
      obtain ⟨he, hea, hes⟩ := nested_cons h
      rw [childTime_succ]
      simp only [List.getElem?_cons_succ] at hp
      by_cases hk : es.findIdx? (fun p => encloses p e) = some j
      · rw [if_pos hk]
        have hpar : parentOf (e :: es) 0 = some (j + 1) := by simp [parentOf, hk]
        obtain ⟨-, a, p', h1, h2, h3, h4⟩ := parentOf_spec hpar
        simp only [List.getElem?_cons_zero, Option.some.injEq] at h1
        subst h1
        simp only [List.getElem?_cons_succ] at h2
        rw [hp] at h2
        cases h2
        obtain ⟨s1, t1, s2, t2, g1, g2, g3, g4, g5⟩ := encloses_iff.1 h3
        rw [ht] at g1
        cases g1
        have hst := he s2 t2 g2
        have hxs := hc 0 e s2 t2 hpar (by simp) g2
        have := ih hes hp t2 g5 (by
          intro i a s' t' hi ha hta
          obtain ⟨hij, a', p'', k1, k2, k3, k4⟩ := parentOf_spec hi
          rw [ha] at k1; cases k1
          rw [hp] at k2; cases k2
          obtain ⟨_, _, _, _, m1, m2, m3, m4, m5⟩ := encloses_iff.1 k3
          rw [ht] at m1; cases m1
          rw [hta] at m2; cases m2
          have hin := hea a (List.mem_of_getElem? ha) s2 t2 s' t' g2 hta (by rw [← g3, m3])
          rcases hin.2 with q | q
          · have := h4 (i + 1) a (by omega) (by omega) (by simpa using ha)
            rw [encloses_iff.2 ⟨s', t', s2, t2, hta, g2, by rw [← m3, g3], q, hin.1⟩] at this
            cases this
          · exact q)
        rw [len_of_times g2]
        omega
      · rw [if_neg hk]
        apply ih hes hp x hx
        intro i a s' t' hi ha hta
        exact hc (i + 1) a s' t' ((parentOf_succ_eq _ _ _ _).2 hi) (by simpa using ha) hta

theorem lenAt_none {es : List Event} {j : Nat} (h : ∀ p, es[j]? = some p → times p = none) : lenAt es j = 0 := by
  unfold lenAt
  cases hj : es[j]? with
  | none => rfl
  | some p => simp [len_none (h p hj)]

theorem childTime_le {es : List Event} (h : ProperlyNested es) (j : Nat) : childTime es j ≤ lenAt es j := by
  by_cases hj : ∃ p s t, es[j]? = some p ∧ times p = some (s, t)
  · obtain ⟨p, s, t, hp, ht⟩ := hj
    have hst := h.1 p (List.mem_of_getElem? hp) s t ht
    have := children_fit h hp ht s hst (by
      intro i a s' t' hi ha hta
      obtain ⟨hij, a', p'', k1, k2, k3, k4⟩ := parentOf_spec hi
      rw [ha] at k1; cases k1
      rw [hp] at k2; cases k2
      obtain ⟨_, _, _, _, m1, m2, m3, m4, m5⟩ := encloses_iff.1 k3
      rw [ht] at m1; cases m1
      rw [hta] at m2; cases m2
      exact m4)
    unfold lenAt
    rw [hp]
    simp only [Option.map_some, Option.getD_some]
    rw [len_of_times ht]
    omega
  · have : childTime es j = 0 := by
      unfold childTime
      apply Finset.sum_eq_zero
      intro i _
      rw [if_neg]
      intro hi
      obtain ⟨hij, a', p'', k1, k2, k3, k4⟩ := parentOf_spec hi
      obtain ⟨s, t, _, _, m1, _⟩ := encloses_iff.1 k3
      exact hj ⟨p'', s, t, k2, m1⟩
    omega

/-! ## Sums over sets of intervals -/

/-- The lengths of the intervals at selected positions. -/
def lensAt (b : Nat → Bool) (es : List Event) : Nat := ∑ j ∈ Finset.range es.length, if b j then lenAt es j else 0

/-- The lengths of the intervals whose parents are at selected positions. -/
def kidsAt (b : Nat → Bool) (es : List Event) : Nat :=
  ∑ i ∈ Finset.range es.length, if (parentOf es i).any b then lenAt es i else 0

/-- The self times of the intervals at selected positions. -/
def selvesAt (b : Nat → Bool) (es : List Event) : Nat := ∑ j ∈ Finset.range es.length, if b j then selfAt es j else 0

theorem childTimes_eq (b : Nat → Bool) (es : List Event) :
    (∑ j ∈ Finset.range es.length, if b j then childTime es j else 0) = kidsAt b es := by
  unfold kidsAt childTime
  have : ∀ j ∈ Finset.range es.length,
      (if b j then ∑ i ∈ Finset.range es.length, (if parentOf es i = some j then lenAt es i else 0) else 0) =
      ∑ i ∈ Finset.range es.length, if b j = true ∧ parentOf es i = some j then lenAt es i else 0 := by
    intro j _
    by_cases hb : b j = true
    · simp [hb]
    · simp [hb]
  rw [Finset.sum_congr rfl this, Finset.sum_comm]
  apply Finset.sum_congr rfl
  intro i _
  cases hp : parentOf es i with
  | none => simp
  | some k =>
    have hk : k < es.length := by
      obtain ⟨_, a, p, _, h2, _⟩ := parentOf_spec hp
      exact (List.getElem?_eq_some_iff.1 h2).1
    have : ∀ j ∈ Finset.range es.length, (if b j = true ∧ some k = some j then lenAt es i else 0) =
        if j = k then (if b k then lenAt es i else 0) else 0 := by
      intro j _
      by_cases hjk : j = k
      · subst hjk; simp
      · simp [hjk, Ne.symm hjk]
    rw [Finset.sum_congr rfl this, Finset.sum_ite_eq']
    simp [hk]

/-- Self times and children's lengths add up to the lengths. -/
theorem selves_add_kids {es : List Event} (h : ProperlyNested es) (b : Nat → Bool) :
    selvesAt b es + kidsAt b es = lensAt b es := by
  rw [← childTimes_eq]
  unfold selvesAt lensAt
  rw [← Finset.sum_add_distrib]
  apply Finset.sum_congr rfl
  intro j _
  have := childTime_le h j
  split
  · unfold selfAt; omega
  · rfl

theorem kids_le_lens {es : List Event} (h : ProperlyNested es) (b : Nat → Bool) : kidsAt b es ≤ lensAt b es := by
  have := selves_add_kids h b
  omega

theorem lensAt_cons (b : Nat → Bool) (e : Event) (es : List Event) :
    lensAt b (e :: es) = lensAt (fun j => b (j + 1)) es + if b 0 then len e else 0 := by
  unfold lensAt
  rw [List.length_cons, Finset.sum_range_succ']
  simp only [lenAt_succ, lenAt_zero]

theorem any_map_succ (b : Nat → Bool) (o : Option Nat) : (o.map (· + 1)).any b = o.any (fun j => b (j + 1)) := by
  cases o <;> rfl

theorem kidsAt_cons (b : Nat → Bool) (e : Event) (es : List Event) :
    kidsAt b (e :: es) = kidsAt (fun j => b (j + 1)) es +
      if (es.findIdx? (fun p => encloses p e)).any (fun j => b (j + 1)) then len e else 0 := by
  unfold kidsAt
  rw [List.length_cons, Finset.sum_range_succ']
  simp only [lenAt_succ, lenAt_zero, parentOf, any_map_succ]

theorem at_succ (p : Event → Bool) (e : Event) (es : List Event) : (fun j => at? p (e :: es) (j + 1)) = at? p es := by
  funext j; simp [at?]

theorem at_zero (p : Event → Bool) (e : Event) (es : List Event) : at? p (e :: es) 0 = p e := by simp [at?]

theorem lensAt_time (p : Event → Bool) (es : List Event) : lensAt (at? p es) es = timeOf p es := by
  induction es with
  | nil => rfl
  | cons e es ih => rw [lensAt_cons, at_succ, at_zero, ih, timeOf_cons]

theorem findIdx_any (q : Event → Bool) (p : Event → Bool) (es : List Event) :
    (es.findIdx? q).any (at? p es) = (es.find? q).any p := by
  induction es with
  | nil => rfl
  | cons e es ih =>
    rw [List.findIdx?_cons, List.find?_cons]
    cases h : q e with
    | true => simp [at?]
    | false =>
      simp only [Bool.false_eq_true, if_false]
      rw [any_map_succ, at_succ, ih]

theorem kidsAt_subs {es : List Event} (h : ProperlyNested es) (p : Event → Bool) : kidsAt (at? p es) es = subs p es := by
  induction es with
  | nil => rfl
  | cons e es ih =>
    rw [kidsAt_cons, at_succ, ih (nested_cons h).2.2, findIdx_any, subs, stackParent_nested h]

theorem selfTimeOf_add {es : List Event} (h : ProperlyNested es) (p : Event → Bool) :
    selfTimeOf p es + subs p es = timeOf p es := by
  have := selves_add_kids h (at? p es)
  rw [kidsAt_subs h, lensAt_time] at this
  exact this

/-- What the loop is about to subtract is there. -/
theorem subs_room {e : Event} {es : List Event} (h : ProperlyNested (e :: es)) (p : Event → Bool) :
    subs p es + (if (stackParent e es).any p then len e else 0) ≤ timeOf p es := by
  have h1 := kids_le_lens h (fun j => if j = 0 then false else at? p (e :: es) j)
  rw [kidsAt_cons, lensAt_cons] at h1
  simp only [Nat.add_eq_zero_iff, one_ne_zero, and_false, if_false, if_true, Bool.false_eq_true, Nat.add_zero] at h1
  rw [at_succ, kidsAt_subs (nested_cons h).2.2, lensAt_time, findIdx_any, ← stackParent_nested h] at h1
  exact h1

end Verif.Analyze
