import Verif.Proofs.AnalysisMore
import Verif.Spec.AnyStream

/-! # Proofs about the analysis of streams of any shape -/

namespace Verif.Analyze

open Verif Verif.Mm Verif.Spec Verif.Decode

theorem encloses_trans {a b c : Event} (h1 : encloses a b = true) (h2 : encloses b c = true) : encloses a c = true := by
  obtain ⟨s, t, s', t', p1, p2, p3, p4, p5⟩ := encloses_iff.1 h1
  obtain ⟨u, v, u', v', q1, q2, q3, q4, q5⟩ := encloses_iff.1 h2
  rw [p2] at q1
  cases q1
  exact encloses_iff.2 ⟨s, t, u', v', p1, q2, p3.trans q3, by omega, by omega⟩

/-- What is looked for between an event and its holder. -/
def spans (t : UInt32) (p x : Event) : Bool := !(isInterval x && decide (x.threadId = t)) || encloses p x

/-- The intervals of a thread that enclose all earlier ones, also those in `seen`. -/
def keepers (t : UInt32) : List Event → List Event → List Event
  | _, [] => []
  | seen, x :: es =>
    if onThread t x && seen.all (spans t x) then x :: keepers t (x :: seen) es else keepers t (x :: seen) es

theorem spans_off {t : UInt32} {p x : Event} (h : onThread t x = false) : spans t p x = true := by
  unfold onThread at h
  simp [spans, h]

theorem spans_on {t : UInt32} {p x : Event} (h : onThread t x = true) : spans t p x = encloses p x := by
  unfold onThread at h
  simp [spans, h]

theorem onThread_iff {t : UInt32} {x : Event} : onThread t x = true ↔ isInterval x = true ∧ x.threadId = t := by
  simp [onThread]

/-- A stack whose entries enclose the earlier ones is filtered by popping. -/
theorem popStack_filter {t : UInt32} {x : Event} (hx : onThread t x = true) (s : List Event)
    (hs : ∀ y ∈ s, onThread t y = true) (hc : s.Pairwise (fun a b => encloses b a = true)) :
    popStack x.payload s = s.filter fun y => encloses y x := by
  obtain ⟨hi, ht⟩ := onThread_iff.1 hx
  induction s with
  | nil => rfl
  | cons y s ih =>
    rw [List.pairwise_cons] at hc
    simp only [popStack, List.filter_cons]
    rw [contains_eq hi (by rw [(onThread_iff.1 (hs y (by simp))).2, ht])]
    split
    · rename_i h
      congr 1
      symm
      rw [List.filter_eq_self]
      intro z hz
      exact encloses_trans (hc.1 z hz) h
    · exact ih (fun z hz => hs z (by simp [hz])) hc.2

theorem stackOf_chain (t : UInt32) (es : List Event) :
    (stackOf t es).Pairwise (fun a b => encloses b a = true) ∧ (∀ y ∈ stackOf t es, onThread t y = true) ∧
      ∀ x, onThread t x = true → stackOf t (x :: es) = x :: (stackOf t es).filter fun y => encloses y x := by
  induction es with
  | nil =>
    refine ⟨List.Pairwise.nil, by simp [stackOf], ?_⟩
    intro x hx
    simp [stackOf, hx, popStack]
  | cons e es ih =>
    obtain ⟨h1, h2, h3⟩ := ih
    have hch : (stackOf t (e :: es)).Pairwise (fun a b => encloses b a = true) ∧ ∀ y ∈ stackOf t (e :: es), onThread t y = true := by
      by_cases he : onThread t e = true
      · rw [h3 e he]
        refine ⟨List.pairwise_cons.2 ⟨?_, h1.filter _⟩, ?_⟩
        · intro y hy
          exact (List.mem_filter.1 hy).2
        · intro y hy
          rcases List.mem_cons.1 hy with rfl | hy
          · exact he
          · exact h2 y (List.mem_filter.1 hy).1
      · have : stackOf t (e :: es) = stackOf t es := by simp only [stackOf]; rw [if_neg he]
        rw [this]
        exact ⟨h1, h2⟩
    refine ⟨hch.1, hch.2, ?_⟩
    intro x hx
    show (if onThread t x then x :: popStack x.payload (stackOf t (e :: es)) else stackOf t (e :: es)) = _
    rw [if_pos hx, popStack_filter hx _ hch.2 hch.1]

theorem keepers_eq (t : UInt32) (seen es : List Event) :
    keepers t seen es = (stackOf t es).filter fun y => seen.all (spans t y) := by
  induction es generalizing seen with
  | nil => rfl
  | cons x es ih =>
    simp only [keepers]
    by_cases hx : onThread t x = true
    · rw [(stackOf_chain t es).2.2 x hx, List.filter_cons, ih, List.filter_filter]
      have : (fun y => (x :: seen).all (spans t y)) = fun y => seen.all (spans t y) && encloses y x := by
        funext y
        rw [List.all_cons, spans_on hx, Bool.and_comm]
      rw [this, hx, Bool.true_and]
    · have h0 : onThread t x = false := by simpa using hx
      have : stackOf t (x :: es) = stackOf t es := by simp only [stackOf]; rw [if_neg hx]
      rw [this, ih, h0, Bool.false_and]
      simp only [Bool.false_eq_true, if_false]
      congr 1
      funext y
      rw [List.all_cons, spans_off h0, Bool.true_and]

theorem stackParent_find {e : Event} (es : List Event) (he : isInterval e = true) :
    stackParent e es = (keepers e.threadId [] es).find? fun p => encloses p e := by
  unfold stackParent
  rw [if_pos he, keepers_eq]
  have ho : onThread e.threadId e = true := onThread_iff.2 ⟨he, rfl⟩
  have hc := stackOf_chain e.threadId es
  rw [popStack_filter ho _ hc.2.1 hc.1]
  simp only [List.all_nil, List.filter_true]
  rw [List.head?_filter]

/-- The first holder, after the events in `seen`. -/
def holdsAfter (e : Event) (seen es : List Event) (j : Nat) : Bool :=
  es[j]?.any fun p => encloses p e && (seen.all (spans e.threadId p) && (es.take j).all (spans e.threadId p))

theorem keepers_find (e : Event) (seen es : List Event) (f : Event → Bool) :
    ((keepers e.threadId seen es).find? fun p => encloses p e).any f =
      ((List.range es.length).find? (holdsAfter e seen es)).any fun j => es[j]?.any f := by
  induction es generalizing seen with
  | nil => rfl
  | cons x es ih =>
    rw [List.length_cons, List.range_succ_eq_map, List.find?_cons, List.find?_map]
    have hz : holdsAfter e seen (x :: es) 0 = (encloses x e && seen.all (spans e.threadId x)) := by
      simp [holdsAfter]
    have hs : (holdsAfter e seen (x :: es) ∘ Nat.succ) = holdsAfter e (x :: seen) es := by
      funext j
      simp only [Function.comp, holdsAfter, Nat.succ_eq_add_one, List.getElem?_cons_succ, List.take_succ_cons, List.all_cons]
      congr 1
      funext p
      cases encloses p e <;> cases spans e.threadId p x <;> cases seen.all (spans e.threadId p) <;> simp
    rw [hz, hs]
    simp only [keepers]
    by_cases hx : onThread e.threadId x = true
    · by_cases ha : seen.all (spans e.threadId x) = true
      · rw [if_pos (by rw [hx, ha]; rfl), List.find?_cons]
        cases hen : encloses x e with
        | true => simp [ha]
        | false =>
          simp only [Bool.false_and]
          rw [ih (x :: seen)]
          cases (List.range es.length).find? (holdsAfter e (x :: seen) es) <;> simp
      · rw [if_neg (by simp [ha]), ih (x :: seen)]
        have : (encloses x e && seen.all (spans e.threadId x)) = false := by simp [ha]
        rw [this]
        cases (List.range es.length).find? (holdsAfter e (x :: seen) es) <;> simp
    · have hen : encloses x e = false := by
        cases hh : encloses x e with
        | false => rfl
        | true =>
          obtain ⟨s, t, s', t', q1, -, q3, -⟩ := encloses_iff.1 hh
          exact absurd (onThread_iff.2 ⟨isInterval_iff.2 ⟨s, t, q1⟩, q3⟩) hx
      have hf : onThread e.threadId x = false := by simpa using hx
      rw [if_neg (by simp [hf]), ih (x :: seen), hen, Bool.false_and]
      cases (List.range es.length).find? (holdsAfter e (x :: seen) es) <;> simp

theorem not_interval_encloses {p e : Event} (h : isInterval e = false) : encloses p e = false := by
  cases hh : encloses p e with
  | false => rfl
  | true =>
    obtain ⟨s, t, s', t', -, q2, -⟩ := encloses_iff.1 hh
    rw [isInterval_iff.2 ⟨s', t', q2⟩] at h
    cases h

/-- The loop's parent is the holder. -/
theorem stackParent_holder (e : Event) (es : List Event) (f : Event → Bool) :
    (stackParent e es).any f = ((List.range es.length).find? (holds e es)).any fun j => es[j]?.any f := by
  by_cases he : isInterval e = true
  · rw [stackParent_find es he, keepers_find]
    rfl
  · have he' : isInterval e = false := by simpa using he
    unfold stackParent
    rw [if_neg he]
    have : (List.range es.length).find? (holds e es) = none := by
      rw [List.find?_eq_none]
      intro j hj
      unfold holds
      cases es[j]? <;> simp [not_interval_encloses he']
    rw [this]
    rfl

theorem heldTime_cons (p : Event → Bool) (e : Event) (es : List Event) :
    heldTime p (e :: es) = heldTime p es + if (stackParent e es).any p then len e else 0 := by
  unfold heldTime
  rw [List.length_cons, Finset.sum_range_succ']
  simp only [lenAt_succ, lenAt_zero, holderOf, any_map_succ, at_succ]
  congr 1
  rw [stackParent_holder]
  rfl

theorem heldTime_subs (p : Event → Bool) (es : List Event) : heldTime p es = subs p es := by
  induction es with
  | nil => rfl
  | cons e es ih => rw [heldTime_cons, ih, subs]

/-- On properly nested streams the holder is the parent. -/
theorem holderOf_nested {es : List Event} (h : ProperlyNested es) (i : Nat) : holderOf es i = parentOf es i := by
  induction es generalizing i with
  | nil => rfl
  | cons e es ih =>
    cases i with
    | succ i => simp only [holderOf, parentOf]; rw [ih (nested_cons h).2.2]
    | zero =>
      simp only [holderOf, parentOf]
      congr 1
      obtain ⟨hf, hea, hes⟩ := nested_cons h
      cases hp : es.findIdx? (fun p => encloses p e) with
      | none =>
        rw [List.find?_eq_none]
        intro j hj
        rw [List.findIdx?_eq_none_iff] at hp
        unfold holds
        cases hj : es[j]? with
        | none => simp
        | some p => simp [hp p (List.mem_of_getElem? hj)]
      | some j =>
        rw [List.findIdx?_eq_some_iff_getElem] at hp
        obtain ⟨hlt, hen, hbefore⟩ := hp
        rw [List.find?_range_eq_some]
        refine ⟨?_, List.mem_range.2 hlt, ?_⟩
        · unfold holds
          rw [List.getElem?_eq_getElem hlt]
          simp only [Option.any_some, hen, Bool.true_and, List.all_eq_true]
          intro x hx
          obtain ⟨k, hk, rfl⟩ := List.mem_iff_getElem.1 hx
          rw [List.length_take] at hk
          have hkj : k < j := by omega
          have hkl : k < es.length := by omega
          rw [List.getElem_take]
          cases hon : (isInterval es[k] && decide (es[k].threadId = e.threadId)) with
          | false => simp
          | true =>
            simp only [Bool.not_true, Bool.false_or]
            simp only [Bool.and_eq_true, decide_eq_true_eq] at hon
            obtain ⟨sk, tk, hk'⟩ := isInterval_iff.1 hon.1
            obtain ⟨s, t, s', t', q1, q2, q3, q4, q5⟩ := encloses_iff.1 hen
            have hik := hea es[k] (List.getElem_mem hkl) s' t' sk tk q2 hk' hon.2.symm
            have hkp := List.pairwise_iff_getElem.1 hes.2 k j hkl hlt hkj sk tk s t hk' q1 (hon.2.trans q3.symm)
            have hfe := hf s' t' q2
            have hnk := hbefore k hkj
            rcases hik.2 with hle | hle
            · exact absurd (encloses_iff.2 ⟨sk, tk, s', t', hk', q2, hon.2, hle, hik.1⟩) hnk
            · exact encloses_iff.2 ⟨s, t, sk, tk, q1, hk', q3.trans hon.2.symm, by omega, hkp.1⟩
        · intro k hk
          have hkl : k < es.length := by omega
          unfold holds
          rw [List.getElem?_eq_getElem hkl]
          have := hbefore k hk
          simp [this]

/-! ## When the loop ends without a panic -/

/-- There is enough to subtract from. -/
def Room (e : Event) (es : List Event) : Prop := ∀ l,
  subs (hasLabel l) (e :: es) ≤ timeOf (hasLabel l) es ∧
  subs (fun e => hasLabel l e && isHash e) (e :: es) ≤ timeOf (fun e => hasLabel l e && isHash e) es ∧
  subs (fun e => hasLabel l e && isLoad e) (e :: es) ≤ timeOf (fun e => hasLabel l e && isLoad e) es

theorem stackParent_other {e : Event} (h : times e = none) (es : List Event) : stackParent e es = none := by
  unfold stackParent
  rw [if_neg]
  intro hi
  obtain ⟨s, t, hs⟩ := isInterval_iff.1 hi
  rw [h] at hs
  cases hs

theorem room_of {es : List Event} {st : State} (hi : Inv es st) (e : Event)
    (h : ∀ p, stackParent e es = some p → len e ≤ (dataOf p.label st.queryData).selfTime ∧
      (isHash p = true → len e ≤ (dataOf p.label st.queryData).incrementalHashingTime) ∧
      (isLoad p = true → len e ≤ (dataOf p.label st.queryData).incrementalLoadTime)) : Room e es := by
  intro l
  have hd := hi.data l
  have h1 := hd.self
  have h2 := hd.hash
  have h3 := hd.load
  simp only [subs]
  cases hp : stackParent e es with
  | none => simp only [Option.any_none, Bool.false_eq_true, if_false]; omega
  | some p =>
    obtain ⟨g1, g2, g3⟩ := h p hp
    simp only [any_some]
    by_cases hl : hasLabel l p = true
    · have hll : p.label = l := by simpa [hasLabel] using hl
      rw [hll] at g1 g2 g3
      simp only [hl, Bool.true_and, if_true]
      refine ⟨by omega, ?_, ?_⟩
      · split
        · rename_i hh; have := g2 hh; omega
        · omega
      · split
        · rename_i hh; have := g3 hh; omega
        · omega
    · have hl' : hasLabel l p = false := by simpa using hl
      simp only [hl', Bool.false_and, Bool.false_eq_true, if_false]
      omega

theorem run_needs {checks : Bool} {e : Event} {es : List Event} {st' : State} (h : run checks (e :: es) = .ok st') :
    (∃ st, run checks es = .ok st) ∧ Room e es := by
  have h' := h
  simp only [run] at h'
  cases hr : run checks es with
  | error f => rw [hr] at h'; cases h'
  | ok st =>
    rw [hr] at h'
    change step checks st e = .ok st' at h'
    have hi := inv_run hr
    refine ⟨⟨st, rfl⟩, room_of hi e ?_⟩
    intro p hp
    cases ht : times e with
    | none => rw [stackParent_other ht] at hp; cases hp
    | some x =>
      obtain ⟨s, t⟩ := x
      obtain ⟨hst, m1, hm1, -⟩ := step_interval ht h'
      rw [hi.threads, threadSpec_getD] at hm1
      have hhead := subtractParent_ok hm1
      have hii : isInterval e = true := isInterval_iff.2 ⟨s, t, ht⟩
      unfold stackParent at hp
      rw [if_pos hii] at hp
      rw [hp] at hhead
      obtain ⟨b, hb, -⟩ := hhead
      rw [len_of_times ht]
      refine ⟨by have := hb.self; omega, ?_, ?_⟩
      · intro hh
        have := hb.hash
        rw [if_pos (isHash_iff.1 hh)] at this
        omega
      · intro hh
        have := hb.load
        rw [if_pos (isLoad_iff.1 hh)] at this
        omega

theorem run_can {checks : Bool} {e : Event} {es : List Event} {st : State} (hst : run checks es = .ok st) (he : Forward e)
    (hroom : Room e es) (ha : checks = false ∨ ∀ l, artifactTotal l (e :: es) < 2 ^ 64) :
    ∃ st', run checks (e :: es) = .ok st' := by
  have hi := inv_run hst
  have hart := artInv_run hst
  simp only [run, hst]
  change ∃ st', step checks st e = .ok st'
  cases ht : times e with
  | some x =>
    obtain ⟨s, t⟩ := x
    have hii : isInterval e = true := isInterval_iff.2 ⟨s, t, ht⟩
    obtain ⟨m1, hm1⟩ := subtractParent_succeeds (stack := popStack e.payload (stackOf e.threadId es)) (d := t - s)
      (m := st.queryData) (by
        intro p hp
        have hsp : stackParent e es = some p := by unfold stackParent; rw [if_pos hii, hp]
        have hd := hi.data p.label
        have hl : hasLabel p.label p = true := by simp [hasLabel]
        obtain ⟨r1, r2, r3⟩ := hroom p.label
        simp only [subs, hsp, any_some, hl, len_of_times ht, Bool.true_and, if_true] at r1 r2 r3
        apply subtractFrom_succeeds
        · have h2 := hd.self
          omega
        · intro hk
          rw [if_pos (isHash_iff.2 hk)] at r2
          have h2 := hd.hash
          omega
        · intro hk
          rw [if_pos (isLoad_iff.2 hk)] at r3
          have h2 := hd.load
          omega)
    exact step_interval_succeeds ht (he s t ht) (by rw [hi.threads, threadSpec_getD]; exact hm1)
  | none =>
    unfold step
    cases hp : e.payload with
    | timestamp ts =>
      cases ts with
      | interval a b => rw [times_some.2 hp] at ht; cases ht
      | instant a =>
        simp only []
        split
        · exact ⟨_, rfl⟩
        · exact ⟨_, rfl⟩
    | integer v =>
      simp only []
      split
      · rename_i hk
        have hia : isArtifact e.label e = true := isArtifact_iff.2 ⟨⟨v, hp⟩, rfl, hk⟩
        obtain ⟨m', hm'⟩ := addArtifact_succeeds (checks := checks) (l := e.label) (v := v) st.artifactSizes (by
          rcases ha with h | h
          · exact Or.inl h
          · right
            have h1 := h e.label
            rw [artifactTotal_cons, if_pos hia] at h1
            have : intOf e = v := by unfold intOf; rw [hp]
            rw [hart.vals, Nat.mod_eq_of_lt (by omega)]
            omega)
        rw [hm']
        exact ⟨_, rfl⟩
      · exact ⟨_, rfl⟩

/-- The three sums subtracted from. -/
def AllCovered (es : List Event) : Prop := ∀ l, Covered (hasLabel l) es ∧
  Covered (fun e => hasLabel l e && isHash e) es ∧ Covered (fun e => hasLabel l e && isLoad e) es

theorem covered_cons {p : Event → Bool} {e : Event} {es : List Event} :
    Covered p (e :: es) ↔ subs p (e :: es) ≤ timeOf p es ∧ Covered p es := by
  constructor
  · intro h
    refine ⟨?_, fun k => ?_⟩
    · have := h 0
      rw [List.drop_zero, heldTime_subs] at this
      exact this
    · have := h (k + 1)
      simpa using this
  · rintro ⟨h1, h2⟩ k
    cases k with
    | zero => rw [List.drop_zero, heldTime_subs]; exact h1
    | succ k => have := h2 k; simpa using this

theorem allCovered_cons {e : Event} {es : List Event} : AllCovered (e :: es) ↔ Room e es ∧ AllCovered es := by
  unfold AllCovered Room
  simp only [covered_cons]
  constructor
  · intro h
    exact ⟨fun l => ⟨(h l).1.1, (h l).2.1.1, (h l).2.2.1⟩, fun l => ⟨(h l).1.2, (h l).2.1.2, (h l).2.2.2⟩⟩
  · rintro ⟨h1, h2⟩ l
    exact ⟨⟨(h1 l).1, (h2 l).1⟩, ⟨(h1 l).2.1, (h2 l).2.1⟩, ⟨(h1 l).2.2, (h2 l).2.2⟩⟩

theorem covered_nil (p : Event → Bool) : Covered p [] := by
  intro k
  simp [heldTime]

theorem run_iff (checks : Bool) (es : List Event) : (∃ st, run checks es = .ok st) ↔
    (∀ e ∈ es, Forward e) ∧ (checks = false ∨ ∀ l, artifactTotal l es < 2 ^ 64) ∧ AllCovered es := by
  constructor
  · rintro ⟨st, h⟩
    refine ⟨(inv_run h).forward, ?_, ?_⟩
    · cases checks with
      | false => exact Or.inl rfl
      | true => exact Or.inr ((artInv_run h).bound rfl)
    · clear * - h
      induction es generalizing st with
      | nil => exact fun l => ⟨covered_nil _, covered_nil _, covered_nil _⟩
      | cons e es ih =>
        obtain ⟨⟨st0, h0⟩, hroom⟩ := run_needs h
        exact allCovered_cons.2 ⟨hroom, ih st0 h0⟩
  · rintro ⟨hf, ha, hc⟩
    induction es with
    | nil => exact ⟨_, rfl⟩
    | cons e es ih =>
      obtain ⟨hroom, hc'⟩ := allCovered_cons.1 hc
      obtain ⟨st, hst⟩ := ih (fun x hx => hf x (by simp [hx])) (by
        rcases ha with h | h
        · exact Or.inl h
        · right
          intro l
          have := h l
          rw [artifactTotal_cons] at this
          omega) hc'
      exact run_can hst (hf e (by simp)) hroom ha

theorem analyze_iff (checks : Bool) (es : List Event) : (∃ r, analyze checks es = .ok r) ↔
    (∀ e ∈ es, Forward e) ∧ (checks = false ∨ ∀ l, artifactTotal l es < 2 ^ 64) ∧ AllCovered es := by
  rw [← run_iff]
  constructor
  · rintro ⟨r, h⟩
    obtain ⟨st, hr, -⟩ := analyze_run h
    exact ⟨st, hr⟩
  · rintro ⟨st, h⟩
    exact analyze_of_run h

/-! ## Every failure is a panic -/

theorem subDuration_panics {a b : Nat} {f : Fault} (h : subDuration a b = .error f) : ∃ m, f = .panic m := by
  unfold subDuration at h
  split at h <;> cases h
  exact ⟨_, rfl⟩

theorem subtractFrom_panics {kind : Bytes} {d : Nat} {a : QueryData} {f : Fault} (h : subtractFrom kind d a = .error f) :
    ∃ m, f = .panic m := by
  unfold subtractFrom at h
  cases h1 : subDuration a.selfTime d with
  | error e =>
    rw [h1] at h
    have hf : f = e := by
      split at h
      · cases h; rfl
      · split at h
        · cases h; rfl
        · split at h <;> (cases h; rfl)
    rw [hf]
    exact subDuration_panics h1
  | ok s =>
    rw [h1] at h
    split at h
    · cases h
    · split at h
      · cases h2 : subDuration a.incrementalHashingTime d with
        | error e => rw [h2] at h; cases h; exact subDuration_panics h2
        | ok s2 => rw [h2] at h; cases h
      · split at h
        · cases h2 : subDuration a.incrementalLoadTime d with
          | error e => rw [h2] at h; cases h; exact subDuration_panics h2
          | ok s2 => rw [h2] at h; cases h
        · cases h

theorem record_panics {l : Bytes} {g : QueryData → Except Fault QueryData} {m : List (Bytes × QueryData)} {f : Fault}
    (hg : ∀ d e, g d = .error e → ∃ m, e = .panic m) (h : record l g m = .error f) : ∃ m, f = .panic m := by
  unfold record at h
  cases h1 : g ((lookup l m).getD {}) with
  | error e => rw [h1] at h; cases h; exact hg _ _ h1
  | ok d => rw [h1] at h; cases h

theorem addU64_panics {checks : Bool} {a b : Nat} {f : Fault} (h : addU64 checks a b = .error f) : ∃ m, f = .panic m := by
  unfold addU64 at h
  split at h
  · cases h
  · split at h <;> cases h
    exact ⟨_, rfl⟩

theorem addArtifact_panics {checks : Bool} {l : Bytes} {v : Nat} {m : List (Bytes × Nat)} {f : Fault}
    (h : addArtifact checks l v m = .error f) : ∃ m, f = .panic m := by
  induction m generalizing f with
  | nil =>
    simp only [addArtifact] at h
    cases h1 : addU64 checks 0 v with
    | error e => rw [h1] at h; cases h; exact addU64_panics h1
    | ok s => rw [h1] at h; cases h
  | cons x m ih =>
    obtain ⟨k, a⟩ := x
    simp only [addArtifact] at h
    split at h
    · cases h1 : addU64 checks a v with
      | error e => rw [h1] at h; cases h; exact addU64_panics h1
      | ok s => rw [h1] at h; cases h
    · split at h
      · cases h1 : addU64 checks 0 v with
        | error e => rw [h1] at h; cases h; exact addU64_panics h1
        | ok s => rw [h1] at h; cases h
      · cases h1 : addArtifact checks l v m with
        | error e => rw [h1] at h; cases h; exact ih h1
        | ok s => rw [h1] at h; cases h

theorem step_panics {checks : Bool} {st : State} {e : Event} {f : Fault} (h : step checks st e = .error f) :
    ∃ m, f = .panic m := by
  unfold step at h
  cases hp : e.payload with
  | integer v =>
    simp only [hp] at h
    split at h
    · cases h1 : addArtifact checks e.label v st.artifactSizes with
      | error g => rw [h1] at h; cases h; exact addArtifact_panics h1
      | ok a => rw [h1] at h; cases h
    · cases h
  | timestamp ts =>
    cases ts with
    | instant a =>
      simp only [hp] at h
      split at h
      · change (record e.label (fun data => .ok (hit data)) st.queryData >>= _) = _ at h
        cases h1 : record e.label (fun data => .ok (hit data)) st.queryData with
        | error g =>
          rw [h1] at h; cases h
          exact record_panics (fun d e he => by cases he) h1
        | ok a => rw [h1] at h; cases h
      · cases h
    | interval s t =>
      rw [duration_of_times (times_some.2 hp)] at h
      simp only [hp] at h
      by_cases hst : s ≤ t
      · rw [if_pos hst] at h
        simp only [unwrap] at h
        change (subtractParent _ _ _ >>= fun d => _) = _ at h
        cases h1 : subtractParent (popStack (.timestamp (.interval s t)) ((lookup e.threadId st.threads).getD ⟨[], s, t⟩).stack)
            (t - s) st.queryData with
        | error g =>
          rw [h1] at h; cases h
          cases hs : popStack (.timestamp (.interval s t)) ((lookup e.threadId st.threads).getD ⟨[], s, t⟩).stack with
          | nil => rw [hs] at h1; cases h1
          | cons p ps =>
            rw [hs] at h1
            exact record_panics (fun d e he => subtractFrom_panics he) h1
        | ok m1 =>
          rw [h1] at h
          cases h2 : record e.label (fun data => .ok (addTo e.eventKind (t - s) data)) m1 with
          | error g =>
            simp only [bind, Except.bind, h2] at h; cases h
            exact record_panics (fun d e he => by cases he) h2
          | ok m2 => simp only [bind, Except.bind, h2] at h; cases h
      · rw [if_neg hst] at h
        cases h
        exact ⟨_, rfl⟩

theorem run_panics {checks : Bool} {es : List Event} {f : Fault} (h : run checks es = .error f) : ∃ m, f = .panic m := by
  induction es generalizing f with
  | nil => cases h
  | cons e es ih =>
    simp only [run] at h
    cases hr : run checks es with
    | error g => rw [hr] at h; cases h; exact ih hr
    | ok st => rw [hr] at h; exact step_panics h

theorem analyze_panics {checks : Bool} {es : List Event} {f : Fault} (h : analyze checks es = .error f) : ∃ m, f = .panic m := by
  cases hr : run checks es with
  | error g =>
    unfold analyze at h
    rw [steps_reverse, hr] at h
    cases h
    exact run_panics hr
  | ok st =>
    obtain ⟨r, h'⟩ := analyze_of_run hr
    rw [h] at h'
    cases h'

end Verif.Analyze
