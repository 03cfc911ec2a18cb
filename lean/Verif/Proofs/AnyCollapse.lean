import Verif.Proofs.AnyStream
import Verif.Proofs.Collapse
import Verif.Spec.AnyCollapse
import Mathlib.Data.Nat.ModEq

/-! # Proofs about the collapsed stacks of streams of any shape -/

namespace Verif.Analyze

open Verif Verif.Mm Verif.Spec Verif.Decode

/-! ## Paths -/

/-- The id of the stack of the intervals around an interval is the path of its holder. -/
theorem stackStr_keepers (e : Event) (he : isInterval e = true) (seen es : List Event) :
    stackStr ((keepers e.threadId seen es).filter fun p => encloses p e) =
      (((List.range es.length).find? (holdsAfter e seen es)).map (heldPath es)).getD (utf8 "rustc") := by
  induction es generalizing e seen with
  | nil => rfl
  | cons x es ih =>
    rw [List.length_cons, List.range_succ_eq_map, List.find?_cons, List.find?_map]
    have hz : holdsAfter e seen (x :: es) 0 = (encloses x e && seen.all (spans e.threadId x)) := by
      simp [holdsAfter]
    have hs : (holdsAfter e seen (x :: es) ∘ Nat.succ) = holdsAfter e (x :: seen) es := by
      funext j
      simp only [Function.comp, holdsAfter, Nat.succ_eq_add_one, List.getElem?_cons_succ, List.take_succ_cons, List.all_cons]
      congr 1
      funext p
      cases encloses p e <;> cases spans e.threadId p x <;> cases seen.all (spans e.threadId p) <;> simp
    have hshift : ∀ o : Option Nat, ((o.map Nat.succ).map (heldPath (x :: es))).getD (utf8 "rustc") =
        (o.map (heldPath es)).getD (utf8 "rustc") := by
      intro o; cases o <;> rfl
    rw [hz, hs]
    simp only [keepers]
    by_cases hx : onThread e.threadId x = true
    · obtain ⟨hxi, hxt⟩ := onThread_iff.1 hx
      by_cases ha : seen.all (spans e.threadId x) = true
      · rw [if_pos (by rw [hx, ha]; rfl), List.filter_cons]
        cases hen : encloses x e with
        | true =>
          simp only [if_true, ha, Bool.and_self, Option.map_some, Option.getD_some, heldPath, stackStr]
          congr 2
          have hkey : ((keepers e.threadId (x :: seen) es).filter fun p => encloses p e) =
              (keepers x.threadId [] es).filter fun p => encloses p x := by
            rw [keepers_eq, keepers_eq, hxt, List.filter_filter, List.filter_filter]
            congr 1
            funext y
            simp only [List.all_nil, Bool.and_true, List.all_cons]
            rw [spans_on hx]
            cases hyx : encloses y x with
            | false => simp
            | true =>
              have h1 := encloses_trans hyx hen
              have h2 : seen.all (spans e.threadId y) = true := by
                rw [List.all_eq_true] at ha ⊢
                intro z hz
                by_cases hzt : onThread e.threadId z = true
                · have := ha z hz
                  rw [spans_on hzt] at this ⊢
                  exact encloses_trans hyx this
                · exact spans_off (by simpa using hzt)
              rw [h1, h2]; rfl
          rw [hkey]
          exact ih x hxi []
        | false =>
          simp only [Bool.false_eq_true, if_false, Bool.false_and]
          rw [hshift]
          exact ih e he (x :: seen)
      · have hf : (encloses x e && seen.all (spans e.threadId x)) = false := by simp [ha]
        rw [if_neg (by simp [ha]), hf]
        simp only []
        rw [hshift]
        exact ih e he (x :: seen)
    · have hen : encloses x e = false := by
        cases hh : encloses x e with
        | false => rfl
        | true =>
          obtain ⟨s, t, s', t', q1, -, q3, -⟩ := encloses_iff.1 hh
          exact absurd (onThread_iff.2 ⟨isInterval_iff.2 ⟨s, t, q1⟩, q3⟩) hx
      have hf : onThread e.threadId x = false := by simpa using hx
      rw [if_neg (by simp [hf]), hen]
      simp only [Bool.false_and]
      rw [hshift]
      exact ih e he (x :: seen)

/-- The stack left after popping for an interval. -/
def around (e : Event) (es : List Event) : List Event := popStack e.payload (stackOf e.threadId es)

theorem around_eq {e : Event} (he : isInterval e = true) (es : List Event) :
    around e es = (keepers e.threadId [] es).filter fun p => encloses p e := by
  have ho : onThread e.threadId e = true := onThread_iff.2 ⟨he, rfl⟩
  have hc := stackOf_chain e.threadId es
  unfold around
  rw [popStack_filter ho _ hc.2.1 hc.1, keepers_eq]
  simp only [List.all_nil, List.filter_true]

theorem around_str {e : Event} (he : isInterval e = true) (es : List Event) :
    stackStr (around e es) = (((List.range es.length).find? (holds e es)).map (heldPath es)).getD (utf8 "rustc") := by
  rw [around_eq he, stackStr_keepers e he]
  rfl

theorem heldPath_zero {e : Event} (he : isInterval e = true) (es : List Event) :
    heldPath (e :: es) 0 = stackStr (around e es) ++ utf8 ";" ++ e.label := by
  rw [around_str he, heldPath]

theorem around_nil {e : Event} (he : isInterval e = true) (es : List Event) :
    around e es = [] ↔ (List.range es.length).find? (holds e es) = none := by
  have h := stackParent_holder e es (fun _ => true)
  unfold stackParent at h
  rw [if_pos he] at h
  change (around e es).head?.any _ = _ at h
  cases hf : (List.range es.length).find? (holds e es) with
  | none =>
    rw [hf] at h
    cases ha : around e es with
    | nil => simp
    | cons y ys => rw [ha] at h; simp at h
  | some j =>
    rw [hf] at h
    have hj : j < es.length := List.mem_range.1 (List.mem_of_find?_eq_some hf)
    rw [Option.any_some, List.getElem?_eq_getElem hj] at h
    cases ha : around e es with
    | nil => rw [ha] at h; simp at h
    | cons y ys => simp

theorem onPath_succ (e : Event) (es : List Event) (k : Bytes) : (fun j => onPath (e :: es) k (j + 1)) = onPath es k := by
  funext j
  have : at? isInterval (e :: es) (j + 1) = at? isInterval es j := congrFun (at_succ isInterval e es) j
  unfold onPath
  rw [this]
  rfl

theorem onPath_holder {e : Event} {es : List Event} {j : Nat} (h : (List.range es.length).find? (holds e es) = some j) (k : Bytes) :
    onPath es k j = decide (heldPath es j = k) := by
  have h1 := List.find?_some h
  unfold onPath
  have : at? isInterval es j = true := by
    unfold holds at h1
    unfold at?
    cases hj : es[j]? with
    | none => rw [hj] at h1; simp at h1
    | some p =>
      rw [hj] at h1
      simp only [Option.any_some, Bool.and_eq_true] at h1 ⊢
      obtain ⟨s, t, s', t', q1, -⟩ := encloses_iff.1 h1.1
      exact isInterval_iff.2 ⟨s, t, q1⟩
  rw [this]
  rfl

theorem pathLength_cons (e : Event) (es : List Event) (k : Bytes) :
    pathLength (e :: es) k = pathLength es k + if onPath (e :: es) k 0 then len e else 0 := by
  have := lensAt_cons (onPath (e :: es) k) e es
  rw [onPath_succ] at this
  exact this

theorem pathHeld_cons (e : Event) (es : List Event) (k : Bytes) :
    pathHeld (e :: es) k = pathHeld es k +
      if ((List.range es.length).find? (holds e es)).any (onPath es k) then len e else 0 := by
  unfold pathHeld
  rw [List.length_cons, Finset.sum_range_succ']
  simp only [lenAt_succ, lenAt_zero, holderOf, any_map_succ, onPath_succ]

/-- The lengths of the intervals of a thread counted in no other. -/
def unheldOn (t : UInt32) (es : List Event) : Nat :=
  ∑ i ∈ Finset.range es.length, if holderOf es i = none ∧ at? (onThread t) es i = true then lenAt es i else 0

theorem unheldOn_eq (t : UInt32) (es : List Event) : unheldOn t es = unheldOf t es := by
  unfold unheldOn unheldOf
  apply Finset.sum_congr rfl
  intro i hi
  simp only [Finset.mem_range] at hi
  unfold at? onThread
  rw [List.getElem?_eq_getElem hi]
  simp only [Option.any_some]
  by_cases hii : isInterval es[i] = true
  · simp only [hii, Bool.true_and]
  · have : lenAt es i = 0 := by
      apply lenAt_none
      intro p hp
      rw [List.getElem?_eq_getElem hi] at hp
      cases hp
      simpa [isInterval] using hii
    rw [this]
    split <;> split <;> rfl

theorem unheldOn_cons (t : UInt32) (e : Event) (es : List Event) : unheldOn t (e :: es) = unheldOn t es +
    if (List.range es.length).find? (holds e es) = none ∧ onThread t e = true then len e else 0 := by
  unfold unheldOn
  rw [List.length_cons, Finset.sum_range_succ']
  have : ∀ j, at? (onThread t) (e :: es) (j + 1) = at? (onThread t) es j := fun j => congrFun (at_succ (onThread t) e es) j
  simp only [lenAt_succ, lenAt_zero, holderOf, at_zero, Option.map_eq_none_iff, this]

theorem unheld_threads (es : List Event) : unheld es = ∑ t ∈ threadsOf es, unheldOn t es := by
  unfold unheld unheldOn
  rw [Finset.sum_comm]
  apply Finset.sum_congr rfl
  intro i hi
  simp only [Finset.mem_range] at hi
  by_cases hr : holderOf es i = none
  · simp only [hr, true_and, if_true]
    have hat : ∀ t, at? (onThread t) es i = (isInterval es[i] && decide (es[i].threadId = t)) := by
      intro t; unfold at? onThread; rw [List.getElem?_eq_getElem hi]; rfl
    simp only [hat, Bool.and_eq_true, decide_eq_true_eq]
    by_cases hii : isInterval es[i] = true
    · simp only [hii, true_and]
      rw [Finset.sum_ite_eq, if_pos]
      unfold threadsOf
      rw [List.mem_toFinset, List.mem_map]
      exact ⟨es[i], List.mem_filter.2 ⟨List.getElem_mem hi, hii⟩, rfl⟩
    · simp only [hii, false_and, if_false, Finset.sum_const_zero, Bool.false_eq_true]
      apply lenAt_none
      intro p hp
      rw [List.getElem?_eq_getElem hi] at hp
      cases hp
      simpa [isInterval] using hii
  · simp [hr]

/-! ## Arithmetic -/

/-- Equal modulo 2⁶⁴, and equal if `x`. -/
def Same (x : Prop) (a b : Nat) : Prop := a % 2 ^ 64 = b % 2 ^ 64 ∧ (x → a = b)

theorem Same.rfl' {x : Prop} {a : Nat} : Same x a a := ⟨rfl, fun _ => rfl⟩

theorem add_same {checks : Bool} {x : Prop} (hx : x → checks = true) {a b c : Nat} (h : addU64 checks a b = .ok c) :
    c < 2 ^ 64 ∧ Same x c (a + b) := by
  unfold addU64 at h
  split at h
  · cases h; exact ⟨by assumption, rfl, fun _ => rfl⟩
  · split at h
    · cases h
    · rename_i h1 h2
      cases h
      exact ⟨Nat.mod_lt _ (by decide), Nat.mod_mod _ _, fun h3 => absurd (hx h3) h2⟩

theorem sub_same {checks : Bool} {x : Prop} (hx : x → checks = true) {a b c : Nat} (ha : a < 2 ^ 64)
    (hb : b < 2 ^ 64) (h : subU64 checks a b = .ok c) : c < 2 ^ 64 ∧ Same x (c + b) a := by
  unfold subU64 at h
  split at h
  · cases h
    exact ⟨by omega, by rw [Nat.sub_add_cancel (by assumption)], fun _ => Nat.sub_add_cancel (by assumption)⟩
  · split at h
    · cases h
    · rename_i h1 h2
      cases h
      exact ⟨Nat.mod_lt _ (by decide), by omega, fun h3 => absurd (hx h3) h2⟩

theorem len_same {x : Prop} {n : Nat} (hx : x → n < 2 ^ 64) : Same x (n % 2 ^ 64) n :=
  ⟨Nat.mod_mod _ _, fun h => Nat.mod_eq_of_lt (hx h)⟩

theorem nanos_ok {e : Event} {s t d : Nat} (ht : times e = some (s, t)) (h : nanosU64 e.payload = .ok d) :
    s ≤ t ∧ d = len e % 2 ^ 64 := by
  unfold nanosU64 at h
  rw [duration_of_times ht] at h
  split at h
  · cases h; exact ⟨by assumption, by rw [len_of_times ht]⟩
  · cases h

theorem nanos_fine {e : Event} {s t : Nat} (ht : times e = some (s, t)) (hst : s ≤ t) :
    nanosU64 e.payload = .ok (len e % 2 ^ 64) := by
  unfold nanosU64
  rw [duration_of_times ht, if_pos hst, len_of_times ht]
  rfl

/-! ## Thread ends -/

/-- First start and last recorded end of a thread. -/
def recOf (t : UInt32) : List Event → Option (Nat × Nat)
  | [] => none
  | e :: es =>
    if e.threadId = t then
      match times e with
      | some (s, u) => match recOf t es with
        | none => some (s, u)
        | some (a, b) => some (min a s, b)
      | none => recOf t es
    else recOf t es

theorem recOf_none {t : UInt32} {es : List Event} (h : recOf t es = none) : stackOf t es = [] ∧ unheldOn t es = 0 := by
  induction es with
  | nil => exact ⟨rfl, rfl⟩
  | cons e es ih =>
    rw [unheldOn_cons]
    simp only [recOf] at h
    by_cases ht : e.threadId = t
    · rw [if_pos ht] at h
      cases hu : times e with
      | none =>
        rw [hu] at h
        rw [stackOf_skip hu, len_none hu, (ih h).1, (ih h).2]
        simp
      | some x =>
        rw [hu] at h
        cases hr : recOf t es with
        | none => simp [hr] at h
        | some y => simp [hr] at h
    · rw [if_neg ht] at h
      have : onThread t e = false := by simp [onThread, ht]
      simp only [stackOf, this, Bool.false_eq_true, if_false, and_false, Nat.add_zero]
      exact ih h

theorem recOf_eq (t : UInt32) (es : List Event) :
    (startsOf t es).min? = (recOf t es).map (·.1) ∧ (endsOf t es).getLast? = (recOf t es).map (·.2) := by
  induction es with
  | nil => simp [startsOf, endsOf, recOf]
  | cons e es ih =>
    obtain ⟨ih1, ih2⟩ := ih
    rw [startsOf_cons, endsOf_cons]
    simp only [recOf]
    by_cases ht : e.threadId = t
    · simp only [if_pos ht]
      cases hu : times e with
      | none => simpa [hu] using ⟨ih1, ih2⟩
      | some x =>
        obtain ⟨s, u⟩ := x
        simp only [Option.map_some]
        cases hr : recOf t es with
        | none =>
          rw [hr] at ih1 ih2
          simp only [Option.map_none, List.min?_eq_none_iff, List.getLast?_eq_none_iff] at ih1 ih2
          simp [ih1, ih2]
        | some y =>
          obtain ⟨a, b⟩ := y
          rw [hr] at ih1 ih2
          simp only [Option.map_some] at ih1 ih2
          refine ⟨?_, ?_⟩
          · simp only [Option.toList_some, List.singleton_append, List.min?_cons, ih1, Option.elim_some, Option.map_some]
            rw [Nat.min_comm]
          · simp [List.getLast?_cons, ih2]
    · simpa [ht] using ⟨ih1, ih2⟩

theorem recordedSpan_eq (t : UInt32) (es : List Event) : recordedSpan t es = match recOf t es with
    | some (a, b) => b - a
    | none => 0 := by
  unfold recordedSpan
  rw [(recOf_eq t es).1, (recOf_eq t es).2]
  cases recOf t es <;> rfl

theorem recOf_isSome {t : UInt32} {es : List Event} : (recOf t es).isSome ↔ t ∈ threadsOf es := by
  rw [← spanOf_isSome]
  have h1 := (recOf_eq t es).1
  have h2 := (spanOf_eq t es).1
  rw [h1] at h2
  have := congrArg Option.isSome h2
  simpa using this

theorem recOf_le {t : UInt32} {es : List Event} {a b : Nat} (hf : ∀ e ∈ es, Forward e) (h : recOf t es = some (a, b)) : a ≤ b := by
  induction es generalizing a b with
  | nil => cases h
  | cons e es ih =>
    have ih := fun {a b} => @ih a b fun x hx => hf x (by simp [hx])
    simp only [recOf] at h
    split at h
    · split at h
      · rename_i s u hu
        split at h
        · cases h; exact hf e (by simp) _ _ hu
        · rename_i a' b' hab
          cases h
          exact Nat.le_trans (Nat.min_le_left _ _) (ih hab)
      · exact ih h
    · exact ih h

/-! ## The invariant -/

/-- Everything that holds after a stream of any shape. -/
structure AInv (x : Prop) (es : List Event) (st : CollapseState) : Prop where
  keys : (st.counters.map (·.1)).Nodup
  present : ∀ k, k ∈ st.counters.map (·.1) ↔ ∃ j, onPath es k j = true
  vals : ∀ k, (lookup k st.counters).getD 0 < 2 ^ 64 ∧ Same x ((lookup k st.counters).getD 0 + pathHeld es k) (pathLength es k)
  threadKeys : (st.threads.map (·.1)).Nodup
  threads : ∀ t, ∃ total, total < 2 ^ 64 ∧ Same x total (unheldOn t es) ∧
    lookup t st.threads = (recOf t es).map fun y => ⟨stackOf t es, stackStr (stackOf t es), y.1, y.2, total⟩
  forward : ∀ e ∈ es, Forward e

theorem ainv_nil (x : Prop) : AInv x [] {} := by
  refine ⟨List.nodup_nil, ?_, ?_, List.nodup_nil, fun t => ⟨0, by decide, Same.rfl', rfl⟩, by simp⟩
  · intro k; simp [onPath, at?]
  · intro k; exact ⟨Nat.two_pow_pos 64, Same.rfl'⟩

theorem ainv_step {checks : Bool} {x : Prop} {e : Event} {es : List Event} {st st' : CollapseState} (hx : x → checks = true)
    (hl : x → len e < 2 ^ 64) (hi : AInv x es st) (h : collapseStep checks st e = .ok st') : AInv x (e :: es) st' := by
  cases ht : times e with
  | none =>
    have hst : st' = st := by
      unfold collapseStep at h
      cases hp : e.payload with
      | integer v => simp only [hp] at h; cases h; rfl
      | timestamp ts =>
        cases ts with
        | instant v => simp only [hp] at h; cases h; rfl
        | interval a b => rw [times_some.2 hp] at ht; cases ht
    subst hst
    have hni : isInterval e = false := by unfold isInterval; rw [ht]; rfl
    have h0 : ∀ k, onPath (e :: es) k 0 = false := by intro k; simp [onPath, at_zero, hni]
    refine ⟨hi.keys, ?_, ?_, hi.threadKeys, ?_, ?_⟩
    · intro k
      rw [hi.present]
      constructor
      · rintro ⟨j, hj⟩; exact ⟨j + 1, by rw [← onPath_succ e es] at hj; exact hj⟩
      · rintro ⟨j, hj⟩
        cases j with
        | zero => rw [h0] at hj; cases hj
        | succ j => exact ⟨j, by rw [← onPath_succ e es]; exact hj⟩
    · intro k
      rw [pathHeld_cons, pathLength_cons, len_none ht]
      simpa using hi.vals k
    · intro t
      obtain ⟨total, h1, h2, h3⟩ := hi.threads t
      refine ⟨total, h1, ?_, ?_⟩
      · rw [unheldOn_cons, len_none ht]; simpa using h2
      · rw [h3, stackOf_skip ht]
        simp only [recOf, ht]
        split <;> rfl
    · intro y hy
      rcases List.mem_cons.1 hy with rfl | hy
      · intro s t hst; rw [ht] at hst; cases hst
      · exact hi.forward y hy
  | some y =>
    obtain ⟨s, t⟩ := y
    have hii : isInterval e = true := isInterval_iff.2 ⟨s, t, ht⟩
    obtain ⟨total, ht1, ht2, ht3⟩ := hi.threads e.threadId
    have hth : ∃ total, total < 2 ^ 64 ∧ Same x total (unheldOn e.threadId es) ∧
        (lookup e.threadId st.threads).getD ⟨[], utf8 "rustc", s, t, 0⟩ =
          (⟨stackOf e.threadId es, stackStr (stackOf e.threadId es), ((recOf e.threadId es).getD (s, t)).1,
            ((recOf e.threadId es).getD (s, t)).2, total⟩ : CollapseThread) := by
      cases hr : recOf e.threadId es with
      | none =>
        obtain ⟨g1, g2⟩ := recOf_none hr
        refine ⟨0, by decide, by rw [g2]; exact Same.rfl', ?_⟩
        rw [ht3, hr, g1]; rfl
      | some y => exact ⟨total, ht1, ht2, by rw [ht3, hr]; rfl⟩
    clear ht1 ht2 ht3
    obtain ⟨total, ht1, ht2, ht3⟩ := hth
    have hpop := popBoth_str e.payload (stackOf e.threadId es)
    have hpath0 := heldPath_zero hii es
    have hp0 : ∀ k, onPath (e :: es) k 0 = decide (heldPath (e :: es) 0 = k) := by
      intro k; simp [onPath, at_zero, hii]
    have hsid := around_str hii es
    have hnilr := around_nil hii es
    unfold collapseStep at h
    have hpl := times_some.1 ht
    have hnan : ∀ d, nanosU64 e.payload = .ok d → s ≤ t ∧ d = len e % 2 ^ 64 := fun d => nanos_ok ht
    rw [hpl] at h hnan hpop
    simp only [ht3, hpop, bind, Except.bind] at h
    have haround : popStack (.timestamp (.interval s t)) (stackOf e.threadId es) = around e es := by
      unfold around; rw [hpl]
    rw [haround] at h
    cases hch : chargeParent checks (around e es) (stackStr (around e es)) (.timestamp (.interval s t)) st.counters total with
    | error f => rw [hch] at h; cases h
    | ok r =>
      obtain ⟨c1, total'⟩ := r
      rw [hch] at h
      simp only [] at h
      cases hn : nanosU64 (.timestamp (.interval s t)) with
      | error f => rw [hn] at h; cases h
      | ok d =>
        rw [hn] at h
        simp only [] at h
        obtain ⟨hst, hd⟩ := hnan d hn
        have hdl : Same x d (len e) := by rw [hd]; exact len_same hl
        have hdb : d < 2 ^ 64 := by rw [hd]; exact Nat.mod_lt _ (by decide)
        rw [← hpath0] at h
        cases had : addU64 checks ((lookup (heldPath (e :: es) 0) c1).getD 0) d with
        | error f => rw [had] at h; cases h
        | ok c =>
          rw [had] at h
          cases h
          obtain ⟨hcb, hcs⟩ := add_same hx had
          -- what the charge did
          have hcharge : (c1.map (·.1)).Nodup ∧ (∀ k, k ∈ c1.map (·.1) ↔ k ∈ st.counters.map (·.1)) ∧
              (∀ k, (lookup k c1).getD 0 < 2 ^ 64 ∧ Same x ((lookup k c1).getD 0 +
                if ((List.range es.length).find? (holds e es)).any (onPath es k) then len e else 0) ((lookup k st.counters).getD 0)) ∧
              total' < 2 ^ 64 ∧ Same x total' (unheldOn e.threadId (e :: es)) := by
            rw [unheldOn_cons]
            have hon : onThread e.threadId e = true := onThread_iff.2 ⟨hii, rfl⟩
            cases hf : (List.range es.length).find? (holds e es) with
            | none =>
              rw [hnilr.2 hf] at hch
              simp only [chargeParent, hn, bind, Except.bind] at hch
              cases ha : addU64 checks total d with
              | error f => rw [ha] at hch; cases hch
              | ok tt =>
                rw [ha] at hch
                cases hch
                obtain ⟨g1, g2⟩ := add_same hx ha
                refine ⟨hi.keys, fun k => Iff.rfl, fun k => ⟨(hi.vals k).1, by simpa using Same.rfl'⟩, g1, ?_⟩
                rw [if_pos ⟨rfl, hon⟩]
                exact ⟨by have := g2.1; have := ht2.1; have := hdl.1; omega,
                  fun h => by rw [g2.2 h, ht2.2 h, hdl.2 h]⟩
            | some j =>
              rw [hf] at hsid
              simp only [Option.map_some, Option.getD_some] at hsid
              have hne : around e es ≠ [] := fun hh => by rw [hnilr.1 hh] at hf; cases hf
              have hpk := onPath_holder hf
              have hin : heldPath es j ∈ st.counters.map (·.1) := by
                rw [hi.present]; exact ⟨j, by rw [hpk]; simp⟩
              rw [← lookup_isSome] at hin
              cases hlk : lookup (heldPath es j) st.counters with
              | none => rw [hlk] at hin; cases hin
              | some c0 =>
                rw [hsid] at hch
                cases hanl : around e es with
                | nil => exact absurd hanl hne
                | cons y ys =>
                  rw [hanl] at hch
                  simp only [chargeParent, hlk, hn, bind, Except.bind] at hch
                  cases hs : subU64 checks c0 d with
                  | error f => rw [hs] at hch; cases hch
                  | ok c2 =>
                    rw [hs] at hch
                    cases hch
                    have hc0 : c0 < 2 ^ 64 := by
                      have := (hi.vals (heldPath es j)).1
                      rw [hlk] at this
                      exact this
                    obtain ⟨g1, g2⟩ := sub_same hx hc0 hdb hs
                    refine ⟨keys_nodup_insert _ _ hi.keys, ?_, ?_, ht1, by simpa using ht2⟩
                    · intro k
                      rw [mem_keys_insert]
                      constructor
                      · rintro (rfl | h)
                        · rw [← lookup_isSome, hlk]; rfl
                        · exact h
                      · exact Or.inr
                    · intro k
                      rw [lookup_insert]
                      simp only [Option.any_some, hpk, decide_eq_true_eq]
                      by_cases hk : heldPath es j = k
                      · subst hk
                        simp only [if_true, hlk, Option.getD_some]
                        exact ⟨g1, by have := g2.1; have := hdl.1; omega, fun h => by have := g2.2 h; have := hdl.2 h; omega⟩
                      · simp only [if_neg hk]
                        exact ⟨(hi.vals k).1, by simpa using Same.rfl'⟩
          obtain ⟨hk1, hm1, hv1, htb, hts⟩ := hcharge
          refine ⟨keys_nodup_insert _ _ hk1, ?_, ?_, keys_nodup_insert _ _ hi.threadKeys, ?_, ?_⟩
          · intro k
            rw [mem_keys_insert, hm1, hi.present]
            constructor
            · rintro (rfl | ⟨j, hj⟩)
              · exact ⟨0, by rw [hp0]; simp⟩
              · exact ⟨j + 1, by rw [← onPath_succ e es] at hj; exact hj⟩
            · rintro ⟨j, hj⟩
              cases j with
              | zero => rw [hp0] at hj; simp only [decide_eq_true_eq] at hj; exact Or.inl hj.symm
              | succ j => exact Or.inr ⟨j, by rw [← onPath_succ e es]; exact hj⟩
          · intro k
            rw [lookup_insert, pathHeld_cons, pathLength_cons, hp0]
            obtain ⟨v1, v2⟩ := hv1 k
            obtain ⟨w1, w2⟩ := hi.vals k
            generalize hZ : (if ((List.range es.length).find? (holds e es)).any (onPath es k) then len e else 0) = Z at v2 ⊢
            by_cases hk : heldPath (e :: es) 0 = k
            · subst hk
              simp only [if_true, Option.getD_some, decide_true]
              refine ⟨hcb, ?_, ?_⟩
              · have := v2.1; have := w2.1; have := hcs.1; have := hdl.1; omega
              · intro h
                have := v2.2 h; have := w2.2 h; have := hcs.2 h; have := hdl.2 h; omega
            · simp only [if_neg hk, hk, decide_false, Bool.false_eq_true, if_false]
              refine ⟨v1, ?_, ?_⟩
              · have := v2.1; have := w2.1; omega
              · intro h
                have := v2.2 h; have := w2.2 h; omega
          · intro t'
            rw [lookup_insert]
            by_cases htt : e.threadId = t'
            · subst htt
              refine ⟨total', htb, hts, ?_⟩
              rw [if_pos rfl]
              have hso : stackOf e.threadId (e :: es) = e :: around e es := by
                simp only [stackOf, onThread, hii, decide_true, Bool.and_self, if_true]
                rfl
              rw [hso, stackStr, ← hpath0]
              simp only [recOf, if_true, ht]
              cases recOf e.threadId es with
              | none => simp
              | some y => rfl
            · obtain ⟨tt, q1, q2, q3⟩ := hi.threads t'
              refine ⟨tt, q1, ?_, ?_⟩
              · rw [unheldOn_cons]
                simpa [onThread, htt] using q2
              · rw [if_neg htt, q3]
                simp only [recOf, stackOf, onThread, htt, if_false, decide_false, Bool.and_false, Bool.false_eq_true]
          · intro y hy
            rcases List.mem_cons.1 hy with rfl | hy
            · intro s' t' hst'; rw [ht] at hst'; cases hst'; exact hst
            · exact hi.forward y hy

theorem ainv_run {checks : Bool} {x : Prop} {es : List Event} {st : CollapseState} (hx : x → checks = true)
    (hl : x → ∀ e ∈ es, len e < 2 ^ 64) (h : crun checks es = .ok st) : AInv x es st := by
  induction es generalizing st with
  | nil => cases h; exact ainv_nil x
  | cons e es ih =>
    simp only [crun] at h
    cases hr : crun checks es with
    | error f => rw [hr] at h; cases h
    | ok st0 =>
      rw [hr] at h
      exact ainv_step hx (fun h => hl h e (by simp)) (ih (fun h y hy => hl h y (by simp [hy])) hr) h

/-! ## The time in no interval -/

theorem gaps_same {checks : Bool} {x : Prop} (hx : x → checks = true) {ts : List (UInt32 × CollapseThread)} {acc g : Nat}
    (hacc : acc < 2 ^ 64) (ht : ∀ y ∈ ts, y.2.total < 2 ^ 64) (hs : x → ∀ y ∈ ts, y.2.stop - y.2.start < 2 ^ 64)
    (h : gaps checks acc ts = .ok g) : g < 2 ^ 64 ∧
      Same x (g + (ts.map fun y => y.2.total).sum) (acc + (ts.map fun y => y.2.stop - y.2.start).sum) := by
  induction ts generalizing acc with
  | nil => cases h; exact ⟨hacc, by simpa using Same.rfl'⟩
  | cons y ts ih =>
    obtain ⟨t, p⟩ := y
    simp only [gaps] at h
    by_cases hle : p.start ≤ p.stop
    · simp only [if_pos hle, bind, Except.bind] at h
      cases h1 : subU64 checks ((p.stop - p.start) % 2 ^ 64) p.total with
      | error f => rw [h1] at h; cases h
      | ok v =>
        rw [h1] at h
        simp only [] at h
        cases h2 : addU64 checks acc v with
        | error f => rw [h2] at h; cases h
        | ok w =>
          rw [h2] at h
          simp only [] at h
          obtain ⟨a1, a2⟩ := sub_same hx (Nat.mod_lt _ (by decide)) (show p.total < 2 ^ 64 from ht (t, p) (by simp)) h1
          obtain ⟨b1, b2⟩ := add_same hx h2
          obtain ⟨c1, c2⟩ := ih b1 (fun y hy => ht y (by simp [hy])) (fun h y hy => hs h y (by simp [hy])) h
          refine ⟨c1, ?_, ?_⟩
          · simp only [List.map_cons, List.sum_cons]
            have := a2.1; have := b2.1; have := c2.1
            omega
          · intro hxx
            simp only [List.map_cons, List.sum_cons]
            have h4 := a2.2 hxx
            have h5 := b2.2 hxx
            have h6 := c2.2 hxx
            have h3 : p.stop - p.start < 2 ^ 64 := hs hxx (t, p) (by simp)
            rw [Nat.mod_eq_of_lt h3] at h4
            omega
    · simp only [if_neg hle] at h
      cases h

theorem sum_same {x : Prop} {α : Type} (l : List α) (f g : α → Nat) (h : ∀ a ∈ l, Same x (f a) (g a)) :
    Same x (l.map f).sum (l.map g).sum := by
  induction l with
  | nil => exact Same.rfl'
  | cons a l ih =>
    have h1 := h a (by simp)
    have h2 := ih fun b hb => h b (by simp [hb])
    simp only [List.map_cons, List.sum_cons]
    exact ⟨by have := h1.1; have := h2.1; omega, fun hx => by rw [h1.2 hx, h2.2 hx]⟩

/-- What the threads add up to. -/
theorem AInv.sums {x : Prop} {es : List Event} {st : CollapseState} (hi : AInv x es st) :
    (∀ y ∈ st.threads, y.2.total < 2 ^ 64 ∧ y.2.start ≤ y.2.stop ∧ y.2.stop - y.2.start = recordedSpan y.1 es) ∧
    (st.threads.map fun y => y.2.stop - y.2.start).sum = recordedTime es ∧
    Same x (st.threads.map fun y => y.2.total).sum (unheld es) := by
  have hx : ∀ y ∈ st.threads, (y.2.total < 2 ^ 64 ∧ y.2.start ≤ y.2.stop ∧ y.2.stop - y.2.start = recordedSpan y.1 es) ∧
      Same x y.2.total (unheldOn y.1 es) := by
    intro y hy
    obtain ⟨total, h1, h2, h3⟩ := hi.threads y.1
    rw [lookup_of_mem hi.threadKeys hy] at h3
    symm at h3
    rw [Option.map_eq_some_iff] at h3
    obtain ⟨⟨a, b⟩, hab, hxy⟩ := h3
    rw [← hxy, recordedSpan_eq, hab]
    exact ⟨⟨h1, recOf_le hi.forward hab, rfl⟩, h2⟩
  have hkeys : threadsOf es = (st.threads.map (·.1)).toFinset := by
    ext t
    obtain ⟨total, h1, h2, h3⟩ := hi.threads t
    rw [← recOf_isSome, List.mem_toFinset, ← lookup_isSome, h3]
    cases recOf t es <;> simp
  refine ⟨fun y hy => (hx y hy).1, ?_, ?_⟩
  · unfold recordedTime
    rw [hkeys, List.sum_toFinset _ hi.threadKeys, List.map_map]
    congr 1
    exact List.map_congr_left fun y hy => (hx y hy).1.2.2
  · rw [unheld_threads, hkeys, List.sum_toFinset _ hi.threadKeys, List.map_map]
    exact sum_same _ _ _ fun y hy => (hx y hy).2

theorem heldPath_prefix {es : List Event} {j : Nat} (h : j < es.length) : ∃ x l, heldPath es j = x ++ utf8 ";" ++ l := by
  induction es generalizing j with
  | nil => simp at h
  | cons e es ih =>
    cases j with
    | zero => exact ⟨_, e.label, rfl⟩
    | succ j => exact ih (by simpa using h)

theorem onPath_lt {es : List Event} {k : Bytes} {j : Nat} (h : onPath es k j = true) : j < es.length := by
  unfold onPath at? at h
  by_contra hj
  rw [List.getElem?_eq_none (by omega)] at h
  simp at h

theorem onPath_ne_rustc {es : List Event} {j : Nat} (h : onPath es (utf8 "rustc") j = true) : False := by
  obtain ⟨x, l, h1⟩ := heldPath_prefix (onPath_lt h)
  have h2 : heldPath es j = utf8 "rustc" := by
    simp only [onPath, Bool.and_eq_true, decide_eq_true_eq] at h; exact h.2
  apply semi_not_in_rustc
  rw [← h2, h1, semi_in]
  simp

theorem insert_new {κ α : Type} [DecidableEq κ] {k : κ} {a : α} {m : List (κ × α)} (h : lookup k m = none) :
    insert k a m = m ++ [(k, a)] := by
  induction m with
  | nil => rfl
  | cons y m ih =>
    obtain ⟨k', v⟩ := y
    simp only [lookup] at h
    split at h
    · cases h
    · rename_i hk
      simp only [insert, if_neg hk, ih h, List.cons_append]

theorem same_final {x : Prop} {g S U R : Nat} (h : Same x (g + S) (0 + R)) (h2 : Same x S U) : Same x (g + U) R :=
  ⟨by have := h.1; have := h2.1; omega, fun hx => by have := h.2 hx; have := h2.2 hx; omega⟩

/-- What collapsing gives when it returns. -/
theorem collapse_any {checks : Bool} {x : Prop} {es : List Event} {m : List (Bytes × Nat)} (hx : x → checks = true)
    (hl : x → ∀ e ∈ es, len e < 2 ^ 64) (hs : x → ∀ t ∈ threadsOf es, recordedSpan t es < 2 ^ 64)
    (h : collapse checks es = .ok m) : ∃ st g, crun checks es = .ok st ∧ AInv x es st ∧ lookup (utf8 "rustc") st.counters = none ∧
      m = st.counters ++ [(utf8 "rustc", g)] ∧ g < 2 ^ 64 ∧ Same x (g + unheld es) (recordedTime es) := by
  unfold collapse at h
  rw [csteps_reverse] at h
  cases hr : crun checks es with
  | error f => rw [hr] at h; cases h
  | ok st =>
    rw [hr] at h
    simp only [bind, Except.bind] at h
    cases hg : gaps checks 0 st.threads with
    | error f => rw [hg] at h; cases h
    | ok g =>
      rw [hg] at h
      cases h
      have hi := ainv_run hx hl hr
      obtain ⟨s1, s2, s3⟩ := hi.sums
      have hno : lookup (utf8 "rustc") st.counters = none := by
        cases hlk : lookup (utf8 "rustc") st.counters with
        | none => rfl
        | some v =>
          exfalso
          have : utf8 "rustc" ∈ st.counters.map (·.1) := (lookup_isSome _ _).1 (by rw [hlk]; rfl)
          rw [hi.present] at this
          obtain ⟨j, hj⟩ := this
          exact onPath_ne_rustc hj
      have hspan : x → ∀ y ∈ st.threads, y.2.stop - y.2.start < 2 ^ 64 := by
        intro hxx y hy
        rw [(s1 y hy).2.2]
        by_cases hm : y.1 ∈ threadsOf es
        · exact hs hxx _ hm
        · rw [recordedSpan_eq]
          rw [← recOf_isSome] at hm
          cases hro : recOf y.1 es with
          | none => exact Nat.two_pow_pos 64
          | some z => rw [hro] at hm; simp at hm
      obtain ⟨g1, g2⟩ := gaps_same hx (by decide) (fun y hy => (s1 y hy).1) hspan hg
      rw [s2] at g2
      exact ⟨st, g, rfl, hi, hno, insert_new hno, g1, same_final g2 s3⟩

/-! ## When it returns -/

/-- There is enough to subtract from, and the sums are small enough. -/
def CRoom (e : Event) (es : List Event) : Prop :=
  (∀ k, pathHeld (e :: es) k ≤ pathLength es k ∧ pathLength (e :: es) k < 2 ^ 64 + pathHeld (e :: es) k) ∧
  ∀ t, unheldOn t (e :: es) < 2 ^ 64

theorem ainv_can {checks : Bool} {x : Prop} {e : Event} {es : List Event} {st : CollapseState} (hx : x → checks = true)
    (hl : x → len e < 2 ^ 64) (hi : AInv x es st) (he : Forward e) (hroom : checks = false ∨ x ∧ CRoom e es) :
    ∃ st', collapseStep checks st e = .ok st' := by
  cases ht : times e with
  | none =>
    unfold collapseStep
    cases hp : e.payload with
    | integer v => exact ⟨_, rfl⟩
    | timestamp ts =>
      cases ts with
      | instant v => exact ⟨_, rfl⟩
      | interval a b => rw [times_some.2 hp] at ht; cases ht
  | some y =>
    obtain ⟨s, t⟩ := y
    have hst := he s t ht
    have hii : isInterval e = true := isInterval_iff.2 ⟨s, t, ht⟩
    obtain ⟨total, ht1, ht2, ht3⟩ := hi.threads e.threadId
    have hth : ∃ total, total < 2 ^ 64 ∧ Same x total (unheldOn e.threadId es) ∧
        (lookup e.threadId st.threads).getD ⟨[], utf8 "rustc", s, t, 0⟩ =
          (⟨stackOf e.threadId es, stackStr (stackOf e.threadId es), ((recOf e.threadId es).getD (s, t)).1,
            ((recOf e.threadId es).getD (s, t)).2, total⟩ : CollapseThread) := by
      cases hr : recOf e.threadId es with
      | none =>
        obtain ⟨g1, g2⟩ := recOf_none hr
        refine ⟨0, by decide, by rw [g2]; exact Same.rfl', ?_⟩
        rw [ht3, hr, g1]; rfl
      | some y => exact ⟨total, ht1, ht2, by rw [ht3, hr]; rfl⟩
    clear ht1 ht2 ht3
    obtain ⟨total, ht1, ht2, ht3⟩ := hth
    have hpop := popBoth_str e.payload (stackOf e.threadId es)
    have hpath0 := heldPath_zero hii es
    have hp0 : ∀ k, onPath (e :: es) k 0 = decide (heldPath (e :: es) 0 = k) := by
      intro k; simp [onPath, at_zero, hii]
    have hsid := around_str hii es
    have hnilr := around_nil hii es
    have hnan := nanos_fine ht hst
    have hpl := times_some.1 ht
    have hadd : ∀ a b, (checks = false ∨ a + b < 2 ^ 64) → ∃ c, addU64 checks a b = .ok c := by
      intro a b h
      unfold addU64
      split
      · exact ⟨_, rfl⟩
      · rcases h with h | h
        · rw [h]; exact ⟨_, rfl⟩
        · omega
    have hsub : ∀ a b, (checks = false ∨ b ≤ a) → ∃ c, subU64 checks a b = .ok c := by
      intro a b h
      unfold subU64
      split
      · exact ⟨_, rfl⟩
      · rcases h with h | h
        · rw [h]; exact ⟨_, rfl⟩
        · omega
    have hdl : x → len e % 2 ^ 64 = len e := fun h => Nat.mod_eq_of_lt (hl h)
    have hch : ∃ c1 total', chargeParent checks (around e es) (stackStr (around e es)) e.payload st.counters total = .ok (c1, total') ∧
        ∀ k, (checks = false ∨ (lookup k c1).getD 0 +
          (if ((List.range es.length).find? (holds e es)).any (onPath es k) then len e else 0) = (lookup k st.counters).getD 0) := by
      cases hf : (List.range es.length).find? (holds e es) with
      | none =>
        rw [hnilr.2 hf]
        have h1 := (hadd total (len e % 2 ^ 64) (by
          rcases hroom with h | ⟨hxx, -, h⟩
          · exact Or.inl h
          · right
            have h2 := h e.threadId
            rw [unheldOn_cons, if_pos ⟨hf, onThread_iff.2 ⟨hii, rfl⟩⟩] at h2
            rw [hdl hxx, ht2.2 hxx]
            exact h2))
        obtain ⟨c, hc⟩ := h1
        refine ⟨st.counters, c, ?_, fun k => Or.inr (by simp)⟩
        simp only [chargeParent, hnan, bind, Except.bind, hc]
      | some j =>
        rw [hf] at hsid
        simp only [Option.map_some, Option.getD_some] at hsid
        have hne : around e es ≠ [] := fun hh => by rw [hnilr.1 hh] at hf; cases hf
        have hpk := onPath_holder hf
        have hin : heldPath es j ∈ st.counters.map (·.1) := by
          rw [hi.present]; exact ⟨j, by rw [hpk]; simp⟩
        rw [← lookup_isSome] at hin
        cases hlk : lookup (heldPath es j) st.counters with
        | none => rw [hlk] at hin; cases hin
        | some c0 =>
          have h1 := hsub c0 (len e % 2 ^ 64) (by
            rcases hroom with h | ⟨hxx, h, -⟩
            · exact Or.inl h
            · right
              have h2 := (h (heldPath es j)).1
              rw [pathHeld_cons, hf] at h2
              simp only [Option.any_some, hpk, decide_true, if_true] at h2
              have h3 := (hi.vals (heldPath es j)).2.2 hxx
              rw [hlk] at h3
              simp only [Option.getD_some] at h3
              rw [hdl hxx]
              omega)
          obtain ⟨c, hc⟩ := h1
          rw [hsid]
          cases hanl : around e es with
          | nil => exact absurd hanl hne
          | cons y ys =>
            refine ⟨insert (heldPath es j) c st.counters, total, ?_, fun k => ?_⟩
            · simp only [chargeParent, hlk, hnan, bind, Except.bind, hc]
            · cases checks with
              | false => exact Or.inl rfl
              | true =>
                right
                rcases hroom with h | ⟨hxx, h, -⟩
                · cases h
                · rw [lookup_insert]
                  simp only [Option.any_some, hpk, decide_eq_true_eq]
                  by_cases hk : heldPath es j = k
                  · subst hk
                    simp only [if_true, hlk, Option.getD_some]
                    unfold subU64 at hc
                    rw [hdl hxx] at hc
                    split at hc
                    · cases hc; omega
                    · cases hc
                  · simp only [if_neg hk]
                    omega
    obtain ⟨c1, total', hc1, hv⟩ := hch
    have hlast := hadd ((lookup (heldPath (e :: es) 0) c1).getD 0) (len e % 2 ^ 64) (by
      rcases hroom with h | ⟨hxx, h, -⟩
      · exact Or.inl h
      · right
        have h2 := (h (heldPath (e :: es) 0)).2
        have h3 := (hi.vals (heldPath (e :: es) 0)).2.2 hxx
        have h4 := hv (heldPath (e :: es) 0)
        rw [hx hxx] at h4
        have h4 := h4.resolve_left (by decide)
        rw [pathHeld_cons, pathLength_cons, hp0] at h2
        simp only [decide_true, if_true] at h2
        rw [hdl hxx]
        omega)
    obtain ⟨c, hc⟩ := hlast
    unfold collapseStep
    have haround : popStack e.payload (stackOf e.threadId es) = around e es := rfl
    rw [haround] at hpop
    rw [hpl] at hnan hpop hc1 ⊢
    simp only [ht3, hpop, bind, Except.bind, hc1, ← hpath0, hnan, hc]
    exact ⟨_, rfl⟩

theorem nanos_forward {e : Event} {s t d : Nat} (ht : times e = some (s, t)) (h : nanosU64 (.timestamp (.interval s t)) = .ok d) :
    s ≤ t := by
  rw [← times_some.1 ht] at h
  exact (nanos_ok ht h).1

/-- With overflow checks a step needs room. -/
theorem croom_of {x : Prop} {e : Event} {es : List Event} {st st' : CollapseState} (hxx : x)
    (hi : AInv x es st) (hi' : AInv x (e :: es) st') (h : collapseStep true st e = .ok st') (hl : len e < 2 ^ 64) :
    CRoom e es := by
  refine ⟨fun k => ⟨?_, ?_⟩, fun t => ?_⟩
  · -- enough to subtract from
    have hk := (hi.vals k).2.2 hxx
    rw [pathHeld_cons]
    split
    · rename_i hany
      cases hf : (List.range es.length).find? (holds e es) with
      | none => rw [hf] at hany; simp at hany
      | some j =>
        rw [hf] at hany
        simp only [Option.any_some] at hany
        rw [onPath_holder hf] at hany
        simp only [decide_eq_true_eq] at hany
        subst hany
        have hii : isInterval e = true := by
          have h1 := List.find?_some hf
          unfold holds at h1
          cases hj : es[j]? with
          | none => rw [hj] at h1; simp at h1
          | some p =>
            rw [hj] at h1
            simp only [Option.any_some, Bool.and_eq_true] at h1
            obtain ⟨s, t, s', t', -, q2, -⟩ := encloses_iff.1 h1.1
            exact isInterval_iff.2 ⟨s', t', q2⟩
        obtain ⟨s, t, ht⟩ := isInterval_iff.1 hii
        have hpl := times_some.1 ht
        have hsid := around_str hii es
        have hnilr := around_nil hii es
        rw [hf] at hsid hnilr
        simp only [Option.map_some, Option.getD_some] at hsid
        have hne : around e es ≠ [] := fun hh => by simpa using hnilr.1 hh
        have hstack : ∀ s t, ((lookup e.threadId st.threads).getD ⟨[], utf8 "rustc", s, t, 0⟩).stack = stackOf e.threadId es ∧
            ((lookup e.threadId st.threads).getD ⟨[], utf8 "rustc", s, t, 0⟩).stackId = stackStr (stackOf e.threadId es) := by
          intro s t
          obtain ⟨total, -, -, h3⟩ := hi.threads e.threadId
          cases hr : recOf e.threadId es with
          | none =>
            rw [h3, hr, (recOf_none hr).1]
            exact ⟨rfl, rfl⟩
          | some y =>
            rw [h3, hr]
            exact ⟨rfl, rfl⟩
        unfold collapseStep at h
        rw [hpl] at h
        have hpop := popBoth_str e.payload (stackOf e.threadId es)
        have haround : popStack e.payload (stackOf e.threadId es) = around e es := rfl
        rw [haround, hpl] at hpop
        simp only [(hstack s t).1, (hstack s t).2, hpop, bind, Except.bind] at h
        cases hanl : around e es with
        | nil => exact absurd hanl hne
        | cons y ys =>
          rw [hanl] at hsid
          rw [hanl, hsid] at h
          have hin : heldPath es j ∈ st.counters.map (·.1) := by
            rw [hi.present]; exact ⟨j, by rw [onPath_holder hf]; simp⟩
          rw [← lookup_isSome] at hin
          cases hlk : lookup (heldPath es j) st.counters with
          | none => rw [hlk] at hin; cases hin
          | some c0 =>
            rw [hlk] at hk
            simp only [Option.getD_some] at hk
            simp only [chargeParent, hlk, bind, Except.bind] at h
            cases hn : nanosU64 (.timestamp (.interval s t)) with
            | error f => rw [hn] at h; cases h
            | ok d =>
              have hd : d = len e := by
                have := hn
                rw [← hpl] at this
                rw [(nanos_ok ht this).2, Nat.mod_eq_of_lt hl]
              rw [hn] at h
              simp only [] at h
              cases hs : subU64 true c0 d with
              | error f => rw [hs] at h; cases h
              | ok c2 =>
                unfold subU64 at hs
                split at hs
                · omega
                · cases hs
    · omega
  · have h1 := (hi'.vals k).1
    have h2 := (hi'.vals k).2.2 hxx
    omega
  · obtain ⟨total, h1, h2, -⟩ := hi'.threads t
    have := h2.2 hxx
    omega

theorem gaps_can {checks : Bool} {ts : List (UInt32 × CollapseThread)} {acc : Nat}
    (hle : ∀ y ∈ ts, y.2.start ≤ y.2.stop)
    (h : checks = false ∨ (∀ y ∈ ts, y.2.stop - y.2.start < 2 ^ 64 ∧ y.2.total ≤ y.2.stop - y.2.start) ∧
      acc + (ts.map fun y => y.2.stop - y.2.start).sum < 2 ^ 64 + (ts.map fun y => y.2.total).sum) :
    ∃ g, gaps checks acc ts = .ok g := by
  induction ts generalizing acc with
  | nil => exact ⟨_, rfl⟩
  | cons y ts ih =>
    obtain ⟨t, p⟩ := y
    have hp : p.start ≤ p.stop := hle (t, p) (by simp)
    simp only [gaps, if_pos hp, bind, Except.bind]
    rcases h with h | ⟨h1, h2⟩
    · subst h
      have ha : ∃ v, subU64 false ((p.stop - p.start) % 2 ^ 64) p.total = .ok v := by
        unfold subU64; split
        · exact ⟨_, rfl⟩
        · exact ⟨_, rfl⟩
      obtain ⟨v, hv⟩ := ha
      have hb : ∃ w, addU64 false acc v = .ok w := by
        unfold addU64; split
        · exact ⟨_, rfl⟩
        · exact ⟨_, rfl⟩
      obtain ⟨w, hw⟩ := hb
      simp only [hv, hw]
      exact ih (fun y hy => hle y (by simp [hy])) (Or.inl rfl)
    · have h3 : p.stop - p.start < 2 ^ 64 ∧ p.total ≤ p.stop - p.start := h1 (t, p) (by simp)
      simp only [List.map_cons, List.sum_cons] at h2
      have hrest : (ts.map fun y => y.2.total).sum ≤ (ts.map fun y => y.2.stop - y.2.start).sum :=
        List.sum_le_sum fun y hy => (h1 y (by simp [hy])).2
      rw [Nat.mod_eq_of_lt h3.1]
      unfold subU64 addU64
      rw [if_pos h3.2]
      simp only []
      rw [if_pos (by omega)]
      simp only []
      exact ih (fun y hy => hle y (by simp [hy])) (Or.inr ⟨fun y hy => h1 y (by simp [hy]), by omega⟩)

theorem gaps_forward {checks : Bool} {ts : List (UInt32 × CollapseThread)} {acc g : Nat} (hx : checks = true)
    (hs : ∀ y ∈ ts, y.2.stop - y.2.start < 2 ^ 64) (h : gaps checks acc ts = .ok g) :
    ∀ y ∈ ts, y.2.total ≤ y.2.stop - y.2.start := by
  subst hx
  induction ts generalizing acc with
  | nil => simp
  | cons y ts ih =>
    obtain ⟨t, p⟩ := y
    simp only [gaps] at h
    by_cases hle : p.start ≤ p.stop
    · simp only [if_pos hle, bind, Except.bind] at h
      have hs0 : p.stop - p.start < 2 ^ 64 := hs (t, p) (by simp)
      rw [Nat.mod_eq_of_lt hs0] at h
      cases h1 : subU64 true (p.stop - p.start) p.total with
      | error f => rw [h1] at h; cases h
      | ok v =>
        rw [h1] at h
        simp only [] at h
        cases h2 : addU64 true acc v with
        | error f => rw [h2] at h; cases h
        | ok w =>
          rw [h2] at h
          simp only [] at h
          intro y hy
          rcases List.mem_cons.1 hy with rfl | hy
          · show p.total ≤ p.stop - p.start
            unfold subU64 at h1
            split at h1
            · assumption
            · cases h1
          · exact ih (fun y hy => hs y (by simp [hy])) h y hy
    · simp only [if_neg hle] at h
      cases h

/-- Nothing is taken from a path before there is as much in it, and no path and no thread holds 2⁶⁴. -/
def PathsCovered : List Event → Prop
  | [] => True
  | e :: es => CRoom e es ∧ PathsCovered es

theorem crun_release (es : List Event) : (∃ st, crun false es = .ok st) ↔ ∀ e ∈ es, Forward e := by
  constructor
  · rintro ⟨st, h⟩
    exact (ainv_run (x := False) (fun h => h.elim) (fun h => h.elim) h).forward
  · intro hf
    induction es with
    | nil => exact ⟨_, rfl⟩
    | cons e es ih =>
      obtain ⟨st, hst⟩ := ih fun x hx => hf x (by simp [hx])
      have hi := ainv_run (x := False) (fun h => h.elim) (fun h => h.elim) hst
      obtain ⟨st', h⟩ := ainv_can (checks := false) (x := False) (fun h => h.elim) (fun h => h.elim) hi (hf e (by simp)) (Or.inl rfl)
      exact ⟨st', by simp only [crun, hst]; exact h⟩

theorem crun_checked {es : List Event} (hl : ∀ e ∈ es, len e < 2 ^ 64) : (∃ st, crun true es = .ok st) ↔
    (∀ e ∈ es, Forward e) ∧ PathsCovered es := by
  constructor
  · rintro ⟨st, h⟩
    refine ⟨(ainv_run (x := True) (fun _ => rfl) (fun _ => hl) h).forward, ?_⟩
    induction es generalizing st with
    | nil => trivial
    | cons e es ih =>
      have hi' := ainv_run (x := True) (fun _ => rfl) (fun _ => hl) h
      simp only [crun] at h
      cases hr : crun true es with
      | error f => rw [hr] at h; cases h
      | ok st0 =>
        rw [hr] at h
        have hl0 : ∀ y ∈ es, len y < 2 ^ 64 := fun y hy => hl y (by simp [hy])
        have hi := ainv_run (x := True) (fun _ => rfl) (fun _ => hl0) hr
        exact ⟨croom_of (x := True) trivial hi hi' h (hl e (by simp)), ih hl0 st0 hr⟩
  · rintro ⟨hf, hc⟩
    induction es with
    | nil => exact ⟨_, rfl⟩
    | cons e es ih =>
      have hl0 : ∀ y ∈ es, len y < 2 ^ 64 := fun y hy => hl y (by simp [hy])
      obtain ⟨st, hst⟩ := ih hl0 (fun x hx => hf x (by simp [hx])) hc.2
      have hi := ainv_run (x := True) (fun _ => rfl) (fun _ => hl0) hst
      obtain ⟨st', h⟩ := ainv_can (checks := true) (x := True) (fun _ => rfl) (fun _ => hl e (by simp)) hi (hf e (by simp))
        (Or.inr ⟨trivial, hc.1⟩)
      exact ⟨st', by simp only [crun, hst]; exact h⟩

theorem pathsCovered_iff (es : List Event) : PathsCovered es ↔
    (∀ n k, pathHeld (es.drop n) k ≤ pathLength (es.drop (n + 1)) k ∧ pathLength (es.drop n) k < 2 ^ 64 + pathHeld (es.drop n) k) ∧
    ∀ t, unheldOn t es < 2 ^ 64 := by
  induction es with
  | nil =>
    simp only [PathsCovered, List.drop_nil, true_iff]
    have h1 : ∀ k, pathLength [] k = 0 := fun k => rfl
    have h2 : ∀ k, pathHeld [] k = 0 := fun k => rfl
    have h3 : ∀ t, unheldOn t [] = 0 := fun k => rfl
    simp [h1, h2, h3]
  | cons e es ih =>
    simp only [PathsCovered, CRoom, ih]
    constructor
    · rintro ⟨⟨h1, h2⟩, h3, h4⟩
      refine ⟨fun n k => ?_, h2⟩
      cases n with
      | zero => exact h1 k
      | succ n => exact h3 n k
    · rintro ⟨h1, h2⟩
      refine ⟨⟨fun k => h1 0 k, h2⟩, fun n k => h1 (n + 1) k, fun t => ?_⟩
      have := h2 t
      rw [unheldOn_cons] at this
      omega

theorem collapse_needs {checks : Bool} (es : List Event) : (∃ m, collapse checks es = .ok m) ↔
    ∃ st g, crun checks es = .ok st ∧ gaps checks 0 st.threads = .ok g := by
  unfold collapse
  rw [csteps_reverse]
  constructor
  · rintro ⟨m, h⟩
    cases hr : crun checks es with
    | error f => rw [hr] at h; cases h
    | ok st =>
      rw [hr] at h
      simp only [bind, Except.bind] at h
      cases hg : gaps checks 0 st.threads with
      | error f => rw [hg] at h; cases h
      | ok g => exact ⟨st, g, rfl, hg⟩
  · rintro ⟨st, g, h1, h2⟩
    rw [h1]
    simp only [bind, Except.bind, h2]
    exact ⟨_, rfl⟩

theorem collapse_release (es : List Event) : (∃ m, collapse false es = .ok m) ↔ ∀ e ∈ es, Forward e := by
  rw [collapse_needs, ← crun_release]
  constructor
  · rintro ⟨st, g, h, -⟩; exact ⟨st, h⟩
  · rintro ⟨st, h⟩
    have hi := ainv_run (x := False) (fun h => h.elim) (fun h => h.elim) h
    obtain ⟨g, hg⟩ := gaps_can (checks := false) (acc := 0) (fun y hy => (hi.sums.1 y hy).2.1) (Or.inl rfl)
    exact ⟨st, g, h, hg⟩

theorem recordedSpan_off {t : UInt32} {es : List Event} (h : t ∉ threadsOf es) : recordedSpan t es = 0 ∧ unheldOn t es = 0 := by
  rw [← recOf_isSome] at h
  have hr : recOf t es = none := by
    cases hro : recOf t es with
    | none => rfl
    | some z => rw [hro] at h; simp at h
  exact ⟨by rw [recordedSpan_eq, hr], (recOf_none hr).2⟩

theorem collapse_checked {es : List Event} (hl : ∀ e ∈ es, len e < 2 ^ 64) (hs : ∀ t, recordedSpan t es < 2 ^ 64) :
    (∃ m, collapse true es = .ok m) ↔ (∀ e ∈ es, Forward e) ∧ PathsCovered es ∧
      (∀ t, unheldOn t es ≤ recordedSpan t es) ∧ recordedTime es < 2 ^ 64 + unheld es := by
  rw [collapse_needs]
  constructor
  · rintro ⟨st, g, h, hg⟩
    have hi := ainv_run (x := True) (fun _ => rfl) (fun _ => hl) h
    obtain ⟨s1, s2, s3⟩ := hi.sums
    obtain ⟨h1, h2⟩ := (crun_checked hl).1 ⟨st, h⟩
    have hspan : ∀ y ∈ st.threads, y.2.stop - y.2.start < 2 ^ 64 := fun y hy => by rw [(s1 y hy).2.2]; exact hs _
    refine ⟨h1, h2, fun t => ?_, ?_⟩
    · by_cases hm : t ∈ threadsOf es
      · obtain ⟨total, g1, g2, g3⟩ := hi.threads t
        rw [← recOf_isSome] at hm
        cases hro : recOf t es with
        | none => rw [hro] at hm; cases hm
        | some z =>
          rw [hro] at g3
          have hmem := mem_of_lookup g3
          have := gaps_forward rfl hspan hg _ hmem
          rw [(s1 _ hmem).2.2] at this
          simp only at this
          rw [← g2.2 trivial]
          exact this
      · have := recordedSpan_off hm; omega
    · obtain ⟨g1, g2⟩ := gaps_same (x := True) (fun _ => rfl) (by decide) (fun y hy => (s1 y hy).1) (fun _ => hspan) hg
      rw [s2] at g2
      have := (same_final g2 s3).2 trivial
      omega
  · rintro ⟨h1, h2, h3, h4⟩
    obtain ⟨st, h⟩ := (crun_checked hl).2 ⟨h1, h2⟩
    have hi := ainv_run (x := True) (fun _ => rfl) (fun _ => hl) h
    obtain ⟨s1, s2, s3⟩ := hi.sums
    obtain ⟨g, hg⟩ := gaps_can (checks := true) (acc := 0) (fun y hy => (s1 y hy).2.1) (Or.inr ⟨by
      intro y hy
      rw [(s1 y hy).2.2]
      refine ⟨hs _, ?_⟩
      obtain ⟨total, g1, g2, g3⟩ := hi.threads y.1
      rw [lookup_of_mem hi.threadKeys hy] at g3
      symm at g3
      rw [Option.map_eq_some_iff] at g3
      obtain ⟨z, -, hz⟩ := g3
      rw [← hz]
      simp only
      rw [g2.2 trivial]
      exact h3 _, by
      rw [s2]
      have h5 := s3.2 trivial
      have h6 : ∀ a b : Nat, a = b → recordedTime es < 2 ^ 64 + b → 0 + recordedTime es < 2 ^ 64 + a := by
        intro a b h h'; omega
      exact h6 _ _ h5 h4⟩)
    exact ⟨st, g, h, hg⟩

/-! ## Sums over paths -/

theorem holder_interval {es : List Event} {i j : Nat} (h : holderOf es i = some j) : at? isInterval es j = true := by
  induction es generalizing i j with
  | nil => cases h
  | cons e es ih =>
    cases i with
    | zero =>
      simp only [holderOf, Option.map_eq_some_iff] at h
      obtain ⟨j', hj, rfl⟩ := h
      have hon := onPath_holder hj (heldPath es j')
      unfold onPath at hon
      simp only [decide_true, Bool.and_true] at hon
      rw [← hon]
      exact congrFun (at_succ isInterval e es) j'
    | succ i =>
      simp only [holderOf, Option.map_eq_some_iff] at h
      obtain ⟨j', hj, rfl⟩ := h
      have := ih hj
      rw [← this]
      exact congrFun (at_succ isInterval e es) j'

theorem all_paths (es : List Event) (K : Finset Bytes) (hK : ∀ k, k ∈ K ↔ ∃ j, onPath es k j = true) :
    ∑ k ∈ K, pathLength es k = timeOf (fun _ => true) es ∧ ∑ k ∈ K, pathHeld es k + unheld es = timeOf (fun _ => true) es := by
  have hone : ∀ j, at? isInterval es j = true → ∀ v : Nat, (∑ k ∈ K, if onPath es k j = true then v else 0) = v := by
    intro j hj v
    have hp : ∀ k, onPath es k j = decide (heldPath es j = k) := by intro k; simp [onPath, hj]
    simp only [hp, decide_eq_true_eq]
    rw [Finset.sum_ite_eq, if_pos]
    rw [hK]
    exact ⟨j, by rw [hp]; simp⟩
  have hzero : ∀ j, at? isInterval es j ≠ true → lenAt es j = 0 := by
    intro j hint
    apply lenAt_none
    intro p hp
    unfold at? at hint
    rw [hp] at hint
    simp only [Option.any_some, isInterval, Bool.not_eq_true] at hint
    simpa using hint
  have htime : timeOf (fun _ => true) es = ∑ j ∈ Finset.range es.length, lenAt es j := by
    rw [← lensAt_time]
    unfold lensAt
    apply Finset.sum_congr rfl
    intro j hj
    have : at? (fun _ => true) es j = true := by
      unfold at?
      rw [List.getElem?_eq_getElem (by simpa using hj)]
      rfl
    rw [this]
    rfl
  rw [htime]
  constructor
  · unfold pathLength
    rw [Finset.sum_comm]
    apply Finset.sum_congr rfl
    intro j hj
    by_cases hint : at? isInterval es j = true
    · exact hone j hint _
    · rw [hzero j hint]; simp
  · unfold pathHeld unheld
    rw [Finset.sum_comm, ← Finset.sum_add_distrib]
    apply Finset.sum_congr rfl
    intro i hi
    cases hh : holderOf es i with
    | none => simp
    | some j =>
      simp only [Option.any_some, reduceCtorEq, if_false, Nat.add_zero]
      exact hone j (holder_interval hh) _

/-- Sums over the paths with a property. -/
theorem some_paths (es : List Event) (K : Finset Bytes) (hK : ∀ k, k ∈ K ↔ ∃ j, onPath es k j = true) (q : Bytes → Bool)
    (p : Event → Bool) (hq : ∀ j e, es[j]? = some e → q (heldPath es j) = p e) :
    ∑ k ∈ K with q k = true, pathLength es k = timeOf p es ∧ ∑ k ∈ K with q k = true, pathHeld es k = heldTime p es := by
  have hone : ∀ j, at? isInterval es j = true → ∀ v : Nat,
      (∑ k ∈ K with q k = true, if onPath es k j = true then v else 0) = if at? p es j then v else 0 := by
    intro j hj v
    have hp : ∀ k, onPath es k j = decide (heldPath es j = k) := by intro k; simp [onPath, hj]
    simp only [hp, decide_eq_true_eq]
    rw [Finset.sum_ite_eq]
    have hin : heldPath es j ∈ K := by rw [hK]; exact ⟨j, by rw [hp]; simp⟩
    have hat : at? p es j = q (heldPath es j) := by
      unfold at? at hj ⊢
      cases he : es[j]? with
      | none => rw [he] at hj; cases hj
      | some e => rw [hq j e he]; rfl
    rw [hat]
    simp only [Finset.mem_filter, hin, true_and]
  have hzero : ∀ j, at? isInterval es j ≠ true → lenAt es j = 0 := by
    intro j hint
    apply lenAt_none
    intro p hp
    unfold at? at hint
    rw [hp] at hint
    simp only [Option.any_some, isInterval, Bool.not_eq_true] at hint
    simpa using hint
  constructor
  · rw [← lensAt_time]
    unfold pathLength lensAt
    rw [Finset.sum_comm]
    apply Finset.sum_congr rfl
    intro j hj
    by_cases hint : at? isInterval es j = true
    · exact hone j hint _
    · rw [hzero j hint]; simp
  · unfold pathHeld heldTime
    rw [Finset.sum_comm]
    apply Finset.sum_congr rfl
    intro i hi
    cases hh : holderOf es i with
    | none => simp
    | some j =>
      simp only [Option.any_some]
      exact hone j (holder_interval hh) _

theorem heldPath_leaf {es : List Event} {j : Nat} {e : Event} (he : es[j]? = some e) (hl : ∀ e ∈ es, (0x3B : UInt8) ∉ e.label) :
    leafOf (heldPath es j) = e.label ∧ heldPath es j ≠ utf8 "rustc" := by
  have hp : ∃ x, heldPath es j = x ++ utf8 ";" ++ e.label := by
    clear hl
    induction es generalizing j with
    | nil => simp at he
    | cons a es ih =>
      cases j with
      | zero => simp only [List.getElem?_cons_zero, Option.some.injEq] at he; subst he; exact ⟨_, rfl⟩
      | succ j => exact ih (by simpa using he)
  obtain ⟨x, hx⟩ := hp
  have hmem : (0x3B : UInt8) ∉ e.label := hl e (List.mem_of_getElem? he)
  constructor
  · rw [hx]
    unfold leafOf
    rw [semi_in, List.reverse_append, List.reverse_append, List.takeWhile_append_of_pos]
    · simp
    · intro b hb
      simp only [List.mem_reverse] at hb
      simp only [decide_eq_true_eq]
      rintro rfl
      exact hmem hb
  · intro h
    apply semi_not_in_rustc
    rw [← h, hx, semi_in]
    simp

/-- The values of the paths that end in a label. -/
theorem leaf_sum {x : Prop} {es : List Event} {st : CollapseState} (hi : AInv x es st) (g : Nat)
    (hl : ∀ e ∈ es, (0x3B : UInt8) ∉ e.label) (l : Bytes) :
    Same x ((((st.counters ++ [(utf8 "rustc", g)]).filter fun y => decide (y.1 ≠ utf8 "rustc") && decide (leafOf y.1 = l)).map (·.2)).sum +
      heldTime (hasLabel l) es) (timeOf (hasLabel l) es) := by
  obtain ⟨h2, h3⟩ := some_paths es (st.counters.map (·.1)).toFinset (fun k => by rw [List.mem_toFinset]; exact hi.present k)
    (fun k => decide (k ≠ utf8 "rustc") && decide (leafOf k = l)) (hasLabel l) (by
      intro j e he
      obtain ⟨h1, h2⟩ := heldPath_leaf he hl
      simp only [h2, h1, ne_eq, not_false_eq_true, decide_true, Bool.true_and]
      rfl)
  have hnd : ((st.counters.filter fun y => decide (y.1 ≠ utf8 "rustc") && decide (leafOf y.1 = l)).map (·.1)).Nodup :=
    hi.keys.sublist (List.Sublist.map _ List.filter_sublist)
  have hfin : (st.counters.map (·.1)).toFinset.filter (fun k => (decide (k ≠ utf8 "rustc") && decide (leafOf k = l)) = true) =
      ((st.counters.filter fun y => decide (y.1 ≠ utf8 "rustc") && decide (leafOf y.1 = l)).map (·.1)).toFinset := by
    ext k
    simp only [Finset.mem_filter, List.mem_toFinset, List.mem_map, List.mem_filter]
    constructor
    · rintro ⟨⟨y, hy, rfl⟩, hk⟩; exact ⟨y, ⟨hy, hk⟩, rfl⟩
    · rintro ⟨y, ⟨hy, hk⟩, rfl⟩; exact ⟨⟨y, hy, rfl⟩, hk⟩
  rw [hfin, List.sum_toFinset _ hnd, List.map_map] at h2 h3
  rw [List.filter_append, List.map_append, List.sum_append]
  simp only [List.filter_cons, ne_eq, not_true_eq_false, decide_false, Bool.false_and, Bool.false_eq_true, if_false,
    List.filter_nil, List.map_nil, List.sum_nil, Nat.add_zero]
  have h1 := sum_same (x := x) (st.counters.filter fun y => decide (y.1 ≠ utf8 "rustc") && decide (leafOf y.1 = l))
    (fun y => y.2 + pathHeld es y.1) (fun y => pathLength es y.1) (by
      intro y hy
      have := (hi.vals y.1).2
      rw [lookup_of_mem hi.keys (List.mem_filter.1 hy).1] at this
      exact this)
  rw [List.sum_map_add] at h1
  change Same x (_ + (List.map _ _).sum) _ at h1
  rw [← h2, ← h3]
  exact h1

/-! ## Bounded times -/

theorem len_small {es : List Event} (hb : ∀ e ∈ es, ∀ s t, times e = some (s, t) → t < 2 ^ 64) : ∀ e ∈ es, len e < 2 ^ 64 := by
  intro e he
  cases ht : times e with
  | none => rw [len_none ht]; exact Nat.two_pow_pos 64
  | some y =>
    obtain ⟨s, t⟩ := y
    rw [len_of_times ht]
    have := hb e he s t ht
    omega

theorem rec_small {es : List Event} (hb : ∀ e ∈ es, ∀ s t, times e = some (s, t) → t < 2 ^ 64) {t : UInt32} {a b : Nat}
    (h : recOf t es = some (a, b)) : b < 2 ^ 64 := by
  induction es generalizing a b with
  | nil => cases h
  | cons e es ih =>
    have ih := fun {a b} => @ih (fun x hx => hb x (by simp [hx])) a b
    simp only [recOf] at h
    split at h
    · split at h
      · rename_i s u hu
        split at h
        · cases h; exact hb e (by simp) _ _ hu
        · rename_i a' b' hab
          cases h
          exact ih hab
      · exact ih h
    · exact ih h

theorem span_small {es : List Event} (hb : ∀ e ∈ es, ∀ s t, times e = some (s, t) → t < 2 ^ 64) (t : UInt32) :
    recordedSpan t es < 2 ^ 64 := by
  rw [recordedSpan_eq]
  cases h : recOf t es with
  | none => exact Nat.two_pow_pos 64
  | some y =>
    obtain ⟨a, b⟩ := y
    have := rec_small hb h
    simp only
    omega

/-! ## Nested streams -/

theorem heldPath_nested {es : List Event} (h : ProperlyNested es) (j : Nat) : heldPath es j = pathOf es j := by
  induction es generalizing j with
  | nil => rfl
  | cons e es ih =>
    have hes := (nested_cons h).2.2
    cases j with
    | succ j => exact ih hes j
    | zero =>
      have h0 := holderOf_nested h 0
      simp only [holderOf, parentOf] at h0
      simp only [heldPath, pathOf]
      have : (List.range es.length).find? (holds e es) = es.findIdx? (fun p => encloses p e) := by
        cases h1 : (List.range es.length).find? (holds e es) <;> cases h2 : es.findIdx? (fun p => encloses p e) <;>
          rw [h1, h2] at h0 <;> simp_all
      rw [this, funext (ih hes)]

theorem lastEnd_nested {t : UInt32} {es : List Event} (h : ProperlyNested es) : recOf t es = spanOf t es := by
  induction es with
  | nil => rfl
  | cons e es ih =>
    obtain ⟨hf, hea, hes⟩ := nested_cons h
    simp only [recOf, spanOf, ih hes]
    by_cases ht : e.threadId = t
    · rw [if_pos ht, if_pos ht]
      cases hu : times e with
      | none => rfl
      | some y =>
        obtain ⟨s, u⟩ := y
        simp only []
        cases hsp : spanOf t es with
        | none => rfl
        | some z =>
          obtain ⟨a, b⟩ := z
          simp only []
          obtain ⟨x, hx, s', hx1, hx2⟩ := span_end hsp
          have := (hea x hx s u s' b hu hx2 (ht.trans hx1.symm)).1
          rw [Nat.max_eq_left this]
    · rw [if_neg ht, if_neg ht]

theorem recorded_nested {es : List Event} (h : ProperlyNested es) : recordedTime es = allTime es := by
  unfold recordedTime allTime
  apply Finset.sum_congr rfl
  intro t _
  rw [recordedSpan_eq, spanLength_eq, lastEnd_nested h]
  cases spanOf t es <;> rfl

/-! ## Every failure is a panic -/

theorem subU64_panics {checks : Bool} {a b : Nat} {f : Fault} (h : subU64 checks a b = .error f) : ∃ m, f = .panic m := by
  unfold subU64 at h
  split at h
  · cases h
  · split at h <;> cases h
    exact ⟨_, rfl⟩

theorem nanos_panics {p : EventPayload} {f : Fault} (h : nanosU64 p = .error f) : ∃ m, f = .panic m := by
  unfold nanosU64 at h
  cases hd : duration p with
  | none => rw [hd] at h; cases h; exact ⟨_, rfl⟩
  | some d => rw [hd] at h; cases h

theorem charge_panics {checks : Bool} {stack : List Event} {sid : Bytes} {p : EventPayload} {m : List (Bytes × Nat)} {total : Nat}
    {f : Fault} (h : chargeParent checks stack sid p m total = .error f) : ∃ m, f = .panic m := by
  unfold chargeParent at h
  split at h
  · split at h
    · simp only [bind, Except.bind] at h
      split at h
      · rename_i hn; cases h; exact nanos_panics hn
      · split at h
        · rename_i hs; cases h; exact subU64_panics hs
        · cases h
    · cases h
  · simp only [bind, Except.bind] at h
    split at h
    · rename_i hn; cases h; exact nanos_panics hn
    · split at h
      · rename_i hs; cases h; exact addU64_panics hs
      · cases h

theorem popBoth_panics {c : EventPayload} {S : List Event} {sid : Bytes} {f : Fault} (h : popBoth c S sid = .error f) :
    ∃ m, f = .panic m := by
  induction S generalizing sid with
  | nil => cases h
  | cons x S ih =>
    simp only [popBoth, bind, Except.bind] at h
    split at h
    · cases h
    · split at h
      · rename_i hn
        cases h
        unfold subUsize at hn
        split at hn <;> cases hn
        exact ⟨_, rfl⟩
      · exact ih h

theorem cstep_panics {checks : Bool} {st : CollapseState} {e : Event} {f : Fault} (h : collapseStep checks st e = .error f) :
    ∃ m, f = .panic m := by
  unfold collapseStep at h
  split at h
  · simp only [bind, Except.bind] at h
    split at h
    · rename_i hn; cases h; exact popBoth_panics hn
    · split at h
      · rename_i hn; cases h; exact charge_panics hn
      · split at h
        · rename_i hn; cases h; exact nanos_panics hn
        · split at h
          · rename_i hn; cases h; exact addU64_panics hn
          · cases h
  · cases h

theorem gaps_panics {checks : Bool} {ts : List (UInt32 × CollapseThread)} {acc : Nat} {f : Fault}
    (h : gaps checks acc ts = .error f) : ∃ m, f = .panic m := by
  induction ts generalizing acc with
  | nil => cases h
  | cons y ts ih =>
    obtain ⟨t, p⟩ := y
    simp only [gaps] at h
    by_cases hle : p.start ≤ p.stop
    · simp only [if_pos hle, bind, Except.bind] at h
      split at h
      · rename_i hn; cases h; exact subU64_panics hn
      · split at h
        · rename_i hn; cases h; exact addU64_panics hn
        · exact ih h
    · simp only [if_neg hle] at h
      cases h
      exact ⟨_, rfl⟩

theorem collapse_panics {checks : Bool} {es : List Event} {f : Fault} (h : collapse checks es = .error f) : ∃ m, f = .panic m := by
  unfold collapse at h
  rw [csteps_reverse] at h
  cases hr : crun checks es with
  | error g =>
    rw [hr] at h
    cases h
    clear * - hr
    induction es with
    | nil => cases hr
    | cons e es ih =>
      simp only [crun] at hr
      cases h0 : crun checks es with
      | error f => rw [h0] at hr; cases hr; exact ih h0
      | ok st => rw [h0] at hr; exact cstep_panics hr
  | ok st =>
    rw [hr] at h
    simp only [bind, Except.bind] at h
    split at h
    · rename_i hn; cases h; exact gaps_panics hn
    · cases h

end Verif.Analyze
