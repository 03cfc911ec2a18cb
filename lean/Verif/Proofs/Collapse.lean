import Verif.Model.Collapse
import Verif.Spec.Collapse
import Verif.Proofs.Interleave

/-!
# Collapsed stacks
-/

namespace Verif.Analyze

open Verif Verif.Mm Verif.Decode Verif.Spec

/-- The loop on a stream in recording order. -/
def crun (checks : Bool) : List Event → Except Fault CollapseState
  | [] => .ok {}
  | e :: es => crun checks es >>= fun st => collapseStep checks st e

theorem csteps_append (checks : Bool) (st : CollapseState) (xs ys : List Event) :
    collapseSteps checks st (xs ++ ys) = collapseSteps checks st xs >>= fun st => collapseSteps checks st ys := by
  induction xs generalizing st with
  | nil => rfl
  | cons x xs ih =>
    simp only [List.cons_append, collapseSteps]
    cases collapseStep checks st x with
    | error f => rfl
    | ok st' => exact ih st'

theorem csteps_reverse (checks : Bool) (es : List Event) : collapseSteps checks {} es.reverse = crun checks es := by
  induction es with
  | nil => rfl
  | cons e es ih =>
    rw [List.reverse_cons, csteps_append, ih]
    simp only [crun]
    cases crun checks es with
    | error f => rfl
    | ok st =>
      show collapseSteps checks st [e] = collapseStep checks st e
      simp only [collapseSteps]
      cases collapseStep checks st e <;> rfl

/-! ## Stack ids -/

/-- The id of a stack. -/
def stackStr : List Event → Bytes
  | [] => utf8 "rustc"
  | e :: S => stackStr S ++ utf8 ";" ++ e.label

theorem popBoth_str (c : EventPayload) (S : List Event) :
    popBoth c S (stackStr S) = .ok (popStack c S, stackStr (popStack c S)) := by
  induction S with
  | nil => rfl
  | cons x S ih =>
    simp only [popBoth, popStack]
    split
    · rfl
    · have hsemi : (utf8 ";").length = 1 := by decide
      have h1 : subUsize (stackStr (x :: S)).length (x.label.length + 1) = .ok (stackStr S).length := by
        unfold subUsize
        rw [stackStr, if_pos (by simp [hsemi]; omega)]
        congr 1
        simp only [List.length_append, hsemi]
        omega
      rw [h1]
      change popBoth c S ((stackStr (x :: S)).take (stackStr S).length) = _
      rw [stackStr, List.append_assoc, List.take_left]
      exact ih

/-- The id of the enclosing stack is the path of the parent. -/
theorem stackStr_ancestors (e : Event) (es : List Event) : stackStr (ancestorsOf e es) =
    ((es.findIdx? (fun p => encloses p e)).map (fun k => pathOf es k)).getD (utf8 "rustc") := by
  induction es generalizing e with
  | nil => rfl
  | cons a es ih =>
    simp only [ancestorsOf, List.findIdx?_cons]
    cases h : encloses a e with
    | true => simp only [if_true, stackStr, pathOf, ih a, Option.map_some, Option.getD_some]
    | false =>
      simp only [Bool.false_eq_true, if_false, ih e]
      cases es.findIdx? (fun p => encloses p e) <;> rfl

theorem pathOf_zero (e : Event) (es : List Event) : pathOf (e :: es) 0 = stackStr (ancestorsOf e es) ++ utf8 ";" ++ e.label := by
  rw [stackStr_ancestors, pathOf]

theorem hasPath_succ (e : Event) (es : List Event) (k : Bytes) : (fun j => hasPath (e :: es) k (j + 1)) = hasPath es k := by
  funext j
  have : at? isInterval (e :: es) (j + 1) = at? isInterval es j := congrFun (at_succ isInterval e es) j
  unfold hasPath
  rw [this]
  rfl

/-! ## Bounds -/

theorem spanLength_eq (t : UInt32) (es : List Event) :
    spanLength t es = match spanOf t es with
      | some (a, b) => b - a
      | none => 0 := by
  unfold spanLength
  rw [(spanOf_eq t es).1, (spanOf_eq t es).2]
  cases spanOf t es <;> rfl

theorem spanLength_mono (t : UInt32) (e : Event) (es : List Event) : spanLength t es ≤ spanLength t (e :: es) := by
  rw [spanLength_eq, spanLength_eq]
  simp only [spanOf]
  split
  · rename_i a b hab
    by_cases ht : e.threadId = t
    · rw [if_pos ht]
      cases hu : times e with
      | none => simp only [hab]; omega
      | some x =>
        simp only [hab]
        exact Nat.le_trans (Nat.sub_le_sub_right (Nat.le_max_left _ _) _) (Nat.sub_le_sub_left (Nat.min_le_left _ _) _)
    · rw [if_neg ht, hab]
  · exact Nat.zero_le _

theorem allTime_mono (e : Event) (es : List Event) : allTime es ≤ allTime (e :: es) := by
  unfold allTime
  calc _ ≤ ∑ t ∈ threadsOf es, spanLength t (e :: es) := Finset.sum_le_sum fun t _ => spanLength_mono t e es
    _ ≤ _ := by
      apply Finset.sum_le_sum_of_subset
      intro t ht
      unfold threadsOf at ht ⊢
      rw [List.mem_toFinset] at ht ⊢
      rw [List.filter_cons]
      split
      · exact List.mem_cons_of_mem _ ht
      · exact ht

theorem spanLength_le_all (t : UInt32) (es : List Event) : spanLength t es ≤ allTime es := by
  by_cases ht : t ∈ threadsOf es
  · exact Finset.single_le_sum (f := fun t => spanLength t es) (fun _ _ => Nat.zero_le _) ht
  · rw [← spanOf_isSome] at ht
    rw [spanLength_eq]
    cases h : spanOf t es with
    | none => exact Nat.zero_le _
    | some x => rw [h] at ht; simp at ht

theorem selves_le {es : List Event} (h : ProperlyNested es) (b : Nat → Bool) : selvesAt b es ≤ allTime es := by
  have h0 : selvesAt b es ≤ selvesAt (at? (fun _ => true) es) es := by
    unfold selvesAt
    apply Finset.sum_le_sum
    intro j hj
    have : at? (fun _ => true) es j = true := by
      unfold at?
      rw [List.getElem?_eq_getElem (by simpa using hj)]
      rfl
    rw [this]
    split <;> simp
  have h1 := selves_add_kids h (at? (fun _ => true) es)
  rw [kidsAt_subs h, lensAt_time] at h1
  have h2 := rootTime_add h
  have h3 : rootTime es ≤ allTime es := rootTime_le h
  omega

theorem len_le_all {e : Event} {es : List Event} {s t : Nat} (he : e ∈ es) (ht : times e = some (s, t)) :
    t - s ≤ allTime es := by
  obtain ⟨a, b, hab, h1, h2⟩ := mem_span he rfl ht
  have := spanLength_le_all e.threadId es
  rw [spanLength_eq, hab] at this
  simp only at this
  omega

theorem span_end {t : UInt32} {es : List Event} {a b : Nat} (h : spanOf t es = some (a, b)) :
    ∃ x ∈ es, ∃ s, x.threadId = t ∧ times x = some (s, b) := by
  induction es generalizing a b with
  | nil => simp [spanOf] at h
  | cons e es ih =>
    simp only [spanOf] at h
    split at h
    · rename_i ht
      split at h
      · rename_i s u hu
        split at h
        · cases h; exact ⟨e, by simp, _, ht, hu⟩
        · rename_i a' b' hab
          cases h
          obtain ⟨x, hx, s', h1, h2⟩ := ih hab
          by_cases hm : u ≤ b'
          · rw [Nat.max_eq_left hm]; exact ⟨x, by simp [hx], s', h1, h2⟩
          · rw [Nat.max_eq_right (by omega)]; exact ⟨e, by simp, s, ht, hu⟩
      · obtain ⟨x, hx, s', h1, h2⟩ := ih h
        exact ⟨x, by simp [hx], s', h1, h2⟩
    · obtain ⟨x, hx, s', h1, h2⟩ := ih h
      exact ⟨x, by simp [hx], s', h1, h2⟩

/-! ## The invariant -/

/-- The thread state after a properly nested stream. -/
def cthreadSpec (t : UInt32) (es : List Event) : Option CollapseThread :=
  (spanOf t es).map fun x => ⟨stackOf t es, stackStr (stackOf t es), x.1, x.2, rootsOn t es⟩

/-- Everything that holds after a properly nested stream. -/
structure CInv (es : List Event) (st : CollapseState) : Prop where
  keys : (st.counters.map (·.1)).Nodup
  present : ∀ k, k ∈ st.counters.map (·.1) ↔ ∃ j, hasPath es k j = true
  vals : ∀ k, (lookup k st.counters).getD 0 + kidsAt (hasPath es k) es = lensAt (hasPath es k) es
  threadKeys : (st.threads.map (·.1)).Nodup
  threads : ∀ t, lookup t st.threads = cthreadSpec t es

theorem cinv_nil : CInv [] {} := by
  refine ⟨List.nodup_nil, ?_, ?_, List.nodup_nil, fun t => rfl⟩
  · intro k; simp [hasPath, at?]
  · intro k; rfl

theorem cthreadSpec_getD (t : UInt32) (es : List Event) (s u : Nat) :
    (cthreadSpec t es).getD ⟨[], utf8 "rustc", s, u, 0⟩ =
      ⟨stackOf t es, stackStr (stackOf t es), ((spanOf t es).getD (s, u)).1, ((spanOf t es).getD (s, u)).2, rootsOn t es⟩ := by
  unfold cthreadSpec
  cases h : spanOf t es with
  | some x => rfl
  | none =>
    have h1 := threadSpec_getD t es 0 0
    unfold threadSpec at h1
    rw [h] at h1
    have h1 : stackOf t es = [] := h1.symm
    have h2 : rootsOn t es = 0 := by
      unfold rootsOn
      apply Finset.sum_eq_zero
      intro i hi
      rw [if_neg]
      rintro ⟨-, ha⟩
      simp only [Finset.mem_range] at hi
      unfold at? onThread at ha
      rw [List.getElem?_eq_getElem hi] at ha
      simp only [Option.any_some, Bool.and_eq_true, decide_eq_true_eq] at ha
      obtain ⟨s, u, hsu⟩ := isInterval_iff.1 ha.1
      obtain ⟨a, b, hab, _⟩ := mem_span (List.getElem_mem hi) ha.2 hsu
      rw [h] at hab
      cases hab
    simp [h1, h2, stackStr]

theorem hasPath_some {es : List Event} {e : Event} {k0 : Nat} (h : es.findIdx? (fun p => encloses p e) = some k0) (k : Bytes) :
    hasPath es k k0 = decide (pathOf es k0 = k) := by
  unfold hasPath
  rw [List.findIdx?_eq_some_iff_getElem] at h
  obtain ⟨hlt, h1, -⟩ := h
  have : at? isInterval es k0 = true := by
    unfold at?
    rw [List.getElem?_eq_getElem hlt]
    obtain ⟨s, t, _, _, h2, _⟩ := encloses_iff.1 h1
    exact isInterval_iff.2 ⟨s, t, h2⟩
  rw [this]
  rfl

theorem cinv_step {checks : Bool} {e : Event} {es : List Event} {st : CollapseState} (hn : ProperlyNested (e :: es))
    (hb : allTime (e :: es) < 2 ^ 64) (hi : CInv es st) : ∃ st', collapseStep checks st e = .ok st' ∧ CInv (e :: es) st' := by
  obtain ⟨hf, hea, hes⟩ := nested_cons hn
  cases ht : times e with
  | none =>
    refine ⟨st, ?_, ?_⟩
    · unfold collapseStep
      cases hp : e.payload with
      | integer v => rfl
      | timestamp ts =>
        cases ts with
        | instant v => rfl
        | interval a b => rw [times_some.2 hp] at ht; cases ht
    · have hni : isInterval e = false := by unfold isInterval; rw [ht]; rfl
      have h0 : ∀ k, hasPath (e :: es) k 0 = false := by intro k; simp [hasPath, at_zero, hni]
      refine ⟨hi.keys, ?_, ?_, hi.threadKeys, ?_⟩
      · intro k
        rw [hi.present]
        constructor
        · rintro ⟨j, hj⟩; exact ⟨j + 1, by rw [← hasPath_succ e es] at hj; exact hj⟩
        · rintro ⟨j, hj⟩
          cases j with
          | zero => rw [h0] at hj; cases hj
          | succ j => exact ⟨j, by rw [← hasPath_succ e es]; exact hj⟩
      · intro k
        rw [kidsAt_cons, lensAt_cons, h0, hasPath_succ, len_none ht]
        simpa using hi.vals k
      · intro t
        rw [hi.threads]
        unfold cthreadSpec
        rw [spanOf_skip ht, stackOf_skip ht, rootsOn_cons, len_none ht]
        simp
  | some x =>
    obtain ⟨s, t⟩ := x
    have hst := hf s t ht
    have hii : isInterval e = true := isInterval_iff.2 ⟨s, t, ht⟩
    have hlen := len_of_times ht
    have hd : t - s < 2 ^ 64 := Nat.lt_of_le_of_lt (len_le_all (by simp) ht) hb
    have hnan : nanosU64 e.payload = .ok (t - s) := by
      unfold nanosU64
      rw [duration_of_times ht, if_pos hst]
      show Except.ok ((t - s) % 2 ^ 64) = _
      rw [Nat.mod_eq_of_lt hd]
    have hanc := stack_ancestors hii hn
    have hpop := popBoth_str e.payload (stackOf e.threadId es)
    rw [hanc] at hpop
    have hspan := cthreadSpec_getD e.threadId es s t
    have hpath0 := pathOf_zero e es
    have hp0 : ∀ k, hasPath (e :: es) k 0 = decide (pathOf (e :: es) 0 = k) := by
      intro k; simp [hasPath, at_zero, hii]
    -- the charge to the parent
    have hroots : rootsOn e.threadId (e :: es) = rootsOn e.threadId es +
        if ancestorsOf e es = [] then t - s else 0 := by
      rw [rootsOn_cons, hlen]
      have h1 : onThread e.threadId e = true := by simp [onThread, hii]
      have h2 : (es.findIdx? (fun p => encloses p e) = none) ↔ ancestorsOf e es = [] := by
        rw [List.findIdx?_eq_none_iff, ← List.head?_eq_none_iff, ancestors_head, List.find?_eq_none]
        constructor
        · intro h x hx; simp [h x hx]
        · intro h x hx; simpa using h x hx
      simp only [h1, and_true, h2]
    have hrb : rootsOn e.threadId (e :: es) < 2 ^ 64 :=
      Nat.lt_of_le_of_lt (Nat.le_trans (rootsOn_le hn e.threadId) (spanLength_le_all _ _)) hb
    have hcharge : ∃ c1, chargeParent checks (ancestorsOf e es) (stackStr (ancestorsOf e es)) e.payload st.counters
          (rootsOn e.threadId es) = .ok (c1, rootsOn e.threadId (e :: es)) ∧
        (c1.map (·.1)).Nodup ∧ (∀ k, k ∈ c1.map (·.1) ↔ k ∈ st.counters.map (·.1)) ∧
        ∀ k, (lookup k c1).getD 0 + (if (es.findIdx? (fun p => encloses p e)).any (hasPath es k) then t - s else 0) =
          (lookup k st.counters).getD 0 := by
      have hsid := stackStr_ancestors e es
      cases hfi : es.findIdx? (fun p => encloses p e) with
      | none =>
        have hnil : ancestorsOf e es = [] := by
          rw [← List.head?_eq_none_iff, ancestors_head, List.find?_eq_none]
          rw [List.findIdx?_eq_none_iff] at hfi
          intro x hx; simp [hfi x hx]
        refine ⟨st.counters, ?_, hi.keys, by simp, by simp⟩
        rw [hroots, if_pos hnil] at hrb
        rw [hroots, if_pos hnil, hnil]
        simp only [chargeParent, hnan]
        change (addU64 checks _ _ >>= _) = _
        unfold addU64
        rw [if_pos hrb]
        rfl
      | some k0 =>
        rw [hfi] at hsid
        simp only [Option.map_some, Option.getD_some] at hsid
        have hne : ancestorsOf e es ≠ [] := by
          intro hnil
          rw [← List.head?_eq_none_iff, ancestors_head, List.find?_eq_none] at hnil
          rw [List.findIdx?_eq_some_iff_getElem] at hfi
          obtain ⟨hlt, h1, -⟩ := hfi
          exact hnil _ (List.getElem_mem hlt) h1
        have hpk := hasPath_some hfi
        have hin : pathOf es k0 ∈ st.counters.map (·.1) := by
          rw [hi.present]
          exact ⟨k0, by rw [hpk]; simp⟩
        have hroom : t - s ≤ (lookup (pathOf es k0) st.counters).getD 0 := by
          have h1 := kids_le_lens hn (fun j => if j = 0 then false else hasPath (e :: es) (pathOf es k0) j)
          rw [kidsAt_cons, lensAt_cons] at h1
          simp only [Nat.add_eq_zero_iff, one_ne_zero, and_false, if_false, if_true, Bool.false_eq_true, Nat.add_zero] at h1
          rw [hasPath_succ, hfi, hlen] at h1
          simp only [Option.any_some, hpk, decide_true, if_true] at h1
          have := hi.vals (pathOf es k0)
          omega
        rw [← lookup_isSome] at hin
        cases hl : lookup (pathOf es k0) st.counters with
        | none => rw [hl] at hin; cases hin
        | some c =>
          rw [hl] at hroom
          simp only [Option.getD_some] at hroom
          refine ⟨insert (pathOf es k0) (c - (t - s)) st.counters, ?_, keys_nodup_insert _ _ hi.keys, ?_, ?_⟩
          · rw [hroots, if_neg hne, hsid]
            cases hanl : ancestorsOf e es with
            | nil => exact absurd hanl hne
            | cons y ys =>
              simp only [chargeParent, hl, hnan]
              change (subU64 checks c (t - s) >>= _) = _
              unfold subU64
              rw [if_pos hroom]
              rfl
          · intro k
            rw [mem_keys_insert]
            constructor
            · rintro (rfl | h)
              · rw [← lookup_isSome, hl]; rfl
              · exact h
            · exact Or.inr
          · intro k
            rw [lookup_insert]
            simp only [Option.any_some, hpk, decide_eq_true_eq]
            by_cases hk : pathOf es k0 = k
            · subst hk
              simp only [if_true, hl, Option.getD_some]
              omega
            · simp only [if_neg hk]
              omega
    obtain ⟨c1, hc1, hk1, hm1, hv1⟩ := hcharge
    have hvals : ∀ k, (lookup k c1).getD 0 + (if pathOf (e :: es) 0 = k then t - s else 0) + kidsAt (hasPath (e :: es) k) (e :: es) =
        lensAt (hasPath (e :: es) k) (e :: es) := by
      intro k
      rw [kidsAt_cons, lensAt_cons, hp0, hlen]
      have hv := hv1 k
      have hi2 := hi.vals k
      have : (fun j => hasPath (e :: es) k (j + 1)) = hasPath es k := hasPath_succ e es k
      rw [this]
      simp only [decide_eq_true_eq]
      omega
    have hsum : (lookup (pathOf (e :: es) 0) c1).getD 0 + (t - s) < 2 ^ 64 := by
      have h1 := hvals (pathOf (e :: es) 0)
      have h2 := selves_add_kids hn (hasPath (e :: es) (pathOf (e :: es) 0))
      have h3 := selves_le hn (hasPath (e :: es) (pathOf (e :: es) 0))
      simp only [if_true] at h1
      omega
    refine ⟨⟨insert (pathOf (e :: es) 0) ((lookup (pathOf (e :: es) 0) c1).getD 0 + (t - s)) c1,
      insert e.threadId ⟨e :: ancestorsOf e es, pathOf (e :: es) 0, min ((spanOf e.threadId es).getD (s, t)).1 s,
        ((spanOf e.threadId es).getD (s, t)).2, rootsOn e.threadId (e :: es)⟩ st.threads⟩, ?_, ?_⟩
    · unfold collapseStep
      rw [times_some.1 ht] at hnan hpop hc1 ⊢
      simp only [hi.threads, hspan, hpop, bind, Except.bind, hc1, ← hpath0, hnan]
      unfold addU64
      rw [if_pos hsum]
    · refine ⟨keys_nodup_insert _ _ hk1, ?_, ?_, keys_nodup_insert _ _ hi.threadKeys, ?_⟩
      · intro k
        rw [mem_keys_insert, hm1, hi.present]
        constructor
        · rintro (rfl | ⟨j, hj⟩)
          · exact ⟨0, by rw [hp0]; simp⟩
          · exact ⟨j + 1, by rw [← hasPath_succ e es] at hj; exact hj⟩
        · rintro ⟨j, hj⟩
          cases j with
          | zero => rw [hp0] at hj; simp only [decide_eq_true_eq] at hj; exact Or.inl hj.symm
          | succ j => exact Or.inr ⟨j, by rw [← hasPath_succ e es]; exact hj⟩
      · intro k
        rw [lookup_insert]
        have := hvals k
        by_cases hk : pathOf (e :: es) 0 = k
        · subst hk
          simp only [if_true, Option.getD_some] at this ⊢
          omega
        · simp only [if_neg hk] at this ⊢
          omega
      · intro t'
        rw [lookup_insert]
        by_cases htt : e.threadId = t'
        · subst htt
          rw [if_pos rfl]
          unfold cthreadSpec
          simp only [spanOf, if_true, ht, stackOf, onThread, hii, decide_true, Bool.and_self, hanc, stackStr, ← hpath0]
          cases hsp : spanOf e.threadId es with
          | none => simp
          | some y =>
            obtain ⟨a, b⟩ := y
            simp only [Option.getD_some, Option.map_some]
            obtain ⟨x, hx, s', hx1, hx2⟩ := span_end hsp
            have := (hea x hx s t s' b ht hx2 hx1.symm).1
            rw [Nat.max_eq_left this]
        · rw [if_neg htt, hi.threads]
          unfold cthreadSpec
          simp only [spanOf, stackOf, onThread, rootsOn_cons, htt, if_false, decide_false, Bool.and_false, Bool.false_eq_true,
            and_false, Nat.add_zero]

theorem crun_ok {checks : Bool} {es : List Event} (hn : ProperlyNested es) (hb : allTime es < 2 ^ 64) :
    ∃ st, crun checks es = .ok st ∧ CInv es st := by
  induction es with
  | nil => exact ⟨_, rfl, cinv_nil⟩
  | cons e es ih =>
    obtain ⟨st, h1, h2⟩ := ih (nested_cons hn).2.2 (Nat.lt_of_le_of_lt (allTime_mono e es) hb)
    obtain ⟨st', h3, h4⟩ := cinv_step (checks := checks) hn hb h2
    refine ⟨st', ?_, h4⟩
    simp only [crun, h1]
    exact h3

/-! ## The gaps -/

theorem gaps_ok {checks : Bool} {ts : List (UInt32 × ThreadState Event)} (acc : Nat)
    (h : ∀ x ∈ ts, x.2.start ≤ x.2.stop ∧ x.2.total ≤ x.2.stop - x.2.start)
    (hb : acc + (ts.map fun x => x.2.stop - x.2.start).sum < 2 ^ 64) :
    gaps checks acc ts = .ok (acc + (ts.map fun x => x.2.stop - x.2.start - x.2.total).sum) := by
  induction ts generalizing acc with
  | nil => rfl
  | cons x ts ih =>
    obtain ⟨t, p⟩ := x
    obtain ⟨h1, h2⟩ := h (t, p) (by simp)
    simp only [List.map_cons, List.sum_cons] at hb
    simp only at h1 h2
    have h3 : p.stop - p.start < 2 ^ 64 := by omega
    simp only [gaps, if_pos h1, bind, Except.bind, Nat.mod_eq_of_lt h3, subU64, if_pos h2, addU64,
      if_pos (show acc + (p.stop - p.start - p.total) < 2 ^ 64 by omega)]
    rw [ih (acc + (p.stop - p.start - p.total)) (fun y hy => h y (by simp [hy])) (by omega)]
    simp only [List.map_cons, List.sum_cons]
    congr 1
    omega

theorem gaps_of_inv {checks : Bool} {es : List Event} {st : CollapseState} (hn : ProperlyNested es) (hi : CInv es st)
    (hb : allTime es < 2 ^ 64) : gaps checks 0 st.threads = .ok (allTime es - rootTime es) := by
  have hval : ∀ x ∈ st.threads, cthreadSpec x.1 es = some x.2 := by
    intro x hx
    rw [← hi.threads]
    exact lookup_of_mem hi.threadKeys hx
  have hx : ∀ x ∈ st.threads, x.2.start ≤ x.2.stop ∧ x.2.stop - x.2.start = spanLength x.1 es ∧ x.2.total = rootsOn x.1 es := by
    intro x hx
    have := hval x hx
    unfold cthreadSpec at this
    rw [Option.map_eq_some_iff] at this
    obtain ⟨⟨a, b⟩, hy, hxy⟩ := this
    have hle := spanOf_le hn.1 hy
    rw [← hxy, spanLength_eq, hy]
    exact ⟨hle, rfl, rfl⟩
  have hkeys : threadsOf es = (st.threads.map (·.1)).toFinset := by
    ext t
    rw [← spanOf_isSome, List.mem_toFinset, ← lookup_isSome, hi.threads]
    unfold cthreadSpec
    cases spanOf t es <;> simp
  have hsum1 : (st.threads.map fun x => x.2.stop - x.2.start).sum = allTime es := by
    unfold allTime
    rw [hkeys, List.sum_toFinset _ hi.threadKeys, List.map_map]
    congr 1
    exact List.map_congr_left fun x h => (hx x h).2.1
  have hsum2 : (st.threads.map fun x => x.2.total).sum = rootTime es := by
    rw [rootTime_threads, hkeys, List.sum_toFinset _ hi.threadKeys, List.map_map]
    congr 1
    exact List.map_congr_left fun x h => (hx x h).2.2
  have hle : ∀ x ∈ st.threads, x.2.start ≤ x.2.stop ∧ x.2.total ≤ x.2.stop - x.2.start := by
    intro x h
    obtain ⟨h1, h2, h3⟩ := hx x h
    exact ⟨h1, by rw [h2, h3]; exact rootsOn_le hn x.1⟩
  rw [gaps_ok 0 hle (by rw [hsum1]; omega)]
  congr 1
  have : ∀ ts : List (UInt32 × ThreadState Event), (∀ x ∈ ts, x.2.start ≤ x.2.stop ∧ x.2.total ≤ x.2.stop - x.2.start) →
      (ts.map fun x => x.2.stop - x.2.start - x.2.total).sum + (ts.map fun x => x.2.total).sum =
      (ts.map fun x => x.2.stop - x.2.start).sum := by
    intro ts
    induction ts with
    | nil => intro _; rfl
    | cons x ts ih =>
      intro h
      have h1 := ih fun y hy => h y (by simp [hy])
      have h2 := (h x (by simp)).2
      simp only [List.map_cons, List.sum_cons]
      omega
  have := this _ hle
  omega

theorem pathOf_prefix {es : List Event} {j : Nat} (h : j < es.length) : ∃ x l, pathOf es j = x ++ utf8 ";" ++ l ∧ es[j]?.map (·.label) = some l := by
  induction es generalizing j with
  | nil => simp at h
  | cons e es ih =>
    cases j with
    | zero => exact ⟨_, e.label, rfl, rfl⟩
    | succ j =>
      obtain ⟨x, l, h1, h2⟩ := ih (by simpa using h)
      exact ⟨x, l, h1, by simpa using h2⟩

theorem semi_not_in_rustc : (0x3B : UInt8) ∉ utf8 "rustc" := by decide
theorem semi_in : utf8 ";" = [0x3B] := by decide

theorem hasPath_lt {es : List Event} {k : Bytes} {j : Nat} (h : hasPath es k j = true) : j < es.length := by
  unfold hasPath at?  at h
  by_contra hj
  rw [List.getElem?_eq_none (by omega)] at h
  simp at h

theorem path_ne_rustc {es : List Event} {j : Nat} (h : hasPath es (utf8 "rustc") j = true) : False := by
  have hlt := hasPath_lt h
  obtain ⟨x, l, h1, -⟩ := pathOf_prefix hlt
  have h2 : pathOf es j = utf8 "rustc" := by
    simp only [hasPath, Bool.and_eq_true, decide_eq_true_eq] at h; exact h.2
  apply semi_not_in_rustc
  rw [← h2, h1, semi_in]
  simp

/-- The result of collapsing a properly nested stream. -/
theorem collapse_ok {checks : Bool} {es : List Event} (hn : ProperlyNested es) (hb : allTime es < 2 ^ 64) :
    ∃ st, CInv es st ∧ lookup (utf8 "rustc") st.counters = none ∧
      collapse checks es = .ok (st.counters ++ [(utf8 "rustc", allTime es - rootTime es)]) := by
  obtain ⟨st, h1, h2⟩ := crun_ok (checks := checks) hn hb
  have hno : lookup (utf8 "rustc") st.counters = none := by
    cases hl : lookup (utf8 "rustc") st.counters with
    | none => rfl
    | some v =>
      exfalso
      have : utf8 "rustc" ∈ st.counters.map (·.1) := (lookup_isSome _ _).1 (by rw [hl]; rfl)
      rw [h2.present] at this
      obtain ⟨j, hj⟩ := this
      exact path_ne_rustc hj
  refine ⟨st, h2, hno, ?_⟩
  unfold collapse
  rw [csteps_reverse, h1]
  change (gaps checks 0 st.threads >>= _) = _
  rw [gaps_of_inv hn h2 hb]
  show Except.ok (insert _ _ _) = _
  congr 1
  generalize allTime es - rootTime es = g
  generalize st.counters = m at hno
  induction m with
  | nil => rfl
  | cons x m ih =>
    obtain ⟨k, v⟩ := x
    simp only [lookup] at hno
    split at hno
    · cases hno
    · rename_i hk
      simp only [insert, if_neg hk, ih hno, List.cons_append]

theorem counter_value {es : List Event} {st : CollapseState} (hn : ProperlyNested es) (hi : CInv es st) (k : Bytes) :
    (lookup k st.counters).getD 0 = pathTime es k := by
  have h1 := hi.vals k
  have h2 := selves_add_kids hn (hasPath es k)
  have h3 : pathTime es k = selvesAt (hasPath es k) es := rfl
  omega

/-- Sums over the counters of paths with a property. -/
theorem sum_counters {es : List Event} {st : CollapseState} (hn : ProperlyNested es) (hi : CInv es st) (q : Bytes → Bool) :
    ((st.counters.filter fun x => q x.1).map (·.2)).sum =
      ∑ j ∈ Finset.range es.length, if q (pathOf es j) then selfAt es j else 0 := by
  have hnd : ((st.counters.filter fun x => q x.1).map (·.1)).Nodup :=
    hi.keys.sublist (List.Sublist.map _ List.filter_sublist)
  have h1 : ((st.counters.filter fun x => q x.1).map (·.2)) =
      ((st.counters.filter fun x => q x.1).map (·.1)).map (pathTime es) := by
    rw [List.map_map]
    apply List.map_congr_left
    intro x hx
    have := counter_value hn hi x.1
    rw [lookup_of_mem hi.keys (List.mem_filter.1 hx).1] at this
    exact this
  rw [h1, ← List.sum_toFinset _ hnd]
  unfold pathTime
  rw [Finset.sum_comm]
  apply Finset.sum_congr rfl
  intro j hj
  simp only [Finset.mem_range] at hj
  by_cases hint : at? isInterval es j = true
  · have hp : ∀ k, hasPath es k j = decide (pathOf es j = k) := by intro k; simp [hasPath, hint]
    have hin : pathOf es j ∈ st.counters.map (·.1) := by
      rw [hi.present]
      exact ⟨j, by rw [hp]; simp⟩
    simp only [hp, decide_eq_true_eq, Finset.sum_ite_eq]
    by_cases hq : q (pathOf es j) = true
    · rw [if_pos hq, if_pos]
      rw [List.mem_toFinset]
      obtain ⟨x, hx, hxe⟩ := List.mem_map.1 hin
      exact List.mem_map.2 ⟨x, List.mem_filter.2 ⟨hx, by rw [hxe]; exact hq⟩, hxe⟩
    · rw [if_neg hq, if_neg]
      rw [List.mem_toFinset]
      intro hm
      obtain ⟨x, hx, hxe⟩ := List.mem_map.1 hm
      rw [← hxe] at hq
      exact hq (List.mem_filter.1 hx).2
  · have hz : selfAt es j = 0 := by
      unfold selfAt
      rw [lenAt_none]
      · simp
      · intro p hp
        unfold at? at hint
        rw [hp] at hint
        simp only [Option.any_some, isInterval, Bool.not_eq_true] at hint
        simpa using hint
    simp [hz]

theorem all_selves {es : List Event} (hn : ProperlyNested es) :
    (∑ j ∈ Finset.range es.length, selfAt es j) = rootTime es := by
  have h1 := selves_add_kids hn (at? (fun _ => true) es)
  rw [kidsAt_subs hn, lensAt_time] at h1
  have h2 := rootTime_add hn
  have h3 : selvesAt (at? (fun _ => true) es) es = ∑ j ∈ Finset.range es.length, selfAt es j := by
    unfold selvesAt
    apply Finset.sum_congr rfl
    intro j hj
    have : at? (fun _ => true) es j = true := by
      unfold at?
      rw [List.getElem?_eq_getElem (by simpa using hj)]
      rfl
    rw [this]
    rfl
  omega

theorem leaf_of_path {es : List Event} {j : Nat} (h : j < es.length) (hl : ∀ e ∈ es, (0x3B : UInt8) ∉ e.label) :
    some (leafOf (pathOf es j)) = es[j]?.map (·.label) := by
  obtain ⟨x, l, h1, h2⟩ := pathOf_prefix h
  rw [h2, h1]
  congr 1
  have hmem : (0x3B : UInt8) ∉ l := by
    rw [Option.map_eq_some_iff] at h2
    obtain ⟨e, he, rfl⟩ := h2
    exact hl e (List.mem_of_getElem? he)
  unfold leafOf
  rw [semi_in, List.reverse_append, List.reverse_append, List.takeWhile_append_of_pos]
  · simp
  · intro b hb
    simp only [List.mem_reverse] at hb
    simp only [decide_eq_true_eq]
    rintro rfl
    exact hmem hb

end Verif.Analyze
