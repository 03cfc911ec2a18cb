import Verif.Model.Analysis
import Verif.Spec.Analysis

/-!
# The analysis loop: what holds after every suffix of the stream
-/

namespace Verif.Analyze

open Verif Verif.Mm Verif.Decode Verif.Spec

/-! ## Association lists -/

theorem lookup_insert {κ α : Type} [DecidableEq κ] (k k' : κ) (a : α) (m : List (κ × α)) :
    lookup k' (insert k a m) = if k = k' then some a else lookup k' m := by
  induction m with
  | nil => simp [insert, lookup]
  | cons x m ih =>
    obtain ⟨k'', a''⟩ := x
    simp only [insert]
    split
    · rename_i h
      subst h
      simp only [lookup]
      split <;> rfl
    · simp only [lookup, ih]
      split
      · rename_i h1 h2
        subst h2
        rw [if_neg (Ne.symm h1)]
      · rfl

theorem keys_insert {κ α : Type} [DecidableEq κ] (k : κ) (a : α) (m : List (κ × α)) :
    (insert k a m).map (·.1) = if k ∈ m.map (·.1) then m.map (·.1) else m.map (·.1) ++ [k] := by
  induction m with
  | nil => simp [insert]
  | cons x m ih =>
    obtain ⟨k', a'⟩ := x
    simp only [insert]
    split
    · rename_i h
      subst h
      simp
    · rename_i h
      simp only [List.map_cons, ih, List.mem_cons, Ne.symm h, false_or, List.cons_append]
      split <;> rfl

theorem keys_nodup_insert {κ α : Type} [DecidableEq κ] (k : κ) (a : α) {m : List (κ × α)}
    (h : (m.map (·.1)).Nodup) : ((insert k a m).map (·.1)).Nodup := by
  rw [keys_insert]
  split
  · exact h
  · rename_i hk
    rw [List.nodup_append]
    exact ⟨h, by simp, fun x hx y hy => by simp at hy; subst hy; rintro rfl; exact hk hx⟩

theorem mem_keys_insert {κ α : Type} [DecidableEq κ] (k k' : κ) (a : α) (m : List (κ × α)) :
    k' ∈ (insert k a m).map (·.1) ↔ k' = k ∨ k' ∈ m.map (·.1) := by
  rw [keys_insert]
  split
  · rename_i h
    constructor
    · exact Or.inr
    · rintro (rfl | h') <;> assumption
  · simp only [List.mem_append, List.mem_singleton]
    tauto

theorem lookup_isSome {κ α : Type} [DecidableEq κ] (k : κ) (m : List (κ × α)) :
    (lookup k m).isSome ↔ k ∈ m.map (·.1) := by
  induction m with
  | nil => simp [lookup]
  | cons x m ih =>
    obtain ⟨k', a'⟩ := x
    simp only [lookup]
    split
    · rename_i h; simp [h]
    · rename_i h; simp only [ih, List.map_cons, List.mem_cons, Ne.symm h, false_or]

theorem lookup_of_mem {κ α : Type} [DecidableEq κ] {k : κ} {a : α} {m : List (κ × α)}
    (hn : (m.map (·.1)).Nodup) (h : (k, a) ∈ m) : lookup k m = some a := by
  induction m with
  | nil => simp at h
  | cons x m ih =>
    obtain ⟨k', a'⟩ := x
    simp only [List.map_cons, List.nodup_cons] at hn
    simp only [lookup]
    rcases List.mem_cons.1 h with h | h
    · cases h; simp
    · rw [if_neg]
      · exact ih hn.2 h
      · rintro rfl
        exact hn.1 (List.mem_map.2 ⟨_, h, rfl⟩)

theorem mem_of_lookup {κ α : Type} [DecidableEq κ] {k : κ} {a : α} {m : List (κ × α)}
    (h : lookup k m = some a) : (k, a) ∈ m := by
  induction m with
  | nil => simp [lookup] at h
  | cons x m ih =>
    obtain ⟨k', a'⟩ := x
    simp only [lookup] at h
    split at h
    · rename_i hk; cases h; subst hk; simp
    · exact List.mem_cons_of_mem _ (ih h)

/-- Sums over a map with one entry changed. -/
theorem sum_insert {κ α : Type} [DecidableEq κ] (f : α → Nat) (a0 : α) (h0 : f a0 = 0) (k : κ) (a : α) (m : List (κ × α)) :
    ((insert k a m).map (fun x => f x.2)).sum + f ((lookup k m).getD a0) = (m.map (fun x => f x.2)).sum + f a := by
  induction m with
  | nil => simp [insert, lookup, h0]
  | cons x m ih =>
    obtain ⟨k', a'⟩ := x
    simp only [insert, lookup]
    split
    · simp; omega
    · simp only [List.map_cons, List.sum_cons]; omega

/-! ## Events -/

theorem times_some {e : Event} {s t : Nat} : times e = some (s, t) ↔ e.payload = .timestamp (.interval s t) := by
  unfold times
  split
  · rename_i h; rw [h]; constructor
    · intro h; cases h; rfl
    · intro h; cases h; rfl
  · rename_i h
    constructor
    · intro h; cases h
    · intro h'; exact absurd h' (h s t)

theorem isInterval_iff {e : Event} : isInterval e = true ↔ ∃ s t, times e = some (s, t) := by
  unfold isInterval
  cases h : times e with
  | none => simp
  | some x => obtain ⟨s, t⟩ := x; simp

theorem contains_eq {p e : Event} (he : isInterval e = true) (ht : p.threadId = e.threadId) :
    contains p.payload e.payload = encloses p e := by
  obtain ⟨s, t, h⟩ := isInterval_iff.1 he
  have hp := times_some.1 h
  unfold encloses
  rw [h, hp]
  cases hq : times p with
  | some x =>
    obtain ⟨s', t'⟩ := x
    rw [times_some.1 hq]
    simp [contains, ht]
  | none =>
    unfold times at hq
    cases h' : p.payload with
    | integer v => rfl
    | timestamp ts =>
      cases ts with
      | instant v => rfl
      | interval a b => rw [h'] at hq; cases hq

/-- Interval of thread `t`. -/
def onThread (t : UInt32) (e : Event) : Bool := isInterval e && decide (e.threadId = t)

/-- The stack of a thread after the loop has seen the stream `es` (from its end). -/
def stackOf (t : UInt32) : List Event → List Event
  | [] => []
  | e :: es => if onThread t e then e :: popStack e.payload (stackOf t es) else stackOf t es

/-- First start and last end of a thread. -/
def spanOf (t : UInt32) : List Event → Option (Nat × Nat)
  | [] => none
  | e :: es =>
    if e.threadId = t then
      match times e with
      | some (s, u) => match spanOf t es with
        | none => some (s, u)
        | some (a, b) => some (min a s, max b u)
      | none => spanOf t es
    else spanOf t es

/-- The event the loop takes for the parent of `e`. -/
def stackParent (e : Event) (es : List Event) : Option Event :=
  if isInterval e then (popStack e.payload (stackOf e.threadId es)).head? else none

/-- The time subtracted from parents with a property. -/
def subs (p : Event → Bool) : List Event → Nat
  | [] => 0
  | e :: es => subs p es + (if (stackParent e es).any p then len e else 0)

theorem timeOf_cons (p : Event → Bool) (e : Event) (es : List Event) :
    timeOf p (e :: es) = timeOf p es + if p e then len e else 0 := by
  unfold timeOf
  rw [List.filter_cons]
  split <;> simp; omega

theorem countOf_cons (p : Event → Bool) (e : Event) (es : List Event) :
    countOf p (e :: es) = countOf p es + if p e then 1 else 0 := by
  unfold countOf
  rw [List.filter_cons]
  split <;> simp

/-! ## The loop from the end -/

/-- The loop on a stream in recording order. -/
def run (checks : Bool) : List Event → Except Fault State
  | [] => .ok {}
  | e :: es => run checks es >>= fun st => step checks st e

theorem steps_append (checks : Bool) (st : State) (xs ys : List Event) :
    steps checks st (xs ++ ys) = steps checks st xs >>= fun st => steps checks st ys := by
  induction xs generalizing st with
  | nil => rfl
  | cons x xs ih =>
    simp only [List.cons_append, steps]
    cases step checks st x with
    | error f => rfl
    | ok st' => exact ih st'

theorem steps_reverse (checks : Bool) (es : List Event) : steps checks {} es.reverse = run checks es := by
  induction es with
  | nil => rfl
  | cons e es ih =>
    rw [List.reverse_cons, steps_append, ih]
    simp only [run]
    cases run checks es with
    | error f => rfl
    | ok st =>
      show steps checks st [e] = step checks st e
      simp only [steps]
      cases step checks st e <;> rfl

/-! ## Query data -/

/-- The data of a label, all zeros if absent. -/
def dataOf (l : Bytes) (m : List (Bytes × QueryData)) : QueryData := (lookup l m).getD {}

theorem record_ok {l : Bytes} {f : QueryData → Except Fault QueryData} {m m' : List (Bytes × QueryData)}
    (h : record l f m = .ok m') : ∃ d, f (dataOf l m) = .ok d ∧ m' = insert l d m := by
  unfold record at h
  change (f (dataOf l m) >>= fun d => _) = _ at h
  cases hf : f (dataOf l m) with
  | error e => rw [hf] at h; cases h
  | ok d => rw [hf] at h; cases h; exact ⟨d, rfl, rfl⟩

theorem dataOf_insert (l l' : Bytes) (d : QueryData) (m : List (Bytes × QueryData)) :
    dataOf l' (insert l d m) = if l = l' then d else dataOf l' m := by
  unfold dataOf
  rw [lookup_insert]
  split <;> rfl

theorem subDuration_ok {a b c : Nat} (h : subDuration a b = .ok c) : c + b = a := by
  unfold subDuration at h
  split at h
  · cases h; omega
  · cases h

theorem subDuration_of {a b : Nat} (h : b ≤ a) : subDuration a b = .ok (a - b) := by
  unfold subDuration
  rw [if_pos h]

/-- What subtracting from a parent does to its data. -/
structure Subtracted (kind : Bytes) (d : Nat) (a b : QueryData) : Prop where
  self : b.selfTime + d = a.selfTime
  hash : b.incrementalHashingTime + (if kind = utf8 "IncrementalResultHashing" then d else 0) = a.incrementalHashingTime
  load : b.incrementalLoadTime + (if kind = utf8 "IncrementalLoadResult" then d else 0) = a.incrementalLoadTime
  time : b.time = a.time
  misses : b.numberOfCacheMisses = a.numberOfCacheMisses
  hits : b.numberOfCacheHits = a.numberOfCacheHits
  count : b.invocationCount = a.invocationCount
  blocked : b.blockedTime = a.blockedTime

theorem kinds_distinct : utf8 "Query" ≠ utf8 "IncrementalResultHashing" ∧ utf8 "Query" ≠ utf8 "IncrementalLoadResult" ∧
    utf8 "GenericActivity" ≠ utf8 "IncrementalResultHashing" ∧ utf8 "GenericActivity" ≠ utf8 "IncrementalLoadResult" ∧
    utf8 "IncrementalResultHashing" ≠ utf8 "IncrementalLoadResult" ∧
    utf8 "QueryBlocked" ≠ utf8 "IncrementalResultHashing" ∧ utf8 "QueryBlocked" ≠ utf8 "IncrementalLoadResult" ∧
    utf8 "QueryBlocked" ≠ utf8 "Query" ∧ utf8 "QueryBlocked" ≠ utf8 "GenericActivity" := by
  decide +kernel

theorem subtractFrom_ok {kind : Bytes} {d : Nat} {a b : QueryData} (h : subtractFrom kind d a = .ok b) :
    Subtracted kind d a b := by
  obtain ⟨k1, k2, k3, k4, k5, -⟩ := kinds_distinct
  unfold subtractFrom at h
  split at h
  · rename_i hk
    cases h1 : subDuration a.selfTime d with
    | error e => rw [h1] at h; cases h
    | ok s =>
      rw [h1] at h; cases h
      have n1 : kind ≠ utf8 "IncrementalResultHashing" := by rcases hk with rfl | rfl <;> assumption
      have n2 : kind ≠ utf8 "IncrementalLoadResult" := by rcases hk with rfl | rfl <;> assumption
      exact ⟨subDuration_ok h1, by rw [if_neg n1]; rfl, by rw [if_neg n2]; rfl, rfl, rfl, rfl, rfl, rfl⟩
  · split at h
    · rename_i hk
      subst hk
      cases h1 : subDuration a.selfTime d with
      | error e => rw [h1] at h; cases h
      | ok s =>
        cases h2 : subDuration a.incrementalHashingTime d with
        | error e => rw [h1, h2] at h; cases h
        | ok s2 =>
          rw [h1, h2] at h; cases h
          exact ⟨subDuration_ok h1, by unfold resultHashingKind; rw [if_pos rfl]; exact subDuration_ok h2,
            by unfold resultHashingKind; rw [if_neg k5]; rfl, rfl, rfl, rfl, rfl, rfl⟩
    · rename_i hk0 hk1
      split at h
      · rename_i hk
        subst hk
        cases h1 : subDuration a.selfTime d with
        | error e => rw [h1] at h; cases h
        | ok s =>
          cases h2 : subDuration a.incrementalLoadTime d with
          | error e => rw [h1, h2] at h; cases h
          | ok s2 =>
            rw [h1, h2] at h; cases h
            exact ⟨subDuration_ok h1, by unfold loadResultKind; rw [if_neg k5.symm]; rfl,
              by unfold loadResultKind; rw [if_pos rfl]; exact subDuration_ok h2, rfl, rfl, rfl, rfl, rfl⟩
      · rename_i hk2
        cases h1 : subDuration a.selfTime d with
        | error e => rw [h1] at h; cases h
        | ok s =>
          rw [h1] at h; cases h
          exact ⟨subDuration_ok h1, by rw [← resultHashingKind, if_neg hk1]; rfl, by rw [← loadResultKind, if_neg hk2]; rfl,
            rfl, rfl, rfl, rfl, rfl⟩

/-- Subtracting succeeds if everything subtracted from is large enough. -/
theorem subtractFrom_succeeds {kind : Bytes} {d : Nat} {a : QueryData} (h1 : d ≤ a.selfTime)
    (h2 : kind = utf8 "IncrementalResultHashing" → d ≤ a.incrementalHashingTime)
    (h3 : kind = utf8 "IncrementalLoadResult" → d ≤ a.incrementalLoadTime) : ∃ b, subtractFrom kind d a = .ok b := by
  unfold subtractFrom
  rw [subDuration_of h1]
  split
  · exact ⟨_, rfl⟩
  · split
    · rename_i hk
      rw [subDuration_of (h2 hk)]
      exact ⟨_, rfl⟩
    · split
      · rename_i hk
        rw [subDuration_of (h3 hk)]
        exact ⟨_, rfl⟩
      · exact ⟨_, rfl⟩

/-- What adding an interval does to its data. -/
structure Added (kind : Bytes) (d : Nat) (a b : QueryData) : Prop where
  self : b.selfTime = a.selfTime + d
  hash : b.incrementalHashingTime = a.incrementalHashingTime + if kind = utf8 "IncrementalResultHashing" then d else 0
  load : b.incrementalLoadTime = a.incrementalLoadTime + if kind = utf8 "IncrementalLoadResult" then d else 0
  time : b.time = a.time + if kind ≠ utf8 "IncrementalResultHashing" then d else 0
  misses : b.numberOfCacheMisses =
    a.numberOfCacheMisses + if kind = utf8 "Query" ∨ kind = utf8 "GenericActivity" then 1 else 0
  hits : b.numberOfCacheHits = a.numberOfCacheHits
  count : b.invocationCount =
    a.invocationCount + if kind ≠ utf8 "IncrementalResultHashing" ∧ kind ≠ utf8 "IncrementalLoadResult" then 1 else 0
  blocked : b.blockedTime = a.blockedTime + if kind = utf8 "QueryBlocked" then d else 0

theorem addTo_added (kind : Bytes) (d : Nat) (a : QueryData) : Added kind d a (addTo kind d a) := by
  have hd := kinds_distinct
  suffices h : Added kind d a (addTo kind d a) from h
  have key : ∀ q g hsh ld bl : Bytes, q ≠ hsh ∧ q ≠ ld ∧ g ≠ hsh ∧ g ≠ ld ∧ hsh ≠ ld ∧ bl ≠ hsh ∧ bl ≠ ld ∧ bl ≠ q ∧ bl ≠ g →
      ∀ b, b = (if kind = q ∨ kind = g then
        { a with selfTime := a.selfTime + d, time := a.time + d, numberOfCacheMisses := a.numberOfCacheMisses + 1,
                 invocationCount := a.invocationCount + 1 }
      else if kind = bl then
        { a with selfTime := a.selfTime + d, time := a.time + d, blockedTime := a.blockedTime + d,
                 invocationCount := a.invocationCount + 1 }
      else if kind = ld then
        { a with selfTime := a.selfTime + d, time := a.time + d, incrementalLoadTime := a.incrementalLoadTime + d }
      else if kind = hsh then
        { a with selfTime := a.selfTime + d, incrementalHashingTime := a.incrementalHashingTime + d }
      else
        { a with selfTime := a.selfTime + d, time := a.time + d, invocationCount := a.invocationCount + 1 } : QueryData) →
      b.selfTime = a.selfTime + d ∧
      b.incrementalHashingTime = a.incrementalHashingTime + (if kind = hsh then d else 0) ∧
      b.incrementalLoadTime = a.incrementalLoadTime + (if kind = ld then d else 0) ∧
      b.time = a.time + (if kind ≠ hsh then d else 0) ∧
      b.numberOfCacheMisses = a.numberOfCacheMisses + (if kind = q ∨ kind = g then 1 else 0) ∧
      b.numberOfCacheHits = a.numberOfCacheHits ∧
      b.invocationCount = a.invocationCount + (if kind ≠ hsh ∧ kind ≠ ld then 1 else 0) ∧
      b.blockedTime = a.blockedTime + (if kind = bl then d else 0) := by
    rintro q g hsh ld bl ⟨k1, k2, k3, k4, k5, k6, k7, k8, k9⟩ b rfl
    by_cases c1 : kind = q ∨ kind = g
    · have n1 : kind ≠ hsh := by rcases c1 with rfl | rfl <;> assumption
      have n2 : kind ≠ ld := by rcases c1 with rfl | rfl <;> assumption
      have n3 : kind ≠ bl := by rcases c1 with rfl | rfl <;> exact Ne.symm (by assumption)
      simp [c1, n1, n2, n3]
    · by_cases c2 : kind = bl
      · subst c2; simp [c1, k6, k7]
      · by_cases c3 : kind = ld
        · subst c3; simp [c1, c2, k5.symm]
        · by_cases c4 : kind = hsh
          · subst c4; simp [c1, c2, c3]
          · simp [c1, c2, c3, c4]
  obtain ⟨h1, h2, h3, h4, h5, h6, h7, h8⟩ := key (utf8 "Query") (utf8 "GenericActivity") (utf8 "IncrementalResultHashing")
    (utf8 "IncrementalLoadResult") (utf8 "QueryBlocked") hd (addTo kind d a) rfl
  exact ⟨h1, h2, h3, h4, h5, h6, h7, h8⟩

/-! ## The invariant -/

/-- The thread state after a stream. -/
def threadSpec (t : UInt32) (es : List Event) : Option PerThread :=
  (spanOf t es).map fun x => ⟨stackOf t es, x.1, x.2⟩

/-- Result-hashing interval or event. -/
def isHash (e : Event) : Bool := hasKind "IncrementalResultHashing" e
/-- Load-result interval or event. -/
def isLoad (e : Event) : Bool := hasKind "IncrementalLoadResult" e

/-- The data of a label after a stream. -/
structure DataInv (l : Bytes) (es : List Event) (d : QueryData) : Prop where
  self : d.selfTime + subs (hasLabel l) es = timeOf (hasLabel l) es
  hash : d.incrementalHashingTime + subs (fun e => hasLabel l e && isHash e) es = timeOf (fun e => hasLabel l e && isHash e) es
  load : d.incrementalLoadTime + subs (fun e => hasLabel l e && isLoad e) es = timeOf (fun e => hasLabel l e && isLoad e) es
  time : d.time = timeOf (fun e => hasLabel l e && !isHash e) es
  blocked : d.blockedTime = timeOf (fun e => hasLabel l e && hasKind "QueryBlocked" e) es
  misses : d.numberOfCacheMisses =
    countOf (fun e => hasLabel l e && isInterval e && (hasKind "Query" e || hasKind "GenericActivity" e)) es
  hits : d.numberOfCacheHits = countOf (fun e => hasLabel l e && isInstant e && hasKind "QueryCacheHit" e) es
  count : d.invocationCount = countOf (fun e => hasLabel l e &&
    ((isInterval e && !isHash e && !isLoad e) || (isInstant e && hasKind "QueryCacheHit" e))) es

/-- An event that makes its label appear in the results. -/
def mentions (e : Event) : Bool := isInterval e || (isInstant e && hasKind "QueryCacheHit" e)

/-- Everything that holds of the state after a stream. -/
structure Inv (es : List Event) (st : State) : Prop where
  threads : ∀ t, lookup t st.threads = threadSpec t es
  threadKeys : (st.threads.map (·.1)).Nodup
  dataKeys : (st.queryData.map (·.1)).Nodup
  data : ∀ l, DataInv l es (dataOf l st.queryData)
  labels : ∀ l, l ∈ st.queryData.map (·.1) ↔ ∃ e ∈ es, e.label = l ∧ mentions e = true
  total : (st.queryData.map (·.2.selfTime)).sum + subs (fun _ => true) es = timeOf (fun _ => true) es
  forward : ∀ e ∈ es, Forward e

theorem popStack_sublist (c : EventPayload) (s : List Event) : List.Sublist (popStack c s) s := by
  induction s with
  | nil => exact List.Sublist.refl _
  | cons x s ih =>
    simp only [popStack]
    split
    · exact List.Sublist.refl _
    · exact ih.cons _

theorem stackOf_sublist (t : UInt32) (es : List Event) : List.Sublist (stackOf t es) (es.filter (onThread t)) := by
  induction es with
  | nil => exact List.Sublist.refl _
  | cons e es ih =>
    simp only [stackOf, List.filter_cons]
    split
    · exact ((popStack_sublist _ _).trans ih).cons_cons _
    · exact ih

theorem mem_stackOf {t : UInt32} {es : List Event} {e : Event} (h : e ∈ stackOf t es) : e ∈ es ∧ onThread t e = true :=
  List.mem_filter.1 ((stackOf_sublist t es).subset h)

theorem isInstant_times {e : Event} (h : isInstant e = true) : times e = none := by
  unfold isInstant at h; unfold times
  split at h <;> simp_all

theorem len_of_times {e : Event} {s t : Nat} (h : times e = some (s, t)) : len e = t - s := by
  unfold len; rw [h]

theorem len_none {e : Event} (h : times e = none) : len e = 0 := by
  unfold len; rw [h]

/-- A step on an event that is not an interval leaves the per-thread parts alone. -/
theorem spanOf_skip {e : Event} (h : times e = none) (t : UInt32) (es : List Event) : spanOf t (e :: es) = spanOf t es := by
  simp only [spanOf, h]
  split <;> rfl

theorem stackOf_skip {e : Event} (h : times e = none) (t : UInt32) (es : List Event) :
    stackOf t (e :: es) = stackOf t es := by
  simp only [stackOf, onThread, isInterval, h, Option.isSome_none, Bool.false_and, Bool.false_eq_true, if_false]

theorem subs_skip {e : Event} (h : times e = none) (p : Event → Bool) (es : List Event) : subs p (e :: es) = subs p es := by
  simp [subs, len_none h]

theorem timeOf_skip {e : Event} (h : times e = none) (p : Event → Bool) (es : List Event) :
    timeOf p (e :: es) = timeOf p es := by
  simp [timeOf_cons, len_none h]

/-! ## One step -/

theorem duration_of_times {e : Event} {s t : Nat} (h : times e = some (s, t)) :
    duration e.payload = if s ≤ t then some (t - s) else none := by
  rw [times_some.1 h]; rfl

theorem step_interval {checks : Bool} {st st' : State} {e : Event} {s t : Nat} (h : times e = some (s, t))
    (hs : step checks st e = .ok st') :
    s ≤ t ∧ ∃ m1, subtractParent (popStack e.payload ((lookup e.threadId st.threads).getD ⟨[], s, t⟩).stack) (t - s)
        st.queryData = .ok m1 ∧
      st'.queryData = insert e.label (addTo e.eventKind (t - s) (dataOf e.label m1)) m1 ∧
      st'.artifactSizes = st.artifactSizes ∧
      st'.threads = insert e.threadId ⟨e :: popStack e.payload ((lookup e.threadId st.threads).getD ⟨[], s, t⟩).stack,
        min ((lookup e.threadId st.threads).getD ⟨[], s, t⟩).start s,
        max ((lookup e.threadId st.threads).getD ⟨[], s, t⟩).stop t⟩ st.threads := by
  unfold step at hs
  rw [duration_of_times h] at hs
  simp only [times_some.1 h] at hs
  rw [times_some.1 h]
  by_cases hst : s ≤ t
  · rw [if_pos hst] at hs
    refine ⟨hst, ?_⟩
    simp only [unwrap] at hs
    change (Except.ok (t - s) >>= fun d => _) = _ at hs
    change (subtractParent _ _ _ >>= fun d => _) = _ at hs
    cases h1 : subtractParent (popStack (.timestamp (.interval s t)) ((lookup e.threadId st.threads).getD ⟨[], s, t⟩).stack)
        (t - s) st.queryData with
    | error f => rw [h1] at hs; cases hs
    | ok m1 =>
      rw [h1] at hs
      cases h2 : record e.label (fun data => .ok (addTo e.eventKind (t - s) data)) m1 with
      | error f => simp only [bind, Except.bind, h2] at hs; cases hs
      | ok m2 =>
        simp only [bind, Except.bind, h2] at hs
        obtain ⟨d, hd, rfl⟩ := record_ok h2
        cases hd
        cases hs
        exact ⟨m1, rfl, rfl, rfl, rfl⟩
  · rw [if_neg hst] at hs
    cases hs

/-- A step on an interval succeeds if the subtraction does. -/
theorem step_interval_succeeds {checks : Bool} {st : State} {e : Event} {s t : Nat} (h : times e = some (s, t)) (hst : s ≤ t)
    {m1 : List (Bytes × QueryData)}
    (h1 : subtractParent (popStack e.payload ((lookup e.threadId st.threads).getD ⟨[], s, t⟩).stack) (t - s)
        st.queryData = .ok m1) : ∃ st', step checks st e = .ok st' := by
  unfold step
  rw [duration_of_times h, if_pos hst]
  rw [times_some.1 h] at h1
  simp only [times_some.1 h, unwrap]
  change ∃ st', (subtractParent _ _ _ >>= fun d => _) = _
  rw [h1]
  exact ⟨_, rfl⟩

/-- One more cache hit. -/
def hit (d : QueryData) : QueryData :=
  { d with numberOfCacheHits := d.numberOfCacheHits + 1, invocationCount := d.invocationCount + 1 }

theorem step_other {checks : Bool} {st st' : State} {e : Event} (h : times e = none) (hs : step checks st e = .ok st') :
    st'.threads = st.threads ∧
    st'.queryData = (if isInstant e = true ∧ e.eventKind = utf8 "QueryCacheHit" then
      insert e.label (hit (dataOf e.label st.queryData)) st.queryData
      else st.queryData) := by
  unfold step at hs
  cases hp : e.payload with
  | timestamp ts =>
    cases ts with
    | interval a b => rw [times_some.2 hp] at h; cases h
    | instant a =>
      have hi : isInstant e = true := by unfold isInstant; rw [hp]
      simp only [hp] at hs
      split at hs
      · rename_i hk
        change (record e.label (fun data => .ok (hit data)) st.queryData >>= _) = _ at hs
        cases h2 : record e.label (fun data => .ok (hit data)) st.queryData with
        | error f => rw [h2] at hs; cases hs
        | ok m2 =>
          rw [h2] at hs
          obtain ⟨d, hd, rfl⟩ := record_ok h2
          cases hd
          cases hs
          rw [if_pos ⟨hi, hk⟩]
          exact ⟨rfl, rfl⟩
      · rename_i hk
        cases hs
        rw [if_neg (fun h => hk h.2)]
        exact ⟨rfl, rfl⟩
  | integer v =>
    have hi : ¬ (isInstant e = true ∧ e.eventKind = utf8 "QueryCacheHit") := by unfold isInstant; rw [hp]; simp
    simp only [hp] at hs
    rw [if_neg hi]
    split at hs
    · cases h2 : addArtifact checks e.label v st.artifactSizes with
      | error f => rw [h2] at hs; cases hs
      | ok a => rw [h2] at hs; cases hs; exact ⟨rfl, rfl⟩
    · cases hs; exact ⟨rfl, rfl⟩

theorem threadSpec_getD (t : UInt32) (es : List Event) (s u : Nat) :
    ((threadSpec t es).getD ⟨[], s, u⟩).stack = stackOf t es := by
  unfold threadSpec
  cases h : spanOf t es with
  | some x => rfl
  | none =>
    symm
    show stackOf t es = []
    induction es with
    | nil => rfl
    | cons e es ih =>
      simp only [spanOf] at h
      simp only [stackOf, onThread]
      split at h
      · rename_i ht
        cases hu : times e with
        | some x =>
          rw [hu] at h
          simp only at h
          cases hq : spanOf t es with
          | none => rw [hq] at h; simp at h
          | some y => rw [hq] at h; simp at h
        | none =>
          rw [hu] at h
          simp [isInterval, hu]
          exact ih h
      · rename_i ht
        simp only [ht, decide_false, Bool.and_false, Bool.false_eq_true, if_false]
        exact ih h

/-- The subtraction, seen from any label. -/
theorem subtractParent_ok {stack : List Event} {d : Nat} {m m' : List (Bytes × QueryData)}
    (h : subtractParent stack d m = .ok m') :
    match stack.head? with
    | none => m' = m
    | some p => ∃ b, Subtracted p.eventKind d (dataOf p.label m) b ∧ m' = insert p.label b m := by
  cases stack with
  | nil => simp only [subtractParent] at h; cases h; rfl
  | cons p ps =>
    simp only [subtractParent] at h
    obtain ⟨b, hb, rfl⟩ := record_ok h
    exact ⟨b, subtractFrom_ok hb, rfl⟩

theorem data_zero (l : Bytes) : DataInv l [] {} := by
  constructor <;> simp [subs, timeOf, countOf]

theorem inv_nil : Inv [] {} := by
  refine ⟨fun t => rfl, List.nodup_nil, List.nodup_nil, fun l => data_zero l, fun l => by simp, by simp [subs, timeOf], by simp⟩

theorem any_some {p : Event → Bool} {x : Event} : (some x).any p = p x := rfl

theorem inv_other {checks : Bool} {es : List Event} {st st' : State} {e : Event} (hi : Inv es st) (h : times e = none)
    (hs : step checks st e = .ok st') : Inv (e :: es) st' := by
  obtain ⟨h1, h2⟩ := step_other h hs
  have hn : isInterval e = false := by unfold isInterval; rw [h]; rfl
  refine ⟨?_, by rw [h1]; exact hi.threadKeys, ?_, ?_, ?_, ?_, ?_⟩
  · intro t
    rw [h1, hi.threads t]
    unfold threadSpec
    rw [spanOf_skip h, stackOf_skip h]
  · rw [h2]
    split
    · exact keys_nodup_insert _ _ hi.dataKeys
    · exact hi.dataKeys
  · intro l
    have hd := hi.data l
    have key : ∀ d', d'.time = (dataOf l st.queryData).time → d'.selfTime = (dataOf l st.queryData).selfTime →
        d'.numberOfCacheMisses = (dataOf l st.queryData).numberOfCacheMisses →
        d'.blockedTime = (dataOf l st.queryData).blockedTime →
        d'.incrementalLoadTime = (dataOf l st.queryData).incrementalLoadTime →
        d'.incrementalHashingTime = (dataOf l st.queryData).incrementalHashingTime →
        d'.numberOfCacheHits = (dataOf l st.queryData).numberOfCacheHits +
          (if hasLabel l e && isInstant e && hasKind "QueryCacheHit" e then 1 else 0) →
        d'.invocationCount = (dataOf l st.queryData).invocationCount +
          (if hasLabel l e && isInstant e && hasKind "QueryCacheHit" e then 1 else 0) → DataInv l (e :: es) d' := by
      intro d' e1 e2 e3 e4 e5 e6 e7 e8
      constructor
      · rw [e2, subs_skip h, timeOf_skip h]; exact hd.self
      · rw [e6, subs_skip h, timeOf_skip h]; exact hd.hash
      · rw [e5, subs_skip h, timeOf_skip h]; exact hd.load
      · rw [e1, timeOf_skip h]; exact hd.time
      · rw [e4, timeOf_skip h]; exact hd.blocked
      · rw [e3, countOf_cons, hn]; simpa using hd.misses
      · rw [e7, countOf_cons, hd.hits]
      · rw [e8, countOf_cons, hd.count, hn]; simp [Bool.and_assoc]
    rw [h2]
    split
    · rename_i hk
      rw [dataOf_insert]
      split
      · rename_i hl
        subst hl
        have : (hasLabel e.label e && isInstant e && hasKind "QueryCacheHit" e) = true := by
          simp [hasLabel, hk.1, hasKind, hk.2]
        apply key (hit (dataOf e.label st.queryData)) rfl rfl rfl rfl rfl rfl <;> rw [this] <;> rfl
      · rename_i hl
        have : (hasLabel l e && isInstant e && hasKind "QueryCacheHit" e) = false := by simp [hasLabel, hl]
        apply key _ rfl rfl rfl rfl rfl rfl <;> rw [this] <;> rfl
    · rename_i hk
      have : (hasLabel l e && isInstant e && hasKind "QueryCacheHit" e) = false := by
        cases hb : (hasLabel l e && isInstant e && hasKind "QueryCacheHit" e) with
        | false => rfl
        | true => simp [hasKind] at hb; exact absurd ⟨hb.1.2, hb.2⟩ hk
      apply key _ rfl rfl rfl rfl rfl rfl <;> rw [this] <;> rfl
  · intro l
    rw [h2]
    have hm : mentions e = true ↔ (isInstant e = true ∧ e.eventKind = utf8 "QueryCacheHit") := by
      unfold mentions; rw [hn]; simp [hasKind]
    split
    · rename_i hk
      rw [mem_keys_insert, hi.labels l]
      simp only [List.mem_cons, exists_eq_or_imp, hm, hk, and_true]
      rw [eq_comm]
    · rename_i hk
      rw [hi.labels l]
      simp only [List.mem_cons, exists_eq_or_imp, hm, hk, and_false, false_or]
  · rw [h2, subs_skip h, timeOf_skip h]
    split
    · have := sum_insert (fun d : QueryData => d.selfTime) {} rfl e.label (hit (dataOf e.label st.queryData)) st.queryData
      have ht := hi.total
      simp only [dataOf, hit] at this ⊢
      omega
    · exact hi.total
  · intro x hx
    rcases List.mem_cons.1 hx with rfl | hx
    · intro s t hst; rw [h] at hst; cases hst
    · exact hi.forward x hx

theorem isHash_iff {e : Event} : isHash e = true ↔ e.eventKind = utf8 "IncrementalResultHashing" := by
  simp [isHash, hasKind]

theorem isLoad_iff {e : Event} : isLoad e = true ↔ e.eventKind = utf8 "IncrementalLoadResult" := by
  simp [isLoad, hasKind]

theorem inv_interval {checks : Bool} {es : List Event} {st st' : State} {e : Event} (hi : Inv es st) {s t : Nat}
    (h : times e = some (s, t)) (hs : step checks st e = .ok st') : Inv (e :: es) st' := by
  obtain ⟨hst, m1, hm1, hq, -, hth⟩ := step_interval h hs
  have hn : isInterval e = true := by unfold isInterval; rw [h]; rfl
  have hni : isInstant e = false := by
    cases hb : isInstant e with
    | false => rfl
    | true => rw [isInstant_times hb] at h; cases h
  have hlen := len_of_times h
  rw [hi.threads, threadSpec_getD] at hm1
  have hpar : stackParent e es = (popStack e.payload (stackOf e.threadId es)).head? := by unfold stackParent; rw [hn]; rfl
  have hsub := subtractParent_ok hm1
  rw [← hpar] at hsub
  rw [hi.threads, threadSpec_getD] at hth
  -- the data of every label after the subtraction
  have hmid : ∀ l, (dataOf l m1).selfTime + (if (stackParent e es).any (hasLabel l) then t - s else 0) =
        (dataOf l st.queryData).selfTime ∧
      (dataOf l m1).incrementalHashingTime + (if (stackParent e es).any (fun e => hasLabel l e && isHash e) then t - s else 0) =
        (dataOf l st.queryData).incrementalHashingTime ∧
      (dataOf l m1).incrementalLoadTime + (if (stackParent e es).any (fun e => hasLabel l e && isLoad e) then t - s else 0) =
        (dataOf l st.queryData).incrementalLoadTime ∧
      (dataOf l m1).time = (dataOf l st.queryData).time ∧
      (dataOf l m1).numberOfCacheMisses = (dataOf l st.queryData).numberOfCacheMisses ∧
      (dataOf l m1).numberOfCacheHits = (dataOf l st.queryData).numberOfCacheHits ∧
      (dataOf l m1).invocationCount = (dataOf l st.queryData).invocationCount ∧
      (dataOf l m1).blockedTime = (dataOf l st.queryData).blockedTime := by
    intro l
    cases hp : stackParent e es with
    | none => rw [hp] at hsub; simp only at hsub; subst hsub; simp
    | some p =>
      rw [hp] at hsub
      obtain ⟨b, hb, rfl⟩ := hsub
      rw [dataOf_insert]
      simp only [any_some]
      by_cases hl : p.label = l
      · subst hl
        have : hasLabel p.label p = true := by simp [hasLabel]
        simp only [if_pos, this, Bool.true_and]
        refine ⟨hb.self, ?_, ?_, hb.time, hb.misses, hb.hits, hb.count, hb.blocked⟩
        · simpa [isHash_iff] using hb.hash
        · simpa [isLoad_iff] using hb.load
      · have : hasLabel l p = false := by simp [hasLabel, hl]
        simp [hl, this]
  have hkeys1 : (m1.map (·.1)).Nodup ∧ (∀ l, l ∈ m1.map (·.1) ↔ l ∈ st.queryData.map (·.1)) ∧
      (m1.map (·.2.selfTime)).sum + (if (stackParent e es).any (fun _ => true) then t - s else 0) =
        (st.queryData.map (·.2.selfTime)).sum := by
    cases hp : stackParent e es with
    | none => rw [hp] at hsub; simp only at hsub; subst hsub; simpa using hi.dataKeys
    | some p =>
      rw [hp] at hsub
      obtain ⟨b, hb, rfl⟩ := hsub
      refine ⟨keys_nodup_insert _ _ hi.dataKeys, ?_, ?_⟩
      · intro l
        rw [mem_keys_insert]
        constructor
        · rintro (rfl | hl)
          · rw [hi.labels]
            rw [hpar] at hp
            have hmem := mem_stackOf ((popStack_sublist _ _).subset (List.mem_of_head? hp))
            refine ⟨p, hmem.1, rfl, ?_⟩
            have := hmem.2
            unfold onThread at this
            unfold mentions
            simp only [Bool.and_eq_true] at this
            rw [this.1]; rfl
          · exact hl
        · exact Or.inr
      · have h1 := sum_insert (fun d : QueryData => d.selfTime) {} rfl p.label b st.queryData
        have h2 := hb.self
        simp only [dataOf] at h1 h2
        simp only [any_some, if_true]
        omega
  have hadd := addTo_added e.eventKind (t - s) (dataOf e.label m1)
  refine ⟨?_, ?_, ?_, ?_, ?_, ?_, ?_⟩
  · intro t'
    rw [hth, lookup_insert]
    by_cases ht : e.threadId = t'
    · subst ht
      rw [if_pos rfl]
      unfold threadSpec
      simp only [spanOf, stackOf, onThread, if_true, h, hn, decide_true, Bool.and_self]
      cases spanOf e.threadId es with
      | none => simp
      | some x => rfl
    · rw [if_neg ht, hi.threads]
      unfold threadSpec
      simp only [spanOf, stackOf, onThread, ht, if_false, decide_false, Bool.and_false, Bool.false_eq_true]
  · rw [hth]; exact keys_nodup_insert _ _ hi.threadKeys
  · rw [hq]; exact keys_nodup_insert _ _ hkeys1.1
  · intro l
    obtain ⟨g1, g2, g3, g4, g5, g6, g7, g8⟩ := hmid l
    have hd := hi.data l
    rw [hq, dataOf_insert]
    by_cases hl : e.label = l
    · subst hl
      rw [if_pos rfl]
      have hl' : hasLabel e.label e = true := by simp [hasLabel]
      obtain ⟨a1, a2, a3, a4, a5, a6, a7, a8⟩ := hadd
      obtain ⟨d1, d2, d3, d4, d5, d6, d7, d8⟩ := hd
      constructor
      · rw [timeOf_cons, hl', subs, hlen]; simp only [if_true]; omega
      · rw [timeOf_cons, subs, hlen]; simp only [hl', Bool.true_and, isHash_iff]; omega
      · rw [timeOf_cons, subs, hlen]; simp only [hl', Bool.true_and, isLoad_iff]; omega
      · rw [timeOf_cons, hlen]
        have : ((hasLabel e.label e && !isHash e) = true) ↔ e.eventKind ≠ utf8 "IncrementalResultHashing" := by
          rw [hl', ne_eq, ← isHash_iff]; simp
        simp only [this]; omega
      · rw [timeOf_cons, hlen]
        have : ((hasLabel e.label e && hasKind "QueryBlocked" e) = true) ↔ e.eventKind = utf8 "QueryBlocked" := by
          rw [hl']; simp [hasKind]
        simp only [this]; omega
      · rw [countOf_cons]
        have : ((hasLabel e.label e && isInterval e && (hasKind "Query" e || hasKind "GenericActivity" e)) = true) ↔
            (e.eventKind = utf8 "Query" ∨ e.eventKind = utf8 "GenericActivity") := by
          rw [hl', hn]; simp [hasKind]
        simp only [this]; omega
      · rw [countOf_cons, hni]; simp only [Bool.and_false, Bool.false_and, Bool.false_eq_true, if_false]; omega
      · rw [countOf_cons]
        have : ((hasLabel e.label e && (isInterval e && !isHash e && !isLoad e || isInstant e && hasKind "QueryCacheHit" e)) =
            true) ↔ (e.eventKind ≠ utf8 "IncrementalResultHashing" ∧ e.eventKind ≠ utf8 "IncrementalLoadResult") := by
          rw [hl', hn, hni, ne_eq, ne_eq, ← isHash_iff, ← isLoad_iff]; simp
        simp only [this]; omega
    · rw [if_neg hl]
      have hl' : hasLabel l e = false := by simp [hasLabel, hl]
      obtain ⟨d1, d2, d3, d4, d5, d6, d7, d8⟩ := hd
      constructor
      · rw [timeOf_cons, hl', subs, hlen]; simp only [Bool.false_eq_true, if_false]; omega
      · rw [timeOf_cons, subs, hlen]; simp only [hl', Bool.false_and, Bool.false_eq_true, if_false]; omega
      · rw [timeOf_cons, subs, hlen]; simp only [hl', Bool.false_and, Bool.false_eq_true, if_false]; omega
      · rw [timeOf_cons]; simp only [hl', Bool.false_and, Bool.false_eq_true, if_false]; omega
      · rw [timeOf_cons]; simp only [hl', Bool.false_and, Bool.false_eq_true, if_false]; omega
      · rw [countOf_cons]; simp only [hl', Bool.false_and, Bool.false_eq_true, if_false]; omega
      · rw [countOf_cons]; simp only [hl', Bool.false_and, Bool.false_eq_true, if_false]; omega
      · rw [countOf_cons]; simp only [hl', Bool.false_and, Bool.false_eq_true, if_false]; omega
  · intro l
    rw [hq, mem_keys_insert, hkeys1.2.1, hi.labels]
    have hm : mentions e = true := by unfold mentions; rw [hn]; rfl
    simp only [List.mem_cons, exists_eq_or_imp, hm, and_true]
    rw [eq_comm]
  · rw [hq, timeOf_cons, subs, hlen]
    have h1 := sum_insert (fun d : QueryData => d.selfTime) {} rfl e.label (addTo e.eventKind (t - s) (dataOf e.label m1)) m1
    have h2 := hadd.self
    have h3 := hkeys1.2.2
    have h4 := hi.total
    simp only [dataOf] at h1 h2
    simp only [dataOf, if_true]
    omega
  · intro x hx
    rcases List.mem_cons.1 hx with rfl | hx
    · intro s' t' hst'; rw [h] at hst'; cases hst'; exact hst
    · exact hi.forward x hx

theorem inv_run {checks : Bool} {es : List Event} {st : State} (h : run checks es = .ok st) : Inv es st := by
  induction es generalizing st with
  | nil => cases h; exact inv_nil
  | cons e es ih =>
    simp only [run] at h
    cases hr : run checks es with
    | error f => rw [hr] at h; cases h
    | ok st0 =>
      rw [hr] at h
      change step checks st0 e = _ at h
      cases ht : times e with
      | none => exact inv_other (ih hr) ht h
      | some x => obtain ⟨s, t⟩ := x; exact inv_interval (ih hr) ht h

end Verif.Analyze
