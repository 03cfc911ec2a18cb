import Verif.Model.SelfTest
import Verif.Props.ConcProfiler

/-! # Lemmas about the project's end-to-end test -/

namespace Verif.SelfTest

open Verif Verif.Mm Verif.Spec Verif.Decode Verif.Conc Verif.Paths Verif.Tools Verif.Props

/-! ## What the threads record -/

/-- What `pseudo_invocation` records. -/
def recInvocation (ids : Ids) (now : Nat → UInt64) (tid : UInt32) : Nat → Nat → Nat → List Recorded
  | 0, _, _ => []
  | left + 1, random, j =>
    [⟨(eventIdAt ids (random * 7)).1, (eventIdAt ids (random * 7)).2, tid, .integer (random * 7 * 33)⟩] ++
    recInvocation ids now tid left (random * 17) (j + 1) ++
    [⟨(eventIdAt ids (random * 23)).1, (eventIdAt ids (random * 23)).2, tid, .instant (now (j + 1 + 3 * left)).toNat⟩,
     ⟨(eventIdAt ids random).1, (eventIdAt ids random).2, tid, .interval (now j).toNat (now (j + 2 + 3 * left)).toNat⟩]

/-- The counter values of a thread: never backwards, in the range of intervals. -/
def Ticks (now : Nat → UInt64) : Prop := (∀ i j, i ≤ j → (now i).toNat ≤ (now j).toNat) ∧ ∀ j, (now j).toNat ≤ 281474976710653

theorem ledger_invocation (ids : Ids) (now : Nat → UInt64) (g : Nat → Nat) (tid : UInt32) (hg : ∀ a b, g a = g b → a = b) (hnow : Ticks now) (left : Nat) :
    ∀ (random j : Nat) (l : Ledger), (∀ i, i < left → random * 17 ^ i * 231 ≤ 281474976710655) →
      ∃ guards, (invocation ids now g tid left random j).foldl Ledger.step l = ⟨guards, l.detached, l.events ++ recInvocation ids now tid left random j⟩ ∧
        ∀ x, (∀ i, i ≤ left → x ≠ g i) → guards x = l.guards x := by
  induction left with
  | zero => intro random j l _; exact ⟨l.guards, by simp [invocation, recInvocation], fun _ _ => rfl⟩
  | succ left ih =>
    intro random j l hfit
    have h0 := hfit 0 (by omega)
    rw [Nat.pow_zero, Nat.mul_one] at h0
    have hv : (UInt64.ofNat (random * 7 * 33)).toNat = random * 7 * 33 := by
      rw [UInt64.toNat_ofNat']
      exact Nat.mod_eq_of_lt (by omega)
    obtain ⟨guards, h1, h2⟩ := ih (random * 17) (j + 1)
      (([.start (g (left + 1)) (eventIdAt ids random).1 (eventIdAt ids random).2 tid (now j),
        .integer (eventIdAt ids (random * 7)).1 (eventIdAt ids (random * 7)).2 tid (UInt64.ofNat (random * 7 * 33))] : List ProfCall).foldl Ledger.step l)
      (fun i hi => by
        have := hfit (i + 1) (by omega)
        rwa [Nat.pow_succ', ← Nat.mul_assoc] at this)
    have hgl : guards (g (left + 1)) = some ⟨(eventIdAt ids random).1, (eventIdAt ids random).2, tid, (now j).toNat⟩ := by
      rw [h2 _ (fun i hi e => by have := hg _ _ e; omega)]
      simp [Ledger.step, put]
    refine ⟨put guards (g (left + 1)) none, ?_, fun x hx => ?_⟩
    · rw [invocation, List.foldl_append, List.foldl_append, h1]
      have hmono := hnow.1 j (j + 2 + 3 * left) (by omega)
      have hb := hnow.2 (j + 2 + 3 * left)
      have hb' := hnow.2 (j + 1 + 3 * left)
      simp only [List.foldl_cons, List.foldl_nil, Ledger.step, hgl, single, finished, hv]
      rw [if_pos (by omega), if_pos (by omega), if_pos ⟨hmono, hb⟩]
      simp [recInvocation]
    · have e : put guards (g (left + 1)) none x = guards x := by simp [put, hx (left + 1) (Nat.le_refl _)]
      rw [e, h2 x (fun i hi => hx i (by omega))]
      simp [Ledger.step, put, hx (left + 1) (Nat.le_refl _)]

theorem ledger_thread (ids : Ids) (now : Nat → UInt64) (g : Nat → Nat) (tid : UInt32) (hg : ∀ a b, g a = g b → a = b) (hnow : Ticks now) (d : Nat) (is : List Nat) :
    ∀ l : Ledger, (∀ i ∈ is, ∀ k, k < d → i * 17 ^ k * 231 ≤ 281474976710655) →
    ((is.flatMap fun i => invocation ids now g tid d i (12 * i)).foldl Ledger.step l).events = l.events ++ is.flatMap fun i => recInvocation ids now tid d i (12 * i) := by
  induction is with
  | nil => intro l _; simp
  | cons i is ih =>
    intro l h
    rw [List.flatMap_cons, List.foldl_append, List.flatMap_cons]
    have h4 := h i List.mem_cons_self
    obtain ⟨guards, h1, _⟩ := ledger_invocation ids now g tid hg hnow d i (12 * i) l h4
    rw [h1]
    rw [ih _ (fun i hi => h i (List.mem_cons_of_mem _ hi)), List.append_assoc]

theorem recorded_thread_calls (ids : Ids) (numStacks : Nat) (now : Nat → UInt64) (g : Nat → Nat) (tid : UInt32) (hg : ∀ a b, g a = g b → a = b) (hnow : Ticks now)
    (hfit : (numStacks - 1) * 1134903 ≤ 281474976710655) :
    recorded (threadCalls ids numStacks now g tid) = (List.range numStacks).flatMap fun i => recInvocation ids now tid 4 i (12 * i) := by
  have := ledger_thread ids now g tid hg hnow 4 (List.range numStacks) .empty (fun i hi k hk => by
    have : i ≤ numStacks - 1 := by have := List.mem_range.mp hi; omega
    have := Nat.mul_le_mul_right 1134903 this
    have : k = 0 ∨ k = 1 ∨ k = 2 ∨ k = 3 := by omega
    rcases this with rfl | rfl | rfl | rfl <;> omega)
  unfold recorded ledger threadCalls
  rw [this]
  simp [Ledger.empty]

/-! ## What is recorded and what is expected -/

/-- The recorded event is the one described by the entry the number selects, and the expected event is that of its template,
with a payload of the same sort. -/
def Foreseen (ids : Ids) (r : Recorded) (x : Event) : Prop :=
  ∃ random p, r.kind = (eventIdAt ids random).1 ∧ r.id = (eventIdAt ids random).2 ∧ x = expectedEvent random r.thread p ∧
    ((∃ s e, r.what = .interval s e ∧ p = .timestamp (.interval 0 0)) ∨ (∃ t, r.what = .instant t ∧ p = .timestamp (.instant 0)) ∨
      ∃ v, r.what = .integer v ∧ p = .integer v)

theorem foreseen_invocation (ids : Ids) (now : Nat → UInt64) (tid : UInt32) (left : Nat) :
    ∀ random j, List.Forall₂ (Foreseen ids) (recInvocation ids now tid left random j) (expectedInvocation tid left random) := by
  induction left with
  | zero => intro random j; exact .nil
  | succ left ih =>
    intro random j
    rw [recInvocation, expectedInvocation]
    refine List.rel_append (List.rel_append (.cons ?_ .nil) (ih _ _)) (.cons ?_ (.cons ?_ .nil))
    · exact ⟨random * 7, _, rfl, rfl, rfl, .inr (.inr ⟨_, rfl, rfl⟩)⟩
    · exact ⟨random * 23, _, rfl, rfl, rfl, .inr (.inl ⟨_, rfl, rfl⟩)⟩
    · exact ⟨random, _, rfl, rfl, rfl, .inl ⟨_, _, rfl, rfl⟩⟩

theorem foreseen_thread (ids : Ids) (now : Nat → UInt64) (tid : UInt32) (is : List Nat) :
    List.Forall₂ (Foreseen ids) (is.flatMap fun i => recInvocation ids now tid 4 i (12 * i)) (is.flatMap fun i => expectedInvocation tid 4 i) := by
  induction is with
  | nil => exact .nil
  | cons i is ih => exact List.rel_append (foreseen_invocation ids now tid 4 i _) ih

theorem expected_thread (tid : UInt32) (left : Nat) : ∀ random, ∀ e ∈ expectedInvocation tid left random, e.threadId = tid := by
  induction left with
  | zero => intro random e he; cases he
  | succ left ih =>
    intro random e he
    simp only [expectedInvocation, List.mem_append, List.mem_cons, List.not_mem_nil, or_false] at he
    rcases he with (rfl | he) | rfl | rfl
    · rfl
    · exact ih _ e he
    · rfl
    · rfl

/-! ## The comparison -/

theorem push_lookup (m : List (UInt32 × List Event)) (e : Event) (t : UInt32) :
    (pushEvent m e).lookup t = if t = e.threadId then some ((m.lookup t).getD [] ++ [e]) else m.lookup t := by
  induction m with
  | nil =>
    simp only [pushEvent, List.lookup]
    by_cases h : t = e.threadId
    · simp [h]
    · have : (t == e.threadId) = false := by simpa using h
      simp [h, this]
  | cons x m ih =>
    obtain ⟨u, es⟩ := x
    unfold pushEvent
    by_cases hu : u = e.threadId
    · rw [if_pos hu]
      by_cases h : t = e.threadId
      · subst hu h
        simp [List.lookup]
      · have : (t == u) = false := by rw [hu]; simpa using h
        simp [List.lookup, this, h]
    · rw [if_neg hu]
      by_cases h : t = u
      · subst h
        simp [List.lookup, hu]
      · have : (t == u) = false := by simpa using h
        simp only [List.lookup, this, ih]

theorem push_keys (m : List (UInt32 × List Event)) (e : Event) :
    (pushEvent m e).map (·.1) = if e.threadId ∈ m.map (·.1) then m.map (·.1) else m.map (·.1) ++ [e.threadId] := by
  induction m with
  | nil => simp [pushEvent]
  | cons x m ih =>
    obtain ⟨u, es⟩ := x
    unfold pushEvent
    by_cases hu : u = e.threadId
    · rw [if_pos hu, if_pos (by simp [hu])]
      rfl
    · rw [if_neg hu]
      simp only [List.map_cons, ih, List.mem_cons]
      have : ¬ e.threadId = u := fun h => hu h.symm
      simp only [this, false_or]
      split <;> simp

/-- The keys of the map of events per thread. -/
def keysOf (es : List Event) : List UInt32 := (eventsPerThread es).map (·.1)

theorem perThread_spec (es : List Event) :
    (keysOf es).Nodup ∧ (∀ t, t ∈ keysOf es ↔ ∃ e ∈ es, e.threadId = t) ∧
    ∀ t, (eventsPerThread es).lookup t = if t ∈ keysOf es then some (es.filter fun e => e.threadId = t) else none := by
  induction es using List.reverseRecOn with
  | nil => exact ⟨.nil, by simp [keysOf, eventsPerThread], by simp [eventsPerThread, keysOf]⟩
  | append_singleton es e ih =>
    obtain ⟨h1, h2, h3⟩ := ih
    have hk : keysOf (es ++ [e]) = if e.threadId ∈ keysOf es then keysOf es else keysOf es ++ [e.threadId] := by
      unfold keysOf eventsPerThread
      rw [List.foldl_append]
      exact push_keys _ e
    have hm : ∀ t, t ∈ keysOf (es ++ [e]) ↔ ∃ x ∈ es ++ [e], x.threadId = t := by
      intro t
      rw [hk]
      split
      · rename_i h
        rw [h2]
        constructor
        · rintro ⟨x, hx, rfl⟩; exact ⟨x, by simp [hx], rfl⟩
        · rintro ⟨x, hx, rfl⟩
          rcases List.mem_append.mp hx with hx | hx
          · exact ⟨x, hx, rfl⟩
          · rw [List.mem_singleton.mp hx]; exact (h2 _).mp h
      · rw [List.mem_append, h2]
        simp only [List.mem_append, List.mem_singleton]
        constructor
        · rintro (⟨x, hx, rfl⟩ | rfl)
          · exact ⟨x, .inl hx, rfl⟩
          · exact ⟨e, .inr rfl, rfl⟩
        · rintro ⟨x, hx | rfl, rfl⟩
          · exact .inl ⟨x, hx, rfl⟩
          · exact .inr rfl
    refine ⟨?_, hm, fun t => ?_⟩
    · rw [hk]
      split
      · exact h1
      · rename_i h
        rw [List.nodup_append]
        refine ⟨h1, by simp, ?_⟩
        intro a ha b hb
        rw [List.mem_singleton.mp hb]
        rintro rfl
        exact h ha
    · have hl : (eventsPerThread (es ++ [e])).lookup t = if t = e.threadId then some (((eventsPerThread es).lookup t).getD [] ++ [e]) else (eventsPerThread es).lookup t := by
        unfold eventsPerThread
        rw [List.foldl_append]
        exact push_lookup _ e t
      rw [hl]
      by_cases ht : t = e.threadId
      · rw [if_pos ht, if_pos ((hm t).mpr ⟨e, by simp, ht.symm⟩), h3]
        congr 1
        rw [List.filter_append]
        have : ([e].filter fun x => x.threadId = t) = [e] := by simp [ht]
        rw [this]
        congr 1
        split
        · rfl
        · rename_i hn
          symm
          rw [Option.getD_none, List.filter_eq_nil_iff]
          intro x hx he
          exact hn ((h2 t).mpr ⟨x, hx, by simpa using he⟩)
      · rw [if_neg ht, h3]
        have hf : ((es ++ [e]).filter fun x => x.threadId = t) = es.filter fun x => x.threadId = t := by
          rw [List.filter_append]
          have : ([e].filter fun x => x.threadId = t) = [] := by simp; exact fun h => ht h.symm
          rw [this, List.append_nil]
        rw [hf]
        have : t ∈ keysOf (es ++ [e]) ↔ t ∈ keysOf es := by
          rw [hm, h2]
          constructor
          · rintro ⟨x, hx, rfl⟩
            rcases List.mem_append.mp hx with hx | hx
            · exact ⟨x, hx, rfl⟩
            · rw [List.mem_singleton.mp hx] at ht; exact absurd rfl ht
          · rintro ⟨x, hx, rfl⟩; exact ⟨x, by simp [hx], rfl⟩
        simp only [this]

theorem checkZip_ok {as xs : List Event} (h : List.Forall₂ (fun a x => sameEvent a x = true) as xs) : ∀ count, checkZip as xs count = .ok (count + as.length) := by
  induction h with
  | nil => intro count; rfl
  | @cons a x as xs h _ ih =>
    intro count
    rw [checkZip, if_pos h, ih]
    congr 1
    simp
    omega

theorem checkThreads_ok (es xs : List Event) (ts : List UInt32) : ∀ count, (∀ t ∈ ts, t ∈ keysOf es ∧ t ∈ keysOf xs ∧
      List.Forall₂ (fun a x => sameEvent a x = true) (es.filter fun e => e.threadId = t) (xs.filter fun e => e.threadId = t)) →
    checkThreads (eventsPerThread es) (eventsPerThread xs) ts count = .ok (count + (ts.map fun t => (es.filter fun e => e.threadId = t).length).sum) := by
  induction ts with
  | nil => intro count _; rfl
  | cons t ts ih =>
    intro count h
    obtain ⟨h1, h2, h3⟩ := h t List.mem_cons_self
    have e1 : threadEvents (eventsPerThread es) t = .ok (es.filter fun e => e.threadId = t) := by
      unfold threadEvents
      rw [(perThread_spec es).2.2 t, if_pos h1]
    have e2 : threadEvents (eventsPerThread xs) t = .ok (xs.filter fun e => e.threadId = t) := by
      unfold threadEvents
      rw [(perThread_spec xs).2.2 t, if_pos h2]
    rw [checkThreads, e1, e2]
    simp only [bind, Except.bind]
    rw [if_neg (by rw [h3.length_eq]; simp), checkZip_ok h3]
    simp only
    rw [ih _ (fun t ht => h t (List.mem_cons_of_mem _ ht))]
    congr 1
    simp
    omega

theorem sum_filter (ks : List UInt32) (hn : ks.Nodup) (es : List Event) (h : ∀ e ∈ es, e.threadId ∈ ks) :
    (ks.map fun t => (es.filter fun e => e.threadId = t).length).sum = es.length := by
  induction es with
  | nil => simp
  | cons e es ih =>
    have ih' := ih (fun e he => h e (List.mem_cons_of_mem _ he))
    have he := h e List.mem_cons_self
    rw [List.length_cons, ← ih']
    clear ih ih' h
    induction ks with
    | nil => cases he
    | cons k ks ihk =>
      rw [List.nodup_cons] at hn
      simp only [List.map_cons, List.sum_cons]
      by_cases hk : e.threadId = k
      · have hrest : (ks.map fun t => ((e :: es).filter fun e => e.threadId = t).length) = ks.map fun t => (es.filter fun e => e.threadId = t).length := by
          apply List.map_congr_left
          intro t ht
          have : ¬ e.threadId = t := by rintro rfl; rw [hk] at ht; exact hn.1 ht
          rw [List.filter_cons, if_neg (by simpa using this)]
        rw [hrest, List.filter_cons, if_pos (by simpa using hk), List.length_cons]
        omega
      · rw [ihk hn.2 ((List.mem_cons.mp he).resolve_left hk), List.filter_cons, if_neg (by simpa using hk)]
        omega

theorem check_iff (order : List UInt32 → List UInt32) (hperm : ∀ l, (order l).Perm l) (es xs : List Event)
    (h : ∀ t, List.Forall₂ (fun a x => sameEvent a x = true) (es.filter fun e => e.threadId = t) (xs.filter fun e => e.threadId = t)) :
    (keysOf es).Perm (keysOf xs) ∧ es.length = xs.length ∧
    (checkProfilingData order es.length es xs xs.length = .ok () ↔ order (keysOf es) = order (keysOf xs)) := by
  have hkey : ∀ t, t ∈ keysOf es ↔ t ∈ keysOf xs := by
    intro t
    rw [(perThread_spec es).2.1, (perThread_spec xs).2.1]
    have hl := (h t).length_eq
    constructor
    · rintro ⟨e, he, ht⟩
      have : e ∈ es.filter fun e => e.threadId = t := List.mem_filter.mpr ⟨he, by simpa using ht⟩
      have : 0 < (xs.filter fun e => e.threadId = t).length := by rw [← hl]; exact List.length_pos_of_mem this
      obtain ⟨x, hx⟩ := List.exists_mem_of_length_pos this
      exact ⟨x, (List.mem_filter.mp hx).1, by simpa using (List.mem_filter.mp hx).2⟩
    · rintro ⟨e, he, ht⟩
      have : e ∈ xs.filter fun e => e.threadId = t := List.mem_filter.mpr ⟨he, by simpa using ht⟩
      have : 0 < (es.filter fun e => e.threadId = t).length := by rw [hl]; exact List.length_pos_of_mem this
      obtain ⟨x, hx⟩ := List.exists_mem_of_length_pos this
      exact ⟨x, (List.mem_filter.mp hx).1, by simpa using (List.mem_filter.mp hx).2⟩
  have hp : (keysOf es).Perm (keysOf xs) := (List.perm_ext_iff_of_nodup (perThread_spec es).1 (perThread_spec xs).1).mpr hkey
  have s1 := sum_filter (keysOf es) (perThread_spec es).1 es (fun e he => ((perThread_spec es).2.1 _).mpr ⟨e, he, rfl⟩)
  have s2 := sum_filter (keysOf es) (perThread_spec es).1 xs (fun e he => (hkey _).mpr (((perThread_spec xs).2.1 _).mpr ⟨e, he, rfl⟩))
  have hlen : es.length = xs.length := by
    rw [← s1, ← s2]
    congr 1
    apply List.map_congr_left
    intro t _
    exact (h t).length_eq
  refine ⟨hp, hlen, ?_⟩
  unfold checkProfilingData
  rw [if_neg (by rw [hlen]; simp)]
  simp only
  change (if order (keysOf es) ≠ order (keysOf xs) then _ else _) = _ ↔ _
  by_cases ho : order (keysOf es) = order (keysOf xs)
  · rw [if_neg (by simpa using ho)]
    simp only [ho, iff_true]
    change (checkThreads (eventsPerThread es) (eventsPerThread xs) (order (keysOf es)) 0 >>= _) = _
    rw [checkThreads_ok es xs _ 0 (fun t ht => ⟨(hperm _).mem_iff.mp ht, (hkey t).mp ((hperm _).mem_iff.mp ht), h t⟩)]
    simp only [bind, Except.bind]
    rw [if_neg]
    rw [((hperm (keysOf es)).map _).sum_eq, s1, hlen]
    simp
  · rw [if_pos ho]
    simp [ho]

/-! ## Iterating -/

theorem drain_next {α : Type} (decode : Nat → Except Fault α) (es : List α) : ∀ (it : Iter) (fuel : Nat), it.backward = it.forward + es.length → es.length < fuel →
    (∀ i x, es[i]? = some x → decode (it.forward + i) = .ok x) → drain (Iter.next decode) fuel it = .ok es := by
  induction es with
  | nil =>
    intro it fuel h hf _
    obtain ⟨f, rfl⟩ : ∃ f, fuel = f + 1 := ⟨fuel - 1, by simp at hf; omega⟩
    have e : it.forward = it.backward := by simpa using h.symm
    simp only [drain, Iter.next, if_pos e, bind, Except.bind]
  | cons x es ih =>
    intro it fuel h hf hd
    obtain ⟨f, rfl⟩ : ∃ f, fuel = f + 1 := ⟨fuel - 1, by simp at hf; omega⟩
    have e : it.forward ≠ it.backward := by simp at h; omega
    have hx := hd 0 x rfl
    rw [Nat.add_zero] at hx
    have := ih { it with forward := it.forward + 1 } f (by simp at h ⊢; omega) (by simp at hf; omega) (by
      intro i y hy
      have := hd (i + 1) y (by simpa using hy)
      simpa [Nat.add_assoc, Nat.add_comm 1 i] using this)
    simp only [drain, Iter.next, if_neg e, bind, Except.bind, hx, this]

theorem drain_nextBack {α : Type} (decode : Nat → Except Fault α) (es : List α) : ∀ (it : Iter) (fuel : Nat), it.backward = it.forward + es.length → es.length < fuel →
    (∀ i x, es[i]? = some x → decode (it.forward + i) = .ok x) → drain (Iter.nextBack decode) fuel it = .ok es.reverse := by
  induction es using List.reverseRecOn with
  | nil =>
    intro it fuel h hf _
    obtain ⟨f, rfl⟩ : ∃ f, fuel = f + 1 := ⟨fuel - 1, by simp at hf; omega⟩
    have e : it.forward = it.backward := by simpa using h.symm
    simp only [drain, Iter.nextBack, if_pos e, bind, Except.bind, List.reverse_nil]
  | append_singleton es x ih =>
    intro it fuel h hf hd
    obtain ⟨f, rfl⟩ : ∃ f, fuel = f + 1 := ⟨fuel - 1, by simp at hf; omega⟩
    rw [List.length_append, List.length_singleton] at h hf
    have e : it.forward ≠ it.backward := by omega
    have e0 : it.backward ≠ 0 := by omega
    have hx : decode (it.backward - 1) = .ok x := by
      have := hd es.length x (by simp)
      rwa [show it.backward - 1 = it.forward + es.length by omega]
    have := ih { it with backward := it.backward - 1 } f (by show it.backward - 1 = it.forward + _; omega) (by omega) (by
      intro i y hy
      exact hd i y (by rw [List.getElem?_append_left (by exact (List.getElem?_eq_some_iff.mp hy).1)]; exact hy))
    simp only [drain, Iter.nextBack, if_neg e, if_neg e0, bind, Except.bind, hx, this, List.reverse_append, List.reverse_cons, List.reverse_nil, List.nil_append, List.cons_append]

end Verif.SelfTest
