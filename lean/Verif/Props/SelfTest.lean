import Verif.Proofs.SelfTest

/-! # Property C65: the project's own end-to-end test -/

namespace Verif.Props
open Verif Verif.Mm Verif.Spec Verif.Decode Verif.Conc Verif.Paths Verif.Tools Verif.SelfTest

/-- The main thread got the ids that the test uses. -/
def GotIds {n : Nat} (p : Program n) (σ : Conc (n + 1)) (ids : Ids) : Prop :=
  answersOf p σ 0 = [.ok (some ids.generic), .ok (some ids.someGenericActivity), .ok (some ids.query), .ok (some ids.queryWithArg),
    .ok (some ids.aQueryWithArg), .ok (some ids.someArg), .ok (some ids.withArg), .ok (some ids.someQuery), .ok none]

theorem thread_calls_record (ids : Ids) (now : Nat → UInt64) (g : Nat → Nat) (tid : UInt32) (left : Nat) :
    ∀ random j, ∀ c ∈ invocation ids now g tid left random j, (∀ a, asTable (c, a) = none) ∧ (∀ u, recordsAs c = some u → u = tid) ∧
      ∀ x, nameOf c = some x → ∃ i, 1 ≤ i ∧ i ≤ left ∧ x = g i := by
  induction left with
  | zero => intro random j c hc; cases hc
  | succ left ih =>
    intro random j c hc
    simp only [invocation, List.mem_append, List.mem_cons, List.not_mem_nil, or_false] at hc
    rcases hc with ((rfl | rfl) | hc) | rfl | rfl
    · exact ⟨fun _ => rfl, by simp [recordsAs], fun x hx => ⟨left + 1, by omega, Nat.le_refl _, by simpa [nameOf] using hx.symm⟩⟩
    · exact ⟨fun _ => rfl, by simp [recordsAs], by simp [nameOf]⟩
    · obtain ⟨h1, h2, h3⟩ := ih _ _ c hc
      refine ⟨h1, h2, fun x hx => ?_⟩
      obtain ⟨i, a, b, e⟩ := h3 x hx
      exact ⟨i, a, by omega, e⟩
    · exact ⟨fun _ => rfl, by simp [recordsAs], by simp [nameOf]⟩
    · exact ⟨fun _ => rfl, by simp [recordsAs], fun x hx => ⟨left + 1, by omega, Nat.le_refl _, by simpa [nameOf] using hx.symm⟩⟩

theorem program_calls {n : Nat} (md : String) (ids : Ids) (k : Nat) (clock : Fin (n + 1) → Nat → UInt64) (t : Fin (n + 1)) (c : ProfCall)
    (hc : c ∈ (program n md ids k clock).calls t) :
    (t = 0 ∧ c ∈ mainCalls ids) ∨ (t ≠ 0 ∧ (∀ a, asTable (c, a) = none) ∧ (∀ u, recordsAs c = some u → u = UInt32.ofNat (t.val - 1)) ∧
      ∀ x, nameOf c = some x → ∃ i, 1 ≤ i ∧ i ≤ 4 ∧ x = 5 * t.val + i) := by
  simp only [program] at hc
  split at hc
  · rename_i h; exact .inl ⟨h, hc⟩
  · rename_i h
    obtain ⟨i, _, hc⟩ := List.mem_flatMap.mp hc
    exact .inr ⟨h, thread_calls_record ids _ _ _ 4 i _ c hc⟩

theorem main_calls {ids : Ids} {c : ProfCall} (hc : c ∈ mainCalls ids) : nameOf c = none ∧ recordsAs c = none ∧ usedIds c = [] := by
  simp only [mainCalls, List.mem_cons, List.not_mem_nil, or_false] at hc
  rcases hc with rfl | rfl | rfl | rfl | rfl | rfl | rfl | rfl | rfl <;> exact ⟨rfl, rfl, rfl⟩

theorem program_names {n : Nat} (md : String) (ids : Ids) (k : Nat) (clock : Fin (n + 1) → Nat → UInt64) : OwnNames (program n md ids k clock) := by
  intro t t' hne c hc c' hc' x hx hx'
  rcases program_calls md ids k clock t c hc with ⟨_, h⟩ | ⟨_, _, _, h⟩
  · rw [(main_calls h).1] at hx; cases hx
  · rcases program_calls md ids k clock t' c' hc' with ⟨_, h'⟩ | ⟨_, _, _, h'⟩
    · rw [(main_calls h').1] at hx'; cases hx'
    · obtain ⟨i, a, b, e⟩ := h x hx
      obtain ⟨i', a', b', e'⟩ := h' x hx'
      exact hne (Fin.ext (by omega))

/-- The thread ids: the main thread records nothing. -/
def tidOf (n : Nat) (t : Fin (n + 1)) : UInt32 := if t = 0 then UInt32.ofNat n else UInt32.ofNat (t.val - 1)

theorem program_tids {n : Nat} (hn : n < 4294967296) (md : String) (ids : Ids) (k : Nat) (clock : Fin (n + 1) → Nat → UInt64) :
    OwnThreadIds (program n md ids k clock) (tidOf n) := by
  constructor
  · intro t t' h
    have e : ∀ t : Fin (n + 1), (tidOf n t).toNat = if t = 0 then n else t.val - 1 := by
      intro t
      have ht := t.isLt
      unfold tidOf
      split
      · rw [UInt32.toNat_ofNat']; exact Nat.mod_eq_of_lt (by omega)
      · rw [UInt32.toNat_ofNat']; exact Nat.mod_eq_of_lt (by omega)
    have h' := congrArg UInt32.toNat h
    rw [e, e] at h'
    have ht := t.isLt
    have ht' := t'.isLt
    have hz : ∀ t : Fin (n + 1), t = 0 ↔ t.val = 0 := fun t => by rw [Fin.ext_iff]; rfl
    simp only [hz] at h'
    apply Fin.ext
    split at h' <;> split at h' <;> omega
  · intro t c hc u hu
    rcases program_calls md ids k clock t c hc with ⟨_, h⟩ | ⟨h0, _, h, _⟩
    · rw [(main_calls h).2.1] at hu; cases hu
    · rw [h u hu, tidOf, if_neg h0]

theorem index_cases (ids : Ids) (random : Nat) :
    (eventIdAt ids random = (ids.generic, ids.someGenericActivity) ∧ templateAt random = ⟨"Generic", "SomeGenericActivity", []⟩) ∨
    (eventIdAt ids random = (ids.query, 42) ∧ templateAt random = ⟨"Query", "SomeQuery", []⟩) ∨
    (eventIdAt ids random = (ids.queryWithArg, ids.withArg) ∧ templateAt random = ⟨"QueryWithArg", "AQueryWithArg", ["some_arg"]⟩) := by
  unfold eventIdAt templateAt
  have h1 : (eventIds ids).length = 3 := rfl
  have h2 : templates.length = 3 := rfl
  rw [h1, h2]
  have : random % 3 = 0 ∨ random % 3 = 1 ∨ random % 3 = 2 := by omega
  rcases this with h | h | h <;> rw [h]
  · exact .inl ⟨rfl, rfl⟩
  · exact .inr (.inl ⟨rfl, rfl⟩)
  · exact .inr (.inr ⟨rfl, rfl⟩)

/-- What the three ids of the test are shown as, in every order of the calls. -/
theorem test_ids_shown {n : Nat} (start pid : Nat) (args : List String) (counter : CounterKind) (ids : Ids) (k : Nat) (clock : Fin (n + 1) → Nat → UInt64)
    (σ : Conc (n + 1)) (hg : GotIds (program n (metadataText start pid args counter) ids k clock) σ ids) (L : List (Fin (n + 1) × ProfCall))
    (ho : Orders (program n (metadataText start pid args counter) ids k clock) L)
    (ha : ∀ t, answersOf (program n (metadataText start pid args counter) ids k clock) σ t =
      ofThread t ((L.map Prod.fst).zip (profOutcomes (metadataText start pid args counter) (L.map Prod.snd)))) (random : Nat) :
    Shown (profileLog start pid args counter (L.map Prod.snd)) (eventIdAt ids random).1 (templateAt random).kind ∧
    Shown (profileLog start pid args counter (L.map Prod.snd)) (eventIdAt ids random).2 (joined (templateAt random).label (templateAt random).args) := by
  have hans : ∀ c a, (c, a) ∈ (mainCalls ids).zip (answersOf (program n (metadataText start pid args counter) ids k clock) σ 0) →
      (c, a) ∈ (L.map Prod.snd).zip (profOutcomes (metadataText start pid args counter) (L.map Prod.snd)) := by
    intro c a h
    exact (made_iff ho ha c a).mp ⟨0, h⟩
  rw [hg] at hans
  have plain : ∀ s id, (ProfCall.allocString (.str s), (.ok (some id) : Answer)) ∈ (L.map Prod.snd).zip (profOutcomes (metadataText start pid args counter) (L.map Prod.snd)) →
      Shown (profileLog start pid args counter (L.map Prod.snd)) id s ∧ Means (profileLog start pid args counter (L.map Prod.snd)) id s ∧
      Allocated (profileLog start pid args counter (L.map Prod.snd)) id [.value s] := by
    intro s id h
    have hal : Allocated (profileLog start pid args counter (L.map Prod.snd)) id [.value s] :=
      ⟨.table (.alloc (.str s)), rfl, List.mem_cons_of_mem _ (List.mem_filterMap.mpr ⟨_, h, rfl⟩)⟩
    exact ⟨C29_plain_shown start pid args counter _ s id h, entry_means (.inl hal) (reads_str _ s), hal⟩
  have a1 := plain "Generic" ids.generic (hans _ _ (by simp [mainCalls]))
  have a2 := plain "SomeGenericActivity" ids.someGenericActivity (hans _ _ (by simp [mainCalls]))
  have a3 := plain "Query" ids.query (hans _ _ (by simp [mainCalls]))
  have a4 := plain "QueryWithArg" ids.queryWithArg (hans _ _ (by simp [mainCalls]))
  have a5 := plain "AQueryWithArg" ids.aQueryWithArg (hans _ _ (by simp [mainCalls]))
  have a6 := plain "some_arg" ids.someArg (hans _ _ (by simp [mainCalls]))
  have a8 := plain "SomeQuery" ids.someQuery (hans _ _ (by simp [mainCalls]))
  have a7 := C29_event_id_shown start pid args counter (L.map Prod.snd) ids.aQueryWithArg [ids.someArg] ids.withArg "AQueryWithArg" ["some_arg"] (by simp)
    (hans (.allocString (labelAndArg ids.aQueryWithArg ids.someArg)) _ (by simp [mainCalls])) a5.2.1 ⟨a6.2.1, trivial⟩
  have a9 : (SessionOp.table (.mapVirtual 42 ids.someQuery), .ok none) ∈ profileLog start pid args counter (L.map Prod.snd) :=
    List.mem_cons_of_mem _ (List.mem_filterMap.mpr ⟨_, hans (.mapVirtual virtualId ids.someQuery) (.ok none) (by simp [mainCalls]), rfl⟩)
  have hb : ∀ x ∈ profileLog start pid args counter (L.map Prod.snd), ∀ b, binds 42 x = some b → b = .concrete ids.someQuery := by
    intro x hx b hb
    rcases List.mem_cons.mp hx with rfl | hx
    · simp [binds] at hb
    · obtain ⟨⟨c, a⟩, hm, hx⟩ := List.mem_filterMap.mp hx
      have hcl := (List.of_mem_zip hm).1
      obtain ⟨t, hc⟩ := (mem_ofThread L c).mpr hcl
      rw [ho t] at hc
      rcases program_calls _ ids k clock t c hc with ⟨_, h⟩ | ⟨_, h, _⟩
      · simp only [mainCalls, List.mem_cons, List.not_mem_nil, or_false] at h
        rcases h with rfl | rfl | rfl | rfl | rfl | rfl | rfl | rfl | rfl
        all_goals
          simp only [asTable, Option.some.injEq] at hx
          subst hx
        iterate 8 · simp [binds] at hb
        · cases a with
          | error e => simp [binds] at hb
          | ok r => simp [binds, virtualId] at hb; exact hb.symm
      · rw [h] at hx; cases hx
  have hbound : Bound (profileLog start pid args counter (L.map Prod.snd)) 42 (.concrete ids.someQuery) := by
    obtain ⟨b, x, hx, hbx, h⟩ := bound_exists (v := 42) ⟨_, a9, by simp [binds]⟩
    rw [hb x hx b hbx] at h
    exact h
  have a10 : Shown (profileLog start pid args counter (L.map Prod.snd)) 42 "SomeQuery" :=
    C29_shown_in_full start pid args counter _ 42 _ "SomeQuery" (.inr (.inl ⟨_, hbound, a8.2.2⟩)) (reads_str _ _) (.inl (by simp [leadingRef]))
  rcases index_cases ids random with ⟨h1, h2⟩ | ⟨h1, h2⟩ | ⟨h1, h2⟩ <;> rw [h1, h2]
  · exact ⟨a1.1, by simpa [joined] using a2.1⟩
  · exact ⟨a3.1, by simpa [joined] using a10⟩
  · exact ⟨a4.1, a7⟩

theorem templates_proper (random : Nat) : TextOk (templateAt random).label ∧ ∀ a ∈ (templateAt random).args, TextOk a := by
  rcases index_cases ⟨0, 0, 0, 0, 0, 0, 0, 0⟩ random with ⟨_, h2⟩ | ⟨_, h2⟩ | ⟨_, h2⟩ <;> rw [h2]
  · exact ⟨by decide, by simp⟩
  · exact ⟨by decide, by simp⟩
  · exact ⟨by decide, by decide⟩

theorem template_of_kind (a b : Nat) (h : (templateAt a).kind = (templateAt b).kind) : templateAt a = templateAt b := by
  rcases index_cases ⟨0, 0, 0, 0, 0, 0, 0, 0⟩ a with ⟨_, h1⟩ | ⟨_, h1⟩ | ⟨_, h1⟩ <;>
    rcases index_cases ⟨0, 0, 0, 0, 0, 0, 0, 0⟩ b with ⟨_, h2⟩ | ⟨_, h2⟩ | ⟨_, h2⟩ <;> rw [h1, h2] at h ⊢ <;> exact absurd h (by decide)

theorem forall2_filter {α β : Type} {R : α → β → Prop} (p : α → Bool) (q : β → Bool) (hpq : ∀ a b, R a b → p a = q b) {l : List α} {l' : List β}
    (h : List.Forall₂ R l l') : List.Forall₂ R (l.filter p) (l'.filter q) := by
  induction h with
  | nil => exact .nil
  | @cons a b l l' hab _ ih =>
    rw [List.filter_cons, List.filter_cons, hpq a b hab]
    split
    · exact .cons hab ih
    · exact ih

theorem forall2_comp {α β γ : Type} {R : α → β → Prop} {S : α → γ → Prop} {T : β → γ → Prop} (hc : ∀ a b c, R a b → S a c → T b c) {l : List α} :
    ∀ {l' : List β} {l'' : List γ}, List.Forall₂ R l l' → List.Forall₂ S l l'' → List.Forall₂ T l' l'' := by
  induction l with
  | nil => intro l' l'' h h'; cases h; cases h'; exact .nil
  | cons a l ih =>
    intro l' l'' h h'
    cases h with
    | cons h1 h2 => cases h' with
      | cons h3 h4 => exact .cons (hc _ _ _ h1 h3) (ih h2 h4)

/-- The event read is that of the entry a number selects, with the recorded values. -/
def ReadAs (start : Nat) (ids : Ids) (r : Recorded) (e : Event) : Prop :=
  ∃ random, r.kind = (eventIdAt ids random).1 ∧ r.id = (eventIdAt ids random).2 ∧
    e = ⟨utf8 (templateAt random).kind, utf8 (templateAt random).label, (templateAt random).args.map utf8, seen start r.what, r.thread⟩

theorem expected_filter (n k : Nat) (hn : n < 4294967296) (u : UInt32) :
    ((expectedEvents n k).filter fun e => e.threadId = u) = if u.toNat < n then expectedThread k u else [] := by
  unfold expectedEvents
  have hth : ∀ j, ∀ e ∈ expectedThread k (UInt32.ofNat j), e.threadId = UInt32.ofNat j := by
    intro j e he
    obtain ⟨i, _, he⟩ := List.mem_flatMap.mp he
    exact expected_thread _ 4 i e he
  induction n with
  | zero => simp
  | succ n ih =>
    have ih := ih (by omega)
    rw [List.range_succ, List.flatMap_append, List.filter_append, ih]
    have hnn : (UInt32.ofNat n).toNat = n := by rw [UInt32.toNat_ofNat']; exact Nat.mod_eq_of_lt (by omega)
    simp only [List.flatMap_cons, List.flatMap_nil, List.append_nil]
    by_cases hu : u = UInt32.ofNat n
    · subst hu
      rw [hnn, if_neg (by omega), if_pos (by omega), List.nil_append, List.filter_eq_self]
      intro e he
      simpa using hth n e he
    · have hne : u.toNat ≠ n := by
        intro h
        apply hu
        rw [← UInt32.toNat_inj, hnn, h]
      have : ((expectedThread k (UInt32.ofNat n)).filter fun e => e.threadId = u) = [] := by
        rw [List.filter_eq_nil_iff]
        intro e he h
        rw [hth n e he] at h
        exact hu (of_decide_eq_true h).symm
      rw [this, List.append_nil]
      by_cases h : u.toNat < n
      · rw [if_pos h, if_pos (by omega)]
      · rw [if_neg h, if_neg (by omega)]

/-- What the test reads, in every execution, agrees thread by thread with what it expects. -/
theorem test_reads {n : Nat} (hn : n < 4294967296) (numStacks : Nat) (hfit : (numStacks - 1) * 1134903 ≤ 281474976710655)
    (start pid : Nat) (args : List String) (counter : CounterKind) (hstart : start < 18446744073709551616) (hpid : pid < 4294967296) (hargs : PlainArgs args)
    (ids : Ids) (clock : Fin (n + 1) → Nat → UInt64) (hclock : ∀ t, Ticks (clock t)) (σ : Conc (n + 1))
    (h : Executes (program n (metadataText start pid args counter) ids numStacks clock) σ)
    (hg : GotIds (program n (metadataText start pid args counter) ids numStacks clock) σ ids) :
    ∃ es : List Event, (∀ u, List.Forall₂ (fun a x => sameEvent a x = true) (es.filter fun e => e.threadId = u) ((expectedEvents n numStacks).filter fun e => e.threadId = u)) ∧
      ∃ d m, ∀ (diag : Option String) (v8New : Bytes → Except Fault OldDecoder) (fuel : Nat), m ≤ fuel → fromPagedBuffer diag v8New fuel (fileOf σ) = .ok (v9Data fuel d) ∧
        d.numEvents = .ok es.length ∧ ∀ i e, es[i]? = some e → d.decodeFull fuel i = .ok e := by
  obtain ⟨L, l1, _, l3, l4⟩ := C63_as_one_thread _ (program_names _ ids numStacks clock) σ h
  have hshown := test_ids_shown start pid args counter ids numStacks clock σ hg L l1 l4
  have hrec := C63_recorded _ (tidOf n) (program_names (metadataText start pid args counter) ids numStacks clock) (program_tids hn _ ids numStacks clock) L l1
  -- what each thread recorded, and what it expects
  have hth : ∀ t : Fin (n + 1), List.Forall₂ (Foreseen ids) (recorded ((program n (metadataText start pid args counter) ids numStacks clock).calls t))
      (if t = 0 then [] else expectedThread numStacks (UInt32.ofNat (t.val - 1))) := by
    intro t
    simp only [program]
    split
    · exact .nil
    · rw [recorded_thread_calls ids numStacks (clock t) _ _ (fun a b h => by omega) (hclock t) hfit]
      exact foreseen_thread ids (clock t) _ _
  have hread : ∀ r ∈ recorded (L.map Prod.snd), ∃ random, r.kind = (eventIdAt ids random).1 ∧ r.id = (eventIdAt ids random).2 := by
    intro r hr
    obtain ⟨t, ht⟩ := (hrec 0).2 r hr
    have hm : r ∈ (recorded (L.map Prod.snd)).filter fun r => r.thread = tidOf n t := List.mem_filter.mpr ⟨hr, by simpa using ht⟩
    rw [(hrec t).1] at hm
    obtain ⟨i, hi, rfl⟩ := List.getElem_of_mem hm
    have hF := hth t
    obtain ⟨random, p, h1, h2, _⟩ := forall2_getElem hF i hi (by rw [← hF.length_eq]; exact hi)
    exact ⟨random, h1, h2⟩
  obtain ⟨d, ⟨n1, hn1⟩, _, hnum, hev⟩ := C29_profile_round_trip start pid hstart hpid args hargs counter (L.map Prod.snd)
  obtain ⟨es, hes, n2, hn2⟩ := collect_eventually (ReadAs start ids) (fun fuel i => d.decodeFull fuel i) (recorded (L.map Prod.snd)) 0 (by
    intro j r hr
    obtain ⟨random, h1, h2⟩ := hread r (List.mem_of_getElem? hr)
    obtain ⟨_, hf⟩ := hev j r hr
    obtain ⟨s1, s2⟩ := hshown random
    rw [← h1] at s1
    rw [← h2] at s2
    obtain ⟨p1, p2⟩ := templates_proper random
    obtain ⟨q1, q2, q3⟩ := C29_proper_fields _ _ p1 p2
    obtain ⟨m, hm⟩ := hf _ _ _ s1 s2 q2 q3
    rw [q1] at hm
    exact ⟨_, ⟨random, h1, h2, rfl⟩, m, fun fuel hfuel => by rw [Nat.zero_add]; exact hm fuel hfuel⟩)
  -- kinds tell the entries apart
  have hkinds : ∀ a b, (eventIdAt ids a).1 = (eventIdAt ids b).1 → templateAt a = templateAt b := by
    intro a b hab
    obtain ⟨t, ev, o⟩ := open_profile (metadataText start pid args counter) (L.map Prod.snd)
    obtain ⟨m1, hm1⟩ := shown_toStr o.rel (hshown a).1
    obtain ⟨m2, hm2⟩ := shown_toStr o.rel (hshown b).1
    rw [hab] at hm1
    have := (hm1 (m1 + m2) (by omega)).symm.trans (hm2 (m1 + m2) (by omega))
    exact template_of_kind a b (utf8_inj (by simpa using this))
  have hsame : ∀ r e x, ReadAs start ids r e → Foreseen ids r x → sameEvent e x = true := by
    rintro r e x ⟨a, h1, h2, rfl⟩ ⟨b, p, h3, h4, rfl, hp⟩
    have hT := hkinds a b (h1.symm.trans h3)
    unfold sameEvent expectedEvent
    simp only [hT, decide_true, Bool.true_and, Bool.and_eq_true, decide_eq_true_eq, Bool.or_eq_true, Bool.not_eq_true']
    rcases hp with ⟨s, e, hw, rfl⟩ | ⟨t, hw, rfl⟩ | ⟨v, hw, rfl⟩ <;> rw [hw] <;> simp [seen, EventPayload.isInterval, EventPayload.isInstant, EventPayload.isInteger]
  refine ⟨es, fun u => ?_, d, max n1 n2, fun diag v8New fuel hf => ?_⟩
  · have hfil : List.Forall₂ (ReadAs start ids) ((recorded (L.map Prod.snd)).filter fun r => r.thread = u) (es.filter fun e => e.threadId = u) :=
      forall2_filter _ _ (fun r e hre => by obtain ⟨_, _, _, rfl⟩ := hre; rfl) hes
    rw [expected_filter n numStacks hn u]
    split
    · rename_i hu
      have ht0 : (⟨u.toNat + 1, by omega⟩ : Fin (n + 1)) ≠ 0 := by rw [Ne, Fin.ext_iff]; simp
      have htid : tidOf n ⟨u.toNat + 1, by omega⟩ = u := by
        unfold tidOf
        rw [if_neg ht0]
        simp
      have e1 := (hrec ⟨u.toNat + 1, by omega⟩).1
      rw [htid] at e1
      rw [e1] at hfil
      have e2 := hth ⟨u.toNat + 1, by omega⟩
      rw [if_neg ht0] at e2
      simp only [Nat.add_sub_cancel, UInt32.ofNat_toNat] at e2
      exact forall2_comp hsame hfil e2
    · rename_i hu
      have : ((recorded (L.map Prod.snd)).filter fun r => r.thread = u) = [] := by
        by_cases hun : u = UInt32.ofNat n
        · have e1 := (hrec 0).1
          have : tidOf n 0 = u := by simp [tidOf, hun]
          rw [this] at e1
          rw [e1]
          rfl
        · rw [List.filter_eq_nil_iff]
          intro r hr hru
          obtain ⟨t, ht⟩ := (hrec 0).2 r hr
          have htu : tidOf n t = u := by rw [← ht]; simpa using hru
          unfold tidOf at htu
          split at htu
          · exact hun htu.symm
          · rename_i h0
            apply hu
            rw [← htu, UInt32.toNat_ofNat']
            have := t.isLt
            have hv : t.val ≠ 0 := fun h => h0 (Fin.ext h)
            rw [Nat.mod_eq_of_lt (by omega)]
            omega
      rw [this] at hfil
      rw [List.forall₂_nil_left_iff.mp hfil]
      exact .nil
  · have e0 := l3 diag v8New fuel
    change _ = fromPagedBuffer diag v8New fuel (savedFile (metadataText start pid args counter) _) at e0
    have hd := C30_current_dispatch (diag := diag) v8New fuel (metadataText start pid args counter) (L.map Prod.snd)
    have ho : EventDecoder.new diag fuel (savedFile (metadataText start pid args counter) (L.map Prod.snd)) = .ok d := hn1 _ fuel (by omega)
    refine ⟨?_, ?_, fun i e hi => ?_⟩
    · rw [e0, hd, ho]
      rfl
    · rw [hnum, hes.length_eq]
    · obtain ⟨_, hall⟩ := C28_collects_all _ _ _ _ (hn2 fuel (by omega))
      have := hall i e hi
      rwa [Nat.zero_add] at this

/-- **C65.** For any number of threads and stacks, any counter values and any schedule: what the test reads back passes its checks,
forwards and backwards, exactly if the two hash maps it compares yield the thread ids in the same order. -/
theorem C65_passes_iff {n : Nat} (hn : n < 4294967296) (numStacks : Nat) (hfit : (numStacks - 1) * 1134903 ≤ 281474976710655)
    (start pid : Nat) (args : List String) (counter : CounterKind) (hstart : start < 18446744073709551616) (hpid : pid < 4294967296) (hargs : PlainArgs args)
    (ids : Ids) (clock : Fin (n + 1) → Nat → UInt64) (hclock : ∀ t, Ticks (clock t)) (σ : Conc (n + 1))
    (h : Executes (program n (metadataText start pid args counter) ids numStacks clock) σ)
    (hg : GotIds (program n (metadataText start pid args counter) ids numStacks clock) σ ids)
    (order : List UInt32 → List UInt32) (horder : ∀ l, (order l).Perm l) :
    ∃ es, (keysOf es).Perm (keysOf (expectedEvents n numStacks)) ∧ ∃ m, ∀ (env : Env) (stem : Bytes), m ≤ env.fuel → env.files (profilerPath stem) = some (fileOf σ) →
      readEvents env stem = .ok es ∧
      (processProfilingData env order stem (expectedEvents n numStacks) = .ok () ↔
        order (keysOf es) = order (keysOf (expectedEvents n numStacks)) ∧ order (keysOf es.reverse) = order (keysOf (expectedEvents n numStacks).reverse)) := by
  obtain ⟨es, h1, d, m, hm⟩ := test_reads hn numStacks hfit start pid args counter hstart hpid hargs ids clock hclock σ h hg
  have hrev : ∀ u, List.Forall₂ (fun a x => sameEvent a x = true) (es.reverse.filter fun e => e.threadId = u)
      ((expectedEvents n numStacks).reverse.filter fun e => e.threadId = u) := by
    intro u
    rw [List.filter_reverse, List.filter_reverse]
    exact List.rel_reverse (h1 u)
  obtain ⟨c1, c2, c3⟩ := check_iff order horder es (expectedEvents n numStacks) h1
  obtain ⟨_, _, c4⟩ := check_iff order horder es.reverse (expectedEvents n numStacks).reverse hrev
  rw [List.length_reverse, List.length_reverse] at c4
  refine ⟨es, c1, m, fun env stem hf hfile => ?_⟩
  obtain ⟨h2, h3, h4⟩ := hm (some (display (withExtension stem fileExtension))) env.v8New env.fuel hf
  have ho : openProfile env.v8New env.fuel env.files stem = .ok (v9Data env.fuel d) := by
    change env.files (withExtension stem fileExtension) = some (fileOf σ) at hfile
    unfold openProfile
    rw [hfile]
    exact h2
  have hcol : collectFrom (d.decodeFull env.fuel) 0 es.length = .ok es := collect_exact _ es 0 (fun j e he => by rw [Nat.zero_add]; exact h4 j e he)
  have d1 := drain_next (d.decodeFull env.fuel) es (Iter.new es.length) (es.length + 1) (by simp [Iter.new]) (by omega) (by simpa [Iter.new] using h4)
  have d2 := drain_nextBack (d.decodeFull env.fuel) es (Iter.new es.length) (es.length + 1) (by simp [Iter.new]) (by omega) (by simpa [Iter.new] using h4)
  refine ⟨?_, ?_⟩
  · simp only [readEvents, bind, Except.bind]
    rw [ho]
    simp only [v9_fullEvents, bind, Except.bind]
    rw [h3]
    exact hcol
  · have hs : (Iter.new es.length).sizeHint = .ok es.length := by simp [Iter.new, Iter.sizeHint]
    unfold processProfilingData
    simp only [bind, Except.bind]
    rw [ho]
    simp only [v9_itemFull]
    simp only [v9Data]
    rw [h3]
    simp only
    rw [hs, d1, d2]
    simp only
    constructor
    · intro hok
      split at hok
      · cases hok
      · rename_i u hu
        exact ⟨c3.mp hu, c4.mp hok⟩
    · rintro ⟨o1, o2⟩
      rw [c3.mpr o1]
      exact c4.mpr o2

/-- **C65.** So the project's end-to-end test passes for any number of threads and stacks, any counter values and any schedule, if
the order in which a hash map yields its keys depends only on which keys it has. -/
theorem C65_passes {n : Nat} (hn : n < 4294967296) (numStacks : Nat) (hfit : (numStacks - 1) * 1134903 ≤ 281474976710655)
    (start pid : Nat) (args : List String) (counter : CounterKind) (hstart : start < 18446744073709551616) (hpid : pid < 4294967296) (hargs : PlainArgs args)
    (ids : Ids) (clock : Fin (n + 1) → Nat → UInt64) (hclock : ∀ t, Ticks (clock t)) (σ : Conc (n + 1))
    (h : Executes (program n (metadataText start pid args counter) ids numStacks clock) σ)
    (hg : GotIds (program n (metadataText start pid args counter) ids numStacks clock) σ ids)
    (order : List UInt32 → List UInt32) (horder : ∀ l, (order l).Perm l) (hstable : ∀ l l', l.Perm l' → order l = order l') :
    ∃ m, ∀ (env : Env) (stem : Bytes), m ≤ env.fuel → env.files (profilerPath stem) = some (fileOf σ) →
      processProfilingData env order stem (expectedEvents n numStacks) = .ok () := by
  obtain ⟨es, h1, m, hm⟩ := C65_passes_iff hn numStacks hfit start pid args counter hstart hpid hargs ids clock hclock σ h hg order horder
  refine ⟨m, fun env stem hf hfile => (hm env stem hf hfile).2.mpr ⟨hstable _ _ h1, hstable _ _ ?_⟩⟩
  have hr : ∀ l : List Event, (keysOf l.reverse).Perm (keysOf l) := by
    intro l
    refine (List.perm_ext_iff_of_nodup (perThread_spec _).1 (perThread_spec _).1).mpr (fun t => ?_)
    rw [(perThread_spec _).2.1, (perThread_spec _).2.1]
    simp
  exact ((hr es).trans h1).trans (hr _).symm

/-! ### The ids -/

theorem alloc_answer {tl l s} (i : PInv tl l s) (t : Text) : ((ProfCall.allocString t).run s).1 = (fromAddr (nextAddr tl)).map some := by
  obtain ⟨L, h, raws, si, hf, _, _⟩ := i.w.inv
  have e : nextAddr tl = (written 1 h).length := by rw [si.tab.dsize, ← hf, nextAddr_filter]
  have hr := alloc_run h si.good t
  rw [← si.world] at hr
  rw [e]
  simp only [ProfCall.run, onWorld, TableOp.run]
  rw [Act.bind_apply, hr]
  cases fromAddr (written 1 h).length <;> rfl

theorem map_answer {tl l s} (i : PInv tl l s) (v c : StringId) (hv : v.toNat ≤ 100000000) (hc : 100000003 ≤ c.toNat) : ((ProfCall.mapVirtual v c).run s).1 = .ok none := by
  obtain ⟨L, h, raws, si, hf, _, _⟩ := i.w.inv
  rcases mapVirtual_run h si.good v c with ⟨a, _, _, hr⟩ | ⟨hn, _, _⟩
  · rw [← si.world] at hr
    simp only [ProfCall.run, onWorld, TableOp.run]
    rw [Act.bind_ok hr]
    rfl
  · omega

/-- The answers to allocations and mappings when nobody else allocates. -/
def aloneAnswers : Nat → List ProfCall → List Answer
  | _, [] => []
  | addr, .allocString t :: cs => (fromAddr addr).map some :: aloneAnswers (addr + (encText (components t)).length) cs
  | addr, _ :: cs => .ok none :: aloneAnswers addr cs

theorem alone_answers {n : Nat} (L : List (Fin (n + 1) × ProfCall)) : ∀ (tl : TableLog) (l : Ledger) (s : ProfState), PInv tl l s →
    (∀ t c, (t, c) ∈ L → t ≠ 0 → ∀ a, asTable (c, a) = none) →
    (∀ c, (0, c) ∈ L → (∃ t, c = .allocString t) ∨ ∃ v i, c = .mapVirtual v i ∧ v.toNat ≤ 100000000 ∧ 100000003 ≤ i.toNat) →
    ofThread 0 ((L.map Prod.fst).zip (runProf (L.map Prod.snd) s).1) = aloneAnswers (nextAddr tl) (ofThread 0 L) := by
  induction L with
  | nil => intro tl l s _ _ _; rfl
  | cons x L ih =>
    intro tl l s hi ho hm
    obtain ⟨t, c⟩ := x
    have hst := (hi.step c).1
    have ih := ih _ _ _ hst (fun t' c' hc => ho t' c' (List.mem_cons_of_mem _ hc)) (fun c' hc => hm c' (List.mem_cons_of_mem _ hc))
    simp only [List.map_cons, runProf, List.zip_cons_cons]
    rw [ofThread_cons, ofThread_cons, ih]
    by_cases ht : t = 0
    · rw [if_pos ht, if_pos ht]
      subst ht
      rcases hm c List.mem_cons_self with ⟨tx, rfl⟩ | ⟨v, i, rfl, h1, h2⟩
      · rw [alloc_answer hi tx]
        simp only [aloneAnswers, asTable, Option.toList_some]
        rw [nextAddr_snoc]
        rfl
      · rw [map_answer hi v i h1 h2]
        simp only [aloneAnswers, asTable, Option.toList_some]
        rw [nextAddr_snoc]
        rfl
    · rw [if_neg ht, if_neg ht, ho t c List.mem_cons_self ht]
      simp

/-- The ids the main thread gets in a profile with metadata of `len` bytes: strings are stored one after the other, each followed
by a byte, after eight bytes of header and the metadata. -/
def testIds (len : Nat) : Ids where
  generic := UInt64.ofNat (100000012 + len)
  someGenericActivity := UInt64.ofNat (100000020 + len)
  query := UInt64.ofNat (100000040 + len)
  queryWithArg := UInt64.ofNat (100000046 + len)
  aQueryWithArg := UInt64.ofNat (100000059 + len)
  someArg := UInt64.ofNat (100000073 + len)
  withArg := UInt64.ofNat (100000082 + len)
  someQuery := UInt64.ofNat (100000102 + len)

/-- **C65.** Whatever the schedule, the main thread gets these ids, which the test then uses. -/
theorem C65_ids {n : Nat} (md : String) (numStacks : Nat) (clock : Fin (n + 1) → Nat → UInt64) (hlen : (utf8 md).length < 18446744073600000000) (σ : Conc (n + 1))
    (h : Executes (program n md (testIds (utf8 md).length) numStacks clock) σ) :
    GotIds (program n md (testIds (utf8 md).length) numStacks clock) σ (testIds (utf8 md).length) := by
  obtain ⟨L, l1, _, _, l4⟩ := C63_as_one_thread _ (program_names _ _ numStacks clock) σ h
  have hv : ∀ k, k ≤ 100000102 → (UInt64.ofNat (k + (utf8 md).length)).toNat = k + (utf8 md).length := by
    intro k hk
    rw [UInt64.toNat_ofNat']
    exact Nat.mod_eq_of_lt (by omega)
  have hmem : ∀ t c, (t, c) ∈ L → c ∈ (program n md (testIds (utf8 md).length) numStacks clock).calls t := by
    intro t c hc
    rw [← l1 t]
    exact List.mem_map.mpr ⟨(t, c), List.mem_filter.mpr ⟨hc, by simp⟩, rfl⟩
  have ha := alone_answers L _ _ _ (prof_inv md []) (fun t c hc h0 => by
      rcases program_calls _ _ _ _ t c (hmem t c hc) with ⟨h', _⟩ | ⟨_, h', _⟩
      · exact absurd h' h0
      · exact h')
    (fun c hc => by
      rcases program_calls _ _ _ _ 0 c (hmem 0 c hc) with ⟨_, h'⟩ | ⟨h', _⟩
      · simp only [mainCalls, List.mem_cons, List.not_mem_nil, or_false] at h'
        rcases h' with rfl | rfl | rfl | rfl | rfl | rfl | rfl | rfl | rfl
        iterate 8 · exact .inl ⟨_, rfl⟩
        · refine .inr ⟨_, _, rfl, by decide, ?_⟩
          simp only [testIds]
          rw [hv _ (by omega)]
          omega
      · exact absurd rfl h')
  have h0 := l4 0
  change _ = ofThread 0 ((L.map Prod.fst).zip (runProf (L.map Prod.snd) (profInit md)).1) at h0
  unfold GotIds
  rw [h0]
  refine ha.trans ?_
  rw [l1 0]
  have hn : nextAddr (stringLog md []) = 9 + (utf8 md).length := by
    simp [stringLog, nextAddr, textSize, components, encText, encComponent, profOutcomes, runProf]
    omega
  rw [hn]
  have hlit : ∀ (s : String) (k : Nat), (utf8 s).length = k → (encText (components (.str s))).length = k + 1 := by
    intro s k hk
    simp [components, encText, encComponent, hk]
  have hcomp : ∀ a b, (encText (components (labelAndArg a b))).length = 20 := by
    intro a b
    have := encText_labelAndArgs a [b]
    rw [C21_one_argument, this]
    rfl
  have hfa : ∀ k, k ≤ 99 → ∀ k', k + 100000003 = k' → (fromAddr (k + (utf8 md).length)).map some = .ok (some (UInt64.ofNat (k' + (utf8 md).length))) := by
    intro k hk k' hk'
    rw [fromAddr_eq (by omega)]
    subst hk'
    simp only [Except.map]
    congr 3
    omega
  simp only [program, if_true, mainCalls, aloneAnswers]
  rw [hlit "Generic" 7 (by decide), hlit "SomeGenericActivity" 19 (by decide), hlit "Query" 5 (by decide), hlit "QueryWithArg" 12 (by decide),
    hlit "AQueryWithArg" 13 (by decide), hlit "some_arg" 8 (by decide), hcomp]
  have e : ∀ k d, k + (utf8 md).length + d = (k + d) + (utf8 md).length := by intro k d; omega
  simp only [e]
  rw [hfa 9 (by omega) 100000012 rfl, hfa (9 + (7 + 1)) (by omega) 100000020 rfl, hfa (9 + (7 + 1) + (19 + 1)) (by omega) 100000040 rfl,
    hfa (9 + (7 + 1) + (19 + 1) + (5 + 1)) (by omega) 100000046 rfl, hfa (9 + (7 + 1) + (19 + 1) + (5 + 1) + (12 + 1)) (by omega) 100000059 rfl,
    hfa (9 + (7 + 1) + (19 + 1) + (5 + 1) + (12 + 1) + (13 + 1)) (by omega) 100000073 rfl,
    hfa (9 + (7 + 1) + (19 + 1) + (5 + 1) + (12 + 1) + (13 + 1) + (8 + 1)) (by omega) 100000082 rfl,
    hfa (9 + (7 + 1) + (19 + 1) + (5 + 1) + (12 + 1) + (13 + 1) + (8 + 1) + 20) (by omega) 100000102 rfl]
  rfl

/-- The hypotheses are met: with the number of stacks the project uses and eight threads, every execution (and there are
executions) passes the test. -/
example : let p := program 8 exMetadata (testIds (utf8 exMetadata).length) 10000 (fun _ j => UInt64.ofNat (min j 1000000))
    (∃ σ, Executes p σ) ∧ ∀ σ, Executes p σ → ∃ m, ∀ (env : Env) (stem : Bytes), m ≤ env.fuel → env.files (profilerPath stem) = some (fileOf σ) →
      processProfilingData env (fun l => l.insertionSort (· ≤ ·)) stem (expectedEvents 8 10000) = .ok () := by
  intro p
  refine ⟨C63_executes p, fun σ h => ?_⟩
  have hlen : (utf8 exMetadata).length < 18446744073600000000 := by decide +kernel
  refine C65_passes (by decide) 10000 (by decide) 1000 42 ["rustc", "a.rs"] .wallTime (by decide) (by decide) (by decide) _ _ (fun t => ⟨fun i j hij => ?_, fun j => ?_⟩)
    σ h (C65_ids _ _ _ hlen σ h) _ (fun l => List.perm_insertionSort _ l) (fun l l' hl => ?_)
  · rw [UInt64.toNat_ofNat', UInt64.toNat_ofNat', Nat.mod_eq_of_lt (by omega), Nat.mod_eq_of_lt (by omega)]
    omega
  · rw [UInt64.toNat_ofNat', Nat.mod_eq_of_lt (by omega)]
    omega
  · exact ((List.perm_insertionSort _ l).trans (hl.trans (List.perm_insertionSort _ l').symm)).eq_of_pairwise (le := (· ≤ ·))
      (fun a b _ _ h1 h2 => UInt32.le_antisymm h1 h2) (List.pairwise_insertionSort _ l) (List.pairwise_insertionSort _ l')

end Verif.Props
