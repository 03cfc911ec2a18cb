import Verif.Proofs.ConcScoped

/-! # What the ids of a profiler used by several threads denote; executions exist -/

namespace Verif.Conc

open Verif Verif.Mm Verif.Spec Verif.Decode Verif.Props

/-! ## What ids denote -/

theorem zip_threads {n : Nat} (t : Fin n) : ∀ (L : List (Fin n × ProfCall)) (outs : List Answer),
    (ofThread t L).zip (ofThread t ((L.map Prod.fst).zip outs)) = ofThread t ((L.map Prod.fst).zip ((L.map Prod.snd).zip outs)) ∨ outs.length < L.length := by
  intro L
  induction L with
  | nil => intro outs; left; rfl
  | cons e L ih =>
    intro outs
    obtain ⟨t', c⟩ := e
    cases outs with
    | nil => right; simp
    | cons a outs =>
      rcases ih outs with ih | ih
      · left
        simp only [List.map_cons, List.zip_cons_cons]
        rw [ofThread_cons, ofThread_cons, ofThread_cons]
        split
        · rw [List.zip_cons_cons, ih]
        · exact ih
      · right; simpa using ih

theorem runProf_length (cs : List ProfCall) : ∀ s, (runProf cs s).1.length = cs.length := by
  induction cs with
  | nil => intro s; rfl
  | cons c cs ih => intro s; simp only [runProf, List.length_cons, ih]

theorem mem_ofThread {n : Nat} {α : Type} (L : List (Fin n × α)) (x : α) : (∃ t, x ∈ ofThread t L) ↔ x ∈ L.map Prod.snd := by
  constructor
  · rintro ⟨t, h⟩
    obtain ⟨y, hy, rfl⟩ := List.mem_map.mp h
    exact List.mem_map.mpr ⟨y, (List.mem_filter.mp hy).1, rfl⟩
  · intro h
    obtain ⟨y, hy, rfl⟩ := List.mem_map.mp h
    exact ⟨y.1, List.mem_map.mpr ⟨y, List.mem_filter.mpr ⟨hy, by simp⟩, rfl⟩⟩

theorem made_iff {n : Nat} {p : Program n} {σ : Conc (n + 1)} {L : List (Fin (n + 1) × ProfCall)} (ho : Orders p L)
    (ha : ∀ t, answersOf p σ t = ofThread t ((L.map Prod.fst).zip (profOutcomes p.metadata (L.map Prod.snd)))) (c : ProfCall) (a : Answer) :
    Answered p σ c a ↔ (c, a) ∈ (L.map Prod.snd).zip (profOutcomes p.metadata (L.map Prod.snd)) := by
  have hlen : (profOutcomes p.metadata (L.map Prod.snd)).length = L.length := by
    unfold profOutcomes; rw [runProf_length, List.length_map]
  have hz : ∀ t, (p.calls t).zip (answersOf p σ t) =
      ofThread t ((L.map Prod.fst).zip ((L.map Prod.snd).zip (profOutcomes p.metadata (L.map Prod.snd)))) := by
    intro t
    rw [ha, ← ho t]
    rcases zip_threads t L (profOutcomes p.metadata (L.map Prod.snd)) with h | h
    · exact h
    · omega
  unfold Answered
  simp only [hz]
  rw [mem_ofThread, List.map_snd_zip]
  simp [hlen]

theorem reads_all {log : TableLog} (cs : List StringComponent) (h : ∀ r, StringComponent.ref r ∈ cs → ∃ s, Means log r s) : ∃ s, Reads log cs s := by
  induction cs with
  | nil => exact ⟨_, .nil⟩
  | cons c cs ih =>
    obtain ⟨s, hs⟩ := ih (fun r hr => h r (List.mem_cons_of_mem _ hr))
    cases c with
    | value v => exact ⟨_, .value hs⟩
    | ref r =>
      obtain ⟨m, hm⟩ := h r List.mem_cons_self
      cases hm with
      | unknown hu _ => exact ⟨_, .unknown hu hs⟩
      | entry he hr _ => exact ⟨_, .entry he hr hs⟩

/-- In the string table of a profile, allocated ids are regular and bound ids are virtual. -/
theorem table_ids (md : String) (calls : List ProfCall) :
    (∀ id cs, Allocated (stringLog md calls) id cs → 100000003 ≤ id.toNat) ∧
    (∀ x ∈ stringLog md calls, ∀ v b, binds v x = some b → v.toNat ≤ 100000001 ∧ (∀ c, b = .concrete c → v.toNat ≤ 100000000) ∧ (∀ cs, b = .text cs → v.toNat = 100000001)) := by
  have hinv := prof_inv md calls
  obtain ⟨L, h, raws, si, hf, he, hr⟩ := hinv.w.inv
  constructor
  · rintro id cs ⟨t, ht, hm⟩
    rw [← hf] at hm
    obtain ⟨a, ha, _⟩ := si.tab.alloc id cs ⟨t, ht, (List.mem_filter.mp hm).1⟩
    omega
  · intro x hx v b hb
    rw [← hf] at hx
    exact si.tab.virt x (List.mem_filter.mp hx).1 v b hb

theorem bound_exists {log : TableLog} {v : StringId} (h : ∃ x ∈ log, (binds v x).isSome) : ∃ b x, x ∈ log ∧ binds v x = some b ∧ Bound log v b := by
  induction log with
  | nil => obtain ⟨x, hx, _⟩ := h; cases hx
  | cons y log ih =>
    by_cases h' : ∃ x ∈ log, (binds v x).isSome
    · obtain ⟨b, x, hx, hb, l1, z, l2, e, h2, h3⟩ := ih h'
      exact ⟨b, x, List.mem_cons_of_mem _ hx, hb, y :: l1, z, l2, by rw [e]; rfl, h2, h3⟩
    · obtain ⟨x, hx, hs⟩ := h
      rcases List.mem_cons.mp hx with rfl | hx
      · obtain ⟨b, hb⟩ := Option.isSome_iff_exists.mp hs
        refine ⟨b, x, List.mem_cons_self, hb, [], x, log, rfl, hb, fun z hz => ?_⟩
        cases hz' : binds v z with
        | none => rfl
        | some b' => exact absurd ⟨z, hz, by rw [hz']; rfl⟩ h'
      · exact absurd ⟨x, hx, hs⟩ h'

theorem denotes_means {n : Nat} {p : Program n} {σ : Conc (n + 1)} {L : List (Fin (n + 1) × ProfCall)} (ho : Orders p L)
    (ha : ∀ t, answersOf p σ t = ofThread t ((L.map Prod.fst).zip (profOutcomes p.metadata (L.map Prod.snd)))) {id : StringId} (h : Denotes p σ id) :
    ∃ s, Means (stringLog p.metadata (L.map Prod.snd)) id s := by
  have hin : ∀ {c a x}, Answered p σ c a → asTable (c, a) = some x → x ∈ stringLog p.metadata (L.map Prod.snd) := by
    intro c a x hm hx
    exact List.mem_cons_of_mem _ (List.mem_filterMap.mpr ⟨(c, a), (made_iff ho ha c a).mp hm, hx⟩)
  have halloc : ∀ {cs id}, GotFor p σ id cs → Allocated (stringLog p.metadata (L.map Prod.snd)) id cs := by
    rintro cs id (⟨t, rfl, hm⟩ | ⟨junk, hm⟩)
    · exact ⟨.table (.alloc t), rfl, hin hm rfl⟩
    · exact ⟨.custom _ (fun _ => .ok (encText cs ++ junk)), ⟨junk, rfl⟩, hin hm rfl⟩
  obtain ⟨reg, virt⟩ := table_ids p.metadata (L.map Prod.snd)
  have hmap : ∀ x ∈ stringLog p.metadata (L.map Prod.snd), ∀ v c, binds v x = some (.concrete c) → MappedTo p σ v c := by
    intro x hx v c hb
    rcases List.mem_cons.mp hx with rfl | hx
    · simp only [binds] at hb
      split at hb <;> simp at hb
    · obtain ⟨⟨c', a⟩, hm, hx⟩ := List.mem_filterMap.mp hx
      have hm := (made_iff ho ha c' a).mpr hm
      cases c' <;> simp only [asTable, Option.some.injEq, reduceCtorEq] at hx <;> subst hx
      · simp [binds] at hb
      · simp [binds] at hb
      · rename_i v' c'
        cases a with
        | error e => simp [binds] at hb
        | ok r =>
          simp only [binds] at hb
          split at hb
          · rename_i e
            injection hb with hb
            injection hb with hb
            subst hb e
            exact ⟨r, .inl hm⟩
          · cases hb
      · cases a with
        | error e => simp [binds] at hb
        | ok r =>
          simp only [binds] at hb
          split at hb
          · rename_i e
            injection hb with hb
            injection hb with hb
            subst hb
            exact ⟨r, .inr ⟨_, e, hm⟩⟩
          · cases hb
  generalize hlog : stringLog p.metadata (L.map Prod.snd) = log at *
  induction h with
  | string id cs hm _ ih =>
    obtain ⟨s, hs⟩ := reads_all cs ih
    exact ⟨s ++ "", .entry (.inl (halloc hm)) hs .nil⟩
  | mapped v hex hal _ ih =>
    obtain ⟨c0, r0, h0⟩ := hex
    have hb0 : ∃ x ∈ log, binds v x = some (.concrete c0) := by
      rcases h0 with h0 | ⟨vs, hv, h0⟩
      · exact ⟨_, hin h0 rfl, by simp [binds]⟩
      · exact ⟨_, hin h0 rfl, by simp [binds, hv]⟩
    obtain ⟨x0, hx0, hbx0⟩ := hb0
    have hv := (virt x0 hx0 v _ hbx0).2.1 c0 rfl
    obtain ⟨b, x, hx, hbx, hbound⟩ := bound_exists ⟨x0, hx0, by rw [hbx0]; rfl⟩
    -- what it is bound to is one of the ids it was mapped to
    obtain ⟨c, hc, rfl⟩ : ∃ c, MappedTo p σ v c ∧ b = .concrete c := by
      cases b with
      | concrete c => exact ⟨c, hmap x hx v c hbx, rfl⟩
      | text cs =>
        have := (virt x hx v _ hbx).2.2 cs rfl
        omega
    obtain ⟨t, ht⟩ := hal c hc
    obtain ⟨s, hs⟩ := ih c hc
    have hreg := reg c _ (halloc ht)
    cases hs with
    | unknown hu _ =>
      rcases hu with ⟨h1, _⟩ | h1 <;> omega
    | @entry _ s' t' _ cs' he hr ht' =>
      have hal' : Allocated log c cs' := by
        rcases he with he | ⟨c', hb', _⟩ | hb'
        · exact he
        · obtain ⟨l1, x', l2, e, h2, _⟩ := hb'
          have := (virt x' (by rw [e]; simp) _ _ h2).1
          omega
        · obtain ⟨l1, x', l2, e, h2, _⟩ := hb'
          have := (virt x' (by rw [e]; simp) _ _ h2).1
          omega
      exact ⟨s' ++ "", .entry (.inr (.inl ⟨c, hbound, hal'⟩)) hr .nil⟩

/-! ## The ids of recorded events -/

theorem used_step {P : StringId → Prop} (c : ProfCall) (l : Ledger) (hc : ∀ i ∈ usedIds c, P i)
    (hp : ∀ g q, l.guards g = some q ∨ l.detached g = some q → P q.kind ∧ P q.id) (he : ∀ r ∈ l.events, P r.kind ∧ P r.id) :
    (∀ g q, (l.step c).guards g = some q ∨ (l.step c).detached g = some q → P q.kind ∧ P q.id) ∧ (∀ r ∈ (l.step c).events, P r.kind ∧ P r.id) := by
  have hsingle : ∀ k id t v w, P k → P id → ∀ r ∈ single k id t v w, P r.kind ∧ P r.id := by
    intro k id t v w h1 h2 r hr
    unfold single at hr
    split at hr <;> simp at hr
    rw [hr]; exact ⟨h1, h2⟩
  have hfin : ∀ q id now, P q.kind → P id → ∀ r ∈ finished q id now, P r.kind ∧ P r.id := by
    intro q id now h1 h2 r hr
    unfold finished at hr
    split at hr <;> simp at hr
    rw [hr]; exact ⟨h1, h2⟩
  have happ : ∀ new : List Recorded, (∀ r ∈ new, P r.kind ∧ P r.id) → ∀ r ∈ l.events ++ new, P r.kind ∧ P r.id := by
    intro new h r hr
    rcases List.mem_append.mp hr with hr | hr
    · exact he r hr
    · exact h r hr
  cases c with
  | allocString t => exact ⟨hp, he⟩
  | allocForeign b => exact ⟨hp, he⟩
  | mapVirtual v c => exact ⟨hp, he⟩
  | bulkMapVirtual vs c => exact ⟨hp, he⟩
  | instant k id t now => exact ⟨hp, happ _ (hsingle _ _ _ _ _ (hc k (by simp [usedIds])) (hc id (by simp [usedIds])))⟩
  | integer k id t v => exact ⟨hp, happ _ (hsingle _ _ _ _ _ (hc k (by simp [usedIds])) (hc id (by simp [usedIds])))⟩
  | start g k id t now =>
    refine ⟨fun g' q h => ?_, he⟩
    simp only [Ledger.step, put] at h
    rcases h with h | h
    · split at h
      · injection h with h; rw [← h]; exact ⟨hc k (by simp [usedIds]), hc id (by simp [usedIds])⟩
      · exact hp g' q (.inl h)
    · exact hp g' q (.inr h)
  | startDetached g k id t now =>
    refine ⟨fun g' q h => ?_, he⟩
    simp only [Ledger.step, put] at h
    rcases h with h | h
    · exact hp g' q (.inl h)
    · split at h
      · injection h with h; rw [← h]; exact ⟨hc k (by simp [usedIds]), hc id (by simp [usedIds])⟩
      · exact hp g' q (.inr h)
  | finish g now =>
    cases hg : l.guards g with
    | none => simp only [Ledger.step, hg]; exact ⟨hp, he⟩
    | some q =>
      simp only [Ledger.step, hg]
      have hq := hp g q (.inl hg)
      refine ⟨fun g' q' h => ?_, happ _ (hfin _ _ _ hq.1 hq.2)⟩
      rcases h with h | h
      · simp only [put] at h
        split at h
        · cases h
        · exact hp g' q' (.inl h)
      · exact hp g' q' (.inr h)
  | finishOverride g id now =>
    cases hg : l.guards g with
    | none => simp only [Ledger.step, hg]; exact ⟨hp, he⟩
    | some q =>
      simp only [Ledger.step, hg]
      have hq := hp g q (.inl hg)
      refine ⟨fun g' q' h => ?_, happ _ (hfin _ _ _ hq.1 (hc id (by simp [usedIds])))⟩
      rcases h with h | h
      · simp only [put] at h
        split at h
        · cases h
        · exact hp g' q' (.inl h)
      · exact hp g' q' (.inr h)
  | finishDetached g now =>
    cases hg : l.detached g with
    | none => simp only [Ledger.step, hg]; exact ⟨hp, he⟩
    | some q =>
      simp only [Ledger.step, hg]
      have hq := hp g q (.inr hg)
      refine ⟨fun g' q' h => ?_, happ _ (hfin _ _ _ hq.1 hq.2)⟩
      rcases h with h | h
      · exact hp g' q' (.inl h)
      · simp only [put] at h
        split at h
        · cases h
        · exact hp g' q' (.inr h)

theorem recorded_used {P : StringId → Prop} (cs : List ProfCall) (h : ∀ c ∈ cs, ∀ i ∈ usedIds c, P i) : ∀ r ∈ recorded cs, P r.kind ∧ P r.id := by
  have : ∀ (cs : List ProfCall) (l : Ledger), (∀ c ∈ cs, ∀ i ∈ usedIds c, P i) →
      (∀ g q, l.guards g = some q ∨ l.detached g = some q → P q.kind ∧ P q.id) → (∀ r ∈ l.events, P r.kind ∧ P r.id) →
      ∀ r ∈ (cs.foldl Ledger.step l).events, P r.kind ∧ P r.id := by
    intro cs
    induction cs with
    | nil => intro l _ _ h; exact h
    | cons c cs ih =>
      intro l hc hp he
      obtain ⟨a, b⟩ := used_step c l (hc c List.mem_cons_self) hp he
      exact ih _ (fun c' h => hc c' (List.mem_cons_of_mem _ h)) a b
  exact this cs .empty h (by simp [Ledger.empty]) (by simp [Ledger.empty])

/-! ## The threads of recorded events -/

theorem thread_step {P : UInt32 → Prop} (c : ProfCall) (l : Ledger) (hc : ∀ u, recordsAs c = some u → P u)
    (hp : ∀ g q, l.guards g = some q ∨ l.detached g = some q → P q.thread) (he : ∀ r ∈ l.events, P r.thread) :
    (∀ g q, (l.step c).guards g = some q ∨ (l.step c).detached g = some q → P q.thread) ∧ (∀ r ∈ (l.step c).events, P r.thread) := by
  have hsingle : ∀ k id t v w, P t → ∀ r ∈ single k id t v w, P r.thread := by
    intro k id t v w h1 r hr
    unfold single at hr
    split at hr <;> simp at hr
    rw [hr]; exact h1
  have hfin : ∀ q id now, P q.thread → ∀ r ∈ finished q id now, P r.thread := by
    intro q id now h1 r hr
    unfold finished at hr
    split at hr <;> simp at hr
    rw [hr]; exact h1
  have happ : ∀ new : List Recorded, (∀ r ∈ new, P r.thread) → ∀ r ∈ l.events ++ new, P r.thread := by
    intro new h r hr
    rcases List.mem_append.mp hr with hr | hr
    · exact he r hr
    · exact h r hr
  cases c with
  | allocString t => exact ⟨hp, he⟩
  | allocForeign b => exact ⟨hp, he⟩
  | mapVirtual v c => exact ⟨hp, he⟩
  | bulkMapVirtual vs c => exact ⟨hp, he⟩
  | instant k id t now => exact ⟨hp, happ _ (hsingle _ _ _ _ _ (hc _ rfl))⟩
  | integer k id t v => exact ⟨hp, happ _ (hsingle _ _ _ _ _ (hc _ rfl))⟩
  | start g k id t now =>
    refine ⟨fun g' q h => ?_, he⟩
    simp only [Ledger.step, put] at h
    rcases h with h | h
    · split at h
      · injection h with h; rw [← h]; exact hc _ rfl
      · exact hp g' q (.inl h)
    · exact hp g' q (.inr h)
  | startDetached g k id t now =>
    refine ⟨fun g' q h => ?_, he⟩
    simp only [Ledger.step, put] at h
    rcases h with h | h
    · exact hp g' q (.inl h)
    · split at h
      · injection h with h; rw [← h]; exact hc _ rfl
      · exact hp g' q (.inr h)
  | finish g now =>
    cases hg : l.guards g with
    | none => simp only [Ledger.step, hg]; exact ⟨hp, he⟩
    | some q =>
      simp only [Ledger.step, hg]
      have hq := hp g q (.inl hg)
      refine ⟨fun g' q' h => ?_, happ _ (hfin _ _ _ hq)⟩
      rcases h with h | h
      · simp only [put] at h
        split at h
        · cases h
        · exact hp g' q' (.inl h)
      · exact hp g' q' (.inr h)
  | finishOverride g id now =>
    cases hg : l.guards g with
    | none => simp only [Ledger.step, hg]; exact ⟨hp, he⟩
    | some q =>
      simp only [Ledger.step, hg]
      have hq := hp g q (.inl hg)
      refine ⟨fun g' q' h => ?_, happ _ (hfin _ _ _ hq)⟩
      rcases h with h | h
      · simp only [put] at h
        split at h
        · cases h
        · exact hp g' q' (.inl h)
      · exact hp g' q' (.inr h)
  | finishDetached g now =>
    cases hg : l.detached g with
    | none => simp only [Ledger.step, hg]; exact ⟨hp, he⟩
    | some q =>
      simp only [Ledger.step, hg]
      have hq := hp g q (.inr hg)
      refine ⟨fun g' q' h => ?_, happ _ (hfin _ _ _ hq)⟩
      rcases h with h | h
      · exact hp g' q' (.inl h)
      · simp only [put] at h
        split at h
        · cases h
        · exact hp g' q' (.inr h)

theorem recorded_thread {P : UInt32 → Prop} (cs : List ProfCall) (h : ∀ c ∈ cs, ∀ u, recordsAs c = some u → P u) : ∀ r ∈ recorded cs, P r.thread := by
  have : ∀ (cs : List ProfCall) (l : Ledger), (∀ c ∈ cs, ∀ u, recordsAs c = some u → P u) →
      (∀ g q, l.guards g = some q ∨ l.detached g = some q → P q.thread) → (∀ r ∈ l.events, P r.thread) →
      ∀ r ∈ (cs.foldl Ledger.step l).events, P r.thread := by
    intro cs
    induction cs with
    | nil => intro l _ _ h; exact h
    | cons c cs ih =>
      intro l hc hp he
      obtain ⟨a, b⟩ := thread_step c l (hc c List.mem_cons_self) hp he
      exact ih _ (fun c' h => hc c' (List.mem_cons_of_mem _ h)) a b
  exact this cs .empty h (by simp [Ledger.empty]) (by simp [Ledger.empty])

/-! ## Executions exist -/

/-- The same state with more calls to come. -/
def extend {n : Nat} (σ : Conc n) (ext : Fin n → List Call) : Conc n :=
  { σ with threads := fun t => ⟨(σ.threads t).todo ++ ext t, (σ.threads t).cur⟩ }

theorem extend_init {n : Nat} (progs ext : Fin n → List Call) : extend (Conc.init progs) ext = Conc.init (fun t => progs t ++ ext t) := rfl

theorem extend_step {n : Nat} {tagOf : Nat → PageTag} {σ σ' : Conc n} {t : Fin n} (ext : Fin n → List Call) (h : Conc.step tagOf σ t = some σ') :
    Conc.step tagOf (extend σ ext) t = some (extend σ' ext) := by
  have hupd : ∀ (td : List Call) (cur : Option (Call × Prog)),
      (fun t' => (⟨(upd σ.threads t ⟨td, cur⟩ t').todo ++ ext t', (upd σ.threads t ⟨td, cur⟩ t').cur⟩ : Thread)) =
      upd (fun t' => (⟨(σ.threads t').todo ++ ext t', (σ.threads t').cur⟩ : Thread)) t ⟨td ++ ext t, cur⟩ := by
    intro td cur
    funext t'
    unfold upd
    by_cases ht : t' = t
    · subst ht; simp
    · simp [ht]
  unfold Conc.step at h ⊢
  simp only [extend, Conc.goto] at h ⊢
  cases hcur : (σ.threads t).cur with
  | none =>
    rw [hcur] at h
    simp only at h ⊢
    cases htodo : (σ.threads t).todo with
    | nil => rw [htodo] at h; cases h
    | cons c rest =>
      rw [htodo] at h
      simp only [Option.some.injEq] at h
      subst h
      simp only [List.cons_append, hupd]
  | some cp =>
    obtain ⟨c, q⟩ := cp
    rw [hcur] at h
    cases q with
    | ret r => simp only [Option.some.injEq] at h ⊢; subst h; simp only [hupd]
    | lockData k =>
      simp only at h ⊢
      cases hl : σ.dataLock c.1 with
      | some _ => rw [hl] at h; cases h
      | none => rw [hl] at h; simp only [Option.some.injEq] at h ⊢; subst h; simp only [hupd]
    | unlockData s k => simp only [Option.some.injEq] at h ⊢; subst h; simp only [hupd]
    | lockStore k =>
      simp only at h ⊢
      cases hl : σ.storeLock with
      | some _ => rw [hl] at h; cases h
      | none => rw [hl] at h; simp only [Option.some.injEq] at h ⊢; subst h; simp only [hupd]
    | write b o k => simp only [Option.some.injEq] at h ⊢; subst h; simp only [hupd]
    | unlockStore k => simp only [Option.some.injEq] at h ⊢; subst h; simp only [hupd]

theorem extend_run {n : Nat} {tagOf : Nat → PageTag} {σ σ' : Conc n} {k : Nat} (ext : Fin n → List Call) (h : Conc.Run tagOf σ k σ') :
    Conc.Run tagOf (extend σ ext) k (extend σ' ext) := by
  induction h with
  | refl => exact .refl _
  | step _ hs ih => exact ih.step (extend_step ext hs)

/-- From any reachable state the threads can be run to the end. -/
theorem continue_run {n : Nat} {tagOf : Nat → PageTag} {progs : Fin n → List Call} {k : Nat} {σ : Conc n} (h : Conc.Run tagOf (Conc.init progs) k σ) :
    ∃ k' σ', Conc.Run tagOf σ k' σ' ∧ σ'.Finished := by
  induction hm : budget progs - k generalizing k σ with
  | zero =>
    refine ⟨0, σ, .refl σ, ?_⟩
    by_contra hnf
    obtain ⟨t, σ', hs⟩ := C08_no_deadlock tagOf progs h hnf
    have := C08_bounded_steps tagOf progs (h.step hs)
    omega
  | succ m ih =>
    by_cases hf : σ.Finished
    · exact ⟨0, σ, .refl σ, hf⟩
    · obtain ⟨t, σ', hs⟩ := C08_no_deadlock tagOf progs h hf
      obtain ⟨k', σ'', h1, h2⟩ := ih (h.step hs) (by omega)
      exact ⟨0 + 1 + k', σ'', run_trans ((Conc.Run.refl σ).step hs) h1, h2⟩

theorem finished_log {n : Nat} {tagOf : Nat → PageTag} {progs : Fin n → List Call} {k : Nat} {σ : Conc n} (h : Conc.Run tagOf (Conc.init progs) k σ) (hf : σ.Finished)
    (t : Fin n) : (returned t σ.log).map Prod.fst = progs t ∧ started t σ.log = (returned t σ.log).map Prod.fst := by
  obtain ⟨H, hlin, hent, _⟩ := C08_final_state tagOf progs h hf
  obtain ⟨H', _, hst⟩ := C08_linearizable tagOf progs h
  obtain ⟨a, b⟩ := hent t
  refine ⟨b, ?_⟩
  have h1 := (hlin.threads t).2
  rw [a, b] at h1
  rw [b]
  exact (hst t).eq_of_length (Nat.le_antisymm (hst t).length_le h1.length_le)

theorem executes {n : Nat} (p : Program n) : ∃ σ, Executes p σ := by
  let P0 : Fin (n + 1) → List Call := fun t => if t = 0 then creation p.metadata else []
  let P1 : Fin (n + 1) → List Call := fun t => sinkCalls .empty (p.calls t)
  let P2 : Fin (n + 1) → List Call := fun t => if t = 0 then dropping else []
  have hP : p.threads = fun t => (P0 t ++ P1 t) ++ P2 t := by
    funext t
    simp only [Program.threads, P0, P1, P2]
    by_cases ht : t = 0
    · subst ht; simp
    · simp [ht]
  obtain ⟨k0, s0, r0, f0⟩ := continue_run (tagOf := profTags) (Conc.Run.refl (Conc.init P0))
  have r0' := extend_run P1 r0
  rw [extend_init] at r0'
  obtain ⟨k1, s1, r1, f1⟩ := continue_run r0'
  have r01 := run_trans r0' r1
  have r0'' := extend_run P2 r0'
  have r1' := extend_run P2 r1
  rw [extend_init] at r0''
  have r01' := extend_run P2 r01
  rw [extend_init] at r01'
  obtain ⟨k2, s2, r2, f2⟩ := continue_run r01'
  rw [← hP] at r0''
  refine ⟨s2, k0, k1, k2, extend (extend s0 P1) P2, extend s1 P2, r0'', fun t => finished_log r0 f0 t, r1', fun t => finished_log r01 f1 t, r2, f2⟩

end Verif.Conc
