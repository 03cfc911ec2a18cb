import Verif.Proofs.ConcProgress
import Verif.Proofs.ContainerMore

/-!
# Property C08: threads using the sinks concurrently

All theorems quantify over every number of threads, every program of every thread (any calls, including callbacks that
panic), and every schedule.
-/

namespace Verif.Conc

open Verif Verif.Mm Verif.Spec

section facts
variable {n : Nat} {tagOf : Nat → PageTag} {progs : Fin n → List Call} {σ : Conc n} {H : List (LinEntry n)}
    {P Q : List (Nat × Bytes)} {w : World}

theorem Inv.lin (inv : Inv tagOf progs σ H P Q w) : Linearization tagOf σ.log H where
  legal := by
    unfold outcomes Spec.run
    rw [inv.exec]
  threads := fun t => (inv.stage t).between
  realTime := inv.rt

theorem Inv.bodies_prefix (inv : Inv tagOf progs σ H P Q w) (i : Nat) : bodiesOf i P <+: bodiesOf i Q := by
  cases hl : σ.dataLock i with
  | none => rw [(inv.free i hl).2]
  | some t =>
    cases inv.stage t with
    | idle _ h2 => exact absurd hl (h2 i)
    | ready _ _ _ _ h2 => exact absurd hl (h2 i)
    | leaving _ _ _ h2 => exact absurd hl (h2 i)
    | inData c p bl r _ _ h3 _ h5 =>
      by_cases hi : i = c.1
      · subst hi; rw [h3]; exact List.prefix_append _ _
      · exact absurd hl (h5 i hi)
    | inStore c p part bl r _ _ h3 _ _ h5 =>
      by_cases hi : i = c.1
      · subst hi; rw [h3]; exact List.prefix_append _ _
      · exact absurd hl (h5 i hi)

theorem Inv.boundsP (inv : Inv tagOf progs σ H P Q w) :
    ∀ q ∈ P, (0 < q.2.length ∧ q.2.length ≤ 262144) ∧ ∃ x ∈ historyOf H, x.1 = q.1 := by
  rintro ⟨i, b⟩ hq
  have h1 : b ∈ bodiesOf i P := List.mem_map.2 ⟨(i, b), by simp [hq], rfl⟩
  have h2 := (inv.bodies_prefix i).subset h1
  obtain ⟨⟨j, b'⟩, hm, hb⟩ := List.mem_map.1 h2
  simp only [List.mem_filter, decide_eq_true_eq] at hm
  simp only at hb
  subst hb
  obtain ⟨hm, rfl⟩ := hm
  exact inv.bounds _ hm

theorem streamOf_pagesOf {P : List (Nat × Bytes)} {i : Nat} (h : ∀ q ∈ P, tagOf q.1 = tagOf i → q.1 = i) :
    streamOf (tagOf i) (pagesOf tagOf P) = (bodiesOf i P).flatten := by
  induction P with
  | nil => rfl
  | cons q P ih =>
    have ih := ih fun x hx => h x (by simp [hx])
    have e1 : streamOf (tagOf i) (pagesOf tagOf (q :: P)) =
        (if tagOf q.1 = tagOf i then q.2 else []) ++ streamOf (tagOf i) (pagesOf tagOf P) := by
      simp only [streamOf, pagesOf, List.map_cons, List.filter_cons]
      split
      · rename_i hq; simp only [decide_eq_true_eq] at hq; simp [hq]
      · rename_i hq; simp only [decide_eq_true_eq] at hq; simp [hq]
    have e2 : bodiesOf i (q :: P) = (if q.1 = i then [q.2] else []) ++ bodiesOf i P := by
      simp only [bodiesOf, List.filter_cons]
      split
      · rename_i hq; simp only [decide_eq_true_eq] at hq; simp [hq]
      · rename_i hq; simp only [decide_eq_true_eq] at hq; simp [hq]
    rw [e1, e2, ih]
    by_cases hq : q.1 = i
    · simp [hq]
    · have : ¬ tagOf q.1 = tagOf i := fun ht => hq (h q (by simp) ht)
      simp [hq, this]

theorem Inv.history_progs (inv : Inv tagOf progs σ H P Q w) : ∀ x ∈ historyOf H, ∃ t, x ∈ progs t := by
  intro x hx
  obtain ⟨e, he, rfl⟩ := List.mem_map.1 hx
  refine ⟨e.thread, ?_⟩
  have h1 : (e.call, e.res) ∈ entriesOf e.thread H := List.mem_map.2 ⟨e, by simp [he], rfl⟩
  have h2 := (inv.stage e.thread).between.2.subset (List.mem_map.2 ⟨_, h1, rfl⟩)
  rw [inv.prog]
  exact List.mem_append_left _ h2

theorem Inv.pages_ok (inv : Inv tagOf progs σ H P Q w) :
    (∀ p ∈ pagesOf tagOf P, 0 < p.body.length ∧ p.body.length ≤ 262144) ∧
    (∀ p ∈ pagesOf tagOf Q, 0 < p.body.length ∧ p.body.length ≤ 262144) := by
  constructor
  · intro p hp
    obtain ⟨q, hq, rfl⟩ := List.mem_map.1 hp
    exact (inv.boundsP q hq).1
  · intro p hp
    obtain ⟨q, hq, rfl⟩ := List.mem_map.1 hp
    exact (inv.bounds q hq).1

theorem Inv.unshared (inv : Inv tagOf progs σ H P Q w) {i : Nat} (hun : ProgsTagUnshared tagOf i progs) :
    TagUnshared tagOf i (historyOf H) ∧ (∀ q ∈ P, tagOf q.1 = tagOf i → q.1 = i) ∧
      (∀ q ∈ Q, tagOf q.1 = tagOf i → q.1 = i) := by
  have h0 : TagUnshared tagOf i (historyOf H) := by
    intro x hx ht
    obtain ⟨t, hp⟩ := inv.history_progs x hx
    exact hun t x hp ht
  refine ⟨h0, ?_, ?_⟩
  · intro q hq ht
    obtain ⟨_, x, hx, he⟩ := inv.boundsP q hq
    rw [← he] at ht ⊢
    exact h0 x hx ht
  · intro q hq ht
    obtain ⟨_, x, hx, he⟩ := inv.bounds q hq
    rw [← he] at ht ⊢
    exact h0 x hx ht

theorem Inv.store_form (inv : Inv tagOf progs σ H P Q w) :
    ∃ part, σ.store = storeOf (pagesOf tagOf P) ++ part ∧
      (part = [] ∨ σ.storeLock ≠ none ∧ ∃ i b, 0 < b.length ∧ b.length ≤ 262144 ∧ part <+: Page.bytes ⟨tagOf i, b⟩ ∧
        bodiesOf i P ++ [b] <+: bodiesOf i Q) := by
  cases hl : σ.storeLock with
  | none => exact ⟨[], by simpa using inv.sfree hl, Or.inl rfl⟩
  | some t =>
    cases inv.stage t with
    | idle _ _ h3 => exact absurd hl h3
    | ready _ _ _ _ _ h3 => exact absurd hl h3
    | inData _ _ _ _ _ _ _ _ _ h3 => exact absurd hl h3
    | leaving _ _ _ _ h3 => exact absurd hl h3
    | inStore c p part bl r _ h2 h3 h4 =>
      refine ⟨part, h4, ?_⟩
      cases h2 with
      | touch => exact Or.inl rfl
      | p0 b _ h1 h2 hk => exact Or.inl rfl
      | p1 b _ h1 h2 hk =>
        refine Or.inr ⟨by simp, c.1, b, h1, h2, ?_, by rw [h3]; simp⟩
        rw [← header_eq]; exact ⟨leBytes 4 b.length ++ b, by simp⟩
      | p2 b _ h1 h2 hk =>
        refine Or.inr ⟨by simp, c.1, b, h1, h2, ?_, by rw [h3]; simp⟩
        rw [← header_eq]; exact ⟨b, by simp⟩
      | p3 b h1 h2 hk =>
        refine Or.inr ⟨by simp, c.1, b, h1, h2, ?_, by rw [h3]; simp⟩
        rw [← header_eq]

theorem Inv.finished (inv : Inv tagOf progs σ H P Q w) (hf : σ.Finished) :
    (∀ t, entriesOf t H = returned t σ.log ∧ (entriesOf t H).map Prod.fst = progs t) ∧
    (∀ i, σ.dataLock i = none) ∧ σ.storeLock = none := by
  have hid : ∀ t, (∀ i, σ.dataLock i ≠ some t) ∧ σ.storeLock ≠ some t ∧ entriesOf t H = returned t σ.log ∧
      started t σ.log = (returned t σ.log).map Prod.fst := by
    intro t
    have hc := (hf t).2
    cases inv.stage t with
    | idle _ h2 h3 h4 h5 => exact ⟨h2, h3, h4, h5⟩
    | ready _ _ h1 => rw [hc] at h1; cases h1
    | inData _ _ _ _ h1 => rw [hc] at h1; cases h1
    | inStore _ _ _ _ _ h1 => rw [hc] at h1; cases h1
    | leaving _ _ h1 => rw [hc] at h1; cases h1
  refine ⟨fun t => ⟨(hid t).2.2.1, ?_⟩, ?_, ?_⟩
  · rw [inv.prog t, (hf t).1, (hid t).2.2.1, (hid t).2.2.2]; simp
  · intro i
    cases h : σ.dataLock i with
    | none => rfl
    | some t => exact absurd h ((hid t).1 i)
  · cases h : σ.storeLock with
    | none => rfl
    | some t => exact absurd h (hid t).2.1

end facts
end Verif.Conc

namespace Verif.Props

open Verif Verif.Mm Verif.Spec Verif.Conc

/-- **C08** (linearizability). Whatever the schedule, at any moment the calls observed so far have a linearization: a
sequential order of the calls that every thread sees in its own program order, that respects real time, and in which the
sequential sinks return exactly the observed results. -/
theorem C08_linearizable {n : Nat} (tagOf : Nat → PageTag) (progs : Fin n → List Call) {k : Nat} {σ : Conc n}
    (h : Conc.Run tagOf (Conc.init progs) k σ) :
    ∃ H, Linearization tagOf σ.log H ∧ ∀ t, started t σ.log <+: progs t := by
  obtain ⟨H, P, Q, w, inv, _⟩ := (Inv.init tagOf progs).run h
  exact ⟨H, inv.lin, fun t => by rw [inv.prog t]; exact List.prefix_append _ _⟩

/-- **C08** (no torn pages). At any moment, in particular if the process is killed there, the store is a sequence of
complete well-formed pages followed by an initial part of at most one page, which a thread holding the store lock is
writing; and for every sink whose tag no other sink uses, the complete pages hold a prefix of what is written to it in the
linearization. -/
theorem C08_pages_never_torn {n : Nat} (tagOf : Nat → PageTag) (progs : Fin n → List Call) {k : Nat} {σ : Conc n}
    (h : Conc.Run tagOf (Conc.init progs) k σ) :
    ∃ H pages part, Linearization tagOf σ.log H ∧ σ.store = storeOf pages ++ part ∧
      (∀ p ∈ pages, 0 < p.body.length ∧ p.body.length ≤ 262144) ∧
      (part = [] ∨ σ.storeLock ≠ none ∧ ∃ p : Page, p.body.length ≤ 262144 ∧ part <+: p.bytes) ∧
      (ProgsGood progs → ∀ i, ProgsTagUnshared tagOf i progs → streamOf (tagOf i) pages <+: written i (historyOf H)) := by
  obtain ⟨H, P, Q, w, inv, _⟩ := (Inv.init tagOf progs).run h
  obtain ⟨part, h1, h2⟩ := inv.store_form
  refine ⟨H, _, part, inv.lin, h1, inv.pages_ok.1, ?_, ?_⟩
  · rcases h2 with h2 | ⟨h2, i, b, _, h4, h5, _⟩
    · exact Or.inl h2
    · exact Or.inr ⟨h2, _, h4, h5⟩
  · intro hg i hun
    obtain ⟨u1, u2, u3⟩ := inv.unshared hun
    have hg' : AllGood (historyOf H) := by
      intro x hx
      obtain ⟨t, ht⟩ := inv.history_progs x hx
      exact hg t x ht
    obtain ⟨pages, winv, _⟩ := run_inv tagOf (historyOf H) hg'
    have hw : (run tagOf (historyOf H)).2 = w := by unfold Spec.run; rw [inv.exec]
    rw [hw] at winv
    have hp : pages = pagesOf tagOf Q := by
      apply storeOf_inj (fun p hp => split_of_writer (winv.bodies p hp)) (fun p hp => split_of_writer (inv.pages_ok.2 p hp))
      have e1 := winv.store
      rw [inv.wstore] at e1
      exact (congrArg Store.data e1).symm
    have hc := winv.content i u1
    rw [hp, streamOf_pagesOf u3] at hc
    rw [← hc, streamOf_pagesOf u2]
    obtain ⟨rest, hr⟩ := inv.bodies_prefix i
    rw [← hr]
    exact ⟨rest.flatten ++ (w.sinks i).buffer, by simp⟩

/-- **C08** (final state). When all threads have finished, the linearization contains exactly their programs, every sink
is in the state of the sequential execution, and every stream whose tag is used by one sink only is recovered from the
store exactly as from the store of the sequential execution. -/
theorem C08_final_state {n : Nat} (tagOf : Nat → PageTag) (progs : Fin n → List Call) {k : Nat} {σ : Conc n}
    (h : Conc.Run tagOf (Conc.init progs) k σ) (hf : σ.Finished) :
    ∃ H, Linearization tagOf σ.log H ∧ (∀ t, entriesOf t H = returned t σ.log ∧ (returned t σ.log).map Prod.fst = progs t) ∧
      (∀ i, σ.data i = (run tagOf (historyOf H)).2.sinks i) ∧
      ∃ m m', splitStreams σ.store = .ok m ∧ splitStreams (storeAfter tagOf (historyOf H)) = .ok m' ∧
        ∀ i, ProgsTagUnshared tagOf i progs → m (tagOf i) = m' (tagOf i) := by
  obtain ⟨H, P, Q, w, inv, _⟩ := (Inv.init tagOf progs).run h
  obtain ⟨f1, f2, f3⟩ := inv.finished hf
  have hw : (run tagOf (historyOf H)).2 = w := by unfold Spec.run; rw [inv.exec]
  refine ⟨H, inv.lin, fun t => ⟨(f1 t).1, by rw [← (f1 t).1]; exact (f1 t).2⟩, ?_, ?_⟩
  · intro i; rw [hw]; exact (inv.free i (f2 i)).1
  · refine ⟨mergePages (fun _ => none) (pagesOf tagOf P), mergePages (fun _ => none) (pagesOf tagOf Q), ?_, ?_, ?_⟩
    · rw [inv.sfree f3]; exact splitStreams_storeOf _ (fun p hp => split_of_writer (inv.pages_ok.1 p hp))
    · have : storeAfter tagOf (historyOf H) = storeOf (pagesOf tagOf Q) := by
        unfold storeAfter; rw [hw, inv.wstore]
      rw [this]; exact splitStreams_storeOf _ (fun p hp => split_of_writer (inv.pages_ok.2 p hp))
    · intro i hun
      obtain ⟨_, u2, u3⟩ := inv.unshared hun
      have hb := (inv.free i (f2 i)).2
      have hex : ∀ R : List (Nat × Bytes), (∀ q ∈ R, tagOf q.1 = tagOf i → q.1 = i) →
          ((∃ p ∈ pagesOf tagOf R, p.tag = tagOf i) ↔ bodiesOf i R ≠ []) := by
        intro R hR
        constructor
        · rintro ⟨p, hp, ht⟩ hnil
          obtain ⟨q, hq, rfl⟩ := List.mem_map.1 hp
          have hqi := hR q hq ht
          have : q.2 ∈ bodiesOf i R := List.mem_map.2 ⟨q, by simp [hq, hqi], rfl⟩
          rw [hnil] at this
          simp at this
        · intro hne
          obtain ⟨b, hb⟩ := List.exists_mem_of_ne_nil _ hne
          obtain ⟨q, hq, _⟩ := List.mem_map.1 hb
          simp only [List.mem_filter, decide_eq_true_eq] at hq
          exact ⟨_, List.mem_map.2 ⟨q, hq.1, rfl⟩, by simp [hq.2]⟩
      rw [mergePages_none, mergePages_none, streamOf_pagesOf u2, streamOf_pagesOf u3, hb]
      simp only [hex P u2, hex Q u3, hb]

/-- The pages of one sink among all pages. -/
theorem filter_pagesOf {tagOf : Nat → PageTag} {i : Nat} {P : List (Nat × Bytes)} (h : ∀ q ∈ P, tagOf q.1 = tagOf i → q.1 = i) :
    (pagesOf tagOf P).filter (fun p => p.tag = tagOf i) = (bodiesOf i P).map (Page.mk (tagOf i)) := by
  induction P with
  | nil => rfl
  | cons q P ih =>
    have ih := ih (fun q hq => h q (List.mem_cons_of_mem _ hq))
    simp only [pagesOf, bodiesOf, List.map_cons, List.filter_cons] at ih ⊢
    by_cases hq : q.1 = i
    · rw [if_pos (by simp [hq]), if_pos (by simp [hq]), ih, List.map_cons, List.map_cons, hq]
    · have hne : tagOf q.1 ≠ tagOf i := fun e => hq (h q List.mem_cons_self e)
      rw [if_neg (by simp [hne]), if_neg (by simp [hq]), ih]

/-- **C08** (pages). When all threads have finished, the store is a sequence of pages, and for every sink with a tag of its own the
pages with this tag are, one by one and in order, those that the linearization writes: only the interleaving of the pages of
different sinks can differ. -/
theorem C08_same_pages {n : Nat} (tagOf : Nat → PageTag) (progs : Fin n → List Call) {k : Nat} {σ : Conc n}
    (h : Conc.Run tagOf (Conc.init progs) k σ) (hf : σ.Finished) :
    ∃ H, Linearization tagOf σ.log H ∧ (∀ t, entriesOf t H = returned t σ.log ∧ (returned t σ.log).map Prod.fst = progs t) ∧
      ∃ pages pages', σ.store = storeOf pages ∧ storeAfter tagOf (historyOf H) = storeOf pages' ∧
        (∀ p ∈ pages, 0 < p.body.length ∧ p.body.length ≤ 262144) ∧ (∀ p ∈ pages', 0 < p.body.length ∧ p.body.length ≤ 262144) ∧
        ∀ i, ProgsTagUnshared tagOf i progs → pages.filter (fun p => p.tag = tagOf i) = pages'.filter (fun p => p.tag = tagOf i) := by
  obtain ⟨H, P, Q, w, inv, _⟩ := (Inv.init tagOf progs).run h
  obtain ⟨f1, f2, f3⟩ := inv.finished hf
  have hw : (run tagOf (historyOf H)).2 = w := by unfold Spec.run; rw [inv.exec]
  refine ⟨H, inv.lin, fun t => ⟨(f1 t).1, by rw [← (f1 t).1]; exact (f1 t).2⟩, pagesOf tagOf P, pagesOf tagOf Q, inv.sfree f3, ?_, inv.pages_ok.1, inv.pages_ok.2, ?_⟩
  · unfold storeAfter; rw [hw, inv.wstore]
  · intro i hun
    obtain ⟨_, u2, u3⟩ := inv.unshared hun
    rw [filter_pagesOf u2, filter_pagesOf u3, (inv.free i (f2 i)).2]

/-- **C08** (what threads wrote). With well-behaved callbacks, when all threads have finished, for every sink with a tag of
its own: the recovered stream followed by the sink's buffer is everything written in the linearized order, and every write
of every thread returned an address at which exactly its bytes are found, contiguously. -/
theorem C08_concurrent_writes_recovered {n : Nat} (tagOf : Nat → PageTag) (progs : Fin n → List Call) {k : Nat} {σ : Conc n}
    (h : Conc.Run tagOf (Conc.init progs) k σ) (hf : σ.Finished) (hg : ProgsGood progs) (i : Nat)
    (hun : ProgsTagUnshared tagOf i progs) :
    ∃ H m, Linearization tagOf σ.log H ∧ splitStreams σ.store = .ok m ∧
      (m (tagOf i)).getD [] ++ (σ.data i).buffer = written i (historyOf H) ∧
      ∀ t c r, ((i, c), r) ∈ returned t σ.log → ReturnsAddr c → ∃ a, r = .ok (some a) ∧
        (((m (tagOf i)).getD [] ++ (σ.data i).buffer).drop a).take (payload c).length = payload c := by
  obtain ⟨H, P, Q, w, inv, _⟩ := (Inv.init tagOf progs).run h
  obtain ⟨f1, f2, f3⟩ := inv.finished hf
  have hw : (run tagOf (historyOf H)).2 = w := by unfold Spec.run; rw [inv.exec]
  obtain ⟨u1, u2, u3⟩ := inv.unshared hun
  have hg' : AllGood (historyOf H) := by
    intro x hx
    obtain ⟨t, ht⟩ := inv.history_progs x hx
    exact hg t x ht
  obtain ⟨pages, winv, _⟩ := run_inv tagOf (historyOf H) hg'
  rw [hw] at winv
  have hp : pages = pagesOf tagOf Q := by
    apply storeOf_inj (fun p hp => split_of_writer (winv.bodies p hp)) (fun p hp => split_of_writer (inv.pages_ok.2 p hp))
    have e1 := winv.store
    rw [inv.wstore] at e1
    exact (congrArg Store.data e1).symm
  have hc := winv.content i u1
  rw [hp, streamOf_pagesOf u3, (inv.free i (f2 i)).2, ← streamOf_pagesOf u2, ← mergePages_getD,
    ← (inv.free i (f2 i)).1] at hc
  refine ⟨H, _, inv.lin, ?_, hc, ?_⟩
  · rw [inv.sfree f3]; exact splitStreams_storeOf _ (fun p hp => split_of_writer (inv.pages_ok.1 p hp))
  · intro t c r hmem hret
    rw [hc]
    rw [← (f1 t).1] at hmem
    obtain ⟨e, he, heq⟩ := List.mem_map.1 hmem
    simp only [List.mem_filter, decide_eq_true_eq] at he
    obtain ⟨H1, H2, hH⟩ := List.append_of_mem he.1
    have hecall : e.call = (i, c) := congrArg Prod.fst heq
    have heres : e.res = r := congrArg Prod.snd heq
    have hhist : historyOf H = historyOf H1 ++ (i, c) :: historyOf H2 := by
      rw [hH]; simp [historyOf, hecall]
    have hleg := inv.lin.legal
    have hout : (outcomes tagOf (historyOf H))[(historyOf H1).length]? = some r := by
      rw [hleg, hH]
      simp [historyOf, heres]
    have hg2 : AllGood (historyOf H1 ++ (i, c) :: historyOf H2) := by rw [← hhist]; exact hg'
    obtain ⟨pg1, inv1, _⟩ := run_inv tagOf (historyOf H1) (fun x hx => hg2 x (by simp [hx]))
    obtain ⟨r', w', new, hcall, _, hret', _⟩ := inv1.step i c (hg2 (i, c) (by simp))
    rw [hhist, outcome_at, hcall, hret' hret] at hout
    refine ⟨_, (Option.some.inj hout).symm, ?_⟩
    rw [hhist, written_append, written_cons, written_single_same, List.drop_left, List.take_left]

/-- **C08** (no deadlock). In every reachable state some thread can move, unless all have finished. -/
theorem C08_no_deadlock {n : Nat} (tagOf : Nat → PageTag) (progs : Fin n → List Call) {k : Nat} {σ : Conc n}
    (h : Conc.Run tagOf (Conc.init progs) k σ) (hnf : ¬ σ.Finished) : ∃ t σ', Conc.step tagOf σ t = some σ' := by
  obtain ⟨H, P, Q, w, inv, _⟩ := (Inv.init tagOf progs).run h
  exact inv.progress hnf

/-- **C08** (termination). No schedule runs forever: the number of steps is bounded by the programs. -/
theorem C08_bounded_steps {n : Nat} (tagOf : Nat → PageTag) (progs : Fin n → List Call) {k : Nat} {σ : Conc n}
    (h : Conc.Run tagOf (Conc.init progs) k σ) : k ≤ budget progs := by
  obtain ⟨f, _, hk⟩ := run_bound h (init_left progs)
  unfold budget
  omega

/-- **C08.** Every schedule can be continued to one where all threads have finished. -/
theorem C08_always_finishes {n : Nat} (tagOf : Nat → PageTag) (progs : Fin n → List Call) {k : Nat} {σ : Conc n}
    (h : Conc.Run tagOf (Conc.init progs) k σ) : ∃ k' σ', Conc.Run tagOf (Conc.init progs) k' σ' ∧ k ≤ k' ∧ σ'.Finished := by
  induction hm : budget progs - k generalizing k σ with
  | zero =>
    refine ⟨k, σ, h, Nat.le_refl _, ?_⟩
    by_contra hnf
    obtain ⟨t, σ', hs⟩ := C08_no_deadlock tagOf progs h hnf
    have := C08_bounded_steps tagOf progs (h.step hs)
    omega
  | succ m ih =>
    by_cases hf : σ.Finished
    · exact ⟨k, σ, h, Nat.le_refl _, hf⟩
    · obtain ⟨t, σ', hs⟩ := C08_no_deadlock tagOf progs h hf
      obtain ⟨k', σ'', h1, h2, h3⟩ := ih (h.step hs) (by omega)
      exact ⟨k', σ'', h1, by omega, h3⟩

/-! ### The order of pages in the store is not that of any sequential execution -/

/-- The program of writing 393216 bytes to a fresh sink: two pages, each in its own critical section. -/
theorem code_big (tag : PageTag) (b : Bytes) (hb : b.length = 393216) : ∃ k o o', code tag (.writeBytes b) = .lockData k ∧
    k ⟨[], 0⟩ = .lockStore (.write [tag.toByte] o (.write (leBytes 4 (b.take 131072).length) o (.write (b.take 131072) o
      (.unlockStore (.lockStore (.write [tag.toByte] o' (.write (leBytes 4 (b.drop 131072).length) o' (.write (b.drop 131072) o'
        (.unlockStore (.unlockData ⟨[], 393216⟩ (.ret (.ok (some 0))))))))))))) := by
  have h1 : ¬ b.length ≤ 128 := by omega
  have hd : (b.drop 131072).length = 262144 := by simp [hb]
  have ht : (b.take 131072).length = 131072 := by simp [hb]
  have hne : b.drop 131072 ≠ [] := by intro h; rw [h] at hd; simp at hd
  have hch : chunks maxPageSize (b.drop 131072) = [b.drop 131072] := by
    unfold chunks
    rw [hd]
    rw [show (262144 : Nat) = 262143 + 1 from rfl]
    unfold chunksAux
    rw [if_neg hne]
    have : (b.drop 131072).take maxPageSize = b.drop 131072 := List.take_of_length_le (by rw [hd]; decide)
    rw [this]
    have : (b.drop 131072).drop maxPageSize = [] := List.drop_eq_nil_of_le (by rw [hd]; decide)
    rw [this]
    have hnil : ∀ f m, chunksAux f m [] = [] := by intro f m; cases f <;> simp [chunksAux]
    rw [hnil]
  have hcode : code tag (.writeBytes b) = writeDirectC tag b some := by simp only [code, writeBytesC, h1, if_false]
  refine ⟨_, .unlockStore (.unlockData ⟨b.take 131072, 393216⟩ (.ret (.error (.panic "write_all failed")))),
    .unlockStore (.unlockData ⟨[], 393216⟩ (.ret (.error (.panic "write_all failed")))), hcode.trans rfl, ?_⟩
  have htake : (if ([] : Bytes).length < minPageSize then min (minPageSize - ([] : Bytes).length) 393216 else 0) = 131072 := by
    decide
  simp only [hb]
  simp only [htake, hne, if_false, flushC, writePageC, List.nil_append, Nat.zero_add, hch, writeChunksC]
  have e1 : (b.take 131072).length > 0 := by omega
  have e2 : (b.take 131072).length ≤ maxPageSize := by rw [ht]; decide
  have e3 : (b.drop 131072).length = maxPageSize := by rw [hd]; decide
  have e4 : (b.drop 131072).length > 0 := by omega
  rw [if_pos e1, if_pos e2, if_pos e3, if_pos e4, if_pos (Nat.le_of_eq e3)]

/-- Two threads, each making one write of 393216 bytes to its own sink. -/
def twoBig (b0 b1 : Bytes) : Fin 2 → List Call := fun t => if t = 0 then [(0, .writeBytes b0)] else [(1, .writeBytes b1)]

/-- Tags of the two sinks. -/
def twoTags : Nat → PageTag := fun i => if i = 0 then .events else .stringData

/-- Start a call and take the data lock. -/
theorem start_run {n : Nat} {tagOf : Nat → PageTag} (σ : Conc n) (t : Fin n) {c : Call} {rest : List Call} {k : Inner → Prog}
    (h1 : σ.threads t = ⟨c :: rest, none⟩) (h2 : code (tagOf c.1) c.2 = .lockData k) (h3 : σ.dataLock c.1 = none) :
    ∃ σ', (∀ τ m, Conc.Run tagOf τ m σ → Conc.Run tagOf τ (m + 2) σ') ∧
      σ'.threads t = ⟨rest, some (c, k (σ.data c.1))⟩ ∧ (∀ t', t' ≠ t → σ'.threads t' = σ.threads t') ∧
      σ'.store = σ.store ∧ σ'.storeLock = σ.storeLock ∧ σ'.data = σ.data ∧
      (∀ i, i ≠ c.1 → σ'.dataLock i = σ.dataLock i) := by
  let σ1 : Conc n := { σ with threads := upd σ.threads t ⟨rest, some (c, .lockData k)⟩, log := σ.log ++ [.inv t c] }
  have s1 : Conc.step tagOf σ t = some σ1 := by unfold Conc.step; rw [h1]; simp only [h2]; rfl
  have s2 : Conc.step tagOf σ1 t =
      some { σ1.goto t c (k (σ.data c.1)) with dataLock := upd σ1.dataLock c.1 (some t) } := by
    unfold Conc.step
    have : (σ1.threads t).cur = some (c, .lockData k) := by simp [σ1, upd_same]
    rw [this]
    simp only
    have : σ1.dataLock c.1 = none := h3
    rw [this]
  refine ⟨_, fun τ m h => (h.step s1).step s2, ?_, ?_, rfl, rfl, rfl, ?_⟩
  · simp [Conc.goto, upd_same, σ1]
  · intro t' ht'; simp [Conc.goto, upd_other _ _ ht', σ1]
  · intro i hi; simp [upd_other _ _ hi, σ1]

/-- Write one page. -/
theorem page_run {n : Nat} {tagOf : Nat → PageTag} (σ : Conc n) (t : Fin n) {c : Call} {rest : List Call} {x y z : Bytes} {o k : Prog}
    (h1 : σ.threads t = ⟨rest, some (c, .lockStore (.write x o (.write y o (.write z o (.unlockStore k)))))⟩)
    (h2 : σ.storeLock = none) :
    ∃ σ', (∀ τ m, Conc.Run tagOf τ m σ → Conc.Run tagOf τ (m + 5) σ') ∧
      σ'.threads t = ⟨rest, some (c, k)⟩ ∧ (∀ t', t' ≠ t → σ'.threads t' = σ.threads t') ∧
      σ'.store = σ.store ++ x ++ y ++ z ∧ σ'.storeLock = none ∧ σ'.data = σ.data ∧ σ'.dataLock = σ.dataLock := by
  have upd2 : ∀ (f : Fin n → Thread) a b, upd (upd f t a) t b = upd f t b := by
    intro f a b; funext u; simp only [upd]; split <;> rfl
  let mk : Prog → Bytes → Option (Fin n) → Conc n := fun p b l =>
    { σ with threads := upd σ.threads t ⟨rest, some (c, p)⟩, store := b, storeLock := l }
  have hcur : ∀ p b l, ((mk p b l).threads t) = ⟨rest, some (c, p)⟩ := by intro p b l; simp [mk, upd_same]
  have s0 : Conc.step tagOf σ t = some (mk (.write x o (.write y o (.write z o (.unlockStore k)))) σ.store (some t)) := by
    unfold Conc.step
    rw [h1]
    simp only [h2, Conc.goto, h1, mk]
  have sw : ∀ b p st, Conc.step tagOf (mk (.write b o p) st (some t)) t = some (mk p (st ++ b) (some t)) := by
    intro b p st
    unfold Conc.step
    rw [hcur]
    simp only [Conc.goto, mk, upd2, upd_same]
  have su : ∀ st, Conc.step tagOf (mk (.unlockStore k) st (some t)) t = some (mk k st none) := by
    intro st
    unfold Conc.step
    rw [hcur]
    simp only [Conc.goto, mk, upd2, upd_same]
  refine ⟨mk k (σ.store ++ x ++ y ++ z) none, fun τ m h => ((((h.step s0).step (sw _ _ _)).step (sw _ _ _)).step (sw _ _ _)).step (su _), hcur _ _ _, ?_, rfl, rfl, rfl, rfl⟩
  intro t' ht'; simp [mk, upd_other _ _ ht']

/-- Release the data lock and return. -/
theorem fin_run {n : Nat} {tagOf : Nat → PageTag} (σ : Conc n) (t : Fin n) {c : Call} {rest : List Call} {s : Inner} {r : Res}
    (h1 : σ.threads t = ⟨rest, some (c, .unlockData s (.ret r))⟩) :
    ∃ σ', (∀ τ m, Conc.Run tagOf τ m σ → Conc.Run tagOf τ (m + 2) σ') ∧
      σ'.threads t = ⟨rest, none⟩ ∧ (∀ t', t' ≠ t → σ'.threads t' = σ.threads t') ∧
      σ'.store = σ.store ∧ σ'.storeLock = σ.storeLock := by
  let σ1 : Conc n := { σ.goto t c (.ret r) with data := upd σ.data c.1 s, dataLock := upd σ.dataLock c.1 none }
  have s1 : Conc.step tagOf σ t = some σ1 := by unfold Conc.step; rw [h1]
  have hcur : σ1.threads t = ⟨rest, some (c, .ret r)⟩ := by simp [σ1, Conc.goto, upd_same, h1]
  have s2 : Conc.step tagOf σ1 t = some { σ1 with
      threads := upd σ1.threads t ⟨(σ1.threads t).todo, none⟩, log := σ1.log ++ [.res t c r] } := by
    unfold Conc.step
    rw [hcur]
  refine ⟨_, fun τ m h => (h.step s1).step s2, ?_, ?_, rfl, rfl⟩
  · simp [upd_same, hcur]
  · intro t' ht'; simp [upd_other _ _ ht', σ1, Conc.goto]

/-- A schedule in which the two threads alternate after each page. -/
theorem twoBig_run (b0 b1 : Bytes) (h0 : b0.length = 393216) (h1 : b1.length = 393216) :
    ∃ k σ, Conc.Run twoTags (Conc.init (twoBig b0 b1)) k σ ∧ σ.Finished ∧
      σ.store = storeOf [⟨.events, b0.take 131072⟩, ⟨.stringData, b1.take 131072⟩, ⟨.events, b0.drop 131072⟩,
        ⟨.stringData, b1.drop 131072⟩] := by
  obtain ⟨k0, _, _, hc0, hk0⟩ := code_big .events b0 h0
  obtain ⟨k1, _, _, hc1, hk1⟩ := code_big .stringData b1 h1
  have n01 : (0 : Fin 2) ≠ 1 := by simp
  have n10 : (1 : Fin 2) ≠ 0 := by simp
  obtain ⟨σ1, r1, a1, o1, st1, sl1, d1, l1⟩ := start_run (tagOf := twoTags) (Conc.init (twoBig b0 b1)) 0 (c := (0, .writeBytes b0)) (rest := [])
    (k := k0) rfl hc0 rfl
  have e1 : (Conc.init (twoBig b0 b1)).data 0 = ⟨[], 0⟩ := rfl
  rw [e1, hk0] at a1
  obtain ⟨σ2, r2, a2, o2, st2, sl2, d2, l2⟩ := page_run (tagOf := twoTags) σ1 0 a1 sl1
  obtain ⟨σ3, r3, a3, o3, st3, sl3, d3, l3⟩ := start_run (tagOf := twoTags) σ2 1 (c := (1, .writeBytes b1)) (rest := []) (k := k1)
    (by rw [o2 1 n10, o1 1 n10]; rfl) hc1 (by rw [l2, l1 1 (by simp)]; rfl)
  have e3 : σ2.data 1 = ⟨[], 0⟩ := by rw [d2, d1]; rfl
  rw [e3, hk1] at a3
  obtain ⟨σ4, r4, a4, o4, st4, sl4, d4, l4⟩ := page_run (tagOf := twoTags) σ3 1 a3 (by rw [sl3, sl2])
  obtain ⟨σ5, r5, a5, o5, st5, sl5, d5, l5⟩ := page_run (tagOf := twoTags) σ4 0 (by rw [o4 0 n01, o3 0 n01]; exact a2) sl4
  obtain ⟨σ6, r6, a6, o6, st6, sl6⟩ := fin_run (tagOf := twoTags) σ5 0 a5
  obtain ⟨σ7, r7, a7, o7, st7, sl7, d7, l7⟩ := page_run (tagOf := twoTags) σ6 1 (by rw [o6 1 n10, o5 1 n10]; exact a4) (by rw [sl6, sl5])
  obtain ⟨σ8, r8, a8, o8, st8, sl8⟩ := fin_run (tagOf := twoTags) σ7 1 a7
  refine ⟨_, σ8, r8 _ _ (r7 _ _ (r6 _ _ (r5 _ _ (r4 _ _ (r3 _ _ (r2 _ _ (r1 _ _ (Conc.Run.refl _)))))))), ?_, ?_⟩
  · intro t
    match t with
    | 0 => rw [o8 0 n01, o7 0 n01, a6]; exact ⟨rfl, rfl⟩
    | 1 => rw [a8]; exact ⟨rfl, rfl⟩
  · rw [st8, st7, st6, st5, st4, st3, st2, st1]
    simp only [storeOf, List.flatMap_cons, List.flatMap_nil, ← header_eq]
    simp [Conc.init]

/-- Run alone on fresh sinks, the big write appends its two pages next to each other. -/
theorem big_seq (i : Nat) (b : Bytes) (w : World) (st : Bytes) (hw : w.store = ⟨st, []⟩) (hs : w.sinks i = ⟨[], 0⟩)
    (hb : b.length = 393216) : ∃ r w', World.call twoTags i (.writeBytes b) w = (r, w') ∧
      w'.store = ⟨st ++ storeOf [⟨twoTags i, b.take 131072⟩, ⟨twoTags i, b.drop 131072⟩], []⟩ ∧
      ∀ j, j ≠ i → w'.sinks j = w.sinks j := by
  obtain ⟨k, _, _, hc, hk⟩ := code_big (twoTags i) b hb
  have hd : (b.drop 131072).length = 262144 := by simp [hb]
  have ht : (b.take 131072).length = 131072 := by simp [hb]
  have hshape : InData (twoTags i) (k ⟨[], 0⟩) ⟨[], 393216⟩ [b.take 131072, b.drop 131072] (.ok (some 0)) := by
    rw [hk]
    exact .page _ _ (by omega) (by omega) (.page _ _ (by omega) (by omega) (.fin _ _))
  have := @call_of_shape twoTags (i, .writeBytes b) w st hw _ _ _ (by
    simp only [hc, hs, Prog.alone]
    exact hshape.alone _ _)
  exact ⟨_, _, this, rfl, fun j hj => by simp [upd_other _ _ hj]⟩

/-- **C08** (the limit of the guarantee). The *raw* store need not be that of any sequential execution: a call that writes
several pages releases the store lock between them, so pages of another call can come in between.  (The recovered streams
are nevertheless those of the linearization: `C08_final_state`.) -/
theorem C08_raw_page_order_not_sequential : ∃ (progs : Fin 2 → List Call) (k : Nat) (σ : Conc 2),
    Conc.Run twoTags (Conc.init progs) k σ ∧ σ.Finished ∧ ProgsGood progs ∧
    ∀ h : History, h.Perm ((progs 0) ++ (progs 1)) → storeAfter twoTags h ≠ σ.store := by
  have l0 : (List.replicate 393216 (1 : UInt8)).length = 393216 := List.length_replicate
  have l1 : (List.replicate 393216 (2 : UInt8)).length = 393216 := List.length_replicate
  generalize List.replicate 393216 (1 : UInt8) = b0 at l0
  generalize List.replicate 393216 (2 : UInt8) = b1 at l1
  obtain ⟨k, σ, hr, hf, hst⟩ := twoBig_run b0 b1 l0 l1
  refine ⟨twoBig b0 b1, k, σ, hr, hf, ?_, ?_⟩
  · intro t c hc
    match t with
    | 0 => simp only [twoBig, if_true, List.mem_singleton] at hc; subst hc; trivial
    | 1 => simp [twoBig] at hc; subst hc; trivial
  · intro h hperm heq
    have hp : h.Perm [(0, SinkCall.writeBytes b0), (1, SinkCall.writeBytes b1)] := hperm
    have hcases : h = [(0, .writeBytes b0), (1, .writeBytes b1)] ∨ h = [(1, .writeBytes b1), (0, .writeBytes b0)] := by
      have hl := hp.length_eq
      match h, hl with
      | [x, y], _ =>
        have hx : x ∈ [(0, SinkCall.writeBytes b0), (1, SinkCall.writeBytes b1)] := hp.subset (by simp)
        simp only [List.mem_cons, List.not_mem_nil, or_false] at hx
        rcases hx with rfl | rfl
        · left
          have := hp.cons_inv
          rw [List.perm_singleton] at this
          cases this; rfl
        · right
          have h2 : [(1, SinkCall.writeBytes b1), y].Perm [(1, SinkCall.writeBytes b1), (0, SinkCall.writeBytes b0)] :=
            hp.trans (List.Perm.swap _ _ _)
          have := h2.cons_inv
          rw [List.perm_singleton] at this
          cases this; rfl
    have hok : ∀ (ps : List Page), (∀ p ∈ ps, p.body.length = 131072 ∨ p.body.length = 262144) → ∀ p ∈ ps, SplitPage p :=
      fun ps hps p hp => split_of_writer (by rcases hps p hp with h | h <;> omega)
    have a0 : (b0.take 131072).length = 131072 := by simp [l0]
    have a1 : (b1.take 131072).length = 131072 := by simp [l1]
    have c0 : (b0.drop 131072).length = 262144 := by simp [l0]
    have c1 : (b1.drop 131072).length = 262144 := by simp [l1]
    have hseq : ∀ i j b b', i ≠ j → b.length = 393216 → b'.length = 393216 →
        storeAfter twoTags [(i, .writeBytes b), (j, .writeBytes b')] =
          storeOf [⟨twoTags i, b.take 131072⟩, ⟨twoTags i, b.drop 131072⟩, ⟨twoTags j, b'.take 131072⟩, ⟨twoTags j, b'.drop 131072⟩] := by
      intro i j b b' hij hb hb'
      obtain ⟨r, w, hc, hs, ho⟩ := big_seq i b World.init [] rfl rfl hb
      obtain ⟨r', w', hc', hs', _⟩ := big_seq j b' w _ hs (by rw [ho j (Ne.symm hij)]; rfl) hb'
      simp only [storeAfter, Spec.run, World.exec, hc, hc', hs', List.nil_append]
      rw [← storeOf_append]
      rfl
    rw [hst] at heq
    rcases hcases with rfl | rfl
    · rw [hseq 0 1 b0 b1 (by simp) l0 l1] at heq
      have := storeOf_inj (hok _ (by simp [a0, a1, c0, c1])) (hok _ (by simp [a0, a1, c0, c1])) heq
      simp only [List.cons.injEq, Page.mk.injEq] at this
      obtain ⟨_, ⟨ht, _⟩, _⟩ := this
      simp [twoTags] at ht
    · rw [hseq 1 0 b1 b0 (by simp) l1 l0] at heq
      have := storeOf_inj (hok _ (by simp [a0, a1, c0, c1])) (hok _ (by simp [a0, a1, c0, c1])) heq
      simp only [List.cons.injEq, Page.mk.injEq] at this
      obtain ⟨⟨ht, _⟩, _⟩ := this
      simp [twoTags] at ht

/-- Non-vacuity of the C08 theorems: two threads, on sinks with their own tags, with interleaved multi-page writes, run to
the end. -/
example : ∃ (progs : Fin 2 → List Call) (k : Nat) (σ : Conc 2), Conc.Run twoTags (Conc.init progs) k σ ∧ σ.Finished ∧
    ProgsGood progs ∧ ProgsTagUnshared twoTags 0 progs ∧ ProgsTagUnshared twoTags 1 progs ∧ (∀ t, progs t ≠ []) := by
  have l0 : (List.replicate 393216 (1 : UInt8)).length = 393216 := List.length_replicate
  generalize List.replicate 393216 (1 : UInt8) = b0 at l0
  obtain ⟨k, σ, hr, hf, _⟩ := twoBig_run b0 b0 l0 l0
  refine ⟨twoBig b0 b0, k, σ, hr, hf, ?_, ?_, ?_, ?_⟩
  · intro t c hc
    match t with
    | 0 => simp only [twoBig, if_true, List.mem_singleton] at hc; subst hc; trivial
    | 1 => simp [twoBig] at hc; subst hc; trivial
  · intro t c hc
    match t with
    | 0 => simp only [twoBig, if_true, List.mem_singleton] at hc; subst hc; simp
    | 1 => simp [twoBig] at hc; subst hc; simp [twoTags]
  · intro t c hc
    match t with
    | 0 => simp only [twoBig, if_true, List.mem_singleton] at hc; subst hc; simp [twoTags]
    | 1 => simp [twoBig] at hc; subst hc; simp
  · intro t
    match t with
    | 0 => simp [twoBig]
    | 1 => simp [twoBig]

end Verif.Props
