import Verif.Spec.ActThreads
import Verif.Proofs.ConcDenotes
import Verif.Proofs.ProfPanics

/-! # Lemmas about a profiler used by several threads that catch the panics of their values -/

namespace Verif.Conc

open Verif Verif.Mm Verif.Spec Verif.Decode Verif.Props

/-! ## One call -/

/-- A call is its request, performed on the shared state, and its effect on what the thread owns. -/
theorem requestAct_run (a : ProfAct) (s : ProfState) :
    a.run s = (((requestAct ⟨s.guards, s.detached⟩ a).perform s.world).1,
      ⟨((requestAct ⟨s.guards, s.detached⟩ a).perform s.world).2, (Locals.afterAct ⟨s.guards, s.detached⟩ a).guards, (Locals.afterAct ⟨s.guards, s.detached⟩ a).detached⟩) := by
  cases a with
  | call c => exact request_run c s
  | panics e part =>
    simp only [ProfAct.run, onWorld, SessionOp.run, bind_gen', addrCall_eq, requestAct, Request.perform, dataSink, Locals.afterAct]
    generalize World.call profTags 1 _ s.world = x
    obtain ⟨r, w'⟩ := x
    cases r with
    | error f => simp only [idAnswer]
    | ok o =>
      cases o with
      | none => simp only [idAnswer]
      | some a => rw [idAnswer_some]

theorem requestAct_congr {l l' : Locals} {c : ProfAct} (h : ∀ g, actName c = some g → SameAt l l' g) : requestAct l c = requestAct l' c := by
  cases c with
  | call c => exact request_congr h
  | panics e part => rfl

theorem afterAct_congr {l l' : Locals} (c : ProfAct) {g : Nat} (h : SameAt l l' g) : SameAt (l.afterAct c) (l'.afterAct c) g := by
  cases c with
  | call c => exact after_congr c h
  | panics e part => exact h

theorem afterAct_other {l : Locals} {c : ProfAct} {g : Nat} (h : actName c ≠ some g) : SameAt (l.afterAct c) l g := by
  cases c with
  | call c => exact after_other h
  | panics e part => exact ⟨rfl, rfl⟩

/-- Threads' calls can be merged along a given order of their sink calls. -/
theorem merge_acts {m : Nat} : ∀ (k : Nat) (calls : Fin m → List ProfAct) (ls : Fin m → Locals) (H : List (LinEntry m)) (s : ProfState) (w : World),
    (∑ t, (calls t).length) = k →
    (∀ t t', t ≠ t' → ∀ c ∈ calls t, ∀ c' ∈ calls t', ∀ g, actName c = some g → actName c' ≠ some g) →
    (∀ t, ∀ c ∈ calls t, ∀ g, actName c = some g → SameAt ⟨s.guards, s.detached⟩ (ls t) g) →
    (∀ t, (entriesOf t H).map Prod.fst = actSinkCalls (ls t) (calls t)) →
    World.exec profTags (historyOf H) s.world = (H.map LinEntry.res, w) →
    ∃ L : List (Fin m × ProfAct), (∀ t, ofThread t L = calls t) ∧ (runActs (L.map Prod.snd) s).2.world = w ∧
      (∀ t, ofThread t ((L.map Prod.fst).zip (runActs (L.map Prod.snd) s).1) = actAnswers (ls t) (calls t) ((entriesOf t H).map Prod.snd)) ∧
      ∀ H', H' <+: H → ∃ L', L' <+: L ∧ ∀ t, actSinkCalls (ls t) (ofThread t L') = (entriesOf t H').map Prod.fst := by
  intro k
  induction k with
  | zero =>
    intro calls ls H s w hk hn ha hH he
    have hc : ∀ t, calls t = [] := by
      intro t
      have := Finset.sum_eq_zero_iff.mp hk t (Finset.mem_univ t)
      exact List.length_eq_zero_iff.mp this
    have hH' : H = [] := by
      cases H with
      | nil => rfl
      | cons e H =>
        have := hH e.thread
        rw [hc, entriesOf_cons, if_pos rfl] at this
        simp [actSinkCalls] at this
    subst hH'
    refine ⟨[], fun t => by rw [hc]; rfl, ?_, fun t => by rw [hc]; rfl, fun H' hp => ⟨[], List.prefix_refl _, fun t => by rw [List.prefix_nil.mp hp]; rfl⟩⟩
    simp only [historyOf, World.exec, List.map_nil, Prod.mk.injEq] at he
    exact he.2
  | succ k ih =>
    intro calls ls H s w hk hn ha hH he
    -- emitting the first call of a thread
    have emit : ∀ (t : Fin m) (c : ProfAct) (cs : List ProfAct) (H' : List (LinEntry m)), calls t = c :: cs →
        (∀ t', (entriesOf t' H').map Prod.fst = actSinkCalls (if t' = t then (ls t).afterAct c else ls t') (if t' = t then cs else calls t')) →
        World.exec profTags (historyOf H') ((requestAct (ls t) c).perform s.world).2 = (H'.map LinEntry.res, w) →
        (∀ t', actAnswers (ls t') (calls t') ((entriesOf t' H).map Prod.snd) =
          (if t' = t then [((requestAct (ls t) c).perform s.world).1] else []) ++
          actAnswers (if t' = t then (ls t).afterAct c else ls t') (if t' = t then cs else calls t') ((entriesOf t' H').map Prod.snd)) →
        (∀ H1, H1 <+: H → H1 = [] ∨ ∃ H2, H2 <+: H' ∧ ∀ t', (entriesOf t' H1).map Prod.fst =
          (if t' = t then (match requestAct (ls t) c with | .done _ => [] | .sink q _ => [q]) else []) ++ (entriesOf t' H2).map Prod.fst) →
        ∃ L : List (Fin m × ProfAct), (∀ t, ofThread t L = calls t) ∧ (runActs (L.map Prod.snd) s).2.world = w ∧
          (∀ t, ofThread t ((L.map Prod.fst).zip (runActs (L.map Prod.snd) s).1) = actAnswers (ls t) (calls t) ((entriesOf t H).map Prod.snd)) ∧
          ∀ H', H' <+: H → ∃ L', L' <+: L ∧ ∀ t, actSinkCalls (ls t) (ofThread t L') = (entriesOf t H').map Prod.fst := by
      intro t c cs H' hc h1 h2 h3 h4
      have hreq : requestAct ⟨s.guards, s.detached⟩ c = requestAct (ls t) c :=
        requestAct_congr (fun g hg => ha t c (by rw [hc]; simp) g hg)
      have hsub : ∀ t', ∀ x ∈ (if t' = t then cs else calls t'), x ∈ calls t' := by
        intro t' x hx
        split at hx
        · rename_i e; subst e; rw [hc]; exact List.mem_cons_of_mem _ hx
        · exact hx
      obtain ⟨L, l1, l2, l3, l4⟩ := ih (fun t' => if t' = t then cs else calls t') (fun t' => if t' = t then (ls t).afterAct c else ls t') H'
        (c.run s).2 w
        (by
          have hsum : ∑ t', (calls t').length = ∑ t', (if t' = t then cs else calls t').length + 1 := by
            rw [← Finset.add_sum_erase _ _ (Finset.mem_univ t), ← Finset.add_sum_erase (a := t) _ (fun t' => (if t' = t then cs else calls t').length) (Finset.mem_univ t)]
            have : ∑ x ∈ Finset.univ.erase t, (calls x).length = ∑ x ∈ Finset.univ.erase t, (if x = t then cs else calls x).length := by
              refine Finset.sum_congr rfl fun x hx => ?_
              rw [if_neg (Finset.ne_of_mem_erase hx)]
            rw [this, hc, if_pos rfl, List.length_cons]
            omega
          omega)
        (fun t1 t2 h12 x hx y hy => hn t1 t2 h12 x (hsub t1 x hx) y (hsub t2 y hy))
        (by
          intro t' x hx g hg
          have hx' := hsub t' x hx
          have e : (⟨(c.run s).2.guards, (c.run s).2.detached⟩ : Locals) = Locals.afterAct ⟨s.guards, s.detached⟩ c := by rw [requestAct_run]
          rw [e]
          by_cases ht : t' = t
          · subst ht
            rw [if_pos rfl]
            exact afterAct_congr c (ha t' x hx' g hg)
          · rw [if_neg ht]
            have : actName c ≠ some g := fun hcg => hn t t' (fun e => ht e.symm) c (by rw [hc]; simp) x hx' g hcg hg
            obtain ⟨a1, a2⟩ := afterAct_other (l := ⟨s.guards, s.detached⟩) this
            obtain ⟨b1, b2⟩ := ha t' x hx' g hg
            exact ⟨a1.trans b1, a2.trans b2⟩)
        h1
        (by
          have : (c.run s).2.world = ((requestAct (ls t) c).perform s.world).2 := by rw [requestAct_run, hreq]
          rw [this]
          exact h2)
      refine ⟨(t, c) :: L, ?_, ?_, ?_, ?_⟩
      · intro t'
        rw [ofThread_cons, l1]
        by_cases ht : t' = t
        · subst ht; simp [hc]
        · rw [if_neg (fun e => ht e.symm), if_neg ht]
      · simp only [List.map_cons, runActs]
        exact l2
      · intro t'
        simp only [List.map_cons, runActs, List.zip_cons_cons]
        rw [ofThread_cons, l3, h3]
        have : (c.run s).1 = ((requestAct (ls t) c).perform s.world).1 := by rw [requestAct_run, hreq]
        rw [this]
        by_cases ht : t' = t
        · subst ht; simp
        · rw [if_neg (fun e => ht e.symm)]; simp [ht]
      · intro H1 hp
        rcases h4 H1 hp with rfl | ⟨H2, hp2, hh⟩
        · exact ⟨[], List.nil_prefix, fun t => rfl⟩
        · obtain ⟨L', hL, hl⟩ := l4 H2 hp2
          refine ⟨(t, c) :: L', List.cons_prefix_cons.mpr ⟨rfl, hL⟩, fun t' => ?_⟩
          rw [hh, ← hl, ofThread_cons]
          by_cases ht : t' = t
          · subst ht
            simp only [if_pos, actSinkCalls]
            cases requestAct (ls t') c <;> rfl
          · rw [if_neg (fun e => ht e.symm), if_neg ht, if_neg ht, List.nil_append]
    -- is there a thread whose next call needs no sink?
    by_cases hex : ∃ t c cs a, calls t = c :: cs ∧ requestAct (ls t) c = .done a
    · obtain ⟨t, c, cs, a, hc, hr⟩ := hex
      refine emit t c cs H hc ?_ ?_ ?_ ?_
      · intro t'
        rw [hH]
        by_cases ht : t' = t
        · subst ht; simp [hc, actSinkCalls, hr]
        · simp [ht]
      · rw [hr]; exact he
      · intro t'
        by_cases ht : t' = t
        · subst ht; simp [hc, actAnswers, hr, Request.perform]
        · simp [ht]
      · intro H1 hp
        exact .inr ⟨H1, hp, fun t' => by rw [hr]; simp⟩
    · have hall : ∀ t c cs, calls t = c :: cs → ∃ q f, requestAct (ls t) c = .sink q f := by
        intro t c cs hc
        cases hr : requestAct (ls t) c with
        | done a => exact absurd ⟨t, c, cs, a, hc, hr⟩ hex
        | sink q f => exact ⟨q, f, rfl⟩
      cases H with
      | nil =>
        exfalso
        have : ∀ t, calls t = [] := by
          intro t
          cases hc : calls t with
          | nil => rfl
          | cons c cs =>
            obtain ⟨q, f, hr⟩ := hall t c cs hc
            have := hH t
            rw [hc] at this
            simp [entriesOf, actSinkCalls, hr] at this
        rw [Finset.sum_eq_zero (fun t _ => by rw [this t]; rfl)] at hk
        omega
      | cons e H =>
        have h0 := hH e.thread
        rw [entriesOf_cons, if_pos rfl, List.map_cons] at h0
        cases hc : calls e.thread with
        | nil => rw [hc] at h0; simp [actSinkCalls] at h0
        | cons c cs =>
          obtain ⟨q, f, hr⟩ := hall e.thread c cs hc
          rw [hc] at h0
          simp only [actSinkCalls, hr, List.cons.injEq] at h0
          obtain ⟨hq, h0⟩ := h0
          have he' : World.exec profTags (historyOf (e :: H)) s.world =
              ((World.call profTags e.call.1 e.call.2 s.world).1 :: (World.exec profTags (historyOf H) (World.call profTags e.call.1 e.call.2 s.world).2).1,
                (World.exec profTags (historyOf H) (World.call profTags e.call.1 e.call.2 s.world).2).2) := rfl
          rw [he', List.map_cons, Prod.mk.injEq, List.cons.injEq] at he
          obtain ⟨⟨e1, e2⟩, e3⟩ := he
          refine emit e.thread c cs H hc ?_ ?_ ?_ ?_
          · intro t'
            by_cases ht : t' = e.thread
            · subst ht; simp [h0]
            · have := hH t'
              rw [entriesOf_cons, if_neg (fun x => ht x.symm)] at this
              simp [ht, this]
          · rw [hr]
            simp only [Request.perform]
            rw [← hq]
            exact Prod.ext e2 e3
          · intro t'
            by_cases ht : t' = e.thread
            · subst ht
              rw [entriesOf_cons, if_pos rfl]
              simp only [hc, List.map_cons, actAnswers, hr, if_pos, Request.perform]
              rw [← hq, e1]
              rfl
            · rw [entriesOf_cons, if_neg (fun x => ht x.symm)]
              simp [ht]
          · intro H1 hp
            cases H1 with
            | nil => exact .inl rfl
            | cons e' H1 =>
              obtain ⟨he', hp'⟩ := List.cons_prefix_cons.mp hp
              subst he'
              refine .inr ⟨H1, hp', fun t' => ?_⟩
              rw [entriesOf_cons, hr]
              by_cases ht : t' = e'.thread
              · subst ht; simp [hq]
              · rw [if_neg (fun x => ht x.symm), if_neg ht, List.nil_append]

/-- The order of the sink calls of an execution, cut in three. -/
theorem cut_acts {n : Nat} {p : ActProgram n} {σ : Conc (n + 1)} (h : ActsExecute p σ) :
    ∃ k H0 M E, Conc.Run profTags (Conc.init p.threads) k σ ∧ σ.Finished ∧ Linearization profTags σ.log (H0 ++ M ++ E) ∧
      historyOf H0 = creation p.metadata ∧ historyOf E = dropping ∧
      (∀ t, (entriesOf t H0).length = if t = 0 then (creation p.metadata).length else 0) ∧
      (∀ t, (entriesOf t M).map Prod.fst = actSinkCalls .empty (p.acts t)) ∧
      (∀ t, entriesOf t (H0 ++ M ++ E) = returned t σ.log) ∧
      (∃ pages pages', σ.store = storeOf pages ∧ storeAfter profTags (historyOf (H0 ++ M ++ E)) = storeOf pages' ∧
        (∀ p ∈ pages, 0 < p.body.length ∧ p.body.length ≤ 262144) ∧ (∀ p ∈ pages', 0 < p.body.length ∧ p.body.length ≤ 262144) ∧
        ∀ i, ProgsTagUnshared profTags i p.threads → pages.filter (fun p => p.tag = profTags i) = pages'.filter (fun p => p.tag = profTags i)) := by
  obtain ⟨k₀, k₁, k₂, σ₀, σ₁, r0, q0, r1, q1, r2, hf⟩ := h
  have hr := run_trans (run_trans r0 r1) r2
  obtain ⟨H, hlin, hent, hm⟩ := Props.C08_same_pages profTags p.threads hr hf
  obtain ⟨H0, p0, b0⟩ := hlin.realTime σ₀.log ((run_log r1).trans (run_log r2))
  obtain ⟨H1, p1, b1⟩ := hlin.realTime σ₁.log (run_log r2)
  have e0 := quiet_between b0 (fun t => (q0 t).2)
  have e1 := quiet_between b1 (fun t => (q1 t).2)
  have hret : ∀ t, returned t σ₀.log <+: returned t σ₁.log := fun t => (run_log r1).filterMap _
  have p01 : H0 <+: H1 := by
    rcases List.prefix_or_prefix_of_prefix p0 p1 with h | h
    · exact h
    · have : H0 = H1 := entries_prefix h (fun t => by rw [e0, e1]; exact (hret t).length_le)
      rw [this]
  obtain ⟨M, rfl⟩ := p01
  obtain ⟨E, rfl⟩ := p1
  have c0 : ∀ t, (entriesOf t H0).map Prod.fst = if t = 0 then creation p.metadata else [] := fun t => by rw [e0]; exact (q0 t).1
  have c1 : ∀ t, (entriesOf t H0).map Prod.fst ++ (entriesOf t M).map Prod.fst = (if t = 0 then creation p.metadata else []) ++ actSinkCalls .empty (p.acts t) := by
    intro t
    rw [← (q1 t).1, ← e1, entriesOf_append, List.map_append]
  have c2 : ∀ t, (entriesOf t M).map Prod.fst = actSinkCalls .empty (p.acts t) := by
    intro t
    have := c1 t
    rw [c0] at this
    exact List.append_cancel_left this
  have c3 : ∀ t, (entriesOf t E).map Prod.fst = if t = 0 then dropping else [] := by
    intro t
    obtain ⟨a, b⟩ := hent t
    rw [← a, entriesOf_append, List.map_append, entriesOf_append, List.map_append, c0, c2] at b
    unfold ActProgram.threads at b
    by_cases ht : t = 0
    · subst ht
      simp only [if_pos] at b ⊢
      exact List.append_cancel_left b
    · simp only [ht, if_false] at b ⊢
      simpa using b
  refine ⟨_, H0, M, E, hr, hf, hlin, ?_, ?_, ?_, c2, fun t => (hent t).1, hm⟩
  · rw [only_thread 0 (fun t' ht => by have := c0 t'; rw [if_neg ht] at this; exact List.map_eq_nil_iff.mp this), c0, if_pos rfl]
  · rw [only_thread 0 (fun t' ht => by have := c3 t'; rw [if_neg ht] at this; exact List.map_eq_nil_iff.mp this), c3, if_pos rfl]
  · intro t
    rw [← List.length_map (f := Prod.fst), c0]
    split <;> rfl

theorem requestAct_tag {l : Locals} {c : ProfAct} {q : Call} {k} (h : requestAct l c = .sink q k) : q.1 < 3 := by
  cases c with
  | call c => exact request_tag h
  | panics e part => simp only [requestAct, Request.sink.injEq] at h; rw [← h.1]; simp only; omega

theorem actSinkCalls_tag (cs : List ProfAct) : ∀ l, ∀ q ∈ actSinkCalls l cs, q.1 < 3 := by
  induction cs with
  | nil => intro l q hq; simp [actSinkCalls] at hq
  | cons c cs ih =>
    intro l q hq
    simp only [actSinkCalls] at hq
    split at hq
    · exact ih _ q hq
    · rename_i q' k hr
      rcases List.mem_cons.mp hq with rfl | hq
      · exact requestAct_tag hr
      · exact ih _ q hq

theorem actThreads_tag {n : Nat} (p : ActProgram n) (t : Fin (n + 1)) : ∀ q ∈ p.threads t, q.1 < 3 := by
  intro q hq
  unfold ActProgram.threads at hq
  split at hq
  · rcases List.mem_append.mp hq with hq | hq
    · rcases List.mem_append.mp hq with hq | hq
      · simp only [creation, List.mem_append, List.mem_map, List.mem_cons, List.not_mem_nil, or_false] at hq
        rcases hq with ((⟨_, _, rfl⟩ | ⟨_, _, rfl⟩) | ⟨_, _, rfl⟩) | rfl | rfl <;> simp only <;> omega
      · exact actSinkCalls_tag _ _ q hq
    · simp only [dropping, List.mem_cons, List.not_mem_nil, or_false] at hq
      rcases hq with rfl | rfl | rfl <;> decide
  · exact actSinkCalls_tag _ _ q hq

theorem actThreads_unshared {n : Nat} (p : ActProgram n) (i : Nat) (hi : i < 3) : ProgsTagUnshared profTags i p.threads := by
  intro t q hq he
  have := actThreads_tag p t q hq
  obtain ⟨j, c⟩ := q
  simp only at he this ⊢
  have : ∀ i < 3, ∀ j < 3, profTags j = profTags i → j = i := by decide
  exact this i hi j (by assumption) he

theorem actAnswers_extra (cs : List ProfAct) : ∀ (l : Locals) (rs extra : List Res), rs.length = (actSinkCalls l cs).length →
    actAnswers l cs (rs ++ extra) = actAnswers l cs rs := by
  induction cs with
  | nil => intro l rs extra h; rfl
  | cons c cs ih =>
    intro l rs extra h
    simp only [actSinkCalls] at h
    simp only [actAnswers]
    cases hr : requestAct l c with
    | done a =>
      rw [hr] at h
      simp only
      rw [ih _ _ _ h]
    | sink q k =>
      rw [hr] at h
      cases rs with
      | nil => simp at h
      | cons r rs =>
        simp only [List.cons_append]
        rw [ih _ _ _ (by simpa using h)]

/-- The calls of all threads in one order, from an order of their calls on the sinks; `E` is what comes after. -/
theorem serialize_acts_core {n : Nat} {p : ActProgram n} (hn : ActsOwnNames p) {σ : Conc (n + 1)} {H0 M E : List (LinEntry (n + 1))}
    (hlin : Linearization profTags σ.log (H0 ++ M ++ E)) (hc : historyOf H0 = creation p.metadata)
    (hl0 : ∀ t, (entriesOf t H0).length = if t = 0 then (creation p.metadata).length else 0)
    (hM : ∀ t, (entriesOf t M).map Prod.fst = actSinkCalls .empty (p.acts t)) (hent : ∀ t, entriesOf t (H0 ++ M ++ E) = returned t σ.log) :
    ∃ L, ActOrders p L ∧ ActsRealTime p σ L ∧
      storeAfter profTags (historyOf (H0 ++ M ++ E)) =
        (World.exec profTags (historyOf E) (runActs (L.map Prod.snd) (profInit p.metadata)).2.world).2.store.data ∧
      ∀ t, actAnswersOf p σ t = ofThread t ((L.map Prod.fst).zip (runActs (L.map Prod.snd) (profInit p.metadata)).1) := by
  have hlegal := hlin.legal
  have hE : World.exec profTags (historyOf (H0 ++ M ++ E)) World.init =
      ((H0 ++ M ++ E).map LinEntry.res, (run profTags (historyOf (H0 ++ M ++ E))).2) := Prod.ext hlegal rfl
  have hist : historyOf (H0 ++ M ++ E) = creation p.metadata ++ historyOf M ++ historyOf E := by
    simp only [historyOf, List.map_append] at hc ⊢
    rw [hc]
  have hcw : (World.exec profTags (creation p.metadata) World.init).2 = (profInit p.metadata).world := creation_run p.metadata
  have hlc : (World.exec profTags (creation p.metadata) World.init).1.length = H0.length := by
    rw [exec_length, ← hc]; simp [historyOf]
  have hlm : ∀ w, (World.exec profTags (historyOf M) w).1.length = M.length := by
    intro w; rw [exec_length]; simp [historyOf]
  rw [hist] at hE
  rw [exec_append, exec_append] at hE
  simp only [hcw, Prod.mk.injEq, List.map_append] at hE
  obtain ⟨hE1, hE2⟩ := hE
  have hA := List.append_inj_left hE1 (by simp [hlc, hlm])
  have hB := List.append_inj_right hA (by simp [hlc])
  obtain ⟨L, l1, l2, l3, l4⟩ := merge_acts _ p.acts (fun _ => Locals.empty) M (profInit p.metadata) (World.exec profTags (historyOf M) (profInit p.metadata).world).2 rfl hn
    (fun t c hc g hg => ⟨rfl, rfl⟩) hM (Prod.ext hB rfl)
  refine ⟨L, l1, ?_, ?_, ?_⟩
  · intro log hlog
    obtain ⟨H', hp, hb⟩ := hlin.realTime log hlog
    obtain ⟨M', hM', he⟩ : ∃ M', M' <+: M ∧ ∀ t, ownActCalls p t ((entriesOf t H').map Prod.fst) = (entriesOf t M').map Prod.fst := by
      have hlenM : ∀ t, ((entriesOf t M).map Prod.fst).length = (actSinkCalls .empty (p.acts t)).length := fun t => by rw [hM]
      have hl0' : ∀ t, ((entriesOf t H0).map Prod.fst).length = if t = 0 then (creation p.metadata).length else 0 := fun t => by rw [List.length_map, hl0]
      have within : ∀ M', M' <+: M → ∀ t, ((entriesOf t M').map Prod.fst).length ≤ (actSinkCalls .empty (p.acts t)).length := by
        intro M' hM' t
        obtain ⟨X, rfl⟩ := hM'
        rw [← hlenM, entriesOf_append]
        simp
      rw [List.append_assoc] at hp
      rcases prefix_append_cases hp with hp | ⟨H'', rfl, hp2⟩
      · refine ⟨[], List.nil_prefix, fun t => ?_⟩
        obtain ⟨X, hX⟩ := hp
        have : ((entriesOf t H').map Prod.fst).length ≤ if t = 0 then (creation p.metadata).length else 0 := by
          rw [← hl0', ← hX, entriesOf_append]; simp
        unfold ownActCalls
        rw [List.drop_eq_nil_of_le this]
        simp [entriesOf]
      · rcases prefix_append_cases hp2 with hp3 | ⟨E', rfl, hp3⟩
        · refine ⟨H'', hp3, fun t => ?_⟩
          unfold ownActCalls
          rw [entriesOf_append, List.map_append, ← hl0', List.drop_left, List.take_of_length_le (within _ hp3 t)]
        · refine ⟨M, List.prefix_refl _, fun t => ?_⟩
          unfold ownActCalls
          rw [entriesOf_append, List.map_append, ← hl0', List.drop_left, entriesOf_append, List.map_append, ← hlenM, List.take_left]
    obtain ⟨L', hL, hl⟩ := l4 M' hM'
    refine ⟨L', hL, fun t => ?_⟩
    rw [hl, ← he]
    obtain ⟨b1, b2⟩ := hb t
    exact ⟨(((b1.map Prod.fst).drop _).take _), ((b2.drop _).take _)⟩
  · unfold storeAfter
    rw [l2, hist, ← hE2]
  · intro t
    have e : (runActs (L.map Prod.snd) (profInit p.metadata)).1 = (runActs (L.map Prod.snd) (profInit p.metadata)).1 := rfl
    rw [e, l3]
    unfold actAnswersOf
    rw [← hent t, entriesOf_append, entriesOf_append]
    simp only [List.map_append]
    have : (if t = 0 then (creation p.metadata).length else 0) = ((entriesOf t H0).map Prod.snd).length := by rw [List.length_map, hl0]
    rw [List.append_assoc, this, List.drop_left, actAnswers_extra]
    rw [← hM]
    simp

/-- The execution as a sequence of calls on one profiler. -/
theorem serialize_acts_pages {n : Nat} {p : ActProgram n} (hn : ActsOwnNames p) {σ : Conc (n + 1)} (h : ActsExecute p σ) :
    ∃ L, ActOrders p L ∧ ActsRealTime p σ L ∧
      (∃ pages pages', fileOf σ = fileHeader magicTopLevel ++ storeOf pages ∧ savedActs p.metadata (L.map Prod.snd) = fileHeader magicTopLevel ++ storeOf pages' ∧
        (∀ p ∈ pages, 0 < p.body.length ∧ p.body.length ≤ 262144) ∧ (∀ p ∈ pages', 0 < p.body.length ∧ p.body.length ≤ 262144) ∧
        ∀ i, i < 3 → pages.filter (fun p => p.tag = profTags i) = pages'.filter (fun p => p.tag = profTags i)) ∧
      ∀ t, actAnswersOf p σ t = ofThread t ((L.map Prod.fst).zip (runActs (L.map Prod.snd) (profInit p.metadata)).1) := by
  obtain ⟨k, H0, M, E, hr, hf, hlin, hc, hd, hl0, hM, hent, pages, pages', hs, hs', hb, hb', hmm⟩ := cut_acts h
  obtain ⟨L, l1, l2, l3, l4⟩ := serialize_acts_core hn hlin hc hl0 hM hent
  refine ⟨L, l1, l2, ⟨pages, pages', by unfold fileOf; rw [hs], ?_, hb, hb', fun i hi => hmm i (actThreads_unshared p i hi)⟩, l4⟩
  rw [← hs', l3, hd]
  rfl

/-- Calls of all threads in one order: what the file reads like, and what the threads are answered. -/
theorem serialize_acts {n : Nat} {p : ActProgram n} (hn : ActsOwnNames p) {σ : Conc (n + 1)} (h : ActsExecute p σ) :
    ∃ L, ActOrders p L ∧ ActsRealTime p σ L ∧ ReadsLike (fileOf σ) (savedActs p.metadata (L.map Prod.snd)) ∧
      ∀ t, actAnswersOf p σ t = ofThread t ((L.map Prod.fst).zip (runActs (L.map Prod.snd) (profInit p.metadata)).1) := by
  obtain ⟨L, l1, l2, ⟨pages, pages', e, e', b, b', hf⟩, l4⟩ := serialize_acts_pages hn h
  refine ⟨L, l1, l2, ?_, l4⟩
  rw [e, e']
  exact readsLike_pages b b' hf

theorem acts_execute {n : Nat} (p : ActProgram n) : ∃ σ, ActsExecute p σ := by
  let P0 : Fin (n + 1) → List Call := fun t => if t = 0 then creation p.metadata else []
  let P1 : Fin (n + 1) → List Call := fun t => actSinkCalls .empty (p.acts t)
  let P2 : Fin (n + 1) → List Call := fun t => if t = 0 then dropping else []
  have hP : p.threads = fun t => (P0 t ++ P1 t) ++ P2 t := by
    funext t
    simp only [ActProgram.threads, P0, P1, P2]
    by_cases ht : t = 0
    · subst ht; simp
    · simp [ht]
  obtain ⟨k0, s0, r0, f0⟩ := continue_run (tagOf := profTags) (Conc.Run.refl (Conc.init P0))
  have r0' := extend_run P1 r0
  rw [extend_init] at r0'
  obtain ⟨k1, s1, r1, f1⟩ := continue_run r0'
  have r01 := run_trans r0' r1
  have r0'' := extend_run P2 r0'
  have r1' := extend_run P2 r1
  rw [extend_init] at r0''
  have r01' := extend_run P2 r01
  rw [extend_init] at r01'
  obtain ⟨k2, s2, r2, f2⟩ := continue_run r01'
  rw [← hP] at r0''
  refine ⟨s2, k0, k1, k2, extend (extend s0 P1) P2, extend s1 P2, r0'', fun t => finished_log r0 f0 t, r1', fun t => finished_log r01 f1 t, r2, f2⟩


/-! ## The calls that do not panic -/

theorem calmOrder_snd {n : Nat} (L : List (Fin (n + 1) × ProfAct)) : (calmOrder L).map Prod.snd = callsOf (L.map Prod.snd) := by
  induction L with
  | nil => rfl
  | cons x L ih =>
    obtain ⟨t, a⟩ := x
    cases a with
    | call c =>
      have e : calmOrder ((t, ProfAct.call c) :: L) = (t, c) :: calmOrder L := rfl
      have e' : callsOf (((t, ProfAct.call c) :: L).map Prod.snd) = c :: callsOf (L.map Prod.snd) := rfl
      rw [e, e', List.map_cons, ih]
    | panics f part =>
      have e : calmOrder ((t, ProfAct.panics f part) :: L) = calmOrder L := rfl
      have e' : callsOf (((t, ProfAct.panics f part) :: L).map Prod.snd) = callsOf (L.map Prod.snd) := rfl
      rw [e, e', ih]

theorem callsOf_cons (a : ProfAct) (as : List ProfAct) : callsOf (a :: as) = callsOf [a] ++ callsOf as := by
  cases a <;> rfl

theorem calmOrder_cons {n : Nat} (t : Fin (n + 1)) (a : ProfAct) (L : List (Fin (n + 1) × ProfAct)) :
    calmOrder ((t, a) :: L) = (callsOf [a]).map (fun c => (t, c)) ++ calmOrder L := by
  cases a <;> rfl

theorem ofThread_append' {n : Nat} {α : Type} (t : Fin n) (L L' : List (Fin n × α)) : ofThread t (L ++ L') = ofThread t L ++ ofThread t L' := by
  simp [ofThread]

theorem ofThread_all {n : Nat} {α : Type} (t t' : Fin n) (l : List α) : ofThread t (l.map (fun c => (t', c))) = if t' = t then l else [] := by
  induction l with
  | nil => simp [ofThread]
  | cons x l ih =>
    rw [List.map_cons, ofThread_cons, ih]
    split <;> rfl

theorem calmOrder_ofThread {n : Nat} (t : Fin (n + 1)) (L : List (Fin (n + 1) × ProfAct)) : ofThread t (calmOrder L) = callsOf (ofThread t L) := by
  induction L with
  | nil => rfl
  | cons x L ih =>
    obtain ⟨t', a⟩ := x
    rw [calmOrder_cons, ofThread_append', ofThread_all, ih, ofThread_cons]
    split
    · rw [callsOf_cons a (ofThread t L)]
    · rfl

theorem callAnswers_cons (a : ProfAct) (as : List ProfAct) (r : Answer) (rs : List Answer) :
    callAnswers (a :: as) (r :: rs) = callAnswers [a] [r] ++ callAnswers as rs := by
  cases a <;> rfl

theorem calm_zip {n : Nat} (t : Fin (n + 1)) : ∀ (L : List (Fin (n + 1) × ProfAct)) (rs : List Answer), rs.length = L.length →
    callAnswers (ofThread t L) (ofThread t ((L.map Prod.fst).zip rs)) = ofThread t (((calmOrder L).map Prod.fst).zip (callAnswers (L.map Prod.snd) rs)) := by
  intro L
  induction L with
  | nil => intro rs h; rfl
  | cons x L ih =>
    intro rs h
    obtain ⟨t', a⟩ := x
    cases rs with
    | nil => cases h
    | cons r rs =>
      have ih := ih rs (by simpa using h)
      simp only [List.map_cons, List.zip_cons_cons]
      rw [callAnswers_cons a (L.map Prod.snd), ofThread_cons, ofThread_cons]
      cases a with
      | call c =>
        have e : calmOrder ((t', ProfAct.call c) :: L) = (t', c) :: calmOrder L := rfl
        have e' : callAnswers [ProfAct.call c] [r] = [r] := rfl
        rw [e, e', List.map_cons, List.singleton_append, List.zip_cons_cons, ofThread_cons, ← ih]
        split
        · rw [callAnswers_cons, e', List.singleton_append]
        · rfl
      | panics f part =>
        have e : calmOrder ((t', ProfAct.panics f part) :: L) = calmOrder L := rfl
        have e' : callAnswers [ProfAct.panics f part] [r] = [] := rfl
        rw [e, e', List.nil_append, ← ih]
        split
        · rw [callAnswers_cons, e', List.nil_append]
        · rfl

theorem panic_zip {n : Nat} (t : Fin (n + 1)) : ∀ (L : List (Fin (n + 1) × ProfAct)) (rs : List Answer), rs.length = L.length →
    (∀ (k : Nat) (e : Fault) (part : Bytes), (L.map Prod.snd)[k]? = some (.panics e part) → rs[k]? = some (.error e)) →
    ∀ (k : Nat) (e : Fault) (part : Bytes), (ofThread t L)[k]? = some (.panics e part) → (ofThread t ((L.map Prod.fst).zip rs))[k]? = some (.error e) := by
  intro L
  induction L with
  | nil => intro rs h hp k e part hk; simp [ofThread] at hk
  | cons x L ih =>
    intro rs h hp k e part hk
    obtain ⟨t', a⟩ := x
    cases rs with
    | nil => cases h
    | cons r rs =>
      have ih := ih rs (by simpa using h) (fun k e part hk => by
        have := hp (k + 1) e part (by simpa using hk)
        simpa using this)
      simp only [List.map_cons, List.zip_cons_cons]
      rw [ofThread_cons] at hk ⊢
      split
      · rename_i ht
        rw [if_pos ht] at hk
        cases k with
        | zero =>
          have := hp 0 e part (by simpa using hk)
          simpa using this
        | succ k => simpa using ih k e part (by simpa using hk)
      · rename_i ht
        rw [if_neg ht] at hk
        exact ih k e part hk

theorem calm_names {n : Nat} {p : ActProgram n} (hn : ActsOwnNames p) : OwnNames p.calm := by
  have mem : ∀ (as : List ProfAct) c, c ∈ callsOf as → ProfAct.call c ∈ as := by
    intro as c hc
    simp only [callsOf, List.mem_filterMap] at hc
    obtain ⟨a, ha, he⟩ := hc
    cases a with
    | call c' => simp only [Option.some.injEq] at he; rw [← he]; exact ha
    | panics e part => cases he
  intro t t' hne c hc c' hc' g hg
  exact hn t t' hne _ (mem _ c hc) _ (mem _ c' hc') g hg

theorem calm_orders {n : Nat} {p : ActProgram n} {L : List (Fin (n + 1) × ProfAct)} (ho : ActOrders p L) : Orders p.calm (calmOrder L) := by
  intro t
  rw [calmOrder_ofThread, ho t]
  rfl

end Verif.Conc
