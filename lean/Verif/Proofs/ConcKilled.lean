import Verif.Spec.ConcCrash
import Verif.Proofs.ConcDenotes
import Verif.Proofs.Killed

/-! # Processes with several threads that are killed (proofs for C67) -/

namespace Verif.Conc
open Verif Verif.Mm Verif.Spec Verif.Decode Verif.Props

theorem run_store {n : Nat} {tagOf : Nat → PageTag} {σ σ' : Conc n} {k : Nat} (h : Conc.Run tagOf σ k σ') : σ.store <+: σ'.store := by
  induction h with
  | refl => exact List.prefix_rfl
  | step _ hs ih =>
    refine ih.trans ?_
    unfold Conc.step at hs
    split at hs
    · split at hs
      · cases hs
      · cases hs; exact List.prefix_rfl
    · cases hs; exact List.prefix_rfl
    · split at hs
      · cases hs
      · cases hs; exact List.prefix_rfl
    · cases hs; exact List.prefix_rfl
    · split at hs
      · cases hs
      · cases hs; exact List.prefix_rfl
    · cases hs; exact List.prefix_append _ _
    · cases hs; exact List.prefix_rfl

/-- A step that starts no call beyond the program is a step of the program. -/
theorem unextend_step {n : Nat} {tagOf : Nat → PageTag} {τ σ' : Conc n} {t : Fin n} (ext : Fin n → List Call)
    (h : Conc.step tagOf (extend τ ext) t = some σ') (hs : (started t σ'.log).length ≤ (started t τ.log).length + (τ.threads t).todo.length) :
    ∃ τ', Conc.step tagOf τ t = some τ' ∧ σ' = extend τ' ext := by
  cases hτ : Conc.step tagOf τ t with
  | some τ' =>
    refine ⟨τ', rfl, ?_⟩
    have := extend_step ext hτ
    rw [h] at this
    injection this
  | none =>
    exfalso
    unfold Conc.step at h hτ
    simp only [extend, Conc.goto] at h hτ
    cases hcur : (τ.threads t).cur with
    | none =>
      rw [hcur] at h hτ
      simp only at h hτ
      cases htodo : (τ.threads t).todo with
      | cons c rest => rw [htodo] at hτ; cases hτ
      | nil =>
        rw [htodo] at h hs
        simp only [List.nil_append] at h
        cases he : ext t with
        | nil => rw [he] at h; cases h
        | cons c rest =>
          rw [he] at h
          simp only [Option.some.injEq] at h
          subst h
          simp only [started_append, started_inv_same, List.length_append, List.length_cons, List.length_nil] at hs
          omega
    | some cp =>
      obtain ⟨c, q⟩ := cp
      rw [hcur] at h hτ
      cases q with
      | ret r => cases hτ
      | lockData k =>
        simp only at h hτ
        cases hl : τ.dataLock c.1 with
        | some _ => rw [hl] at h; cases h
        | none => rw [hl] at hτ; cases hτ
      | unlockData s k => cases hτ
      | lockStore k =>
        simp only at h hτ
        cases hl : τ.storeLock with
        | some _ => rw [hl] at h; cases h
        | none => rw [hl] at hτ; cases hτ
      | write b o k => cases hτ
      | unlockStore k => cases hτ

theorem unextend_run {n : Nat} {tagOf : Nat → PageTag} {progs ext : Fin n → List Call} {k₀ k : Nat} {τ₀ σ : Conc n}
    (h0 : Conc.Run tagOf (Conc.init progs) k₀ τ₀) (h : Conc.Run tagOf (extend τ₀ ext) k σ) (hs : ∀ t, started t σ.log <+: progs t) :
    ∃ τ, Conc.Run tagOf τ₀ k τ ∧ σ = extend τ ext := by
  induction h with
  | refl => exact ⟨τ₀, .refl _, rfl⟩
  | @step k' σ' t' σ'' hrun hstep ih =>
    have hlog : σ'.log <+: σ''.log := run_log ((Conc.Run.refl σ').step hstep)
    obtain ⟨τ, hr, rfl⟩ := ih (fun t => (hlog.filterMap _).trans (hs t))
    obtain ⟨H, P, Q, w, inv, _⟩ := (Inv.init tagOf progs).run (run_trans h0 hr)
    obtain ⟨τ', h1, h2⟩ := unextend_step ext hstep (by
      have := (hs t').length_le
      rw [inv.prog t', List.length_append] at this
      exact this)
    exact ⟨τ', hr.step h1, h2⟩

/-- A first part of the sink calls of a thread are the sink calls of a first part of its calls. -/
theorem sinkCalls_part (cs : List ProfCall) : ∀ (l : Locals) (x : List Call), x <+: sinkCalls l cs → ∃ cs', cs' <+: cs ∧ sinkCalls l cs' = x := by
  induction cs with
  | nil =>
    intro l x h
    exact ⟨[], List.nil_prefix, (List.prefix_nil.mp h).symm⟩
  | cons c cs ih =>
    intro l x h
    unfold sinkCalls at h
    cases hr : request l c with
    | done a =>
      rw [hr] at h
      obtain ⟨cs', h1, h2⟩ := ih _ x h
      exact ⟨c :: cs', (List.prefix_cons_inj c).mpr h1, by unfold sinkCalls; rw [hr]; exact h2⟩
    | sink q k =>
      rw [hr] at h
      cases x with
      | nil => exact ⟨[], List.nil_prefix, rfl⟩
      | cons y x =>
        simp only at h
        obtain ⟨rfl, h'⟩ := List.cons_prefix_cons.mp h
        obtain ⟨cs', h1, h2⟩ := ih _ x h'
        exact ⟨c :: cs', (List.prefix_cons_inj c).mpr h1, by unfold sinkCalls; rw [hr]; simp only [h2]⟩

theorem answers_mono (cs : List ProfCall) : ∀ (l : Locals) {rs rs' : List Res}, rs <+: rs' → answers l cs rs <+: answers l cs rs' := by
  induction cs with
  | nil => intro l rs rs' h; exact List.nil_prefix
  | cons c cs ih =>
    intro l rs rs' h
    unfold answers
    cases hr : request l c with
    | done a => simp only [List.cons_prefix_cons, true_and]; exact ih _ h
    | sink q k =>
      cases rs with
      | nil => exact List.nil_prefix
      | cons r rs =>
        cases rs' with
        | nil => exact absurd (List.prefix_nil.mp h) (by simp)
        | cons r' rs' =>
          obtain ⟨rfl, h'⟩ := List.cons_prefix_cons.mp h
          simp only [List.cons_prefix_cons, true_and]
          exact ih _ h'

/-- The sink calls of a program: creation, use, drop. -/
theorem threads_eq {n : Nat} (p : Program n) : p.threads = fun t => (creationOf p t ++ sinkCalls .empty (p.calls t)) ++ (if t = 0 then dropping else []) := by
  funext t
  simp only [Program.threads, creationOf]
  by_cases ht : t = 0
  · subst ht; simp
  · simp [ht]

theorem creationOf_length {n : Nat} (p : Program n) (t : Fin (n + 1)) : (creationOf p t).length = if t = 0 then (creation p.metadata).length else 0 := by
  unfold creationOf
  split <;> rfl

/-- The calls of the sinks by the calls on the profiler, when the creation is complete. -/
theorem ownCalls_after {n : Nat} (p : Program n) (t : Fin (n + 1)) (x : List Call) :
    ownCalls p t (creationOf p t ++ x) = x.take (sinkCalls .empty (p.calls t)).length := by
  unfold ownCalls
  rw [← creationOf_length, List.drop_left]

theorem ownCalls_before {n : Nat} (p : Program n) (t : Fin (n + 1)) (x : List Call) (h : x <+: creationOf p t) : ownCalls p t x = [] := by
  unfold ownCalls
  rw [← creationOf_length, List.drop_eq_nil_of_le h.length_le, List.take_nil]

/-- A finished run of the creation and the use of the profiler, in a program that goes on to drop it. -/
theorem executes_from {n : Nat} (q : Program n) {k₀ k₁ : Nat} {τ₀ τ₁ : Conc (n + 1)}
    (r0 : Conc.Run profTags (Conc.init fun t => creationOf q t ++ sinkCalls .empty (q.calls t)) k₀ τ₀) (q0 : Quiet τ₀ (creationOf q))
    (r1 : Conc.Run profTags τ₀ k₁ τ₁) (f1 : τ₁.Finished) :
    ∃ k₂ σ', Conc.Run profTags (extend τ₁ fun t => if t = 0 then dropping else []) k₂ σ' ∧ Executes q σ' := by
  have r0' := extend_run (fun t => if t = 0 then dropping else []) r0
  have r1' := extend_run (fun t => if t = 0 then dropping else []) r1
  rw [extend_init, ← threads_eq] at r0'
  obtain ⟨k2, s2, r2, f2⟩ := continue_run (run_trans r0' r1')
  refine ⟨k2, s2, r2, k₀, k₁, k2, _, _, r0', fun t => ⟨(q0 t).1, ((q0 t).2.trans (q0 t).1.symm)⟩, r1', fun t => finished_log (run_trans r0 r1) f1 t, r2, f2⟩

/-- What has been started can be brought to an end without starting anything else (but the drop). -/
theorem finish_started {n : Nat} {p : Program n} {σ : Conc (n + 1)} (h : Underway p σ) :
    ∃ q σ', StartedPart p σ q ∧ Executes q σ' ∧ σ.store <+: σ'.store ∧ σ.log <+: σ'.log := by
  cases h with
  | @creating k σ hr hs =>
    have hr' := hr
    rw [threads_eq p] at hr'
    simp only [List.append_assoc] at hr'
    rw [← extend_init] at hr'
    obtain ⟨τ, hτ, rfl⟩ := unextend_run (Conc.Run.refl _) hr' hs
    obtain ⟨k1, τ₁, r1, f1⟩ := continue_run hτ
    let q : Program n := ⟨p.metadata, fun _ => []⟩
    have hq : (fun t => creationOf q t ++ sinkCalls .empty (q.calls t)) = creationOf p := by
      funext t
      simp [q, creationOf, sinkCalls]
    have r0 := run_trans hτ r1
    have hf := finished_log r0 f1
    obtain ⟨k2, σ', r2, ex⟩ := executes_from q (hq ▸ r0) (fun t => ⟨(hf t).1, by rw [(hf t).2, (hf t).1]; rfl⟩) (Conc.Run.refl τ₁) f1
    refine ⟨q, σ', ⟨rfl, fun t => ⟨List.nil_prefix, ?_⟩⟩, ex, (run_store r1).trans (show (extend τ₁ fun t => if t = 0 then dropping else []).store <+: σ'.store from run_store r2),
      (run_log r1).trans (show (extend τ₁ fun t => if t = 0 then dropping else []).log <+: σ'.log from run_log r2)⟩
    rw [ownCalls_before p t _ (hs t)]
    rfl
  | @inUse k₀ k₁ σ₀ σ hr q0 hr1 hs =>
    have hx : ∀ t, ∃ x, started t σ.log = creationOf p t ++ x ∧ x <+: sinkCalls .empty (p.calls t) := by
      intro t
      have h1 : creationOf p t <+: started t σ.log := by
        have : started t σ₀.log <+: started t σ.log := (run_log hr1).filterMap _
        rw [(q0 t).2] at this
        exact this
      obtain ⟨x, hx⟩ := h1
      refine ⟨x, hx.symm, ?_⟩
      have := hs t
      rw [← hx] at this
      exact (List.prefix_append_right_inj _).mp this
    choose x hx1 hx2 using hx
    choose cs hc1 hc2 using fun t => sinkCalls_part (p.calls t) .empty (x t) (hx2 t)
    let q : Program n := ⟨p.metadata, cs⟩
    let ext : Fin (n + 1) → List Call := fun t => (sinkCalls .empty (p.calls t)).drop (x t).length ++ (if t = 0 then dropping else [])
    have hp : p.threads = fun t => (creationOf q t ++ sinkCalls .empty (q.calls t)) ++ ext t := by
      rw [threads_eq]
      funext t
      have e : sinkCalls .empty (p.calls t) = x t ++ (sinkCalls .empty (p.calls t)).drop (x t).length := by
        obtain ⟨y, hy⟩ := hx2 t
        rw [← hy, List.drop_left]
      simp only [ext, q, hc2]
      conv => lhs; rw [e]
      simp only [List.append_assoc]
      rfl
    have hr' := hr
    rw [hp, ← extend_init] at hr'
    have hst : ∀ t, started t σ.log = creationOf q t ++ sinkCalls .empty (q.calls t) := fun t => by rw [hx1]; simp only [q, hc2]; rfl
    obtain ⟨τ₀, hτ₀, rfl⟩ := unextend_run (Conc.Run.refl _) hr' (fun t => by rw [(q0 t).2]; exact List.prefix_append _ _)
    obtain ⟨τ, hτ, rfl⟩ := unextend_run hτ₀ hr1 (fun t => by rw [hst t])
    obtain ⟨k1, τ₁, r1, f1⟩ := continue_run (run_trans hτ₀ hτ)
    obtain ⟨k2, σ', r2, ex⟩ := executes_from q hτ₀ q0 (run_trans hτ r1) f1
    refine ⟨q, σ', ⟨rfl, fun t => ⟨hc1 t, ?_⟩⟩, ex, (run_store r1).trans (show (extend τ₁ fun t => if t = 0 then dropping else []).store <+: σ'.store from run_store r2),
      (run_log r1).trans (show (extend τ₁ fun t => if t = 0 then dropping else []).log <+: σ'.log from run_log r2)⟩
    rw [hx1, ownCalls_after, List.take_of_length_le (hx2 t).length_le]
    exact hc2 t
  | @dropping k₀ k₁ k₂ σ₀ σ₁ σ hr q0 hr1 q1 hr2 =>
    obtain ⟨k3, σ', r3, f3⟩ := continue_run (run_trans (run_trans hr hr1) hr2)
    refine ⟨p, σ', ⟨rfl, fun t => ⟨List.prefix_rfl, ?_⟩⟩, ⟨k₀, k₁, k₂ + k3, σ₀, σ₁, hr, fun t => ⟨(q0 t).1, ?_⟩, hr1, fun t => ⟨(q1 t).1, ?_⟩, run_trans hr2 r3, f3⟩, run_store r3, run_log r3⟩
    · have h1 : creationOf p t ++ sinkCalls .empty (p.calls t) <+: started t σ.log := by
        have : started t σ₁.log <+: started t σ.log := (run_log hr2).filterMap _
        rw [(q1 t).2] at this
        exact this
      obtain ⟨y, hy⟩ := h1
      rw [← hy, List.append_assoc, ownCalls_after, List.take_left]
    · rw [(q0 t).1, (q0 t).2]
    · rw [(q1 t).1, (q1 t).2]

/-- Between calls, a thread with nothing left to do is done. -/
theorem quiet_finished {n : Nat} {tagOf : Nat → PageTag} {progs : Fin n → List Call} {k : Nat} {τ : Conc n} (h : Conc.Run tagOf (Conc.init progs) k τ)
    (hq : ∀ t, started t τ.log = (returned t τ.log).map Prod.fst) (hs : ∀ t, started t τ.log = progs t) : τ.Finished := by
  obtain ⟨H, P, Q, w, inv, _⟩ := (Inv.init tagOf progs).run h
  intro t
  constructor
  · have := inv.prog t
    rw [hs t] at this
    exact List.self_eq_append_right.mp this
  · cases inv.stage t with
    | idle h => exact h
    | ready c k _ _ _ _ _ h6 => rw [hq t] at h6; simp at h6
    | inData c p bl r _ _ _ _ _ _ _ h8 => rw [hq t] at h8; simp at h8
    | inStore c p part bl r _ _ _ _ _ _ _ _ h9 => rw [hq t] at h9; simp at h9
    | leaving c r _ _ _ _ h5 => rw [hq t] at h5; simp at h5

/-- Killed while the profiler is in use and no call is in progress. -/
theorem killed_quiet {n : Nat} {p : Program n} (hn : OwnNames p) {k₀ k₁ : Nat} {σ₀ σ : Conc (n + 1)} (hr : Conc.Run profTags (Conc.init p.threads) k₀ σ₀)
    (q0 : Quiet σ₀ (creationOf p)) (hr1 : Conc.Run profTags σ₀ k₁ σ)
    (hs : ∀ t, started t σ.log <+: creationOf p t ++ sinkCalls .empty (p.calls t)) (hq : ∀ t, started t σ.log = (returned t σ.log).map Prod.fst) :
    ∃ q L, StartedPart p σ q ∧ Orders q L ∧ RealTime q σ L ∧
      (∀ t, answersOf q σ t = ofThread t ((L.map Prod.fst).zip (profOutcomes q.metadata (L.map Prod.snd)))) ∧
      ∃ pages pages', fileOf σ = fileHeader magicTopLevel ++ storeOf pages ∧ killedFile q.metadata (L.map Prod.snd) = fileHeader magicTopLevel ++ storeOf pages' ∧
        (∀ p ∈ pages, 0 < p.body.length ∧ p.body.length ≤ 262144) ∧ (∀ p ∈ pages', 0 < p.body.length ∧ p.body.length ≤ 262144) ∧
        ∀ i, i < 3 → pages.filter (fun p => p.tag = profTags i) = pages'.filter (fun p => p.tag = profTags i) := by
  have hx : ∀ t, ∃ x, started t σ.log = creationOf p t ++ x ∧ x <+: sinkCalls .empty (p.calls t) := by
    intro t
    have h1 : creationOf p t <+: started t σ.log := by
      have : started t σ₀.log <+: started t σ.log := (run_log hr1).filterMap _
      rw [(q0 t).2] at this
      exact this
    obtain ⟨x, hx⟩ := h1
    refine ⟨x, hx.symm, ?_⟩
    have := hs t
    rw [← hx] at this
    exact (List.prefix_append_right_inj _).mp this
  choose x hx1 hx2 using hx
  choose cs hc1 hc2 using fun t => sinkCalls_part (p.calls t) .empty (x t) (hx2 t)
  let q : Program n := ⟨p.metadata, cs⟩
  have hnq : OwnNames q := fun t t' hne c hc c' hc' g hg => hn t t' hne c ((hc1 t).subset hc) c' ((hc1 t').subset hc') g hg
  let ext : Fin (n + 1) → List Call := fun t => (sinkCalls .empty (p.calls t)).drop (x t).length ++ (if t = 0 then dropping else [])
  have hp : p.threads = fun t => (creationOf q t ++ sinkCalls .empty (q.calls t)) ++ ext t := by
    rw [threads_eq]
    funext t
    have e : sinkCalls .empty (p.calls t) = x t ++ (sinkCalls .empty (p.calls t)).drop (x t).length := by
      obtain ⟨y, hy⟩ := hx2 t
      rw [← hy, List.drop_left]
    simp only [ext, q, hc2]
    conv => lhs; rw [e]
    simp only [List.append_assoc]
    rfl
  have hr' := hr
  rw [hp, ← extend_init] at hr'
  have hst : ∀ t, started t σ.log = creationOf q t ++ sinkCalls .empty (q.calls t) := fun t => by rw [hx1]; simp only [q, hc2]; rfl
  obtain ⟨τ₀, hτ₀, rfl⟩ := unextend_run (Conc.Run.refl _) hr' (fun t => by rw [(q0 t).2]; exact List.prefix_append _ _)
  obtain ⟨τ, hτ, rfl⟩ := unextend_run hτ₀ hr1 (fun t => by rw [hst t])
  have hf := quiet_finished (run_trans hτ₀ hτ) hq hst
  obtain ⟨H, hlin, hent, pages, pages', e1, e2, b1, b2, hpp⟩ := C08_same_pages profTags _ (run_trans hτ₀ hτ) hf
  obtain ⟨H0, p0, bt⟩ := hlin.realTime τ₀.log (run_log hτ)
  have e0 := quiet_between bt (fun t => by rw [show started t τ₀.log = _ from (q0 t).2, show (returned t τ₀.log).map Prod.fst = _ from (q0 t).1])
  obtain ⟨M, rfl⟩ := p0
  have c0 : ∀ t, (entriesOf t H0).map Prod.fst = creationOf p t := fun t => by rw [e0]; exact (q0 t).1
  have cM : ∀ t, (entriesOf t M).map Prod.fst = sinkCalls .empty (q.calls t) := by
    intro t
    obtain ⟨a, b⟩ := hent t
    rw [← a, entriesOf_append, List.map_append, c0] at b
    exact List.append_cancel_left b
  obtain ⟨L, l1, l2, l3, l4⟩ := serialize_core (p := q) (σ := extend τ ext) (E := []) hnq (by rw [List.append_nil]; exact hlin)
    (by rw [only_thread 0 (fun t' ht => by have := c0 t'; rw [creationOf, if_neg ht] at this; exact List.map_eq_nil_iff.mp this), c0, creationOf, if_pos rfl])
    (fun t => by rw [← List.length_map (f := Prod.fst), c0, creationOf_length]) cM (fun t => by rw [List.append_nil]; exact (hent t).1)
  refine ⟨q, L, ⟨rfl, fun t => ⟨hc1 t, ?_⟩⟩, l1, l2, l4, pages, pages', ?_, ?_, b1, b2, fun i hi => hpp i ?_⟩
  · rw [hx1, ownCalls_after, List.take_of_length_le (hx2 t).length_le]
    exact hc2 t
  · show fileHeader magicTopLevel ++ τ.store = _
    rw [e1]
  · unfold killedFile
    rw [← e2]
    rw [List.append_nil] at l3
    rw [l3]
    rfl
  · intro t c hc ht
    have hcp : c ∈ p.threads t := by rw [hp]; exact List.mem_append_left _ hc
    exact threads_unshared p i hi t c hcp ht

/-- The first pages of a stream are those of some first pages. -/
theorem take_filter {α : Type} (f : α → Bool) (l : List α) : ∀ m, ∃ k, (l.take k).filter f = (l.filter f).take m := by
  induction l with
  | nil => intro m; exact ⟨0, by simp⟩
  | cons a l ih =>
    intro m
    cases hf : f a with
    | false =>
      obtain ⟨k, hk⟩ := ih m
      exact ⟨k + 1, by rw [List.take_succ_cons, List.filter_cons, List.filter_cons, hf]; simpa using hk⟩
    | true =>
      cases m with
      | zero => exact ⟨0, by simp⟩
      | succ m =>
        obtain ⟨k, hk⟩ := ih m
        exact ⟨k + 1, by rw [List.take_succ_cons, List.filter_cons, List.filter_cons, hf]; simpa using hk⟩

/-- A file that has, stream by stream, the pages of a session has its parts. -/
theorem parts_alike {F F' : Bytes} {md : String} {calls : List ProfCall} {pages pages' : List Page} {raws : List RawEvent} (P : Parts F' md calls pages' raws)
    (hF : F = fileHeader magicTopLevel ++ storeOf pages) (hb : ∀ p ∈ pages, 0 < p.body.length ∧ p.body.length ≤ 262144)
    (h : ∀ i, i < 3 → pages.filter (fun p => p.tag = profTags i) = pages'.filter (fun p => p.tag = profTags i)) : Parts F md calls pages raws := by
  have hs : ∀ t : PageTag, pages.filter (fun p => p.tag = t) = pages'.filter (fun p => p.tag = t) := by
    intro t
    cases t with
    | events => exact h 0 (by decide)
    | stringData => exact h 1 (by decide)
    | stringIndex => exact h 2 (by decide)
  have hst : ∀ t, streamOf t pages = streamOf t pages' := fun t => by unfold streamOf; rw [hs]
  refine ⟨hF, hb, by rw [hst]; exact P.events, P.enc, by rw [hst, hst]; exact P.table, by rw [hst]; exact P.index, P.maps, fun k => ?_⟩
  have hpre : (pages.take k).filter (fun p => p.tag = .events) <+: pages'.filter (fun p => p.tag = .events) := by
    rw [← hs]
    exact (List.take_prefix k pages).filter _
  obtain ⟨k', hk'⟩ := take_filter (fun p : Page => decide (p.tag = .events)) pages' ((pages.take k).filter (fun p => p.tag = .events)).length
  have e : streamOf .events (pages.take k) = streamOf .events (pages'.take k') := by
    unfold streamOf
    rw [hk', ← List.prefix_iff_eq_take.mp hpre]
  rw [e]
  exact P.cut k'

end Verif.Conc
