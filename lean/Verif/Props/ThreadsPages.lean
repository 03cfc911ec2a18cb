import Verif.Props.ProfilerPages
import Verif.Props.ConcProfiler

/-!
# C06 and C80, continued: the file of a profiler used by several threads
-/

namespace Verif.Props

open Verif Verif.Mm Verif.Spec Verif.Proofs Verif.Conc

theorem pages_perm {pages pages' : List Page}
    (h : ∀ i, i < 3 → pages.filter (fun p => p.tag = profTags i) = pages'.filter (fun p => p.tag = profTags i)) : pages.Perm pages' := by
  have split : ∀ ps : List Page, ps.Perm (ps.filter (fun p => p.tag = profTags 0) ++ (ps.filter (fun p => p.tag = profTags 1) ++
      ps.filter (fun p => p.tag = profTags 2))) := by
    intro ps
    induction ps with
    | nil => exact List.Perm.refl _
    | cons q ps ih =>
      obtain ⟨tag, body⟩ := q
      cases tag
      · simpa [List.filter_cons, profTags] using ih
      · refine (ih.cons _).trans ?_
        simp only [List.filter_cons, profTags]
        simp only [reduceCtorEq, decide_false, decide_true, if_true, Bool.false_eq_true, if_false, List.cons_append]
        first
          | exact (List.perm_middle).symm
          | (rw [← List.append_assoc, ← List.append_assoc]; exact (List.perm_middle).symm)
      · refine (ih.cons _).trans ?_
        simp only [List.filter_cons, profTags]
        simp only [reduceCtorEq, decide_false, decide_true, if_true, Bool.false_eq_true, if_false, List.cons_append]
        first
          | exact (List.perm_middle).symm
          | (rw [← List.append_assoc, ← List.append_assoc]; exact (List.perm_middle).symm)
  refine (split pages).trans ?_
  rw [h 0 (by decide), h 1 (by decide), h 2 (by decide)]
  exact (split pages').symm

/-- **C80.** Whatever the threads of a program do and however they are scheduled, there is an order of all their calls, agreeing with each
thread's own and with real time, such that the file has as many pages as that of one thread making the calls in that order; so it holds what the threads
recorded and five bytes for each of its pages, of which there are at most three more than there are 128 KiB of content. -/
theorem C80_threads {n : Nat} (p : Program n) (hn : OwnNames p) (σ : Conc (n + 1)) (h : Executes p σ) :
    ∃ (L : List (Fin (n + 1) × ProfCall)) (pages : List Page), Orders p L ∧ RealTime p σ L ∧ fileOf σ = utf8 "MMPD" ++ [9, 0, 0, 0] ++ storeOf pages ∧
      (∀ q ∈ pages, 0 < q.body.length ∧ q.body.length ≤ 262144) ∧ (fileOf σ).length = (savedFile p.metadata (L.map Prod.snd)).length ∧
      (fileOf σ).length = contentSize p.metadata (L.map Prod.snd) + 5 * pages.length ∧
      131072 * pages.length ≤ contentSize p.metadata (L.map Prod.snd) + 3 * 131072 := by
  obtain ⟨L, l1, l2, ⟨pages, pages', e, e', hb, hb', hf⟩, _⟩ := serialize_pages hn h
  have hp := pages_perm hf
  obtain ⟨qs, q1, q0, q2, q3⟩ := session_size p.metadata (L.map Prod.snd)
  have hl : (storeOf pages).length = (storeOf pages').length := by
    unfold storeOf
    exact (hp.flatMap_right _).length_eq
  have hlen : (fileOf σ).length = (savedFile p.metadata (L.map Prod.snd)).length := by
    rw [e, e', List.length_append, List.length_append, hl]
  have hq : pages' = qs := storeOf_inj (fun p hp => split_of_writer (hb' p hp)) (fun p hp => split_of_writer (q0 p hp))
    (List.append_cancel_left (e'.symm.trans q1))
  subst hq
  refine ⟨L, pages, l1, l2, e.trans rfl, hb, hlen, ?_, ?_⟩
  · rw [hlen, q2, hp.length_eq]
  · rw [hp.length_eq]
    exact q3

/-- Non-vacuity: a program of two threads that use one string. -/
example : OwnNames exProgram ∧ ∃ σ, Executes exProgram σ := ⟨exProgram_names, executes _⟩

/-- **C06.** Nor is an event record cut by the end of a page when several threads record events at once, however they are scheduled. -/
theorem C06_threads {n : Nat} (p : Program n) (hn : OwnNames p) (σ : Conc (n + 1)) (h : Executes p σ) : ∃ pages : List Page,
    fileOf σ = utf8 "MMPD" ++ [9, 0, 0, 0] ++ storeOf pages ∧ (∀ q ∈ pages, 0 < q.body.length ∧ q.body.length ≤ 262144) ∧
      ∀ before q after, pages = before ++ q :: after → q.tag = .events →
        ((∀ r ∈ before, r.tag ≠ .events) → ∃ k, q.body.length = 8 + 32 * k) ∧
        ((∃ r ∈ before, r.tag = .events) → ∃ k, q.body.length = 32 * k) := by
  obtain ⟨L, _, _, ⟨pages, pages', e, e', hb, hb', hf⟩, _⟩ := serialize_pages hn h
  refine ⟨pages, e.trans rfl, hb, ?_⟩
  obtain ⟨qs, q1, q0, hw⟩ := C06_profiler_pages p.metadata (L.map Prod.snd)
  have hq : pages' = qs := storeOf_inj (fun p hp => split_of_writer (hb' p hp)) (fun p hp => split_of_writer (q0 p hp))
    (List.append_cancel_left (e'.symm.trans q1))
  subst hq
  intro before q after he ht
  have h0 := hf 0 (by decide)
  rw [he, List.filter_append, List.filter_cons, if_pos (by simpa [profTags] using ht)] at h0
  obtain ⟨b', c', hc, hbf, hcf⟩ := List.filter_eq_append_iff.mp h0.symm
  obtain ⟨d', after', hcc, hd, _, _⟩ := List.filter_eq_cons_iff.mp hcf
  have hno : ∀ r ∈ d', r.tag ≠ .events := fun r hr => by simpa [profTags] using hd r hr
  have key := hw (b' ++ d') q after' (by rw [hc, hcc]; simp) ht
  have hm : (∃ r ∈ before, r.tag = .events) ↔ ∃ r ∈ b' ++ d', r.tag = .events := by
    have : ∀ ps : List Page, (∃ r ∈ ps, r.tag = .events) ↔ ps.filter (fun p => p.tag = profTags 0) ≠ [] := by
      intro ps
      simp [List.filter_eq_nil_iff, profTags]
    rw [this, ← hbf, ← this]
    constructor
    · rintro ⟨r, hr, h⟩
      exact ⟨r, by simp [hr], h⟩
    · rintro ⟨r, hr, h⟩
      rcases List.mem_append.mp hr with hr | hr
      · exact ⟨r, hr, h⟩
      · exact absurd h (hno r hr)
  refine ⟨fun hn => key.1 ?_, fun hx => key.2 (hm.mp hx)⟩
  intro r hr hrt
  obtain ⟨r', hr', h'⟩ := hm.mpr ⟨r, hr, hrt⟩
  exact hn r' hr' h'

/-- Non-vacuity: the program of two threads can be executed, and in every one of its executions there is a page of the event stream. -/
example : OwnNames exProgram ∧ (∃ σ, Executes exProgram σ) ∧ ∀ σ, Executes exProgram σ → ∃ pages : List Page,
    fileOf σ = utf8 "MMPD" ++ [9, 0, 0, 0] ++ storeOf pages ∧ ∃ before q after, pages = before ++ q :: after ∧ q.tag = PageTag.events := by
  refine ⟨exProgram_names, executes _, fun σ h => ?_⟩
  obtain ⟨L, _, _, ⟨pages, pages', e, e', hb, hb', hf⟩, _⟩ := serialize_pages exProgram_names h
  obtain ⟨qs, raws, P⟩ := parts_exist exProgram.metadata (L.map Prod.snd)
  have hq : pages' = qs := storeOf_inj (fun p hp => split_of_writer (hb' p hp)) (fun p hp => split_of_writer (P.bodies p hp))
    (List.append_cancel_left (e'.symm.trans P.file))
  subst hq
  have hne : streamOf .events pages ≠ [] := by
    have h0 : pages.filter (fun p => p.tag = .events) = pages'.filter (fun p => p.tag = .events) := hf 0 (by decide)
    unfold streamOf
    rw [h0]
    have := P.events
    unfold streamOf at this
    rw [this]
    exact fun hnil => absurd (List.append_eq_nil_iff.mp hnil).1 (by decide)
  refine ⟨pages, e.trans rfl, ?_⟩
  simp only [streamOf, ne_eq, List.flatMap_eq_nil_iff, List.mem_filter, decide_eq_true_eq, not_forall] at hne
  obtain ⟨q, ⟨hq, ht⟩, _⟩ := hne
  obtain ⟨before, after, e⟩ := List.append_of_mem hq
  exact ⟨before, q, after, e, ht⟩

end Verif.Props
