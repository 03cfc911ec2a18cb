import Verif.Proofs.Space

/-!
# The pages of the event stream hold whole records
-/

namespace Verif.Mm

open Verif Verif.Spec Verif.Decode Verif.Props Verif.Conc Verif.Proofs

/-- The first page of a tag has `a` bytes more than whole records of `k` bytes, the others hold whole records. -/
def WholePages (t : PageTag) (a k : Nat) (pages : List Page) : Prop :=
  ∀ before p after, pages = before ++ p :: after → p.tag = t →
    (streamOf t before = [] → ∃ n, p.body.length = a + k * n) ∧ (streamOf t before ≠ [] → k ∣ p.body.length)

theorem append_split {α : Type} {xs ys before after : List α} {p : α} (h : xs ++ ys = before ++ p :: after) :
    (∃ rest, xs = before ++ p :: rest) ∨ ∃ rest, before = xs ++ rest ∧ ys = rest ++ p :: after := by
  rcases List.append_eq_append_iff.mp h with ⟨a, rfl, h2⟩ | ⟨a, rfl, h2⟩
  · exact .inr ⟨a, rfl, h2⟩
  · cases a with
    | nil => exact .inr ⟨[], by simp, by simpa using h2.symm⟩
    | cons x a =>
      simp only [List.cons_append, List.cons.injEq] at h2
      obtain ⟨rfl, rfl⟩ := h2
      exact .inl ⟨a, rfl⟩

theorem whole_other {t t' : PageTag} {a k : Nat} {pages : List Page} (h : WholePages t a k pages) (hne : t' ≠ t) (new : List Bytes) :
    WholePages t a k (pages ++ new.map (Page.mk t')) := by
  intro before p after he ht
  rcases append_split he with ⟨rest, h1⟩ | ⟨rest, _, h2⟩
  · exact h before p rest h1 ht
  · have : p ∈ new.map (Page.mk t') := by rw [h2]; simp
    obtain ⟨b, _, rfl⟩ := List.mem_map.mp this
    exact absurd ht hne

theorem whole_page {t : PageTag} {a k : Nat} {pages : List Page} (h : WholePages t a k pages) (b : Bytes)
    (h0 : streamOf t pages = [] → ∃ n, b.length = a + k * n) (h1 : streamOf t pages ≠ [] → k ∣ b.length) :
    WholePages t a k (pages ++ [⟨t, b⟩]) := by
  intro before p after he ht
  rcases append_split he with ⟨rest, h1⟩ | ⟨rest, h2, h3⟩
  · exact h before p rest h1 ht
  · cases rest with
    | nil =>
      simp only [List.nil_append, List.cons.injEq] at h3
      obtain ⟨rfl, _⟩ := h3
      rw [List.append_nil] at h2
      subst h2
      exact ⟨h0, h1⟩
    | cons x rest => simp at h3

/-- From a state without pages and with `a` bytes in the buffer, atomic records of multiples of `k` bytes give whole pages. -/
theorem whole_run (tagOf : Nat → PageTag) (i a k : Nat) (ha : 0 < a) (h2 : History) : ∀ (h : History) (w : World) (pages : List Page),
    WInv tagOf h w pages → AllGood h2 → TagUnshared tagOf i h2 → (∀ c, (i, c) ∈ h2 → AtomicRecord c ∧ k ∣ (payload c).length) →
    (streamOf (tagOf i) pages = [] → ∃ n, (w.sinks i).buffer.length = a + k * n) →
    (streamOf (tagOf i) pages ≠ [] → k ∣ (w.sinks i).buffer.length) → WholePages (tagOf i) a k pages →
    ∃ pages', WInv tagOf (h ++ h2) (World.exec tagOf h2 w).2 pages' ∧ WholePages (tagOf i) a k pages' := by
  induction h2 with
  | nil => intro h w pages inv _ _ _ _ _ hp; exact ⟨pages, by simpa [World.exec] using inv, hp⟩
  | cons x h2 ih =>
    intro h w pages inv hg hun hrec b0 b1 hp
    obtain ⟨j, c⟩ := x
    obtain ⟨r, w', new, hcall, hinv, _, _, he, hoth, hat⟩ := inv.step j c (hg (j, c) (by simp))
    simp only [World.exec, hcall]
    rw [show h ++ (j, c) :: h2 = (h ++ [(j, c)]) ++ h2 by simp]
    by_cases hj : j = i
    · subst hj
      obtain ⟨hac, hk⟩ := hrec c (by simp)
      rcases hat hac with ⟨hn, hb⟩ | ⟨hn, hb⟩
      · subst hn
        simp only [List.map_nil, List.append_nil] at hinv
        refine ih _ w' _ hinv (fun x hx => hg x (by simp [hx])) (fun x hx => hun x (by simp [hx])) (fun c hc => hrec c (by simp [hc])) ?_ ?_ hp
        · intro hs
          obtain ⟨n, hn⟩ := b0 hs
          obtain ⟨m, hm⟩ := hk
          exact ⟨n + m, by rw [hb, List.length_append, hn, hm, Nat.mul_add, Nat.add_assoc]⟩
        · intro hs
          rw [hb, List.length_append]
          exact Nat.dvd_add (b1 hs) hk
      · subst hn
        simp only [List.map_cons, List.map_nil] at hinv
        have hne : streamOf (tagOf j) (pages ++ [⟨tagOf j, (w.sinks j).buffer⟩]) ≠ [] := by
          rw [streamOf_append]
          intro hnil
          rw [List.append_eq_nil_iff] at hnil
          obtain ⟨n, hn⟩ := b0 hnil.1
          have : (w.sinks j).buffer = [] := by simpa [streamOf] using hnil.2
          rw [this, List.length_nil] at hn
          omega
        refine ih _ w' _ hinv (fun x hx => hg x (by simp [hx])) (fun x hx => hun x (by simp [hx])) (fun c hc => hrec c (by simp [hc])) ?_ ?_
          (whole_page hp _ b0 b1)
        · intro hs
          exact absurd hs hne
        · intro _
          rw [hb]
          exact hk
    · have hne : tagOf j ≠ tagOf i := fun heq => hj (hun (j, c) (by simp) heq)
      refine ih _ w' _ hinv (fun x hx => hg x (by simp [hx])) (fun x hx => hun x (by simp [hx])) (fun c hc => hrec c (by simp [hc])) ?_ ?_
          (whole_other hp hne new)
      all_goals
        rw [streamOf_append, streamOf_map_other hne, List.append_nil, hoth i (Ne.symm hj)]
        assumption

theorem pieces_split {i : Nat} {h : History} {xs ys : List Bytes} (hp : pieces i h = xs ++ ys) :
    ∃ h1 h2, h = h1 ++ h2 ∧ pieces i h1 = xs ∧ pieces i h2 = ys := by
  unfold pieces at hp
  obtain ⟨l1, l2, hl, e1, e2⟩ := List.map_eq_append_iff.mp hp
  obtain ⟨h1, h2, hh, f1, f2⟩ := List.filter_eq_append_iff.mp hl
  exact ⟨h1, h2, hh, by rw [pieces, f1, e1], by rw [pieces, f2, e2]⟩

theorem profiler_pages (md : String) (calls : List ProfCall) : ∃ pages : List Page,
    savedFile md calls = fileHeader magicTopLevel ++ storeOf pages ∧ (∀ p ∈ pages, 0 < p.body.length ∧ p.body.length ≤ 262144) ∧
      WholePages .events 8 32 pages := by
  obtain ⟨⟨h, g, s, hw, hat, ⟨ps, hps, h32⟩, _, hnf, _⟩, _⟩ := cut_inv md calls
  obtain ⟨h1, h2, rfl, p1, p2⟩ := pieces_split hps
  have g1 : AllGood h1 := fun x hx => g x (by simp [hx])
  have g2 : AllGood h2 := fun x hx => g x (by simp [hx])
  have s1 : ∀ x ∈ h1, x.1 ≤ 2 := fun x hx => s x (by simp [hx])
  have s2 : ∀ x ∈ h2, x.1 ≤ 2 := fun x hx => s x (by simp [hx])
  have u1 : TagUnshared profTags 0 h1 := tagUnshared_prof s1 (by decide)
  obtain ⟨pages, inv, _⟩ := run_inv profTags h1 g1
  have hw1 : written 0 h1 = fileHeader magicEventStream := by rw [← pieces_flatten, p1]; rfl
  have hl : (written 0 h1).length = 8 := by rw [hw1]; decide
  have few := run_few profTags h1 g1 0 u1 pages inv
  have hfc : flushCount 0 h1 = 0 := by
    unfold flushCount
    rw [List.length_eq_zero_iff, List.filter_eq_nil_iff]
    intro x hx hc
    have := hnf x (by simp [hx])
    obtain ⟨j, c⟩ := x
    cases c <;> simp_all [Flushes]
  have hpc : pageCount (profTags 0) pages = 0 := by omega
  have hnone : pages.filter (fun p => p.tag = profTags 0) = [] := by simpa [pageCount, List.length_eq_zero_iff] using hpc
  have hst : streamOf (profTags 0) pages = [] := by simp only [streamOf, hnone, List.flatMap_nil]
  have hbuf : ((run profTags h1).2.sinks 0).buffer.length = 8 := by
    have := inv.content 0 u1
    rw [hst, List.nil_append] at this
    rw [this, hl]
  have gd : AllGood (h2 ++ drops) := by
    intro x hx
    simp [drops] at hx
    rcases hx with hx | rfl | rfl | rfl
    · exact g2 x hx
    all_goals trivial
  have sd : ∀ x ∈ h2 ++ drops, x.1 ≤ 2 := by
    intro x hx
    simp [drops] at hx
    rcases hx with hx | rfl | rfl | rfl
    · exact s2 x hx
    all_goals simp
  obtain ⟨pages', inv', hwp⟩ := whole_run profTags 0 8 32 (by decide) (h2 ++ drops) h1 (run profTags h1).2 pages inv gd
    (tagUnshared_prof sd (by decide)) (by
      intro c hc
      simp only [drops, List.mem_append, List.mem_cons, Prod.mk.injEq, List.not_mem_nil, or_false] at hc
      rcases hc with hc | ⟨_, rfl⟩ | ⟨_, rfl⟩ | ⟨_, rfl⟩
      · refine ⟨hat c (by simp [hc]), h32 _ ?_⟩
        rw [← p2]
        exact List.mem_map.mpr ⟨(0, c), List.mem_filter.mpr ⟨hc, by simp⟩, rfl⟩
      all_goals exact ⟨trivial, ⟨0, rfl⟩⟩)
    (fun _ => ⟨0, hbuf⟩) (fun hne => absurd hst hne) (by
      intro before p after he ht
      have : p ∈ pages.filter (fun p => p.tag = profTags 0) := List.mem_filter.mpr ⟨by rw [he]; simp, by simpa using ht⟩
      rw [hnone] at this
      cases this)
  refine ⟨pages', ?_, inv'.bodies, hwp⟩
  unfold savedFile
  congr 1
  have : (World.exec profTags drops (runProf calls (profInit md)).2.world).2 = (World.exec profTags (h2 ++ drops) (run profTags h1).2).2 := by
    simp [run, exec_append, hw]
  rw [show ([(0, .drop), (1, .drop), (2, .drop)] : History) = drops from rfl, this, inv'.store]

end Verif.Mm
