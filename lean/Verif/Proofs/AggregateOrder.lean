import Verif.Proofs.AggregateReport

/-! # Points in the order of time come from scoped recordings only -/

namespace Verif.Aggregate

open Verif Verif.Mm Verif.Decode Verif.Analyze Verif.Spec

theorem emits_instants {st : SamplePoints} {ps : List (SamplePoint (WithParent Event))} (he : Emits st ps) (hg : Good st) :
    ∀ w, SamplePoint.instant w ∈ ps → ∀ s t, span w.this = some (s, t) → s = t := by
  induction he with
  | done h => simp
  | more h tl ih =>
    intro w hw s' t' hs'
    rcases List.mem_cons.1 hw with hw | hw
    · rcases step_cases hg h with ⟨top, stk, hs, -, rfl, rfl⟩ | ⟨e, r, s, t, hr, he, -, rfl, rfl⟩ | ⟨e, r, t, hr, he, -, rfl, rfl⟩
      · cases hw
      · cases hw
      · cases hw
        simp only [span, he, Option.some.injEq, Prod.mk.injEq] at hs'
        omega
    · exact ih (good_step hg h) w hw s' t' hs'

theorem startOf_span {e : Event} {s t : Nat} (h : span e = some (s, t)) : startOf e = s := by simp [startOf, h]

theorem recorded_of_sorted : ∀ (c : List (SamplePoint (WithParent Event))) (st : List Event) (m : Nat), replay c st = some [] →
    (c.map momentOf).Pairwise (· ≤ ·) → (∀ x ∈ c, m ≤ momentOf x) → (∀ w, SamplePoint.instant w ∈ c → ∀ s t, span w.this = some (s, t) → s = t) →
    (∀ e ∈ st, startOf e ≤ m) → st.Pairwise (fun a b => startOf b ≤ startOf a) →
    (∀ e ∈ c.filterMap completed, ∀ s t, span e = some (s, t) → s ≤ t) ∧ (c.filterMap completed).Pairwise Recorded ∧
    (∀ e ∈ c.filterMap completed, ∀ s t, span e = some (s, t) → m ≤ t ∧ (e ∈ st ∨ m ≤ s)) := by
  intro c
  induction c with
  | nil => intro st m _ _ _ _ _ _; simp
  | cons x c ih =>
    intro st m hr hs hm hk hst hp
    rw [List.map_cons, List.pairwise_cons] at hs
    have hmx : m ≤ momentOf x := hm x (by simp)
    have hlow : ∀ y ∈ c, momentOf x ≤ momentOf y := fun y hy => hs.1 _ (List.mem_map.2 ⟨y, hy, rfl⟩)
    have hk' : ∀ w, SamplePoint.instant w ∈ c → ∀ s t, span w.this = some (s, t) → s = t := fun w hw => hk w (by simp [hw])
    have hst' : ∀ e ∈ st, startOf e ≤ momentOf x := fun e he => Nat.le_trans (hst e he) hmx
    cases x with
    | start w =>
      simp only [replay] at hr
      split at hr
      · have hw : startOf w.this = momentOf (.start w) := rfl
        obtain ⟨a1, a2, a3⟩ := ih (w.this :: st) (momentOf (.start w)) hr hs.2 hlow hk' (by
          intro e he
          rcases List.mem_cons.1 he with rfl | he
          · exact Nat.le_of_eq hw
          · exact hst' e he) (List.pairwise_cons.2 ⟨fun b hb => by rw [hw]; exact hst' b hb, hp⟩)
        have e : (SamplePoint.start w :: c).filterMap completed = c.filterMap completed := rfl
        rw [e]
        refine ⟨a1, a2, fun e he s t hsp => ?_⟩
        obtain ⟨b1, b2⟩ := a3 e he s t hsp
        refine ⟨by omega, ?_⟩
        rcases b2 with b2 | b2
        · rcases List.mem_cons.1 b2 with rfl | b2
          · right
            have := startOf_span hsp
            omega
          · exact .inl b2
        · right; omega
      · cases hr
    | instant w =>
      simp only [replay] at hr
      split at hr
      · obtain ⟨a1, a2, a3⟩ := ih st (momentOf (.instant w)) hr hs.2 hlow hk' hst' hp
        have e : (SamplePoint.instant w :: c).filterMap completed = w.this :: c.filterMap completed := rfl
        have hw : ∀ s t, span w.this = some (s, t) → s = t ∧ momentOf (.instant w) = t := by
          intro s t hsp
          have := hk w (by simp) s t hsp
          exact ⟨this, by simp [momentOf, hsp, this]⟩
        rw [e]
        refine ⟨?_, List.pairwise_cons.2 ⟨?_, a2⟩, ?_⟩
        · intro y hy s t hsp
          rcases List.mem_cons.1 hy with rfl | hy
          · exact Nat.le_of_eq (hw s t hsp).1
          · exact a1 y hy s t hsp
        · intro b hb s t s' t' h1 h2
          obtain ⟨b1, b2⟩ := a3 b hb s' t' h2
          obtain ⟨c1, c2⟩ := hw s t h1
          refine ⟨by omega, ?_⟩
          rcases b2 with b2 | b2
          · left
            have := hst' b b2
            rw [startOf_span h2] at this
            omega
          · right; omega
        · intro y hy s t hsp
          rcases List.mem_cons.1 hy with rfl | hy
          · obtain ⟨c1, c2⟩ := hw s t hsp
            exact ⟨by omega, .inr (by omega)⟩
          · obtain ⟨b1, b2⟩ := a3 y hy s t hsp
            exact ⟨by omega, b2.imp id (fun h => by omega)⟩
      · cases hr
    | stop w =>
      cases st with
      | nil => simp [replay] at hr
      | cons top st =>
        simp only [replay] at hr
        split at hr
        · rename_i hc
          obtain ⟨rfl, -⟩ := hc
          rw [List.pairwise_cons] at hp
          obtain ⟨a1, a2, a3⟩ := ih st (momentOf (.stop w)) hr hs.2 hlow hk' (fun e he => hst' e (by simp [he])) hp.2
          have e : (SamplePoint.stop w :: c).filterMap completed = w.this :: c.filterMap completed := rfl
          have hw : ∀ s t, span w.this = some (s, t) → momentOf (.stop w) = t := fun s t hsp => by simp [momentOf, hsp]
          have hfw : ∀ s t, span w.this = some (s, t) → s ≤ t := by
            intro s t hsp
            have := hst' w.this (by simp)
            rw [startOf_span hsp, hw s t hsp] at this
            exact this
          rw [e]
          refine ⟨?_, List.pairwise_cons.2 ⟨?_, a2⟩, ?_⟩
          · intro y hy s t hsp
            rcases List.mem_cons.1 hy with rfl | hy
            · exact hfw s t hsp
            · exact a1 y hy s t hsp
          · intro b hb s t s' t' h1 h2
            obtain ⟨b1, b2⟩ := a3 b hb s' t' h2
            have c2 := hw s t h1
            refine ⟨by omega, ?_⟩
            rcases b2 with b2 | b2
            · left
              have := hp.1 b b2
              rw [startOf_span h1, startOf_span h2] at this
              exact this
            · right; omega
          · intro y hy s t hsp
            rcases List.mem_cons.1 hy with rfl | hy
            · exact ⟨by rw [← hw s t hsp]; exact hmx, .inl (by simp)⟩
            · obtain ⟨b1, b2⟩ := a3 y hy s t hsp
              refine ⟨by omega, ?_⟩
              rcases b2 with b2 | b2
              · exact .inl (by simp [b2])
              · right; omega
        · cases hr

theorem pairwise_of_successive {ps : List (SamplePoint (WithParent Event))} (h : ∀ i ∈ successive ps, momentOf i.start ≤ momentOf i.stop) :
    ps.Pairwise fun p q => momentOf q ≤ momentOf p := by
  induction ps with
  | nil => simp
  | cons p ps ih =>
    cases ps with
    | nil => simp
    | cons q qs =>
      have ih := ih fun i hi => h i (by simp only [successive, List.mem_cons]; exact .inr hi)
      have hpq : momentOf q ≤ momentOf p := h ⟨q, p⟩ (by simp only [successive, List.mem_cons]; exact .inl trivial)
      refine List.pairwise_cons.2 ⟨fun x hx => ?_, ih⟩
      rcases List.mem_cons.1 hx with rfl | hx
      · exact hpq
      · exact Nat.le_trans ((List.pairwise_cons.1 ih).1 x hx) hpq

/-- The points are in the order of time exactly if the stream is what scoped timings record. -/
theorem sorted_iff {es : List Event} {tr : List (SamplePoint (WithParent Event))} (he : Emits (SamplePoints.new es) tr)
    (hr : replay tr.reverse [] = some []) (hc : tr.reverse.filterMap completed = es.filter fun e => (span e).isSome) :
    (∀ i ∈ successive tr, momentOf i.start ≤ momentOf i.stop) ↔ PostOrdered es := by
  have hg := good_of_emits he
  constructor
  · intro h
    obtain ⟨a1, a2, -⟩ := recorded_of_sorted tr.reverse [] 0 hr (by
        rw [List.map_reverse, List.pairwise_reverse, List.pairwise_map]
        exact pairwise_of_successive h) (fun _ _ => Nat.zero_le _) (fun w hw => emits_instants he hg w (by simpa using hw)) (by simp) List.Pairwise.nil
    rw [hc] at a1 a2
    refine ⟨fun e hmem s t ht => ?_, ?_⟩
    · have hsp : span e = some (s, t) := by
        unfold times at ht
        unfold span
        split at ht <;> simp_all
      exact a1 e (List.mem_filter.2 ⟨hmem, by simp [hsp]⟩) s t hsp
    · rw [List.pairwise_filter] at a2
      refine a2.imp fun {a b} hab s t s' t' h1 h2 => ?_
      exact hab (by simp [h1]) (by simp [h2]) s t s' t' h1 h2
  · intro h
    exact successive_le (emits_sorted he hg (ordered_new h))

end Verif.Aggregate
