import Verif.Model.Collapse
import Mathlib.Data.List.Forall2
import Mathlib.Data.List.Induction

/-! # `collapse_stacks` on light-weight events agrees with `collapse` on full events -/

namespace Verif.Analyze

open Verif Verif.Mm Verif.Decode

/-- The full event of a light-weight event. -/
def FullOf (p : ProfilingData) (l : LightweightEvent) (e : Event) : Prop :=
  p.decodeFull l.eventIndex = .ok e ∧ l.payload = e.payload ∧ l.threadId = e.threadId

/-- Two runs end alike. -/
def Alike {α β : Type} (R : α → β → Prop) : Except Fault α → Except Fault β → Prop
  | .ok a, .ok b => R a b
  | .error f, .error g => f = g
  | _, _ => False

theorem Alike.bind {α β γ δ : Type} {R : α → β → Prop} {S : γ → δ → Prop} {x : Except Fault α} {y : Except Fault β}
    {f : α → Except Fault γ} {g : β → Except Fault δ} (h : Alike R x y) (hf : ∀ a b, R a b → Alike S (f a) (g b)) :
    Alike S (x >>= f) (y >>= g) := by
  cases x <;> cases y
  · exact h
  · exact h.elim
  · exact h.elim
  · exact hf _ _ h

theorem Alike.rfl_eq {α : Type} (x : Except Fault α) : Alike (· = ·) x x := by cases x <;> rfl

theorem Alike.eq {α : Type} {x y : Except Fault α} (h : Alike (· = ·) x y) : x = y := by
  cases x <;> cases y
  · exact congrArg _ h
  · exact h.elim
  · exact h.elim
  · exact congrArg _ h

theorem pop_alike (p : ProfilingData) (current : EventPayload) : ∀ (ls : List LightweightEvent) (es : List Event) (sid : Bytes),
    List.Forall₂ (FullOf p) ls es →
    Alike (fun a b => List.Forall₂ (FullOf p) a.1 b.1 ∧ a.2 = b.2) (popLight p current ls sid) (popBoth current es sid) := by
  intro ls
  induction ls with
  | nil =>
    intro es sid h
    cases h
    exact ⟨.nil, rfl⟩
  | cons l ls ih =>
    intro es sid h
    cases h with
    | cons h1 h2 =>
      rename_i e es
      simp only [popLight, popBoth, h1.2.1]
      split
      · exact ⟨.cons h1 h2, rfl⟩
      · rw [h1.1]
        change Alike _ (subUsize sid.length (e.label.length + 1) >>= fun n => popLight p current ls (sid.take n))
          (subUsize sid.length (e.label.length + 1) >>= fun n => popBoth current es (sid.take n))
        refine (Alike.rfl_eq _).bind ?_
        rintro n _ rfl
        exact ih es _ h2

/-- The states of a thread correspond. -/
def ThreadAlike (p : ProfilingData) (a : UInt32 × ThreadState LightweightEvent) (b : UInt32 × ThreadState Event) : Prop :=
  a.1 = b.1 ∧ List.Forall₂ (FullOf p) a.2.stack b.2.stack ∧ a.2.stackId = b.2.stackId ∧ a.2.start = b.2.start ∧ a.2.stop = b.2.stop ∧ a.2.total = b.2.total

/-- The variables correspond. -/
def VarsAlike (p : ProfilingData) (a : CollapseVars LightweightEvent) (b : CollapseVars Event) : Prop :=
  a.counters = b.counters ∧ List.Forall₂ (ThreadAlike p) a.threads b.threads

theorem lookup_alike {p : ProfilingData} {as : List (UInt32 × ThreadState LightweightEvent)} {bs : List (UInt32 × ThreadState Event)}
    (h : List.Forall₂ (ThreadAlike p) as bs) (t : UInt32) (start stop : Nat) :
    ThreadAlike p (t, (lookup t as).getD ⟨[], utf8 "rustc", start, stop, 0⟩) (t, (lookup t bs).getD ⟨[], utf8 "rustc", start, stop, 0⟩) := by
  induction h with
  | nil => exact ⟨rfl, .nil, rfl, rfl, rfl, rfl⟩
  | cons h1 h2 ih =>
    rename_i a b as bs
    obtain ⟨ka, a⟩ := a
    obtain ⟨kb, b⟩ := b
    have : ka = kb := h1.1
    subst this
    simp only [lookup]
    by_cases h : ka = t
    · rw [if_pos h, if_pos h]
      exact ⟨rfl, h1.2⟩
    · rw [if_neg h, if_neg h]
      exact ih

theorem insert_alike {p : ProfilingData} {as : List (UInt32 × ThreadState LightweightEvent)} {bs : List (UInt32 × ThreadState Event)}
    (h : List.Forall₂ (ThreadAlike p) as bs) (t : UInt32) (a : ThreadState LightweightEvent) (b : ThreadState Event) (hab : ThreadAlike p (t, a) (t, b)) :
    List.Forall₂ (ThreadAlike p) (insert t a as) (insert t b bs) := by
  induction h with
  | nil => exact .cons hab .nil
  | cons h1 h2 ih =>
    rename_i x y as bs
    obtain ⟨kx, x⟩ := x
    obtain ⟨ky, y⟩ := y
    have : kx = ky := h1.1
    subst this
    simp only [insert]
    by_cases h : kx = t
    · rw [if_pos h, if_pos h]
      exact .cons hab h2
    · rw [if_neg h, if_neg h]
      exact .cons h1 ih

theorem charge_alike {p : ProfilingData} (checks : Bool) {ls : List LightweightEvent} {es : List Event} (h : List.Forall₂ (FullOf p) ls es)
    (sid : Bytes) (pl : EventPayload) (counters : List (Bytes × Nat)) (total : Nat) :
    chargeParent checks ls sid pl counters total = chargeParent checks es sid pl counters total := by
  cases h <;> rfl

theorem step_alike (checks : Bool) (p : ProfilingData) {a : CollapseVars LightweightEvent} {b : CollapseVars Event} {l : LightweightEvent} {e : Event}
    (h : VarsAlike p a b) (hl : FullOf p l e) : Alike (VarsAlike p) (lightStep checks p a l) (collapseStep checks b e) := by
  unfold lightStep collapseStep
  rw [hl.2.1]
  cases e.payload with
  | integer v => exact h
  | timestamp t =>
    cases t with
    | instant t => exact h
    | interval start stop =>
      simp only [hl.2.2]
      have ht := lookup_alike h.2 e.threadId start stop
      obtain ⟨-, t1, t2, t3, t4, t5⟩ := ht
      simp only at t1 t2 t3 t4 t5
      rw [t2, t3, t4, t5, h.1]
      refine (pop_alike p _ _ _ _ t1).bind ?_
      rintro ⟨ls, s1⟩ ⟨es, s2⟩ ⟨g1, rfl⟩
      simp only at g1 ⊢
      rw [charge_alike checks g1]
      refine (Alike.rfl_eq _).bind ?_
      rintro ⟨c, tot⟩ _ rfl
      simp only
      rw [hl.1]
      change Alike (VarsAlike p) (nanosU64 _ >>= _) (nanosU64 _ >>= _)
      refine (Alike.rfl_eq _).bind ?_
      rintro d _ rfl
      refine (Alike.rfl_eq _).bind ?_
      rintro c' _ rfl
      exact ⟨rfl, insert_alike h.2 _ _ _ ⟨rfl, .cons hl g1, rfl, rfl, rfl, rfl⟩⟩

theorem steps_alike (checks : Bool) (p : ProfilingData) (es : List Event) :
    (∀ i e, es[i]? = some e → ∃ l, p.decodeLightweight i = .ok l ∧ FullOf p l e) →
    ∀ (a : CollapseVars LightweightEvent) (b : CollapseVars Event), VarsAlike p a b →
      Alike (VarsAlike p) (lightSteps checks p es.length a) (collapseSteps checks b es.reverse) := by
  induction es using List.reverseRecOn with
  | nil => intro _ a b h; exact h
  | append_singleton es e ih =>
    intro hes a b h
    rw [List.length_append, List.length_singleton, List.reverse_append, List.reverse_singleton, List.singleton_append]
    obtain ⟨l, h1, h2⟩ := hes es.length e (by simp)
    simp only [lightSteps, collapseSteps, h1]
    refine (step_alike checks p h h2).bind fun a' b' h' => ?_
    exact ih (fun i x hx => hes i x (by rw [List.getElem?_append_left (List.getElem?_eq_some_iff.1 hx).1]; exact hx)) a' b' h'

theorem gaps_alike {p : ProfilingData} (checks : Bool) {as : List (UInt32 × ThreadState LightweightEvent)} {bs : List (UInt32 × ThreadState Event)}
    (h : List.Forall₂ (ThreadAlike p) as bs) : ∀ acc, gaps checks acc as = gaps checks acc bs := by
  induction h with
  | nil => intro acc; rfl
  | cons h1 h2 ih =>
    intro acc
    rename_i a b as bs
    obtain ⟨ka, a⟩ := a
    obtain ⟨kb, b⟩ := b
    obtain ⟨-, -, -, e1, e2, e3⟩ := h1
    simp only at e1 e2 e3
    simp only [gaps, e1, e2, e3, ih]

theorem collect_items {p : ProfilingData} : ∀ (k i : Nat) (es : List Event), collectFrom p.itemFull i k = .ok es →
    es.length = k ∧ ∀ j e, es[j]? = some e → p.itemFull (i + j) = .ok e := by
  intro k
  induction k with
  | zero => intro i es h; cases h; exact ⟨rfl, by simp⟩
  | succ k ih =>
    intro i es h
    simp only [collectFrom, bind, Except.bind] at h
    split at h
    · cases h
    · rename_i e he
      split at h
      · cases h
      · rename_i es' hes
        cases h
        obtain ⟨h1, h2⟩ := ih (i + 1) es' hes
        refine ⟨by simp [h1], fun j x hx => ?_⟩
        cases j with
        | zero => simp at hx; subst hx; exact he
        | succ j => rw [← Nat.add_assoc, Nat.add_right_comm]; exact h2 j x (by simpa using hx)

/-- On a profile whose events can be decoded and whose light-weight events agree with the full ones, both are the same. -/
theorem collapse_eq (checks : Bool) (p : ProfilingData) (es : List Event) (h : p.fullEvents = .ok es)
    (hag : ∀ i l e, p.decodeLightweight i = .ok l → p.decodeFull l.eventIndex = .ok e → l = ⟨i, e.threadId, e.payload⟩) :
    collapseProfile checks p = collapse checks es := by
  unfold ProfilingData.fullEvents at h
  simp only [bind, Except.bind] at h
  split at h
  · cases h
  · rename_i n hn
    obtain ⟨h1, h2⟩ := collect_items n 0 es h
    have hes : ∀ i e, es[i]? = some e → ∃ l, p.decodeLightweight i = .ok l ∧ FullOf p l e := by
      intro i e he
      have := h2 i e he
      rw [Nat.zero_add] at this
      simp only [ProfilingData.itemFull, bind, Except.bind] at this
      split at this
      · cases this
      · rename_i l hl
        obtain rfl := hag i l e hl this
        exact ⟨_, hl, this, rfl, rfl⟩
    apply Alike.eq
    unfold collapseProfile collapse
    rw [hn]
    change Alike _ (lightSteps checks p n {} >>= _) _
    rw [← h1]
    refine (steps_alike checks p es hes {} {} ⟨rfl, .nil⟩).bind fun a b hab => ?_
    rw [gaps_alike checks hab.2, hab.1]
    exact Alike.rfl_eq _

/-- Every profile of the current format. -/
theorem v9_agree (fuel : Nat) (d : EventDecoder) (i : Nat) (l : LightweightEvent) (e : Event) (hl : (v9Data fuel d).decodeLightweight i = .ok l)
    (he : (v9Data fuel d).decodeFull l.eventIndex = .ok e) : l = ⟨i, e.threadId, e.payload⟩ := by
  simp only [v9Data, EventDecoder.decodeLightweight, bind, Except.bind] at hl
  split at hl
  · cases hl
  · rename_i r hr
    cases hl
    simp only [v9Data, EventDecoder.decodeFull, hr, bind, Except.bind] at he
    split at he
    · cases he
    · split at he
      · cases he
      · split at he
        · cases he
        · cases he; rfl

end Verif.Analyze
