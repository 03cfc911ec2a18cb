import Verif.Proofs.Linearize
import Mathlib.Algebra.Order.BigOperators.Group.Finset

/-!
# No deadlock, termination
-/

namespace Verif.Conc

open Verif Verif.Mm Verif.Spec

/-- A thread in an `InData` stage can move when the store is free. -/
theorem InData.steps {n : Nat} {tagOf : Nat → PageTag} {σ : Conc n} {t : Fin n} {c : Call} {p : Prog} {tag : PageTag}
    {s : Inner} {bl : List Bytes} {r : Res} (h : InData tag p s bl r) (hcur : (σ.threads t).cur = some (c, p))
    (hs : σ.storeLock = none) : ∃ σ', Conc.step tagOf σ t = some σ' := by
  unfold Conc.step
  rw [hcur]
  cases h <;> simp [hs]

theorem InStore.steps {n : Nat} {tagOf : Nat → PageTag} {σ : Conc n} {t : Fin n} {c : Call} {p : Prog} {tag : PageTag}
    {part : Bytes} {s : Inner} {bl : List Bytes} {r : Res} (h : InStore tag p part s bl r)
    (hcur : (σ.threads t).cur = some (c, p)) : ∃ σ', Conc.step tagOf σ t = some σ' := by
  unfold Conc.step
  rw [hcur]
  cases h <;> simp

/-- In every state with the invariant, some thread can move unless all have finished. -/
theorem Inv.progress {n : Nat} {tagOf : Nat → PageTag} {progs : Fin n → List Call} {σ : Conc n} {H : List (LinEntry n)}
    {P Q : List (Nat × Bytes)} {w : World} (inv : Inv tagOf progs σ H P Q w) (hnf : ¬ σ.Finished) :
    ∃ t σ', Conc.step tagOf σ t = some σ' := by
  cases hsl : σ.storeLock with
  | some t =>
    cases inv.stage t with
    | inStore c p part bl r h1 h2 => exact ⟨t, h2.steps h1⟩
    | idle _ _ h3 => exact absurd hsl h3
    | ready _ _ _ _ _ h3 => exact absurd hsl h3
    | inData _ _ _ _ _ _ _ _ _ h3 => exact absurd hsl h3
    | leaving _ _ _ _ h3 => exact absurd hsl h3
  | none =>
    by_cases hd : ∃ i t, σ.dataLock i = some t
    · obtain ⟨i, t, hd⟩ := hd
      cases inv.stage t with
      | inStore c p part bl r h1 h2 => exact ⟨t, h2.steps h1⟩
      | idle _ h2 => exact absurd hd (h2 i)
      | ready _ _ _ _ h2 => exact absurd hd (h2 i)
      | inData c p bl r h1 h2 => exact ⟨t, h2.steps h1 hsl⟩
      | leaving _ _ _ h2 => exact absurd hd (h2 i)
    · have hd' : ∀ i, σ.dataLock i = none := by
        intro i
        cases h : σ.dataLock i with
        | none => rfl
        | some t => exact absurd ⟨i, t, h⟩ hd
      obtain ⟨t, ht⟩ : ∃ t, ¬ ((σ.threads t).todo = [] ∧ (σ.threads t).cur = none) := by
        by_contra hall
        exact hnf fun t => by
          by_contra h
          exact hall ⟨t, h⟩
      refine ⟨t, ?_⟩
      cases inv.stage t with
      | inStore c p part bl r _ _ _ _ h4 => rw [hd'] at h4; cases h4
      | inData c p bl r _ _ _ h4 => rw [hd'] at h4; cases h4
      | idle h1 =>
        unfold Conc.step
        rw [h1]
        cases htodo : (σ.threads t).todo with
        | nil => exact absurd ⟨htodo, h1⟩ ht
        | cons c rest => exact ⟨_, rfl⟩
      | ready c k h1 =>
        unfold Conc.step
        rw [h1]
        simp [hd']
      | leaving c r h1 =>
        unfold Conc.step
        rw [h1]
        simp

/-! ## Termination -/

/-- The program takes at most `m` steps, whatever it reads. -/
inductive Within : Prog → Nat → Prop where
  | ret (r m) : Within (.ret r) (m + 1)
  | lockData {k m} : (∀ s, Within (k s) m) → Within (.lockData k) (m + 1)
  | unlockData {k m} (s) : Within k m → Within (.unlockData s k) (m + 1)
  | lockStore {k m} : Within k m → Within (.lockStore k) (m + 1)
  | write {o k m} (b) : Within o m → Within k m → Within (.write b o k) (m + 1)
  | unlockStore {k m} : Within k m → Within (.unlockStore k) (m + 1)

theorem Within.mono {p : Prog} {m m' : Nat} (h : Within p m) (hm : m ≤ m') : Within p m' := by
  induction h generalizing m' with
  | ret r m => obtain ⟨d, rfl⟩ : ∃ d, m' = d + 1 := ⟨m' - 1, by omega⟩; exact .ret _ _
  | lockData _ ih =>
    obtain ⟨d, rfl⟩ : ∃ d, m' = d + 1 := ⟨m' - 1, by omega⟩
    exact .lockData fun s => ih s (by omega)
  | unlockData s _ ih =>
    obtain ⟨d, rfl⟩ : ∃ d, m' = d + 1 := ⟨m' - 1, by omega⟩
    exact .unlockData s (ih (by omega))
  | lockStore _ ih =>
    obtain ⟨d, rfl⟩ : ∃ d, m' = d + 1 := ⟨m' - 1, by omega⟩
    exact .lockStore (ih (by omega))
  | write b _ _ iho ih =>
    obtain ⟨d, rfl⟩ : ∃ d, m' = d + 1 := ⟨m' - 1, by omega⟩
    exact .write b (iho (by omega)) (ih (by omega))
  | unlockStore _ ih =>
    obtain ⟨d, rfl⟩ : ∃ d, m' = d + 1 := ⟨m' - 1, by omega⟩
    exact .unlockStore (ih (by omega))

theorem Within.page {tag : PageTag} {b : Bytes} {s : Inner} {k : Prog} {m : Nat} (h : Within k m) (hm : 2 ≤ m) :
    Within (writePageC tag b (fun e => .unlockData s (.ret (.error e))) k) (m + 5) := by
  unfold writePageC
  split
  · split
    · have ho : ∀ e : Fault, Within (.unlockStore (.unlockData s (.ret (.error e)))) 3 := fun e => .unlockStore (.unlockData s (.ret _ 0))
      exact .lockStore (.write _ ((ho _).mono (by omega)) (.write _ ((ho _).mono (by omega)) (.write _ ((ho _).mono (by omega)) (.unlockStore h))))
    · exact (Within.unlockData s (.ret _ 0)).mono (by omega)
  · exact h.mono (by omega)

theorem Within.flush {tag : PageTag} {s : Inner} {k : Inner → Prog} {m : Nat} (h : ∀ s, Within (k s) m) (hm : 2 ≤ m) :
    Within (flushC tag s k) (m + 5) := Within.page (h _) hm

theorem Within.fillC (num : Nat) (fill : Fill) (mk : Nat → Option Nat) (s : Inner) : Within (fillC num fill mk s) 2 := by
  unfold Conc.fillC
  cases fill (List.replicate num 0) with
  | error e => exact .unlockData _ (.ret _ 0)
  | ok out => exact .unlockData _ (.ret _ 0)

theorem Within.assertEmpty {s : Inner} {k : Prog} {m : Nat} (h : Within k m) (hm : 2 ≤ m) : Within (assertEmptyC s k) m := by
  unfold assertEmptyC
  split
  · exact h
  · exact (Within.unlockData s (.ret _ 0)).mono (by omega)

theorem Within.buffered (tag : PageTag) (num : Nat) (fill : Fill) (mk : Nat → Option Nat) :
    Within (writeBufferedC tag num fill mk) 8 := by
  refine .lockData fun s => ?_
  split
  · exact Within.flush (m := 2) (fun s' => Within.assertEmpty (Within.fillC num fill mk s') (by omega)) (by omega)
  · exact (Within.fillC num fill mk s).mono (by omega)

theorem Within.chunks {tag : PageTag} {k : Inner → Prog} {m : Nat} (h : ∀ s, Within (k s) m) (hm : 2 ≤ m) (cs : List Bytes)
    (s : Inner) : Within (writeChunksC tag k cs s) (m + 5 * cs.length) := by
  induction cs generalizing s with
  | nil => exact h s
  | cons c cs ih =>
    have e : m + 5 * (c :: cs).length = (m + 5 * cs.length) + 5 := by simp only [List.length_cons]; omega
    rw [e]
    unfold writeChunksC
    split
    · exact Within.page (ih s) (by omega)
    · split
      · exact Within.page (ih s) (by omega)
      · exact Within.assertEmpty ((ih _).mono (by omega)) (by omega)

theorem chunksAux_length (fuel n : Nat) (l : Bytes) : (chunksAux fuel n l).length ≤ fuel := by
  induction fuel generalizing l with
  | zero => simp [chunksAux]
  | succ fuel ih =>
    unfold chunksAux
    split
    · simp
    · simpa using ih _

theorem Within.direct (tag : PageTag) (bytes : Bytes) (mk : Nat → Option Nat) :
    Within (writeDirectC tag bytes mk) (8 + 5 * bytes.length) := by
  have e : 8 + 5 * bytes.length = (7 + 5 * bytes.length) + 1 := by omega
  rw [e]
  refine .lockData fun s => ?_
  simp only
  generalize (if s.buffer.length < minPageSize then min (minPageSize - s.buffer.length) bytes.length else 0) = take
  have hf : ∀ s' : Inner, Within (Prog.unlockData s' (.ret (.ok (mk s.addr)))) 2 := fun s' => .unlockData _ (.ret _ 0)
  split
  · exact (hf _).mono (by omega)
  · have hl : (Mm.chunks maxPageSize (bytes.drop take)).length ≤ bytes.length := by
      have := chunksAux_length (bytes.drop take).length maxPageSize (bytes.drop take)
      have h2 : (bytes.drop take).length ≤ bytes.length := by simp
      exact Nat.le_trans this h2
    exact (Within.flush (m := 2 + 5 * (Mm.chunks maxPageSize (bytes.drop take)).length)
      (fun s2 => Within.chunks hf (by omega) _ s2) (by omega)).mono (by omega)

theorem Within.bytes (tag : PageTag) (bytes : Bytes) (mk : Nat → Option Nat) :
    Within (writeBytesC tag bytes mk) (8 + 5 * bytes.length) := by
  unfold writeBytesC
  split
  · exact (Within.buffered _ _ _ _).mono (by omega)
  · exact Within.direct _ _ _

theorem code_within (tag : PageTag) (c : SinkCall) : ∃ m, Within (code tag c) m ∧ m + 1 ≤ callBudget c := by
  cases c with
  | writeAtomic num fill =>
    simp only [code, writeAtomicC, callBudget, payload]
    split
    · cases fill (List.replicate num 0) with
      | error e => exact ⟨1, .ret _ 0, by omega⟩
      | ok b => exact ⟨_, Within.bytes _ _ _, by simp only; omega⟩
    · exact ⟨_, Within.buffered _ _ _ _, by omega⟩
  | writeBytes b => exact ⟨_, Within.bytes _ _ _, by simp only [callBudget, payload]; omega⟩
  | stdWrite b => exact ⟨_, Within.bytes _ _ _, by simp only [callBudget, payload]; omega⟩
  | stdFlush =>
    exact ⟨10, .lockData fun s => Within.flush (m := 4) (fun s' => .lockStore (.unlockStore (.unlockData _ (.ret _ 0))))
      (by omega), by simp only [callBudget]; omega⟩
  | drop =>
    exact ⟨8, .lockData fun s => Within.flush (m := 2) (fun s' => .unlockData _ (.ret _ 0)) (by omega), by simp only [callBudget]; omega⟩

/-- An upper bound for what thread `th` still has to do. -/
def Left (th : Thread) (m : Nat) : Prop :=
  ∃ m0, m0 + (th.todo.map fun c => callBudget c.2).sum ≤ m ∧ ∀ c p, th.cur = some (c, p) → Within p m0

theorem step_left {n : Nat} {tagOf : Nat → PageTag} {σ σ' : Conc n} {t : Fin n} (h : Conc.step tagOf σ t = some σ') {m : Nat}
    (hm : Left (σ.threads t) m) : (∃ m', m' + 1 ≤ m ∧ Left (σ'.threads t) m') ∧ ∀ t', t' ≠ t → σ'.threads t' = σ.threads t' := by
  obtain ⟨m0, h1, h2⟩ := hm
  unfold Conc.step at h
  cases hcur : (σ.threads t).cur with
  | none =>
    rw [hcur] at h
    simp only at h
    cases htodo : (σ.threads t).todo with
    | nil => rw [htodo] at h; simp at h
    | cons c rest =>
      rw [htodo] at h h1
      simp only [Option.some.injEq] at h
      subst h
      obtain ⟨mc, hw, hc⟩ := code_within (tagOf c.1) c.2
      simp only [List.map_cons, List.sum_cons] at h1
      refine ⟨⟨mc + (rest.map fun c => callBudget c.2).sum, by omega, mc, ?_, ?_⟩, fun t' ht' => upd_other _ _ ht'⟩
      · simp [upd_same]
      · intro c' p hp
        simp only [upd_same, Option.some.injEq, Prod.mk.injEq] at hp
        rw [← hp.2]
        exact hw
  | some cp =>
    obtain ⟨c, p⟩ := cp
    have hw := h2 c p hcur
    rw [hcur] at h
    have key : ∀ p' m1, m0 = m1 + 1 → Within p' m1 → Left ⟨(σ.threads t).todo, some (c, p')⟩ (m1 + ((σ.threads t).todo.map fun c => callBudget c.2).sum) := by
      intro p' m1 _ hw'
      refine ⟨m1, Nat.le_refl _, ?_⟩
      intro c' q hq
      simp only [Option.some.injEq, Prod.mk.injEq] at hq
      rw [← hq.2]
      exact hw'
    cases hw with
    | ret r m =>
      simp only [Option.some.injEq] at h
      subst h
      refine ⟨⟨((σ.threads t).todo.map fun c => callBudget c.2).sum, by omega, 0, ?_, ?_⟩, fun t' ht' => upd_other _ _ ht'⟩
      · simp [upd_same]
      · intro c' q hq; simp [upd_same] at hq
    | lockData hk =>
      simp only at h
      cases hl : σ.dataLock c.1 with
      | some _ => rw [hl] at h; simp at h
      | none =>
        rw [hl] at h
        simp only [Option.some.injEq] at h
        subst h
        refine ⟨⟨_, ?_, by simpa [Conc.goto, upd_same] using key _ _ rfl (hk _)⟩,
          fun t' ht' => by simp [Conc.goto, upd_other _ _ ht']⟩
        omega
    | lockStore hk =>
      simp only at h
      cases hl : σ.storeLock with
      | some _ => rw [hl] at h; simp at h
      | none =>
        rw [hl] at h
        simp only [Option.some.injEq] at h
        subst h
        refine ⟨⟨_, ?_, by simpa [Conc.goto, upd_same] using key _ _ rfl hk⟩,
          fun t' ht' => by simp [Conc.goto, upd_other _ _ ht']⟩
        omega
    | unlockData s hk =>
      simp only [Option.some.injEq] at h
      subst h
      refine ⟨⟨_, ?_, by simpa [Conc.goto, upd_same] using key _ _ rfl hk⟩,
        fun t' ht' => by simp [Conc.goto, upd_other _ _ ht']⟩
      omega
    | write b ho hk =>
      simp only [Option.some.injEq] at h
      subst h
      refine ⟨⟨_, ?_, by simpa [Conc.goto, upd_same] using key _ _ rfl hk⟩,
        fun t' ht' => by simp [Conc.goto, upd_other _ _ ht']⟩
      omega
    | unlockStore hk =>
      simp only [Option.some.injEq] at h
      subst h
      refine ⟨⟨_, ?_, by simpa [Conc.goto, upd_same] using key _ _ rfl hk⟩,
        fun t' ht' => by simp [Conc.goto, upd_other _ _ ht']⟩
      omega

/-- A failing write is a step towards the end as well. -/
theorem fails_left {n : Nat} {σ σ' : Conc n} {t : Fin n} {b : Nat} (h : σ.fails t b = some σ') {m : Nat}
    (hm : Left (σ.threads t) m) : (∃ m', m' + 1 ≤ m ∧ Left (σ'.threads t) m') ∧ ∀ t', t' ≠ t → σ'.threads t' = σ.threads t' := by
  obtain ⟨m0, h1, h2⟩ := hm
  unfold Conc.fails at h
  split at h
  · rename_i c d o k hcur
    simp only [Option.some.injEq] at h
    subst h
    cases h2 c _ hcur with
    | @write _ _ m _ ho hk =>
      refine ⟨⟨m + ((σ.threads t).todo.map fun c => callBudget c.2).sum, by omega, ?_⟩, fun t' ht' => by simp [Conc.goto, upd_other _ _ ht']⟩
      simp only [Conc.goto, upd_same]
      refine ⟨m, Nat.le_refl _, ?_⟩
      intro c' q hq
      simp only [Option.some.injEq, Prod.mk.injEq] at hq
      rw [← hq.2]
      exact ho
  · cases h

theorem run_bound {n : Nat} {tagOf : Nat → PageTag} {σ σ' : Conc n} {k : Nat} (h : Conc.Run tagOf σ k σ')
    {f : Fin n → Nat} (hf : ∀ t, Left (σ.threads t) (f t)) :
    ∃ f' : Fin n → Nat, (∀ t, Left (σ'.threads t) (f' t)) ∧ k + ∑ t, f' t ≤ ∑ t, f t := by
  induction h with
  | refl => exact ⟨f, hf, by omega⟩
  | @step k σ1 t σ2 _ hs ih =>
    obtain ⟨f1, hf1, hk⟩ := ih
    obtain ⟨⟨m', hm', hl⟩, hoth⟩ := step_left hs (hf1 t)
    refine ⟨upd f1 t m', ?_, ?_⟩
    · intro t'
      by_cases ht' : t' = t
      · subst ht'; rw [upd_same]; exact hl
      · rw [upd_other _ _ ht', hoth t' ht']; exact hf1 t'
    · have : ∑ x, upd f1 t m' x < ∑ x, f1 x := by
        apply Finset.sum_lt_sum
        · intro x _
          by_cases hx : x = t
          · subst hx; rw [upd_same]; omega
          · rw [upd_other _ _ hx]
        · exact ⟨t, Finset.mem_univ _, by rw [upd_same]; omega⟩
      omega

theorem init_left {n : Nat} (progs : Fin n → List Call) (t : Fin n) :
    Left ((Conc.init progs).threads t) ((progs t).map fun c => callBudget c.2).sum :=
  ⟨0, by simp [Conc.init], by simp [Conc.init]⟩

end Verif.Conc
