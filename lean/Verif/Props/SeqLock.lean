import Verif.Model.SeqLock
import Verif.Spec.Counters
import Mathlib.Tactic.Linarith
import Mathlib.Tactic.IntervalCases

/-!
# Property C73: what is read from the kernel's page belongs together
-/

namespace Verif.Counters
open Verif

theorem KernelRun.le {mem : Nat → MmapPage} (h : KernelRun mem) {a b : Nat} (hab : a ≤ b) : (mem a).seq ≤ (mem b).seq := by
  induction hab with
  | refl => exact Nat.le_refl _
  | @step b _ ih =>
    refine Nat.le_trans ih ?_
    rcases h b with e | e
    · rw [e]
    · generalize hq : mem (b + 1) = q at e
      cases e with
      | bump => exact Nat.le_succ _
      | set => exact Nat.le_refl _

/-- While no update is going on the fields stay. -/
theorem KernelRun.still {mem : Nat → MmapPage} (h : KernelRun mem) {a b : Nat} (hab : a ≤ b) (he : (mem a).seq % 2 = 0) (hs : (mem b).seq = (mem a).seq) :
    (mem b).fields = (mem a).fields := by
  induction hab with
  | refl => rfl
  | @step b hab ih =>
    have h1 := h.le hab
    have h2 := h.le (Nat.le_succ b)
    have hb : (mem b).seq = (mem a).seq := by omega
    rw [← ih hb]
    rcases h b with e | e
    · rw [e]
    · generalize hq : mem (b + 1) = q at e hs
      cases e with
      | bump => simp only [] at hs; omega
      | set i v ho => omega

theorem attempt_some {mem : Nat → MmapPage} {clock : Nat → Nat} {reads : List Nat} {j : Nat} {r : List UInt64} (h : attempt mem clock reads j = some r) :
    (mem (clock (j + 1 + reads.length))).lock = (mem (clock j)).lock ∧ r = reads.mapIdx fun i field => (mem (clock (j + 1 + i))).fields field := by
  unfold attempt at h
  simp only [] at h
  split at h
  · rename_i e; cases h; exact ⟨e, rfl⟩
  · cases h

theorem access_attempt {mem : Nat → MmapPage} {clock : Nat → Nat} {reads : List Nat} {j k : Nat} {r : List UInt64} (h : Access mem clock reads j k r) :
    attempt mem clock reads k = some r := by
  induction h with
  | done h => exact h
  | retry _ _ ih => exact ih

theorem lock_eq {p q : MmapPage} (h : p.lock = q.lock) (h1 : q.seq ≤ p.seq) (h2 : p.seq < q.seq + 2 ^ 32) : p.seq = q.seq := by
  have := congrArg UInt32.toNat h
  simp only [MmapPage.lock, UInt32.toNat_ofNat'] at this
  have e : p.seq % 2 ^ 32 = q.seq % 2 ^ 32 := this
  omega

end Verif.Counters

namespace Verif.Props
open Verif Verif.Counters

/-- **C73.** However the kernel updates the page while it is read, and however often the reader has to start again: if no update was going on when the iteration
that returns began, and the kernel makes fewer than 2^31 updates during it, then what is returned is what the page contained at one moment. -/
theorem C73_one_moment (mem : Nat → MmapPage) (hk : KernelRun mem) (clock : Nat → Nat) (hc : ∀ i j, i ≤ j → clock i ≤ clock j) (reads : List Nat)
    {j k : Nat} {r : List UInt64} (h : Access mem clock reads j k r) (hi : (mem (clock k)).seq % 2 = 0)
    (hf : (mem (clock (k + 1 + reads.length))).seq < (mem (clock k)).seq + 2 ^ 32) :
    r = reads.map (mem (clock k)).fields := by
  obtain ⟨hl, hr⟩ := attempt_some (access_attempt h)
  have hseq := lock_eq hl (hk.le (hc _ _ (by omega))) hf
  rw [hr]
  apply List.ext_getElem
  · simp
  · intro i h1 h2
    simp only [List.length_map] at h2
    simp only [List.getElem_mapIdx, List.getElem_map]
    have ha : (mem (clock k)).seq ≤ (mem (clock (k + 1 + i))).seq := hk.le (hc _ _ (by omega))
    have hb : (mem (clock (k + 1 + i))).seq ≤ (mem (clock (k + 1 + reads.length))).seq := hk.le (hc _ _ (by omega))
    rw [hk.still (hc _ _ (by omega)) hi (by omega)]

/-- **C73** (the use that is made of it). The counter belongs to the thread that creates it, so the kernel updates its page while the thread is not running: no
access of the reader is inside an update. Then a hardware counter is created, or refused, according to what the page says at one moment. -/
theorem C73_counter_creation (mem : Nat → MmapPage) (hk : KernelRun mem) (clock : Nat → Nat) (hc : ∀ i j, i ≤ j → clock i ≤ clock j)
    (own : ∀ i, (mem (clock i)).seq % 2 = 0) {k : Nat} {r : List UInt64} (h : Access mem clock creationReads 0 k r)
    (hf : (mem (clock (k + 6))).seq < (mem (clock k)).seq + 2 ^ 32) (type_ config reg : Nat) :
    newHwCounter (fun t c => if t = type_ ∧ c = config then some (perfPage r) else none) type_ config = .ok reg ↔
      let page := (mem (clock k)).fields
      (page 2).toNat.testBit 2 = true ∧ (page 3).toNat = reg + 1 ∧ page 4 = 48 := by
  have hr := C73_one_moment mem hk clock hc creationReads h (own k) hf
  have hw : ∀ x : UInt64, x = 48 ↔ x.toNat = 48 := fun x => ⟨fun h => by rw [h]; rfl, fun h => UInt64.toNat_inj.mp h⟩
  subst hr
  simp only [newHwCounter, and_self, if_true, perfPage, creationReads, List.map_cons, List.map_nil, List.getD_cons_succ, List.getD_cons_zero, hw]
  generalize (mem (clock k)).fields 2 = a
  generalize (mem (clock k)).fields 3 = b
  generalize (mem (clock k)).fields 4 = c
  split
  · rename_i h; simp [h]
  · rename_i h
    simp only [Bool.not_eq_false] at h
    split
    · rename_i hb; simp [hb]
    · split
      · rename_i hb hc; simp [hc]
      · rename_i hb hc
        simp only [ne_eq, Decidable.not_not] at hc
        simp only [h, hc, and_true, true_and, Except.ok.injEq]
        omega

/-- **C73** (termination). If the kernel leaves the page alone from some moment on, the reader returns. -/
theorem C73_returns (mem : Nat → MmapPage) (clock : Nat → Nat) (reads : List Nat) (j N : Nat)
    (quiet : ∀ i, N ≤ i → mem (clock i) = mem (clock N)) : ∃ k r, Access mem clock reads j k r := by
  have hdone : ∀ j, N ≤ j → ∃ r, attempt mem clock reads j = some r := by
    intro j hj
    apply Option.isSome_iff_exists.mp
    unfold attempt
    simp only []
    rw [quiet j hj, quiet (j + 1 + reads.length) (by omega), if_pos rfl]
    rfl
  induction hm : N - j using Nat.strongRecOn generalizing j with
  | ind m ih =>
    by_cases hj : N ≤ j
    · obtain ⟨r, hr⟩ := hdone j hj
      exact ⟨j, r, .done hr⟩
    · cases ha : attempt mem clock reads j with
      | some r => exact ⟨j, r, .done ha⟩
      | none =>
        obtain ⟨k, r, h⟩ := ih (N - (j + 2 + reads.length)) (by omega) (j + 2 + reads.length) rfl
        exact ⟨k, r, .retry ha h⟩

/-- **C73** (no needless retry). The reader starts again only if the kernel has begun or ended an update in between. -/
theorem C73_retries_only_on_updates (mem : Nat → MmapPage) (hk : KernelRun mem) (clock : Nat → Nat) (hc : ∀ i j, i ≤ j → clock i ≤ clock j) (reads : List Nat) (j : Nat)
    (h : attempt mem clock reads j = none) : (mem (clock j)).seq < (mem (clock (j + 1 + reads.length))).seq := by
  have h1 : (mem (clock j)).seq ≤ (mem (clock (j + 1 + reads.length))).seq := hk.le (hc _ _ (by omega))
  by_contra hn
  have : (mem (clock (j + 1 + reads.length))).seq = (mem (clock j)).seq := by omega
  unfold attempt at h
  simp only [MmapPage.lock, this, if_true] at h
  cases h

/-- A page whose first two fields always say the same between updates: the `u`-th update, which takes four moments, sets both to `u`. -/
def exPages (n : Nat) : MmapPage where
  seq := 2 * (n / 4) + (if n % 4 = 0 then 0 else 1)
  fields := fun i => if i = 0 then UInt64.ofNat (n / 4 + (if n % 4 < 2 then 0 else 1)) else if i = 1 then UInt64.ofNat (n / 4 + (if n % 4 < 3 then 0 else 1)) else 0

theorem exPages_run : KernelRun exPages := by
  intro n
  right
  have h4 : n % 4 < 4 := Nat.mod_lt _ (by decide)
  have hn : n = 4 * (n / 4) + n % 4 := by omega
  generalize n / 4 = u at hn
  generalize n % 4 = r at hn h4
  subst hn
  interval_cases r
  · have e : exPages (4 * u + 0 + 1) = ⟨(exPages (4 * u + 0)).seq + 1, (exPages (4 * u + 0)).fields⟩ := by
      simp only [exPages, show (4 * u + 0 + 1) / 4 = u by omega, show (4 * u + 0 + 1) % 4 = 1 by omega, show (4 * u + 0) / 4 = u by omega,
        show (4 * u + 0) % 4 = 0 by omega]
      simp
    rw [e]
    exact .bump _
  · have e : exPages (4 * u + 1 + 1) = ⟨(exPages (4 * u + 1)).seq, fun j => if j = 0 then UInt64.ofNat (u + 1) else (exPages (4 * u + 1)).fields j⟩ := by
      simp only [exPages, show (4 * u + 1 + 1) / 4 = u by omega, show (4 * u + 1 + 1) % 4 = 2 by omega, show (4 * u + 1) / 4 = u by omega,
        show (4 * u + 1) % 4 = 1 by omega]
      refine congrArg₂ MmapPage.mk (by simp) ?_
      funext j
      by_cases h : j = 0 <;> simp [h]
    rw [e]
    refine .set _ 0 _ ?_
    simp only [exPages, show (4 * u + 1) / 4 = u by omega, show (4 * u + 1) % 4 = 1 by omega]
    simp
  · have e : exPages (4 * u + 2 + 1) = ⟨(exPages (4 * u + 2)).seq, fun j => if j = 1 then UInt64.ofNat (u + 1) else (exPages (4 * u + 2)).fields j⟩ := by
      simp only [exPages, show (4 * u + 2 + 1) / 4 = u by omega, show (4 * u + 2 + 1) % 4 = 3 by omega, show (4 * u + 2) / 4 = u by omega,
        show (4 * u + 2) % 4 = 2 by omega]
      refine congrArg₂ MmapPage.mk (by simp) ?_
      funext j
      by_cases h : j = 0
      · simp [h]
      · by_cases h1 : j = 1 <;> simp [h, h1]
    rw [e]
    refine .set _ 1 _ ?_
    simp only [exPages, show (4 * u + 2) / 4 = u by omega, show (4 * u + 2) % 4 = 2 by omega]
    simp
  · have e : exPages (4 * u + 3 + 1) = ⟨(exPages (4 * u + 3)).seq + 1, (exPages (4 * u + 3)).fields⟩ := by
      simp only [exPages, show (4 * u + 3 + 1) / 4 = u + 1 by omega, show (4 * u + 3 + 1) % 4 = 0 by omega, show (4 * u + 3) / 4 = u by omega,
        show (4 * u + 3) % 4 = 3 by omega]
      simp
      omega
    rw [e]
    exact .bump _

theorem exPages_same (n : Nat) (h : (exPages n).seq % 2 = 0) : (exPages n).fields 0 = (exPages n).fields 1 := by
  have : n % 4 = 0 := by
    simp only [exPages] at h
    split at h
    · assumption
    · omega
  simp [exPages, this]

/-- **C73** (not checked: an update that is going on). The code accepts an odd `lock`: read while the kernel updates the page, two fields that always agree
between updates are returned as different. -/
theorem C73_torn_during_update : ∃ (mem : Nat → MmapPage) (clock : Nat → Nat) (r : List UInt64), KernelRun mem ∧ (∀ i j, i ≤ j → clock i ≤ clock j) ∧
    Access mem clock [0, 1] 0 0 r ∧ ∀ n, (mem n).seq % 2 = 0 → r ≠ [0, 1].map (mem n).fields := by
  refine ⟨exPages, fun _ => 2, [1, 0], exPages_run, fun _ _ _ => Nat.le_refl _, .done (by decide), fun n hn h => ?_⟩
  have := exPages_same n hn
  simp only [List.map_cons, List.map_nil, List.cons.injEq, and_true] at h
  rw [← h.1, ← h.2] at this
  exact absurd this (by decide)

/-- **C73** (the bound is exact). With 2^31 updates during one iteration the 32-bit `lock` is back at the same value, and values of different moments are returned. -/
theorem C73_torn_after_wraparound : ∃ (mem : Nat → MmapPage) (clock : Nat → Nat) (r : List UInt64), KernelRun mem ∧ (∀ i j, i ≤ j → clock i ≤ clock j) ∧
    (∀ i, (mem (clock i)).seq % 2 = 0) ∧ (mem (clock 3)).seq = (mem (clock 0)).seq + 2 ^ 32 ∧
    Access mem clock [0, 1] 0 0 r ∧ ∀ n, (mem n).seq % 2 = 0 → r ≠ [0, 1].map (mem n).fields := by
  refine ⟨exPages, fun i => if i < 2 then 0 else 4 * 2 ^ 31, [0, 2147483648], exPages_run, ?_, ?_, by decide, .done (by decide), fun n hn h => ?_⟩
  · intro i j hij
    simp only []
    split
    · exact Nat.zero_le _
    · rw [if_neg (by omega)]
  · intro i
    simp only []
    split <;> decide
  · have := exPages_same n hn
    simp only [List.map_cons, List.map_nil, List.cons.injEq, and_true] at h
    rw [← h.1, ← h.2] at this
    exact absurd this (by decide)

/-- Non-vacuity: the kernel updates the page during the first iteration; the reader starts again and returns what belongs together. -/
example : ∃ (clock : Nat → Nat) (k : Nat) (r : List UInt64), (∀ i j, i ≤ j → clock i ≤ clock j) ∧ (∀ i, (exPages (clock i)).seq % 2 = 0) ∧
    Access exPages clock [0, 1] 0 k r ∧ k = 4 ∧ r = [1, 1] ∧ (exPages (clock (k + 1 + 2))).seq < (exPages (clock k)).seq + 2 ^ 32 := by
  refine ⟨fun i => if i < 2 then 0 else 4, 4, [1, 1], ?_, ?_, .retry (by decide) (.done (by decide)), rfl, rfl, by decide⟩
  · intro i j hij
    simp only []
    split
    · exact Nat.zero_le _
    · rw [if_neg (by omega)]
  · intro i
    simp only []
    split <;> decide

/-- Non-vacuity of `C73_counter_creation`: a page that grants register 2. -/
example : ∃ (mem : Nat → MmapPage) (clock : Nat → Nat) (r : List UInt64), KernelRun mem ∧ (∀ i j, i ≤ j → clock i ≤ clock j) ∧
    (∀ i, (mem (clock i)).seq % 2 = 0) ∧ Access mem clock creationReads 0 0 r ∧
    newHwCounter (fun t c => if t = 0 ∧ c = 1 then some (perfPage r) else none) 0 1 = .ok 2 := by
  refine ⟨fun _ => ⟨6, fun i => if i = 2 then 4 else if i = 3 then 3 else 48⟩, id, [48, 48, 4, 3, 48], fun _ => .inl rfl, fun _ _ h => h, fun _ => by simp,
    .done (by decide), ?_⟩
  rfl

end Verif.Props
