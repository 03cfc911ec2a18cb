import Verif.Props.Concurrent
import Verif.Props.Panics

/-!
# C82, continued: callbacks that panic on one of several threads
-/

namespace Verif.Props

open Verif Verif.Mm Verif.Spec Verif.Conc

/-- **C82** (threads). Threads that catch the panics of their callbacks and go on: whatever the schedule, when all have finished the store splits, and stream and buffer of every sink with its own tag hold what the calls
left, in the linearized order. Exactly the calls whose callbacks panicked failed, each with its own panic; a write that returned `a` is found at `a` plus the slices of the panics that came before it on this sink, on
any thread: one thread's panic makes all threads' later addresses wrong. -/
theorem C82_threads {n : Nat} (tagOf : Nat → PageTag) (progs : Fin n → List Call) {k : Nat} {σ : Conc n}
    (h : Conc.Run tagOf (Conc.init progs) k σ) (hf : σ.Finished) (hk : ∀ t, AllLengthsKept (progs t)) (i : Nat)
    (hun : ProgsTagUnshared tagOf i progs) :
    ∃ H m, Linearization tagOf σ.log H ∧ splitStreams σ.store = .ok m ∧
      (m (tagOf i)).getD [] ++ (σ.data i).buffer = leftBehind i (historyOf H) ∧
      ∀ t c r, ((i, c), r) ∈ returned t σ.log →
        (∀ e, CallbackPanics c e → r = .error e) ∧
        ((∀ e, ¬ CallbackPanics c e) → IsOk r ∧ (ReturnsAddr c → ∃ a before, r = .ok (some a) ∧ before ++ [(i, c)] <+: historyOf H ∧ a = (written i before).length ∧
          (((m (tagOf i)).getD [] ++ (σ.data i).buffer).drop (a + drift i before)).take (payload c).length = payload c)) := by
  obtain ⟨H, P, Q, w, inv, _⟩ := (Inv.init tagOf progs).run h
  obtain ⟨f1, f2, f3⟩ := inv.finished hf
  have hw : (run tagOf (historyOf H)).2 = w := by unfold Spec.run; rw [inv.exec]
  obtain ⟨u1, u2, u3⟩ := inv.unshared hun
  have hk' : AllLengthsKept (historyOf H) := by
    intro x hx
    obtain ⟨t, ht⟩ := inv.history_progs x hx
    exact hk t x ht
  obtain ⟨pages, winv⟩ := panics_inv tagOf (historyOf H) hk'
  rw [hw] at winv
  have hp : pages = pagesOf tagOf Q := by
    apply storeOf_inj (fun p hp => split_of_writer (winv.bodies p hp)) (fun p hp => split_of_writer (inv.pages_ok.2 p hp))
    have e1 := winv.store
    rw [inv.wstore] at e1
    exact (congrArg Store.data e1).symm
  have hc := winv.content i u1
  rw [hp, streamOf_pagesOf u3, (inv.free i (f2 i)).2, ← streamOf_pagesOf u2, ← mergePages_getD,
    ← (inv.free i (f2 i)).1] at hc
  refine ⟨H, _, inv.lin, ?_, hc, ?_⟩
  · rw [inv.sfree f3]; exact splitStreams_storeOf _ (fun p hp => split_of_writer (inv.pages_ok.1 p hp))
  · intro t c r hmem
    rw [hc]
    rw [← (f1 t).1] at hmem
    obtain ⟨e, he, heq⟩ := List.mem_map.1 hmem
    simp only [List.mem_filter, decide_eq_true_eq] at he
    obtain ⟨H1, H2, hH⟩ := List.append_of_mem he.1
    have hecall : e.call = (i, c) := congrArg Prod.fst heq
    have heres : e.res = r := congrArg Prod.snd heq
    have hhist : historyOf H = historyOf H1 ++ (i, c) :: historyOf H2 := by
      rw [hH]; simp [historyOf, hecall]
    have hleg := inv.lin.legal
    have hout : (outcomes tagOf (historyOf H))[(historyOf H1).length]? = some r := by
      rw [hleg, hH]
      simp [historyOf, heres]
    have hk2 : AllLengthsKept (historyOf H1 ++ (i, c) :: historyOf H2) := by rw [← hhist]; exact hk'
    obtain ⟨o1, o2⟩ := C82_outcomes tagOf (historyOf H1) (historyOf H2) i c hk2
    rw [← hhist, hout] at o1
    rw [← hhist, hout] at o2
    refine ⟨fun e he => Option.some.inj (o1 e he), fun hn => ?_⟩
    obtain ⟨a, ha, haddr⟩ := o2 hn
    have hr : r = .ok a := Option.some.inj ha
    refine ⟨by rw [hr]; trivial, fun hret => ⟨(written i (historyOf H1)).length, historyOf H1, by rw [hr, haddr hret], ?_, rfl, ?_⟩⟩
    · rw [hhist]
      exact ⟨historyOf H2, by simp⟩
    · have hl := leftBehind_length i (historyOf H1) fun x hx => hk2 x (by simp [hx])
      have hpay : leaves c = payload c := by
        cases c with
        | writeAtomic num fill =>
          cases hfil : fill (List.replicate num 0) with
          | ok out => simp [leaves, payload, hfil]
          | error ep => exact absurd ⟨num, fill, ep.2, rfl, hfil⟩ (hn ep.1)
        | _ => rfl
      rw [hhist, show historyOf H1 ++ (i, c) :: historyOf H2 = historyOf H1 ++ [(i, c)] ++ historyOf H2 by simp, leftBehind_append, leftBehind_append, leftBehind_same,
        hpay, ← hl, List.append_assoc, List.drop_left, List.take_left]

/-- Two threads on one sink; the callback of the first panics. -/
def exPanicThreads : Fin 2 → List Call
  | 0 => [(0, .writeAtomic 2 (fun _ => .error (.panic "user", [3, 0]))), (0, .drop)]
  | 1 => [(0, .writeBytes [5])]

example : (∀ t, AllLengthsKept (exPanicThreads t)) ∧ ProgsTagUnshared exTags 0 exPanicThreads ∧
    ∃ k σ, Conc.Run exTags (Conc.init exPanicThreads) k σ ∧ σ.Finished := by
  refine ⟨?_, ?_, ?_⟩
  · intro t
    match t with
    | 0 => simp [AllLengthsKept, exPanicThreads]
    | 1 => simp [AllLengthsKept, exPanicThreads]
  · intro t x hx _
    match t with
    | 0 => simp [exPanicThreads] at hx; rcases hx with rfl | rfl <;> rfl
    | 1 => simp [exPanicThreads] at hx; rw [hx]
  · obtain ⟨k', σ', h1, _, h3⟩ := C08_always_finishes exTags exPanicThreads (.refl _)
    exact ⟨k', σ', h1, h3⟩

end Verif.Props
