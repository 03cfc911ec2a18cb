import Verif.Props.Container
import Verif.Proofs.Panics
import Verif.Props.Custom

/-!
# Property C82: what a callback that panics leaves behind

A program may catch the panic of its own `write_atomic` callback (or of the string it was storing) and go on: the lock of the sink is not poisoned.
-/

namespace Verif.Props

open Verif Verif.Mm Verif.Spec

/-- **C82** (streams). After any history with any number of panicking callbacks the store still splits, and the stream of every flushed sink with its own
tag is what its calls left: their data and, for every callback of at most a page that panicked, the contents of its slice at that moment. -/
theorem C82_streams (tagOf : Nat → PageTag) (h : History) (hk : AllLengthsKept h) :
    ∃ m, splitStreams (storeAfter tagOf h) = .ok m ∧ ∀ i, TagUnshared tagOf i h → Flushed i h → (m (tagOf i)).getD [] = leftBehind i h := by
  obtain ⟨pages, inv⟩ := panics_inv tagOf h hk
  refine ⟨mergePages (fun _ => none) pages, ?_, ?_⟩
  · have : storeAfter tagOf h = storeOf pages := by simp [storeAfter, inv.store]
    rw [this]
    exact splitStreams_storeOf pages (fun p hp => split_of_writer (inv.bodies p hp))
  · intro i hun hfl
    have hc := inv.content i hun
    rw [inv.fresh i hfl, List.append_nil] at hc
    rw [mergePages_getD, hc]

/-- **C82** (outcomes). A call fails exactly if its own callback panics, with that panic, however many callbacks panicked before; a write that succeeds
returns the number of bytes *successfully* written to the sink before it. -/
theorem C82_outcomes (tagOf : Nat → PageTag) (h1 h2 : History) (i : Nat) (c : SinkCall) (hk : AllLengthsKept (h1 ++ (i, c) :: h2)) :
    (∀ e, CallbackPanics c e → (outcomes tagOf (h1 ++ (i, c) :: h2))[h1.length]? = some (.error e)) ∧
    ((∀ e, ¬ CallbackPanics c e) → ∃ a, (outcomes tagOf (h1 ++ (i, c) :: h2))[h1.length]? = some (.ok a) ∧
      (ReturnsAddr c → a = some (written i h1).length)) := by
  obtain ⟨pages, inv⟩ := panics_inv tagOf h1 (fun x hx => hk x (by simp [hx]))
  obtain ⟨r, w', pages', hcall, _, hpan, hret⟩ := inv.step i c (hk (i, c) (by simp))
  have hr : (World.call tagOf i c (run tagOf h1).2).1 = r := by rw [hcall]
  constructor
  · intro e he
    rw [outcome_at, hr, hpan e he]
  · intro hn
    obtain ⟨a, h1, h2⟩ := hret hn
    exact ⟨a, by rw [outcome_at, hr, h1], h2⟩

theorem leftBehind_length (i : Nat) (h : History) (hk : AllLengthsKept h) : (leftBehind i h).length = (written i h).length + drift i h := by
  induction h with
  | nil => rfl
  | cons x h ih =>
    obtain ⟨j, c⟩ := x
    rw [show (j, c) :: h = [(j, c)] ++ h from rfl, leftBehind_append, written_append]
    have hd : drift i ([(j, c)] ++ h) = drift i [(j, c)] + drift i h := by simp [drift]
    rw [hd, List.length_append, List.length_append, ih fun x hx => hk x (List.mem_cons_of_mem _ hx)]
    suffices hs : (leftBehind i [(j, c)]).length = (written i [(j, c)]).length + drift i [(j, c)] by omega
    by_cases hj : j = i
    · subst hj
      rw [leftBehind_same, written_single_same]
      cases c with
      | writeAtomic num fill =>
        cases hf : fill (List.replicate num 0) with
        | ok out => simp [leaves, payload, drift, hf]
        | error ep =>
          have := (hk _ List.mem_cons_self num fill rfl ep.2).2 ep.1 hf
          by_cases hn : num ≤ 262144 <;> simp [leaves, payload, drift, hf, hn, this]
      | _ => simp [leaves, payload, drift]
    · rw [leftBehind_other hj, written_single_other hj]
      simp [drift, hj]

/-- **C82** (addresses). A write whose callback does not panic returns an address `a` and its bytes are in the stream at `a` plus the sizes of the slices of
at most a page whose callbacks panicked before, on this sink: the addresses of a sink are right up to the first such panic, and wrong (too small,
by that much) for ever after it. Panics in other sinks' callbacks, and in callbacks of more than a page, do no harm. -/
theorem C82_addresses (tagOf : Nat → PageTag) (h1 h2 : History) (i : Nat) (c : SinkCall) (hk : AllLengthsKept (h1 ++ (i, c) :: h2))
    (hc : ReturnsAddr c) (hp : ∀ e, ¬ CallbackPanics c e)
    (hun : TagUnshared tagOf i (h1 ++ (i, c) :: h2)) (hfl : Flushed i (h1 ++ (i, c) :: h2)) :
    ∃ a stream, (outcomes tagOf (h1 ++ (i, c) :: h2))[h1.length]? = some (.ok (some a)) ∧
      Recovers (storeAfter tagOf (h1 ++ (i, c) :: h2)) (tagOf i) stream ∧
      ∃ before after, stream = before ++ payload c ++ after ∧ before.length = a + drift i h1 := by
  obtain ⟨a, ho, ha⟩ := (C82_outcomes tagOf h1 h2 i c hk).2 hp
  obtain ⟨m, hm, hs⟩ := C82_streams tagOf _ hk
  refine ⟨(written i h1).length, leftBehind i (h1 ++ (i, c) :: h2), by rw [ho, ha hc], ⟨m, hm, hs i hun hfl⟩, leftBehind i h1, leftBehind i h2, ?_,
    leftBehind_length i h1 fun x hx => hk x (by simp [hx])⟩
  rw [show h1 ++ (i, c) :: h2 = h1 ++ [(i, c)] ++ h2 by simp, leftBehind_append, leftBehind_append, leftBehind_same]
  congr 2
  cases c with
  | writeAtomic num fill =>
    cases hf : fill (List.replicate num 0) with
    | ok out => simp [leaves, payload, hf]
    | error ep => exact absurd ⟨num, fill, ep.2, rfl, hf⟩ (hp ep.1)
  | _ => rfl

/-- **C82** (when the addresses are right). Nothing drifts exactly as long as no callback of one to 262 144 bytes panicked on this sink. -/
theorem C82_no_drift (i : Nat) (h : History) :
    drift i h = 0 ↔ ∀ num fill e, (i, .writeAtomic num fill) ∈ h → fill (List.replicate num 0) = .error e → num = 0 ∨ 262144 < num := by
  simp only [drift, List.sum_eq_zero_iff_forall_eq_nat, List.mem_map, forall_exists_index, and_imp, forall_apply_eq_imp_iff₂]
  constructor
  · intro h0 num fill e hm hf
    have := h0 _ hm
    simp only [if_true, hf] at this
    by_cases hn : num ≤ 262144
    · rw [if_pos hn] at this
      exact .inl this
    · exact .inr (by omega)
  · rintro h0 ⟨j, c⟩ hm
    by_cases hj : j = i
    · subst hj
      cases c with
      | writeAtomic num fill =>
        cases hf : fill (List.replicate num 0) with
        | ok out => simp [hf]
        | error e =>
          rcases h0 num fill e hm hf with rfl | hgt
          · simp only [if_true]
            split <;> simp
          · have : ¬ num ≤ 262144 := by omega
            simp [hf, this]
      | _ => simp
    · simp [hj]

/-- A history with a callback that panics, between two that do not. -/
def exPanics : History := [(0, .writeBytes [9]), (0, .writeAtomic 2 (fun _ => .error (.panic "user", [3, 0]))), (1, .writeBytes [4]), (0, .writeBytes [5, 6]), (0, .drop), (1, .drop)]

example : AllLengthsKept exPanics ∧ TagUnshared exTags 0 exPanics ∧ Flushed 0 exPanics ∧ CallbackPanics (.writeAtomic 2 (fun _ => .error (.panic "user", [3, 0]))) (.panic "user") ∧
    leftBehind 0 exPanics = [9, 3, 0, 5, 6] ∧ drift 0 (exPanics.take 3) = 2 ∧ drift 1 exPanics = 0 := by
  refine ⟨?_, ?_, .inr ⟨exPanics.take 4, .drop, [(1, .drop)], rfl, trivial, by simp⟩, ⟨_, _, _, rfl, rfl⟩, by decide, by decide, by decide⟩
  · simp [AllLengthsKept, exPanics]
  · simp [TagUnshared, exPanics, exTags]

example : (outcomes exTags exPanics)[3]? = some (.ok (some 1)) ∧ (outcomes exTags exPanics)[1]? = some (.error (.panic "user")) := by decide

/-- Storing a value of the program's own type whose `serialize` panics after two of three bytes (and the panic is caught), then two strings. -/
def exLost : List SessionOp :=
  [.custom 3 (fun _ => .error (.panic "user", [120, 121, 0])), .table (.alloc (.str "ab")), .table (.alloc (.str "cd"))]

/-- **C82** (strings). The strings stored after such a panic are wrong, although every call on them succeeded and the file opens: here the first reads as
what the panicking value had written and its text, and the second reads as the *first*. -/
theorem C82_strings_after_a_panic :
    (runOps exLost (newBuilder World.init).2).1 = [.error (.panic "user"), .ok (some 100000011), .ok (some 100000014)] ∧
    (loadTable (savedStore exLost)).bind (fun t => t.toStr 5 100000011) = .ok (utf8 "xy\x00ab") ∧
    (loadTable (savedStore exLost)).bind (fun t => t.toStr 5 100000014) = .ok (utf8 "ab") := by
  decide +kernel

end Verif.Props
