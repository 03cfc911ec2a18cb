import Verif.Proofs.ConcFaultsInv
import Verif.Props.ConcKilled

/-! # Property C72: several threads and I/O errors

All theorems quantify over every number of threads, every program of every thread, every schedule, and every choice of the writes that fail and of
how much of the data reaches the store when they do. -/

namespace Verif.Conc
open Verif Verif.Mm Verif.Spec

section facts
variable {n : Nat} {tagOf : Nat → PageTag} {progs : Fin n → List Call} {σ : Conc n} {f : Nat} {H : List (LinEntry n)}
  {faults : List (Option Nat)} {fs : Fin n → List (Option Nat)}

theorem FInv.lin (inv : FInv tagOf progs σ f H faults fs) : FaultyLinearization tagOf σ.log faults H where
  legal := by
    obtain ⟨st, h⟩ := inv.exec []
    rw [List.append_nil] at h
    unfold faultyOutcomes
    rw [h]
  threads := fun t => (inv.stage t).between
  realTime := inv.rt

theorem FInv.finished (inv : FInv tagOf progs σ f H faults fs) (hf : σ.Finished) :
    (∀ t, entriesOf t H = returned t σ.log ∧ (returned t σ.log).map Prod.fst = progs t) ∧ (∀ i, σ.dataLock i = none) ∧ σ.storeLock = none ∧
      ∀ t, fs t = [] := by
  have hid : ∀ t, (∀ i, σ.dataLock i ≠ some t) ∧ σ.storeLock ≠ some t ∧ entriesOf t H = returned t σ.log ∧
      started t σ.log = (returned t σ.log).map Prod.fst ∧ fs t = [] := by
    intro t
    have hc := (hf t).2
    cases inv.stage t with
    | idle h0 _ h2 h3 h4 h5 => exact ⟨h2, h3, h4, h5, h0⟩
    | ready _ _ h1 => rw [hc] at h1; cases h1
    | inside _ _ _ h1 => rw [hc] at h1; cases h1
    | leaving _ _ _ h1 => rw [hc] at h1; cases h1
  refine ⟨fun t => ⟨(hid t).2.2.1, ?_⟩, ?_, ?_, fun t => (hid t).2.2.2.2⟩
  · rw [inv.prog t, (hf t).1, (hid t).2.2.2.1]; simp
  · intro i
    cases h : σ.dataLock i with
    | none => rfl
    | some t => exact absurd h ((hid t).1 i)
  · cases h : σ.storeLock with
    | none => rfl
    | some t => exact absurd h (hid t).2.1

theorem Sh.steps {σ : Conc n} {t : Fin n} {c : Call} {p : Prog} {held : Bool} (h : Sh held p) (hc : (σ.threads t).cur = some (c, p))
    (hs : held = false → σ.storeLock = none) : ∃ σ', Conc.step tagOf σ t = some σ' := by
  unfold Conc.step
  rw [hc]
  cases h with
  | fin s r => exact ⟨_, rfl⟩
  | lock h => simp only [hs rfl]; exact ⟨_, rfl⟩
  | unlock h => exact ⟨_, rfl⟩
  | write b _ _ _ => exact ⟨_, rfl⟩

theorem FInv.progress (inv : FInv tagOf progs σ f H faults fs) (hnf : ¬ σ.Finished) : ∃ t σ', Conc.step tagOf σ t = some σ' := by
  cases hsl : σ.storeLock with
  | some t =>
    cases inv.stage t with
    | inside c p held h1 h2 _ _ h5 =>
      have : held = true := h5.mp hsl
      subst this
      exact ⟨t, h2.steps h1 (by simp)⟩
    | idle _ _ _ h3 => exact absurd hsl h3
    | ready _ _ _ _ h3 => exact absurd hsl h3
    | leaving _ _ _ _ _ h3 => exact absurd hsl h3
  | none =>
    by_cases hd : ∃ i t, σ.dataLock i = some t
    · obtain ⟨i, t, hd⟩ := hd
      cases inv.stage t with
      | inside c p held h1 h2 => exact ⟨t, h2.steps h1 fun _ => hsl⟩
      | idle _ _ h2 => exact absurd hd (h2 i)
      | ready _ _ _ h2 => exact absurd hd (h2 i)
      | leaving _ _ _ _ h2 => exact absurd hd (h2 i)
    · have hd' : ∀ i, σ.dataLock i = none := by
        intro i
        cases h : σ.dataLock i with
        | none => rfl
        | some t => exact absurd ⟨i, t, h⟩ hd
      obtain ⟨t, ht⟩ : ∃ t, ¬ ((σ.threads t).todo = [] ∧ (σ.threads t).cur = none) := by
        by_contra hall
        exact hnf fun t => by
          by_contra h
          exact hall ⟨t, h⟩
      refine ⟨t, ?_⟩
      cases inv.stage t with
      | inside c p held _ _ h3 => rw [hd'] at h3; cases h3
      | idle _ h1 =>
        unfold Conc.step
        rw [h1]
        cases htodo : (σ.threads t).todo with
        | nil => exact absurd ⟨htodo, h1⟩ ht
        | cons c rest => exact ⟨_, rfl⟩
      | ready c _ h1 =>
        unfold Conc.step
        rw [h1]
        rcases code_sh (tagOf c.1) c.2 with ⟨r, hr⟩ | ⟨k, hk, _⟩
        · rw [hr]; exact ⟨_, rfl⟩
        · rw [hk]; simp [hd']
      | leaving c r _ h1 =>
        unfold Conc.step
        rw [h1]
        simp

end facts

theorem fails_store {n : Nat} {tagOf : Nat → PageTag} {σ σ' : Conc n} {t : Fin n} {b : Nat} (h : σ.fails t b = some σ') :
    σ.store <+: σ'.store ∧ σ'.log = σ.log ∧ ∃ σ'', Conc.step tagOf σ t = some σ'' ∧ σ'.store <+: σ''.store ∧ σ''.log = σ.log := by
  unfold Conc.fails at h
  split at h
  · rename_i c d o k hcur
    cases h
    refine ⟨List.prefix_append _ _, rfl, { σ.goto t c k with store := σ.store ++ d }, ?_, ?_, rfl⟩
    · unfold Conc.step; rw [hcur]
    · exact (List.prefix_append_right_inj _).mpr (List.take_prefix _ _)
  · cases h

theorem frun_store {n : Nat} {tagOf : Nat → PageTag} {σ σ' : Conc n} {k f : Nat} (h : Conc.FRun tagOf σ k f σ') : σ.store <+: σ'.store := by
  induction h with
  | refl => exact List.prefix_rfl
  | step _ hs ih => exact ih.trans (run_store ((Conc.Run.refl _).step hs))
  | fails _ hs ih => exact ih.trans (fails_store (tagOf := tagOf) hs).1

theorem frun_trans {n : Nat} {tagOf : Nat → PageTag} {σ σ' σ'' : Conc n} {k f k' f' : Nat} (h : Conc.FRun tagOf σ k f σ')
    (h' : Conc.FRun tagOf σ' k' f' σ'') : Conc.FRun tagOf σ (k + k') (f + f') σ'' := by
  induction h' with
  | refl => exact h
  | step _ hs ih => exact ih.step hs
  | fails _ hs ih => exact ih.fails hs

theorem frun_none {n : Nat} {tagOf : Nat → PageTag} {σ σ' : Conc n} {k f : Nat} (h : Conc.FRun tagOf σ k f σ') : f = 0 → Conc.Run tagOf σ k σ' := by
  induction h with
  | refl => exact fun _ => .refl _
  | step _ hs ih => exact fun hf => (ih hf).step hs
  | fails _ _ _ => exact fun hf => by cases hf

theorem run_frun {n : Nat} {tagOf : Nat → PageTag} {σ σ' : Conc n} {k : Nat} (h : Conc.Run tagOf σ k σ') : Conc.FRun tagOf σ k 0 σ' := by
  induction h with
  | refl => exact .refl _
  | step _ hs ih => exact ih.step hs

theorem sum_upd_lt {n : Nat} {g : Fin n → Nat} {t : Fin n} {m : Nat} (h : m + 1 ≤ g t) : ∑ x, upd g t m x < ∑ x, g x := by
  apply Finset.sum_lt_sum
  · intro x _
    by_cases hx : x = t
    · subst hx; rw [upd_same]; omega
    · rw [upd_other _ _ hx]
  · exact ⟨t, Finset.mem_univ _, by rw [upd_same]; omega⟩

theorem frun_bound {n : Nat} {tagOf : Nat → PageTag} {σ σ' : Conc n} {k e : Nat} (h : Conc.FRun tagOf σ k e σ')
    {g : Fin n → Nat} (hg : ∀ t, Left (σ.threads t) (g t)) :
    ∃ g' : Fin n → Nat, (∀ t, Left (σ'.threads t) (g' t)) ∧ k + ∑ t, g' t ≤ ∑ t, g t := by
  induction h with
  | refl => exact ⟨g, hg, by omega⟩
  | @step k e σ1 t σ2 _ hs ih =>
    obtain ⟨f1, hf1, hk⟩ := ih
    obtain ⟨⟨m', hm', hl⟩, hoth⟩ := step_left hs (hf1 t)
    refine ⟨upd f1 t m', ?_, ?_⟩
    · intro t'
      by_cases ht' : t' = t
      · subst ht'; rw [upd_same]; exact hl
      · rw [upd_other _ _ ht', hoth t' ht']; exact hf1 t'
    · have := sum_upd_lt hm'
      omega
  | @fails k e σ1 t b σ2 _ hs ih =>
    obtain ⟨f1, hf1, hk⟩ := ih
    obtain ⟨⟨m', hm', hl⟩, hoth⟩ := fails_left hs (hf1 t)
    refine ⟨upd f1 t m', ?_, ?_⟩
    · intro t'
      by_cases ht' : t' = t
      · subst ht'; rw [upd_same]; exact hl
      · rw [upd_other _ _ ht', hoth t' ht']; exact hf1 t'
    · have := sum_upd_lt hm'
      omega

/-- Follow a schedule: who moves, and whether (and after how many bytes) the write it makes fails. -/
def play {n : Nat} (tagOf : Nat → PageTag) : List (Fin n × Option Nat) → Conc n → Option (Conc n)
  | [], σ => some σ
  | (t, none) :: rest, σ => (Conc.step tagOf σ t).bind (play tagOf rest)
  | (t, some b) :: rest, σ => (Conc.fails σ t b).bind (play tagOf rest)

theorem play_frun {n : Nat} {tagOf : Nat → PageTag} (s : List (Fin n × Option Nat)) : ∀ {σ0 σ σ' : Conc n} {k f : Nat},
    Conc.FRun tagOf σ0 k f σ → play tagOf s σ = some σ' →
      Conc.FRun tagOf σ0 (k + s.length) (f + errorsIn (s.map Prod.snd)) σ' := by
  induction s with
  | nil => intro σ0 σ σ' k f h hp; cases hp; exact h
  | cons x s ih =>
    intro σ0 σ σ' k f h hp
    obtain ⟨t, b⟩ := x
    cases b with
    | none =>
      obtain ⟨σ1, h1, h2⟩ := Option.bind_eq_some_iff.mp hp
      have := ih (h.step h1) h2
      simpa [errorsIn, Nat.add_assoc, Nat.add_comm 1] using this
    | some b =>
      obtain ⟨σ1, h1, h2⟩ := Option.bind_eq_some_iff.mp hp
      have := ih (h.fails h1) h2
      simpa [errorsIn, Nat.add_assoc, Nat.add_comm 1] using this

end Verif.Conc

namespace Verif.Props
open Verif Verif.Mm Verif.Spec Verif.Decode Verif.Json Verif.Conc

/-- **C72** (linearizability). Whatever fails, at any moment the calls observed so far have a linearization: an order of the calls that every thread
sees in its own program order, that respects real time, and in which the calls, made one after the other by one thread on a store some of whose
writes fail (no more than have failed), have exactly the observed results, panics included. -/
theorem C72_linearizable {n : Nat} (tagOf : Nat → PageTag) (progs : Fin n → List Call) {k f : Nat} {σ : Conc n}
    (h : Conc.FRun tagOf (Conc.init progs) k f σ) :
    ∃ H faults, FaultyLinearization tagOf σ.log faults H ∧ faults.countP Option.isSome ≤ f ∧ ∀ t, started t σ.log <+: progs t := by
  obtain ⟨H, faults, fs, inv⟩ := FInv.run h
  refine ⟨H, faults, inv.lin, ?_, fun t => by rw [inv.prog t]; exact List.prefix_append _ _⟩
  have := inv.count
  unfold errorsIn at this
  omega

/-- **C72** (final state). When all threads have finished, every call of every thread is in the linearization, as many writes fail in it as have failed,
every sink is in the state it leaves, and no lock is held: an I/O error blocks nobody. -/
theorem C72_final_state {n : Nat} (tagOf : Nat → PageTag) (progs : Fin n → List Call) {k f : Nat} {σ : Conc n}
    (h : Conc.FRun tagOf (Conc.init progs) k f σ) (hf : σ.Finished) :
    ∃ H faults, FaultyLinearization tagOf σ.log faults H ∧ faults.countP Option.isSome = f ∧
      (∀ t, entriesOf t H = returned t σ.log ∧ (returned t σ.log).map Prod.fst = progs t) ∧
      (∀ i, σ.data i = (World.exec tagOf (historyOf H) (World.init faults)).2.sinks i) ∧
      (∀ i, σ.dataLock i = none) ∧ σ.storeLock = none := by
  obtain ⟨H, faults, fs, inv⟩ := FInv.run h
  obtain ⟨f1, f2, f3, f4⟩ := inv.finished hf
  refine ⟨H, faults, inv.lin, ?_, f1, fun i => ?_, f2, f3⟩
  · have := inv.count
    simp only [f4] at this
    simpa [errorsIn] using this
  · obtain ⟨st, h⟩ := inv.exec []
    rw [List.append_nil] at h
    rw [h]

/-- **C72** (no silent failure). If all threads have finished and no call has panicked, nothing has failed: the execution is one without I/O errors. -/
theorem C72_failures_are_loud {n : Nat} (tagOf : Nat → PageTag) (progs : Fin n → List Call) {k f : Nat} {σ : Conc n}
    (h : Conc.FRun tagOf (Conc.init progs) k f σ) (hf : σ.Finished) (hok : ∀ t, ∀ x ∈ returned t σ.log, IsOk x.2) :
    f = 0 ∧ Conc.Run tagOf (Conc.init progs) k σ := by
  obtain ⟨H, faults, fs, inv⟩ := FInv.run h
  obtain ⟨f1, _⟩ := inv.finished hf
  have h0 : f = 0 := by
    by_contra hne
    rcases inv.loud hne with ⟨e, he, why, hr⟩ | ⟨t, c, p, hc, _⟩
    · have hm : (e.call, e.res) ∈ entriesOf e.thread H := List.mem_map.2 ⟨e, by simp [he], rfl⟩
      rw [(f1 e.thread).1] at hm
      have := hok _ _ hm
      rw [hr] at this
      exact this
    · rw [(hf t).2] at hc; cases hc
  exact ⟨h0, frun_none h h0⟩

/-- **C72** (no deadlock). Whatever has failed, some thread can move, unless all have finished. -/
theorem C72_no_deadlock {n : Nat} (tagOf : Nat → PageTag) (progs : Fin n → List Call) {k f : Nat} {σ : Conc n}
    (h : Conc.FRun tagOf (Conc.init progs) k f σ) (hnf : ¬ σ.Finished) : ∃ t σ', Conc.step tagOf σ t = some σ' := by
  obtain ⟨H, faults, fs, inv⟩ := FInv.run h
  exact inv.progress hnf

/-- **C72** (termination). No schedule runs forever, whatever fails. -/
theorem C72_bounded_steps {n : Nat} (tagOf : Nat → PageTag) (progs : Fin n → List Call) {k f : Nat} {σ : Conc n}
    (h : Conc.FRun tagOf (Conc.init progs) k f σ) : k ≤ budget progs := by
  obtain ⟨g, _, hk⟩ := frun_bound h (init_left progs)
  unfold budget
  omega

/-- **C72** (stored data). Whatever fails, bytes that have reached the store are never changed; and if the final store can be split into pages, every
stream begins with the complete pages that were in the store before the first failure. -/
theorem C72_never_overwrites {n : Nat} (tagOf : Nat → PageTag) (progs : Fin n → List Call) {k k' f : Nat} {σ σ' : Conc n}
    (h : Conc.Run tagOf (Conc.init progs) k σ) (h' : Conc.FRun tagOf σ k' f σ') :
    σ.store <+: σ'.store ∧ ∃ pages part, σ.store = storeOf pages ++ part ∧ (∀ p ∈ pages, 0 < p.body.length ∧ p.body.length ≤ 262144) ∧
      (part = [] ∨ σ.storeLock ≠ none ∧ ∃ p : Page, p.body.length ≤ 262144 ∧ part <+: p.bytes) ∧
      ∀ m, splitStreams σ'.store = .ok m → ∀ t, streamOf t pages <+: (m t).getD [] := by
  obtain ⟨_, pages, part, _, e, hb, hp, _⟩ := C08_pages_never_torn tagOf progs h
  refine ⟨frun_store h', pages, part, e, hb, hp, fun m hm t => ?_⟩
  obtain ⟨p1, g1, e1, f1⟩ := (C07_split_accepts_iff _ _).mp hm
  have hpre : storeOf pages <+: storeOf p1 := by
    rw [← e1]
    refine List.IsPrefix.trans ?_ (frun_store h')
    rw [e]
    exact List.prefix_append _ _
  have hs := streamOf_prefix (storeOf_prefix (fun p hp => split_of_writer (hb p hp)) g1 hpre) t
  have key : (m t).getD [] = streamOf t p1 := by
    rw [f1 t]
    split
    · rfl
    · rename_i hne
      symm
      unfold streamOf
      have : p1.filter (fun p => p.tag = t) = [] := by
        rw [List.filter_eq_nil_iff]
        intro p hp hpt
        exact hne ⟨p, hp, by simpa using hpt⟩
      simp [this]
  rw [key]
  exact hs

/-- **C72** (the first failure). When the first write fails, what is in the store is an initial part of what an execution without any failure, which has
gone exactly the same way so far, has there; the threads have observed the same. -/
theorem C72_first_failure {n : Nat} (tagOf : Nat → PageTag) (progs : Fin n → List Call) {k b : Nat} {σ σ' : Conc n} {t : Fin n}
    (h : Conc.Run tagOf (Conc.init progs) k σ) (hf : Conc.fails σ t b = some σ') :
    ∃ σ'', Conc.Run tagOf (Conc.init progs) (k + 1) σ'' ∧ σ.store <+: σ'.store ∧ σ'.store <+: σ''.store ∧ σ'.log = σ''.log := by
  obtain ⟨h1, h2, σ'', h3, h4, h5⟩ := fails_store (tagOf := tagOf) hf
  exact ⟨σ'', h.step h3, h1, h4, h2.trans h5.symm⟩

/-- **C72** (profiles). If a profiled program is stopped at the first I/O error, then whatever the threads were doing and wherever the file is cut, the file either
does not open or shows an initial part of what one thread records that makes the calls that had been started in some order agreeing with each
thread's own order, with real time and with the answers the threads had got. -/
theorem C72_profile_after_first_failure (start pid : Nat) (hs : start < 2 ^ 64) (hp : pid < 2 ^ 32) (args : List String) (plain : PlainArgs args)
    (counter : CounterKind) {n : Nat} (p : Program n) (hm : p.metadata = metadataText start pid args counter) (hn : OwnNames p) {σ σ' : Conc (n + 1)}
    (h : Underway p σ) {t : Fin (n + 1)} {b : Nat} (hf : Conc.fails σ t b = some σ') :
    ∃ q L, StartedPart p σ q ∧ Orders q L ∧ RealTime q σ L ∧ AnsweredLike q σ L ∧ ∀ file, file <+: fileOf σ' →
      (∃ i j k, ShowsPart start pid args counter (L.map Prod.snd) file i j k) ∨ ∀ fuel d, EventDecoder.new diag fuel file ≠ .ok d := by
  obtain ⟨_, h2, σ'', h3, h4, h5⟩ := fails_store (tagOf := profTags) hf
  have hu : Underway p σ'' := by
    cases h with
    | creating r hs => exact .creating (r.step h3) (by rw [h5]; exact hs)
    | inUse r q r1 hs => exact .inUse r q (r1.step h3) (by rw [h5]; exact hs)
    | dropping r q r1 q1 r2 => exact .dropping r q r1 q1 (r2.step h3)
  obtain ⟨q, L, l1, l2, l3, l4, l5⟩ := C67_threads_cut start pid hs hp args plain counter p hm hn σ'' hu
  refine ⟨q, L, ?_, l2, ?_, ?_, fun file hfile => l5 file (hfile.trans ((List.prefix_append_right_inj _).mpr h4))⟩
  · unfold StartedPart at l1 ⊢; rw [h5] at l1; exact l1
  · intro log hl; exact l3 log (by rw [h5]; exact hl)
  · intro t
    have := l4 t
    unfold answersOf at this ⊢
    rw [h5] at this
    exact this

/-- Two threads, each writing to its own sink and flushing it. -/
def exFaultProgs : Fin 2 → List Call := fun t => [(t.val, .writeBytes [7, 8]), (t.val, .stdFlush)]

/-- Both threads write; both take their data locks to flush; thread 0 takes the store lock, and its second write fails after one byte; it unwinds; thread 1
then flushes normally. -/
def exFaultSchedule : List (Fin 2 × Option Nat) :=
  [(0, none), (1, none), (0, none), (1, none), (0, none), (1, none), (0, none), (1, none), (0, none), (1, none), (0, none), (1, none), (0, none), (0, none),
    (0, some 1), (0, none), (1, none), (0, none), (1, none), (0, none)] ++ List.replicate 7 (1, none)

/-- Non-vacuity: an execution with a failure in which both threads run to the end; the flush of thread 0 panics and that of thread 1 succeeds, although thread
0 held the store lock when its write failed. -/
theorem exFault_run : ∃ σ, Conc.FRun twoTags (Conc.init exFaultProgs) 27 1 σ ∧ σ.Finished ∧ σ.store = [0, 2, 1, 2, 0, 0, 0, 7, 8] ∧
    (∃ why, returned 0 σ.log = [((0, .writeBytes [7, 8]), .ok (some 0)), ((0, .stdFlush), .error (.panic why))]) ∧
    returned 1 σ.log = [((1, .writeBytes [7, 8]), .ok (some 0)), ((1, .stdFlush), .ok none)] ∧ (σ.data 0).buffer = [7, 8] ∧ (σ.data 1).buffer = [] := by
  have hp : ∃ σ, play twoTags exFaultSchedule (Conc.init exFaultProgs) = some σ ∧ (∀ t : Fin 2, (σ.threads t).todo = [] ∧ (σ.threads t).cur = none) ∧
      σ.store = [0, 2, 1, 2, 0, 0, 0, 7, 8] ∧
      (∃ why, returned 0 σ.log = [((0, .writeBytes [7, 8]), .ok (some 0)), ((0, .stdFlush), .error (.panic why))]) ∧
      returned 1 σ.log = [((1, .writeBytes [7, 8]), .ok (some 0)), ((1, .stdFlush), .ok none)] ∧ (σ.data 0).buffer = [7, 8] ∧ (σ.data 1).buffer = [] := by
    refine ⟨_, rfl, ?_, rfl, ⟨_, rfl⟩, rfl, rfl, rfl⟩
    intro t
    match t with
    | 0 => exact ⟨rfl, rfl⟩
    | 1 => exact ⟨rfl, rfl⟩
  obtain ⟨σ, h1, h2⟩ := hp
  exact ⟨σ, play_frun exFaultSchedule (.refl _) h1, h2⟩

/-- If something is written, there is a moment when a thread is about to write. -/
theorem run_writes {n : Nat} {tagOf : Nat → PageTag} {σ σ' : Conc n} {k : Nat} (h : Conc.Run tagOf σ k σ') : σ.store ≠ σ'.store →
    ∃ k₁ k₂ σ₁ t, Conc.Run tagOf σ k₁ σ₁ ∧ Conc.Run tagOf σ₁ k₂ σ' ∧ ∀ b, ∃ σ₂, Conc.fails σ₁ t b = some σ₂ := by
  induction h with
  | refl => exact fun h => absurd rfl h
  | @step k σ1 t σ2 hr hs ih =>
    intro hne
    by_cases he : σ.store = σ1.store
    · refine ⟨k, 1, σ1, t, hr, (Conc.Run.refl _).step hs, fun b => ?_⟩
      rw [he] at hne
      unfold Conc.step at hs
      unfold Conc.fails
      split at hs
      · split at hs
        · cases hs
        · cases hs; exact absurd rfl hne
      · cases hs; exact absurd rfl hne
      · split at hs
        · cases hs
        · cases hs; exact absurd rfl hne
      · cases hs; exact absurd rfl hne
      · split at hs
        · cases hs
        · cases hs; exact absurd rfl hne
      · rename_i hc; rw [hc]; exact ⟨_, rfl⟩
      · cases hs; exact absurd rfl hne
    · obtain ⟨k₁, k₂, σ₁, t', a, b, c⟩ := ih he
      exact ⟨k₁, k₂ + 1, σ₁, t', a, b.step hs, c⟩

/-- Non-vacuity of the profile theorem: in every execution of a profiled program a thread writes at some moment, and the write can fail after any number of bytes. -/
example : OwnNames exProgram ∧ ∃ σ t, Underway exProgram σ ∧ ∀ b, ∃ σ', Conc.fails σ t b = some σ' := by
  refine ⟨exProgram_names, ?_⟩
  obtain ⟨σ', hex⟩ := C63_executes exProgram
  obtain ⟨L, _, _, ⟨pages, pages', e, e', b, b', hf⟩, _⟩ := serialize_pages exProgram_names hex
  have hne : σ'.store ≠ [] := by
    obtain ⟨pages'', raws, P⟩ := parts_exist exProgram.metadata (L.map Prod.snd)
    have hpp : pages'' = pages' := by
      have := P.file
      rw [e'] at this
      exact storeOf_inj (fun p hp => split_of_writer (P.bodies p hp)) (fun p hp => split_of_writer (b' p hp)) (List.append_cancel_left this).symm
    subst hpp
    obtain ⟨s0, s1, s2⟩ := stream_sizes P
    intro h
    have : pages = [] := by
      have h1 : storeOf pages = storeOf [] := by
        have := List.append_cancel_left e
        rw [← this, h]
        rfl
      exact storeOf_inj (fun p hp => split_of_writer (b p hp)) (by simp) h1
    have h2 := hf 0 (by decide)
    rw [this] at h2
    unfold streamOf at s0
    have h3 : pages''.filter (fun p => p.tag = .events) = [] := h2.symm
    rw [h3] at s0
    simp at s0
    omega
  obtain ⟨k₀, k₁, k₂, σ₀, σ₁, r0, q0, r1, q1, r2, _⟩ := hex
  have hq0 : Quiet σ₀ (creationOf exProgram) := fun t => ⟨(q0 t).1, (q0 t).2.trans (q0 t).1⟩
  have hq1 : Quiet σ₁ (fun t => creationOf exProgram t ++ sinkCalls .empty (exProgram.calls t)) := fun t => ⟨(q1 t).1, (q1 t).2.trans (q1 t).1⟩
  by_cases h0 : (Conc.init exProgram.threads).store = σ₀.store
  · by_cases h1 : σ₀.store = σ₁.store
    · have h2 : σ₁.store ≠ σ'.store := by rw [← h1, ← h0]; exact fun h => hne h.symm
      obtain ⟨_, _, σ, t, a, b, c⟩ := run_writes r2 h2
      exact ⟨σ, t, (C67_threads_every_moment exProgram hq0 hq1 σ (k₀ := k₀) (k₁ := k₁) (σ₂ := σ)).2.2 r0 r1 a, c⟩
    · obtain ⟨_, _, σ, t, a, b, c⟩ := run_writes r1 h1
      exact ⟨σ, t, (C67_threads_every_moment exProgram hq0 hq1 σ (σ₂ := σ)).2.1 r0 a b, c⟩
  · obtain ⟨_, _, σ, t, a, b, c⟩ := run_writes r0 h0
    exact ⟨σ, t, (C67_threads_every_moment exProgram hq0 hq1 σ (k₂ := 0) (σ₂ := σ)).1 a b, c⟩

end Verif.Props
