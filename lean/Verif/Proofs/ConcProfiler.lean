import Verif.Spec.ConcProfiler
import Verif.Proofs.Decoder
import Verif.Props.Concurrent

/-! # Lemmas about a profiler used by several threads -/

namespace Verif.Conc

open Verif Verif.Mm Verif.Spec Verif.Decode Verif.Props

/-! ## One call -/

theorem noId_recordRaw (raw : RawEvent) (w : World) : noId (recordRawEvent raw) w =
    ((match (World.call profTags 0 (.writeAtomic RawEvent.size (rawEventFill raw)) w).1 with
      | .error f => .error f
      | .ok _ => .ok none), (World.call profTags 0 (.writeAtomic RawEvent.size (rawEventFill raw)) w).2) := by
  unfold noId recordRawEvent
  simp only [Act.bind_apply]
  generalize World.call profTags 0 (.writeAtomic RawEvent.size (rawEventFill raw)) w = x
  obtain ⟨r, w'⟩ := x
  cases r <;> rfl

/-- What a request does to the world. -/
def Request.perform (q : Request) (w : World) : Answer × World :=
  match q with
  | .done a => (a, w)
  | .sink c k => (k (World.call profTags c.1 c.2 w).1, (World.call profTags c.1 c.2 w).2)

theorem perform_record (e : Except Fault RawEvent) (w : World) :
    noId (do let raw ← liftE e; recordRawEvent raw) w = (record e).perform w := by
  cases e with
  | error f => rfl
  | ok raw =>
    have : noId (do let raw ← liftE (.ok raw); recordRawEvent raw) w = noId (recordRawEvent raw) w := rfl
    rw [this, noId_recordRaw]
    rfl

theorem addrCall_eq (i : Nat) (c : SinkCall) (w : World) : addrCall i c w =
    ((match (World.call profTags i c w).1 with
      | .error f => .error f
      | .ok none => .error (.panic "unreachable")
      | .ok (some a) => .ok a), (World.call profTags i c w).2) := by
  unfold addrCall
  simp only [Act.bind_apply]
  generalize World.call profTags i c w = x
  obtain ⟨r, w'⟩ := x
  match r with
  | .error f => rfl
  | .ok none => rfl
  | .ok (some a) => rfl

theorem idAnswer_some (a : Nat) : idAnswer (.ok (some a)) = (fromAddr a).map some := rfl

theorem bind_gen (m : Act World Nat) (F : Nat → Except Fault StringId) (w : World) :
    (do let id ← (do let a ← m; liftE (F a) : Act World StringId); pure (some id) : Act World (Option StringId)) w =
      match m w with
      | (.ok a, w') => ((F a).map some, w')
      | (.error e, w') => (.error e, w') := by
  simp only [Act.bind_apply]
  generalize m w = x
  obtain ⟨r, w'⟩ := x
  cases r with
  | error e => simp only
  | ok a =>
    simp only
    generalize F a = y
    cases y <;> simp only [liftE, Act.fail_apply, Act.pure_apply, Except.map]

theorem alloc_perform (l : Locals) (t : Text) (w : World) : (TableOp.alloc t).run w = (request l (.allocString t)).perform w := by
  unfold TableOp.run Mm.alloc
  simp only
  rw [bind_gen, addrCall_eq]
  simp only [request, Request.perform, dataSink]
  generalize World.call profTags 1 (.writeAtomic t.serializedSize t.serialize) w = x
  obtain ⟨r, w'⟩ := x
  cases r with
  | error f => simp only [idAnswer]
  | ok o =>
    cases o with
    | none => simp only [idAnswer]
    | some a => rw [idAnswer_some]

theorem bind_gen' {α} (m : Act World α) (F : α → Except Fault StringId) (w : World) :
    (do let a ← m; let id ← liftE (F a); pure (some id) : Act World (Option StringId)) w =
      match m w with
      | (.ok a, w') => ((F a).map some, w')
      | (.error e, w') => (.error e, w') := by
  simp only [Act.bind_apply]
  generalize m w = x
  obtain ⟨r, w'⟩ := x
  cases r with
  | error e => simp only
  | ok a =>
    simp only
    generalize F a = y
    cases y <;> simp only [liftE, Act.fail_apply, Act.pure_apply, Except.map]

theorem foreign_perform (l : Locals) (b : Bytes) (w : World) :
    (SessionOp.custom b.length (fun _ => .ok b)).run w = (request l (.allocForeign b)).perform w := by
  unfold SessionOp.run
  simp only
  rw [bind_gen', addrCall_eq]
  simp only [request, Request.perform, dataSink]
  generalize World.call profTags 1 _ w = x
  obtain ⟨r, w'⟩ := x
  cases r with
  | error f => simp only [idAnswer]
  | ok o =>
    cases o with
    | none => simp only [idAnswer]
    | some a => rw [idAnswer_some]

theorem mapVirtual_perform (l : Locals) (v c : StringId) (w : World) : (TableOp.mapVirtual v c).run w = (request l (.mapVirtual v c)).perform w := by
  simp only [request, TableOp.run, Mm.mapVirtual, Act.bind_apply, serializeIndexEntry, addrCall_eq, indexSink]
  by_cases hv : v ≤ maxUserVirtualStringId
  · generalize toAddr c = y
    cases y with
    | error f => simp only [hv, if_true, Act.assert_apply, liftE, Act.fail_apply, Request.perform]
    | ok a =>
      simp only [hv, if_true, Act.assert_apply, liftE, Act.pure_apply, Request.perform]
      generalize World.call profTags 2 _ w = x
      obtain ⟨r, w'⟩ := x
      match r with
      | .error f => simp only [entryAnswer]
      | .ok none => simp only [entryAnswer]
      | .ok (some a) => simp only [entryAnswer]
  · simp only [hv, if_false, Act.assert_apply, Request.perform]

theorem bulkMapVirtual_perform (l : Locals) (vs : List StringId) (c : StringId) (w : World) :
    (TableOp.bulkMapVirtual vs c).run w = (request l (.bulkMapVirtual vs c)).perform w := by
  simp only [request, TableOp.run, Mm.bulkMapVirtual, Act.bind_apply, addrCall_eq, indexSink]
  generalize toAddr c = y
  cases y with
  | error f => simp only [liftE, Act.fail_apply, Request.perform]
  | ok a =>
    simp only [liftE, Act.pure_apply]
    generalize bulkEntries a vs = z
    cases z with
    | error f => simp only [Act.fail_apply, Request.perform]
    | ok b =>
      simp only [Act.pure_apply, Request.perform]
      generalize World.call profTags 2 _ w = x
      obtain ⟨r, w'⟩ := x
      match r with
      | .error f => simp only [entryAnswer]
      | .ok none => simp only [entryAnswer]
      | .ok (some a) => simp only [entryAnswer]

/-- A call is its request, performed on the shared state, and its effect on what the thread owns. -/
theorem request_run (c : ProfCall) (s : ProfState) :
    c.run s = (((request ⟨s.guards, s.detached⟩ c).perform s.world).1,
      ⟨((request ⟨s.guards, s.detached⟩ c).perform s.world).2, (Locals.after ⟨s.guards, s.detached⟩ c).guards, (Locals.after ⟨s.guards, s.detached⟩ c).detached⟩) := by
  have none_at : ∀ {α : Type} (f : Nat → Option α) (g : Nat), f g = none → setAt f g none = f := by
    intro α f g h
    funext i
    unfold setAt
    split
    · rename_i hi; rw [hi, h]
    · rfl
  cases c with
  | allocString t => simp only [ProfCall.run, onWorld, alloc_perform ⟨s.guards, s.detached⟩, Locals.after]
  | allocForeign b => simp only [ProfCall.run, onWorld, foreign_perform ⟨s.guards, s.detached⟩, Locals.after]
  | mapVirtual v c => simp only [ProfCall.run, onWorld, mapVirtual_perform ⟨s.guards, s.detached⟩, Locals.after]
  | bulkMapVirtual vs c => simp only [ProfCall.run, onWorld, bulkMapVirtual_perform ⟨s.guards, s.detached⟩, Locals.after]
  | instant k id t now => simp only [ProfCall.run, request, onWorld, Locals.after, recordInstant, perform_record]
  | integer k id t v => simp only [ProfCall.run, request, onWorld, Locals.after, recordInteger, perform_record]
  | start g k id t now => simp only [ProfCall.run, request, Request.perform, Locals.after]
  | startDetached g k id t now => simp only [ProfCall.run, request, Request.perform, Locals.after]
  | finish g now =>
    cases hg : s.guards g with
    | none => simp only [ProfCall.run, request, hg, Locals.after, Request.perform, none_at _ _ hg]
    | some gd => simp only [ProfCall.run, request, hg, onWorld, Locals.after, TimingGuard.drop, perform_record]
  | finishOverride g id now =>
    cases hg : s.guards g with
    | none => simp only [ProfCall.run, request, hg, Locals.after, Request.perform, none_at _ _ hg]
    | some gd => simp only [ProfCall.run, request, hg, onWorld, Locals.after, TimingGuard.finishOverride, TimingGuard.drop, perform_record]
  | finishDetached g now =>
    cases hg : s.detached g with
    | none => simp only [ProfCall.run, request, hg, Locals.after, Request.perform, none_at _ _ hg]
    | some gd => simp only [ProfCall.run, request, hg, onWorld, Locals.after, Mm.finishDetached, TimingGuard.drop, perform_record]

/-- Agreement of two owners at some names. -/
def SameAt (l l' : Locals) (g : Nat) : Prop := l.guards g = l'.guards g ∧ l.detached g = l'.detached g

theorem request_congr {l l' : Locals} {c : ProfCall} (h : ∀ g, nameOf c = some g → SameAt l l' g) : request l c = request l' c := by
  cases c with
  | finish g now => obtain ⟨h1, h2⟩ := h g rfl; simp only [request, h1]
  | finishOverride g id now => obtain ⟨h1, h2⟩ := h g rfl; simp only [request, h1]
  | finishDetached g now => obtain ⟨h1, h2⟩ := h g rfl; simp only [request, h2]
  | allocString t => simp only [request]
  | allocForeign b => simp only [request]
  | mapVirtual v c => simp only [request]
  | bulkMapVirtual vs c => simp only [request]
  | instant k id t now => simp only [request]
  | integer k id t v => simp only [request]
  | start g k id t now => simp only [request]
  | startDetached g k id t now => simp only [request]

theorem after_congr {l l' : Locals} (c : ProfCall) {g : Nat} (h : SameAt l l' g) : SameAt (l.after c) (l'.after c) g := by
  obtain ⟨h1, h2⟩ := h
  cases c <;> simp only [SameAt, Locals.after, setAt] <;> (try exact ⟨h1, h2⟩)
  all_goals
    constructor <;> (try split) <;> first | rfl | assumption

theorem after_other {l : Locals} {c : ProfCall} {g : Nat} (h : nameOf c ≠ some g) : SameAt (l.after c) l g := by
  cases c <;> simp only [SameAt, Locals.after, setAt, and_self] <;> simp only [nameOf, ne_eq, Option.some.injEq] at h
  all_goals
    constructor <;> first | trivial | (rw [if_neg (fun e => h e.symm)])

/-! ## From an order of sink calls to an order of profiler calls -/

theorem ofThread_cons {n : Nat} {α : Type} (t t' : Fin n) (x : α) (L : List (Fin n × α)) :
    ofThread t ((t', x) :: L) = if t' = t then x :: ofThread t L else ofThread t L := by
  simp only [ofThread, List.filter_cons]
  split
  · rename_i h; simp only [decide_eq_true_eq] at h; simp [h]
  · rename_i h; simp only [decide_eq_true_eq] at h; simp [h]

theorem entriesOf_cons {n : Nat} (t : Fin n) (e : LinEntry n) (H : List (LinEntry n)) :
    entriesOf t (e :: H) = if e.thread = t then (e.call, e.res) :: entriesOf t H else entriesOf t H := by
  simp only [entriesOf, List.filter_cons]
  split
  · rename_i h; simp only [decide_eq_true_eq] at h; simp [h]
  · rename_i h; simp only [decide_eq_true_eq] at h; simp [h]

/-- Threads' calls can be merged along a given order of their sink calls. -/
theorem merge {m : Nat} : ∀ (k : Nat) (calls : Fin m → List ProfCall) (ls : Fin m → Locals) (H : List (LinEntry m)) (s : ProfState) (w : World),
    (∑ t, (calls t).length) = k →
    (∀ t t', t ≠ t' → ∀ c ∈ calls t, ∀ c' ∈ calls t', ∀ g, nameOf c = some g → nameOf c' ≠ some g) →
    (∀ t, ∀ c ∈ calls t, ∀ g, nameOf c = some g → SameAt ⟨s.guards, s.detached⟩ (ls t) g) →
    (∀ t, (entriesOf t H).map Prod.fst = sinkCalls (ls t) (calls t)) →
    World.exec profTags (historyOf H) s.world = (H.map LinEntry.res, w) →
    ∃ L : List (Fin m × ProfCall), (∀ t, ofThread t L = calls t) ∧ (runProf (L.map Prod.snd) s).2.world = w ∧
      (∀ t, ofThread t ((L.map Prod.fst).zip (runProf (L.map Prod.snd) s).1) = answers (ls t) (calls t) ((entriesOf t H).map Prod.snd)) ∧
      ∀ H', H' <+: H → ∃ L', L' <+: L ∧ ∀ t, sinkCalls (ls t) (ofThread t L') = (entriesOf t H').map Prod.fst := by
  intro k
  induction k with
  | zero =>
    intro calls ls H s w hk hn ha hH he
    have hc : ∀ t, calls t = [] := by
      intro t
      have := Finset.sum_eq_zero_iff.mp hk t (Finset.mem_univ t)
      exact List.length_eq_zero_iff.mp this
    have hH' : H = [] := by
      cases H with
      | nil => rfl
      | cons e H =>
        have := hH e.thread
        rw [hc, entriesOf_cons, if_pos rfl] at this
        simp [sinkCalls] at this
    subst hH'
    refine ⟨[], fun t => by rw [hc]; rfl, ?_, fun t => by rw [hc]; rfl, fun H' hp => ⟨[], List.prefix_refl _, fun t => by rw [List.prefix_nil.mp hp]; rfl⟩⟩
    simp only [historyOf, World.exec, List.map_nil, Prod.mk.injEq] at he
    exact he.2
  | succ k ih =>
    intro calls ls H s w hk hn ha hH he
    -- emitting the first call of a thread
    have emit : ∀ (t : Fin m) (c : ProfCall) (cs : List ProfCall) (H' : List (LinEntry m)), calls t = c :: cs →
        (∀ t', (entriesOf t' H').map Prod.fst = sinkCalls (if t' = t then (ls t).after c else ls t') (if t' = t then cs else calls t')) →
        World.exec profTags (historyOf H') ((request (ls t) c).perform s.world).2 = (H'.map LinEntry.res, w) →
        (∀ t', answers (ls t') (calls t') ((entriesOf t' H).map Prod.snd) =
          (if t' = t then [((request (ls t) c).perform s.world).1] else []) ++
          answers (if t' = t then (ls t).after c else ls t') (if t' = t then cs else calls t') ((entriesOf t' H').map Prod.snd)) →
        (∀ H1, H1 <+: H → H1 = [] ∨ ∃ H2, H2 <+: H' ∧ ∀ t', (entriesOf t' H1).map Prod.fst =
          (if t' = t then (match request (ls t) c with | .done _ => [] | .sink q _ => [q]) else []) ++ (entriesOf t' H2).map Prod.fst) →
        ∃ L : List (Fin m × ProfCall), (∀ t, ofThread t L = calls t) ∧ (runProf (L.map Prod.snd) s).2.world = w ∧
          (∀ t, ofThread t ((L.map Prod.fst).zip (runProf (L.map Prod.snd) s).1) = answers (ls t) (calls t) ((entriesOf t H).map Prod.snd)) ∧
          ∀ H', H' <+: H → ∃ L', L' <+: L ∧ ∀ t, sinkCalls (ls t) (ofThread t L') = (entriesOf t H').map Prod.fst := by
      intro t c cs H' hc h1 h2 h3 h4
      have hreq : request ⟨s.guards, s.detached⟩ c = request (ls t) c :=
        request_congr (fun g hg => ha t c (by rw [hc]; simp) g hg)
      have hsub : ∀ t', ∀ x ∈ (if t' = t then cs else calls t'), x ∈ calls t' := by
        intro t' x hx
        split at hx
        · rename_i e; subst e; rw [hc]; exact List.mem_cons_of_mem _ hx
        · exact hx
      obtain ⟨L, l1, l2, l3, l4⟩ := ih (fun t' => if t' = t then cs else calls t') (fun t' => if t' = t then (ls t).after c else ls t') H'
        (c.run s).2 w
        (by
          have hsum : ∑ t', (calls t').length = ∑ t', (if t' = t then cs else calls t').length + 1 := by
            rw [← Finset.add_sum_erase _ _ (Finset.mem_univ t), ← Finset.add_sum_erase (a := t) _ (fun t' => (if t' = t then cs else calls t').length) (Finset.mem_univ t)]
            have : ∑ x ∈ Finset.univ.erase t, (calls x).length = ∑ x ∈ Finset.univ.erase t, (if x = t then cs else calls x).length := by
              refine Finset.sum_congr rfl fun x hx => ?_
              rw [if_neg (Finset.ne_of_mem_erase hx)]
            rw [this, hc, if_pos rfl, List.length_cons]
            omega
          omega)
        (fun t1 t2 h12 x hx y hy => hn t1 t2 h12 x (hsub t1 x hx) y (hsub t2 y hy))
        (by
          intro t' x hx g hg
          have hx' := hsub t' x hx
          have e : (⟨(c.run s).2.guards, (c.run s).2.detached⟩ : Locals) = Locals.after ⟨s.guards, s.detached⟩ c := by rw [request_run]
          rw [e]
          by_cases ht : t' = t
          · subst ht
            rw [if_pos rfl]
            exact after_congr c (ha t' x hx' g hg)
          · rw [if_neg ht]
            have : nameOf c ≠ some g := fun hcg => hn t t' (fun e => ht e.symm) c (by rw [hc]; simp) x hx' g hcg hg
            obtain ⟨a1, a2⟩ := after_other (l := ⟨s.guards, s.detached⟩) this
            obtain ⟨b1, b2⟩ := ha t' x hx' g hg
            exact ⟨a1.trans b1, a2.trans b2⟩)
        h1
        (by
          have : (c.run s).2.world = ((request (ls t) c).perform s.world).2 := by rw [request_run, hreq]
          rw [this]
          exact h2)
      refine ⟨(t, c) :: L, ?_, ?_, ?_, ?_⟩
      · intro t'
        rw [ofThread_cons, l1]
        by_cases ht : t' = t
        · subst ht; simp [hc]
        · rw [if_neg (fun e => ht e.symm), if_neg ht]
      · simp only [List.map_cons, runProf]
        exact l2
      · intro t'
        simp only [List.map_cons, runProf, List.zip_cons_cons]
        rw [ofThread_cons, l3, h3]
        have : (c.run s).1 = ((request (ls t) c).perform s.world).1 := by rw [request_run, hreq]
        rw [this]
        by_cases ht : t' = t
        · subst ht; simp
        · rw [if_neg (fun e => ht e.symm)]; simp [ht]
      · intro H1 hp
        rcases h4 H1 hp with rfl | ⟨H2, hp2, hh⟩
        · exact ⟨[], List.nil_prefix, fun t => rfl⟩
        · obtain ⟨L', hL, hl⟩ := l4 H2 hp2
          refine ⟨(t, c) :: L', List.cons_prefix_cons.mpr ⟨rfl, hL⟩, fun t' => ?_⟩
          rw [hh, ← hl, ofThread_cons]
          by_cases ht : t' = t
          · subst ht
            simp only [if_pos, sinkCalls]
            cases request (ls t') c <;> rfl
          · rw [if_neg (fun e => ht e.symm), if_neg ht, if_neg ht, List.nil_append]
    -- is there a thread whose next call needs no sink?
    by_cases hex : ∃ t c cs a, calls t = c :: cs ∧ request (ls t) c = .done a
    · obtain ⟨t, c, cs, a, hc, hr⟩ := hex
      refine emit t c cs H hc ?_ ?_ ?_ ?_
      · intro t'
        rw [hH]
        by_cases ht : t' = t
        · subst ht; simp [hc, sinkCalls, hr]
        · simp [ht]
      · rw [hr]; exact he
      · intro t'
        by_cases ht : t' = t
        · subst ht; simp [hc, answers, hr, Request.perform]
        · simp [ht]
      · intro H1 hp
        exact .inr ⟨H1, hp, fun t' => by rw [hr]; simp⟩
    · have hall : ∀ t c cs, calls t = c :: cs → ∃ q f, request (ls t) c = .sink q f := by
        intro t c cs hc
        cases hr : request (ls t) c with
        | done a => exact absurd ⟨t, c, cs, a, hc, hr⟩ hex
        | sink q f => exact ⟨q, f, rfl⟩
      cases H with
      | nil =>
        exfalso
        have : ∀ t, calls t = [] := by
          intro t
          cases hc : calls t with
          | nil => rfl
          | cons c cs =>
            obtain ⟨q, f, hr⟩ := hall t c cs hc
            have := hH t
            rw [hc] at this
            simp [entriesOf, sinkCalls, hr] at this
        rw [Finset.sum_eq_zero (fun t _ => by rw [this t]; rfl)] at hk
        omega
      | cons e H =>
        have h0 := hH e.thread
        rw [entriesOf_cons, if_pos rfl, List.map_cons] at h0
        cases hc : calls e.thread with
        | nil => rw [hc] at h0; simp [sinkCalls] at h0
        | cons c cs =>
          obtain ⟨q, f, hr⟩ := hall e.thread c cs hc
          rw [hc] at h0
          simp only [sinkCalls, hr, List.cons.injEq] at h0
          obtain ⟨hq, h0⟩ := h0
          have he' : World.exec profTags (historyOf (e :: H)) s.world =
              ((World.call profTags e.call.1 e.call.2 s.world).1 :: (World.exec profTags (historyOf H) (World.call profTags e.call.1 e.call.2 s.world).2).1,
                (World.exec profTags (historyOf H) (World.call profTags e.call.1 e.call.2 s.world).2).2) := rfl
          rw [he', List.map_cons, Prod.mk.injEq, List.cons.injEq] at he
          obtain ⟨⟨e1, e2⟩, e3⟩ := he
          refine emit e.thread c cs H hc ?_ ?_ ?_ ?_
          · intro t'
            by_cases ht : t' = e.thread
            · subst ht; simp [h0]
            · have := hH t'
              rw [entriesOf_cons, if_neg (fun x => ht x.symm)] at this
              simp [ht, this]
          · rw [hr]
            simp only [Request.perform]
            rw [← hq]
            exact Prod.ext e2 e3
          · intro t'
            by_cases ht : t' = e.thread
            · subst ht
              rw [entriesOf_cons, if_pos rfl]
              simp only [hc, List.map_cons, answers, hr, if_pos, Request.perform]
              rw [← hq, e1]
              rfl
            · rw [entriesOf_cons, if_neg (fun x => ht x.symm)]
              simp [ht]
          · intro H1 hp
            cases H1 with
            | nil => exact .inl rfl
            | cons e' H1 =>
              obtain ⟨he', hp'⟩ := List.cons_prefix_cons.mp hp
              subst he'
              refine .inr ⟨H1, hp', fun t' => ?_⟩
              rw [entriesOf_cons, hr]
              by_cases ht : t' = e'.thread
              · subst ht; simp [hq]
              · rw [if_neg (fun x => ht x.symm), if_neg ht, List.nil_append]

/-! ## Creating the profiler -/

theorem creation_run (md : String) : (run profTags (creation md)).2 = (profInit md).world := by
  obtain ⟨e0, g0⟩ := writeAllTo_run 0 (fileHeaderWrites magicEventStream) [] (by simp [AllGood])
  obtain ⟨e1, g1⟩ := writeAllTo_run 1 (fileHeaderWrites magicStringData) _ g0
  obtain ⟨e2, g2⟩ := writeAllTo_run 2 (fileHeaderWrites magicStringIndex) _ g1
  have h0 : (run profTags []).2 = World.init := rfl
  rw [h0] at e0
  simp only [List.nil_append] at e0 g0 e1 g1 e2 g2
  generalize hh : (fileHeaderWrites magicEventStream).map (fun b => ((0 : Nat), SinkCall.stdWrite b)) ++
    (fileHeaderWrites magicStringData).map (fun b => ((1 : Nat), SinkCall.stdWrite b)) ++
    (fileHeaderWrites magicStringIndex).map (fun b => ((2 : Nat), SinkCall.stdWrite b)) = h at *
  have hd : written 1 h = fileHeader magicStringData := by
    subst hh
    simp [written, fileHeaderWrites, fileHeader, payload]
  have ha := alloc_run h g2 (.str md)
  rw [hd] at ha
  have hl : (fileHeader magicStringData).length = 8 := rfl
  have hf : fromAddr 8 = .ok (UInt64.ofNat (8 + 100000003)) := by
    simp only [fromAddr, firstRegular_toNat]
    rw [if_pos (by omega)]
  rw [hl, hf] at ha
  have g3 := allGood_snoc g2 (i := 1) (alloc_good (.str md))
  have hs := serializeIndexEntry_good _ g3 metadataStringId 8
  have ht : toAddr (UInt64.ofNat (8 + 100000003)) = .ok 8 := toAddr_iff.mpr (by decide)
  have hm : allocMetadata (.str md) (run profTags h).2 =
      (.ok (), (run profTags (h ++ [(1, .writeAtomic (Text.str md).serializedSize (Text.str md).serialize)] ++
        [(2, .writeAtomic 16 (indexEntryFill metadataStringId 8))])).2) := by
    unfold allocMetadata
    rw [Act.bind_ok ha, Act.bind_ok (Act.assert_true (by decide)), ht]
    exact (Act.bind_ok rfl).trans hs
  have hn : newProfiler md World.init = (.ok (), (run profTags (h ++ [(1, .writeAtomic (Text.str md).serializedSize (Text.str md).serialize)] ++
        [(2, .writeAtomic 16 (indexEntryFill metadataStringId 8))])).2) := by
    unfold newProfiler newBuilder
    rw [Act.bind_ok e0]
    have : (do writeAllTo dataSink (fileHeaderWrites magicStringData); writeAllTo indexSink (fileHeaderWrites magicStringIndex) : Act World Unit)
        (run profTags ((fileHeaderWrites magicEventStream).map (fun b => ((0 : Nat), SinkCall.stdWrite b)))).2 = (.ok (), (run profTags h).2) := by
      exact (Act.bind_ok e1).trans e2
    rw [Act.bind_ok this, hm]
  simp only [profInit, hn, creation, hh, hl, List.append_assoc, List.cons_append, List.nil_append]

/-! ## Cutting the order at the moments the profiler is created and dropped -/

theorem entries_nil {n : Nat} {H : List (LinEntry n)} (h : ∀ t, entriesOf t H = []) : H = [] := by
  cases H with
  | nil => rfl
  | cons e H =>
    have := h e.thread
    rw [entriesOf_cons, if_pos rfl] at this
    cases this

theorem only_thread {n : Nat} (t : Fin n) {H : List (LinEntry n)} (h : ∀ t', t' ≠ t → entriesOf t' H = []) :
    historyOf H = (entriesOf t H).map Prod.fst := by
  induction H with
  | nil => rfl
  | cons e H ih =>
    have he : e.thread = t := by
      by_contra hne
      have := h e.thread hne
      rw [entriesOf_cons, if_pos rfl] at this
      cases this
    have ih := ih (fun t' ht => by
      have := h t' ht
      rw [entriesOf_cons] at this
      split at this
      · cases this
      · exact this)
    rw [entriesOf_cons, if_pos he, List.map_cons, ← ih]
    rfl

theorem quiet_between {n : Nat} {log : List (Ev n)} {H : List (LinEntry n)} (hb : Between log H) (hq : ∀ t, started t log = (returned t log).map Prod.fst) (t : Fin n) :
    entriesOf t H = returned t log := by
  obtain ⟨h1, h2⟩ := hb t
  rw [hq] at h2
  have l2 := h2.length_le
  simp only [List.length_map] at l2
  exact (h1.eq_of_length (Nat.le_antisymm h1.length_le l2)).symm

theorem run_log {n : Nat} {tagOf : Nat → PageTag} {σ σ' : Conc n} {k : Nat} (h : Conc.Run tagOf σ k σ') : σ.log <+: σ'.log := by
  induction h with
  | refl => exact List.prefix_refl _
  | step _ hs ih =>
    refine ih.trans ?_
    revert hs
    unfold Conc.step
    repeat' split
    all_goals
      intro hs
      first
      | cases hs; done
      | (injection hs with hs; subst hs; first | exact List.prefix_append _ _ | exact List.prefix_refl _)

theorem run_trans {n : Nat} {tagOf : Nat → PageTag} {σ σ' σ'' : Conc n} {k k' : Nat} (h : Conc.Run tagOf σ k σ') (h' : Conc.Run tagOf σ' k' σ'') :
    Conc.Run tagOf σ (k + k') σ'' := by
  induction h' with
  | refl => exact h
  | step _ hs ih => exact ih.step hs

theorem entries_prefix {n : Nat} {H H' : List (LinEntry n)} (h : H' <+: H) (hl : ∀ t, (entriesOf t H).length ≤ (entriesOf t H').length) : H = H' := by
  obtain ⟨X, rfl⟩ := h
  have : X = [] := entries_nil (fun t => by
    have := hl t
    rw [entriesOf_append, List.length_append] at this
    exact List.length_eq_zero_iff.mp (by omega))
  rw [this, List.append_nil]

/-- The order of the sink calls of an execution, cut in three. -/
theorem cut {n : Nat} {p : Program n} {σ : Conc (n + 1)} (h : Executes p σ) :
    ∃ k H0 M E, Conc.Run profTags (Conc.init p.threads) k σ ∧ σ.Finished ∧ Linearization profTags σ.log (H0 ++ M ++ E) ∧
      historyOf H0 = creation p.metadata ∧ historyOf E = dropping ∧
      (∀ t, (entriesOf t H0).length = if t = 0 then (creation p.metadata).length else 0) ∧
      (∀ t, (entriesOf t M).map Prod.fst = sinkCalls .empty (p.calls t)) ∧
      (∀ t, entriesOf t (H0 ++ M ++ E) = returned t σ.log) ∧
      (∃ pages pages', σ.store = storeOf pages ∧ storeAfter profTags (historyOf (H0 ++ M ++ E)) = storeOf pages' ∧
        (∀ p ∈ pages, 0 < p.body.length ∧ p.body.length ≤ 262144) ∧ (∀ p ∈ pages', 0 < p.body.length ∧ p.body.length ≤ 262144) ∧
        ∀ i, ProgsTagUnshared profTags i p.threads → pages.filter (fun p => p.tag = profTags i) = pages'.filter (fun p => p.tag = profTags i)) := by
  obtain ⟨k₀, k₁, k₂, σ₀, σ₁, r0, q0, r1, q1, r2, hf⟩ := h
  have hr := run_trans (run_trans r0 r1) r2
  obtain ⟨H, hlin, hent, hm⟩ := Props.C08_same_pages profTags p.threads hr hf
  obtain ⟨H0, p0, b0⟩ := hlin.realTime σ₀.log ((run_log r1).trans (run_log r2))
  obtain ⟨H1, p1, b1⟩ := hlin.realTime σ₁.log (run_log r2)
  have e0 := quiet_between b0 (fun t => (q0 t).2)
  have e1 := quiet_between b1 (fun t => (q1 t).2)
  have hret : ∀ t, returned t σ₀.log <+: returned t σ₁.log := fun t => (run_log r1).filterMap _
  have p01 : H0 <+: H1 := by
    rcases List.prefix_or_prefix_of_prefix p0 p1 with h | h
    · exact h
    · have : H0 = H1 := entries_prefix h (fun t => by rw [e0, e1]; exact (hret t).length_le)
      rw [this]
  obtain ⟨M, rfl⟩ := p01
  obtain ⟨E, rfl⟩ := p1
  have c0 : ∀ t, (entriesOf t H0).map Prod.fst = if t = 0 then creation p.metadata else [] := fun t => by rw [e0]; exact (q0 t).1
  have c1 : ∀ t, (entriesOf t H0).map Prod.fst ++ (entriesOf t M).map Prod.fst = (if t = 0 then creation p.metadata else []) ++ sinkCalls .empty (p.calls t) := by
    intro t
    rw [← (q1 t).1, ← e1, entriesOf_append, List.map_append]
  have c2 : ∀ t, (entriesOf t M).map Prod.fst = sinkCalls .empty (p.calls t) := by
    intro t
    have := c1 t
    rw [c0] at this
    exact List.append_cancel_left this
  have c3 : ∀ t, (entriesOf t E).map Prod.fst = if t = 0 then dropping else [] := by
    intro t
    obtain ⟨a, b⟩ := hent t
    rw [← a, entriesOf_append, List.map_append, entriesOf_append, List.map_append, c0, c2] at b
    unfold Program.threads at b
    by_cases ht : t = 0
    · subst ht
      simp only [if_pos] at b ⊢
      exact List.append_cancel_left b
    · simp only [ht, if_false] at b ⊢
      simpa using b
  refine ⟨_, H0, M, E, hr, hf, hlin, ?_, ?_, ?_, c2, fun t => (hent t).1, hm⟩
  · rw [only_thread 0 (fun t' ht => by have := c0 t'; rw [if_neg ht] at this; exact List.map_eq_nil_iff.mp this), c0, if_pos rfl]
  · rw [only_thread 0 (fun t' ht => by have := c3 t'; rw [if_neg ht] at this; exact List.map_eq_nil_iff.mp this), c3, if_pos rfl]
  · intro t
    rw [← List.length_map (f := Prod.fst), c0]
    split <;> rfl

/-! ## Reading the file -/

theorem record_tag (e : Except Fault RawEvent) (q : Call) (k) (h : record e = .sink q k) : q.1 < 3 := by
  cases e with
  | error f => simp [record] at h
  | ok raw => simp only [record, Request.sink.injEq] at h; rw [← h.1]; simp only; omega

theorem request_tag {l : Locals} {c : ProfCall} {q : Call} {k} (h : request l c = .sink q k) : q.1 < 3 := by
  cases c with
  | allocString t => simp only [request, Request.sink.injEq] at h; rw [← h.1]; simp only; omega
  | allocForeign b => simp only [request, Request.sink.injEq] at h; rw [← h.1]; simp only; omega
  | mapVirtual v c =>
    simp only [request] at h
    split at h
    · split at h
      · cases h
      · simp only [Request.sink.injEq] at h; rw [← h.1]; simp only; omega
    · cases h
  | bulkMapVirtual vs c =>
    simp only [request] at h
    split at h
    · cases h
    · split at h
      · cases h
      · simp only [Request.sink.injEq] at h; rw [← h.1]; simp only; omega
  | instant k id t now => exact record_tag _ _ _ h
  | integer k id t v => exact record_tag _ _ _ h
  | start g k id t now => cases h
  | startDetached g k id t now => cases h
  | finish g now =>
    simp only [request] at h
    split at h
    · cases h
    · exact record_tag _ _ _ h
  | finishOverride g id now =>
    simp only [request] at h
    split at h
    · cases h
    · exact record_tag _ _ _ h
  | finishDetached g now =>
    simp only [request] at h
    split at h
    · cases h
    · exact record_tag _ _ _ h

theorem sinkCalls_tag (cs : List ProfCall) : ∀ l, ∀ q ∈ sinkCalls l cs, q.1 < 3 := by
  induction cs with
  | nil => intro l q hq; simp [sinkCalls] at hq
  | cons c cs ih =>
    intro l q hq
    simp only [sinkCalls] at hq
    split at hq
    · exact ih _ q hq
    · rename_i q' k hr
      rcases List.mem_cons.mp hq with rfl | hq
      · exact request_tag hr
      · exact ih _ q hq

theorem threads_tag {n : Nat} (p : Program n) (t : Fin (n + 1)) : ∀ q ∈ p.threads t, q.1 < 3 := by
  intro q hq
  unfold Program.threads at hq
  split at hq
  · rcases List.mem_append.mp hq with hq | hq
    · rcases List.mem_append.mp hq with hq | hq
      · simp only [creation, List.mem_append, List.mem_map, List.mem_cons, List.not_mem_nil, or_false] at hq
        rcases hq with ((⟨_, _, rfl⟩ | ⟨_, _, rfl⟩) | ⟨_, _, rfl⟩) | rfl | rfl <;> simp only <;> omega
      · exact sinkCalls_tag _ _ q hq
    · simp only [dropping, List.mem_cons, List.not_mem_nil, or_false] at hq
      rcases hq with rfl | rfl | rfl <;> decide
  · exact sinkCalls_tag _ _ q hq

theorem threads_unshared {n : Nat} (p : Program n) (i : Nat) (hi : i < 3) : ProgsTagUnshared profTags i p.threads := by
  intro t q hq he
  have := threads_tag p t q hq
  obtain ⟨j, c⟩ := q
  simp only at he this ⊢
  have : ∀ i < 3, ∀ j < 3, profTags j = profTags i → j = i := by decide
  exact this i hi j (by assumption) he

theorem decoder_store (fuel : Nat) {store store' : Bytes} {m m' : PageTag → Option Bytes} (h : splitStreams store = .ok m) (h' : splitStreams store' = .ok m')
    (he : m .events = m' .events) (hd : m .stringData = m' .stringData) (hi : m .stringIndex = m' .stringIndex) :
    EventDecoder.new diag fuel (fileHeader magicTopLevel ++ store) = EventDecoder.new diag fuel (fileHeader magicTopLevel ++ store') := by
  have hdrop : ∀ x : Bytes, (fileHeader magicTopLevel ++ x).drop fileHeaderSize = x := by
    intro x
    have : (fileHeader magicTopLevel).length = fileHeaderSize := rfl
    rw [← this, List.drop_left]
  unfold EventDecoder.new
  rw [(C11_write_then_verify magicTopLevel store rfl).1, (C11_write_then_verify magicTopLevel store' rfl).1, hdrop, hdrop, h, h']
  simp only [bind, Except.bind, he, hd, hi]

theorem readsLike_store {store store' : Bytes} {m m' : PageTag → Option Bytes} (h : splitStreams store = .ok m) (h' : splitStreams store' = .ok m')
    (he : m .events = m' .events) (hd : m .stringData = m' .stringData) (hi : m .stringIndex = m' .stringIndex) :
    ReadsLike (fileHeader magicTopLevel ++ store) (fileHeader magicTopLevel ++ store') := by
  intro diag v8 fuel
  unfold fromPagedBuffer
  rw [(C11_write_then_verify magicTopLevel store rfl).2.1, (C11_write_then_verify magicTopLevel store' rfl).2.1, decoder_store fuel h h' he hd hi]
  rfl

/-! ## Answers -/

theorem answers_extra (cs : List ProfCall) : ∀ (l : Locals) (rs extra : List Res), rs.length = (sinkCalls l cs).length →
    answers l cs (rs ++ extra) = answers l cs rs := by
  induction cs with
  | nil => intro l rs extra h; rfl
  | cons c cs ih =>
    intro l rs extra h
    simp only [sinkCalls] at h
    simp only [answers]
    cases hr : request l c with
    | done a =>
      rw [hr] at h
      simp only
      rw [ih _ _ _ h]
    | sink q k =>
      rw [hr] at h
      cases rs with
      | nil => simp at h
      | cons r rs =>
        simp only [List.cons_append]
        rw [ih _ _ _ (by simpa using h)]

theorem prefix_append_cases {α : Type} {x a b : List α} (h : x <+: a ++ b) : x <+: a ∨ ∃ y, x = a ++ y ∧ y <+: b := by
  rcases List.prefix_or_prefix_of_prefix h (List.prefix_append a b) with h1 | ⟨y, rfl⟩
  · exact .inl h1
  · exact .inr ⟨y, rfl, (List.prefix_append_right_inj a).mp h⟩

/-- The calls of all threads in one order, from an order of their calls on the sinks; `E` is what comes after. -/
theorem serialize_core {n : Nat} {p : Program n} (hn : OwnNames p) {σ : Conc (n + 1)} {H0 M E : List (LinEntry (n + 1))}
    (hlin : Linearization profTags σ.log (H0 ++ M ++ E)) (hc : historyOf H0 = creation p.metadata)
    (hl0 : ∀ t, (entriesOf t H0).length = if t = 0 then (creation p.metadata).length else 0)
    (hM : ∀ t, (entriesOf t M).map Prod.fst = sinkCalls .empty (p.calls t)) (hent : ∀ t, entriesOf t (H0 ++ M ++ E) = returned t σ.log) :
    ∃ L, Orders p L ∧ RealTime p σ L ∧
      storeAfter profTags (historyOf (H0 ++ M ++ E)) =
        (World.exec profTags (historyOf E) (runProf (L.map Prod.snd) (profInit p.metadata)).2.world).2.store.data ∧
      ∀ t, answersOf p σ t = ofThread t ((L.map Prod.fst).zip (profOutcomes p.metadata (L.map Prod.snd))) := by
  have hlegal := hlin.legal
  have hE : World.exec profTags (historyOf (H0 ++ M ++ E)) World.init =
      ((H0 ++ M ++ E).map LinEntry.res, (run profTags (historyOf (H0 ++ M ++ E))).2) := Prod.ext hlegal rfl
  have hist : historyOf (H0 ++ M ++ E) = creation p.metadata ++ historyOf M ++ historyOf E := by
    simp only [historyOf, List.map_append] at hc ⊢
    rw [hc]
  have hcw : (World.exec profTags (creation p.metadata) World.init).2 = (profInit p.metadata).world := creation_run p.metadata
  have hlc : (World.exec profTags (creation p.metadata) World.init).1.length = H0.length := by
    rw [exec_length, ← hc]; simp [historyOf]
  have hlm : ∀ w, (World.exec profTags (historyOf M) w).1.length = M.length := by
    intro w; rw [exec_length]; simp [historyOf]
  rw [hist] at hE
  rw [exec_append, exec_append] at hE
  simp only [hcw, Prod.mk.injEq, List.map_append] at hE
  obtain ⟨hE1, hE2⟩ := hE
  have hA := List.append_inj_left hE1 (by simp [hlc, hlm])
  have hB := List.append_inj_right hA (by simp [hlc])
  obtain ⟨L, l1, l2, l3, l4⟩ := merge _ p.calls (fun _ => Locals.empty) M (profInit p.metadata) (World.exec profTags (historyOf M) (profInit p.metadata).world).2 rfl hn
    (fun t c hc g hg => ⟨rfl, rfl⟩) hM (Prod.ext hB rfl)
  refine ⟨L, l1, ?_, ?_, ?_⟩
  · intro log hlog
    obtain ⟨H', hp, hb⟩ := hlin.realTime log hlog
    obtain ⟨M', hM', he⟩ : ∃ M', M' <+: M ∧ ∀ t, ownCalls p t ((entriesOf t H').map Prod.fst) = (entriesOf t M').map Prod.fst := by
      have hlenM : ∀ t, ((entriesOf t M).map Prod.fst).length = (sinkCalls .empty (p.calls t)).length := fun t => by rw [hM]
      have hl0' : ∀ t, ((entriesOf t H0).map Prod.fst).length = if t = 0 then (creation p.metadata).length else 0 := fun t => by rw [List.length_map, hl0]
      have within : ∀ M', M' <+: M → ∀ t, ((entriesOf t M').map Prod.fst).length ≤ (sinkCalls .empty (p.calls t)).length := by
        intro M' hM' t
        obtain ⟨X, rfl⟩ := hM'
        rw [← hlenM, entriesOf_append]
        simp
      rw [List.append_assoc] at hp
      rcases prefix_append_cases hp with hp | ⟨H'', rfl, hp2⟩
      · refine ⟨[], List.nil_prefix, fun t => ?_⟩
        obtain ⟨X, hX⟩ := hp
        have : ((entriesOf t H').map Prod.fst).length ≤ if t = 0 then (creation p.metadata).length else 0 := by
          rw [← hl0', ← hX, entriesOf_append]; simp
        unfold ownCalls
        rw [List.drop_eq_nil_of_le this]
        simp [entriesOf]
      · rcases prefix_append_cases hp2 with hp3 | ⟨E', rfl, hp3⟩
        · refine ⟨H'', hp3, fun t => ?_⟩
          unfold ownCalls
          rw [entriesOf_append, List.map_append, ← hl0', List.drop_left, List.take_of_length_le (within _ hp3 t)]
        · refine ⟨M, List.prefix_refl _, fun t => ?_⟩
          unfold ownCalls
          rw [entriesOf_append, List.map_append, ← hl0', List.drop_left, entriesOf_append, List.map_append, ← hlenM, List.take_left]
    obtain ⟨L', hL, hl⟩ := l4 M' hM'
    refine ⟨L', hL, fun t => ?_⟩
    rw [hl, ← he]
    obtain ⟨b1, b2⟩ := hb t
    exact ⟨(((b1.map Prod.fst).drop _).take _), ((b2.drop _).take _)⟩
  · unfold storeAfter
    rw [l2, hist, ← hE2]
  · intro t
    have e : profOutcomes p.metadata (L.map Prod.snd) = (runProf (L.map Prod.snd) (profInit p.metadata)).1 := rfl
    rw [e, l3]
    unfold answersOf
    rw [← hent t, entriesOf_append, entriesOf_append]
    simp only [List.map_append]
    have : (if t = 0 then (creation p.metadata).length else 0) = ((entriesOf t H0).map Prod.snd).length := by rw [List.length_map, hl0]
    rw [List.append_assoc, this, List.drop_left, answers_extra]
    rw [← hM]
    simp

/-- The execution as a sequence of calls on one profiler. -/
theorem serialize_pages {n : Nat} {p : Program n} (hn : OwnNames p) {σ : Conc (n + 1)} (h : Executes p σ) :
    ∃ L, Orders p L ∧ RealTime p σ L ∧
      (∃ pages pages', fileOf σ = fileHeader magicTopLevel ++ storeOf pages ∧ savedFile p.metadata (L.map Prod.snd) = fileHeader magicTopLevel ++ storeOf pages' ∧
        (∀ p ∈ pages, 0 < p.body.length ∧ p.body.length ≤ 262144) ∧ (∀ p ∈ pages', 0 < p.body.length ∧ p.body.length ≤ 262144) ∧
        ∀ i, i < 3 → pages.filter (fun p => p.tag = profTags i) = pages'.filter (fun p => p.tag = profTags i)) ∧
      ∀ t, answersOf p σ t = ofThread t ((L.map Prod.fst).zip (profOutcomes p.metadata (L.map Prod.snd))) := by
  obtain ⟨k, H0, M, E, hr, hf, hlin, hc, hd, hl0, hM, hent, pages, pages', hs, hs', hb, hb', hmm⟩ := cut h
  obtain ⟨L, l1, l2, l3, l4⟩ := serialize_core hn hlin hc hl0 hM hent
  refine ⟨L, l1, l2, ⟨pages, pages', by unfold fileOf; rw [hs], ?_, hb, hb', fun i hi => hmm i (threads_unshared p i hi)⟩, l4⟩
  rw [← hs', l3, hd]
  rfl

/-- Pages that agree stream by stream. -/
theorem merge_alike {pages pages' : List Page}
    (h : ∀ i, i < 3 → pages.filter (fun p => p.tag = profTags i) = pages'.filter (fun p => p.tag = profTags i)) (i : Nat) (hi : i < 3) :
    mergePages (fun _ => none) pages (profTags i) = mergePages (fun _ => none) pages' (profTags i) := by
  have e : ∀ ps : List Page, (∃ p ∈ ps, p.tag = profTags i) ↔ ps.filter (fun p => p.tag = profTags i) ≠ [] := by
    intro ps
    simp [List.filter_eq_nil_iff]
  rw [mergePages_none, mergePages_none]
  simp only [e, streamOf, h i hi]

/-- Files with the same pages for each stream read alike. -/
theorem readsLike_pages {pages pages' : List Page} (hb : ∀ p ∈ pages, 0 < p.body.length ∧ p.body.length ≤ 262144)
    (hb' : ∀ p ∈ pages', 0 < p.body.length ∧ p.body.length ≤ 262144)
    (h : ∀ i, i < 3 → pages.filter (fun p => p.tag = profTags i) = pages'.filter (fun p => p.tag = profTags i)) :
    ReadsLike (fileHeader magicTopLevel ++ storeOf pages) (fileHeader magicTopLevel ++ storeOf pages') :=
  readsLike_store (splitStreams_storeOf _ fun p hp => split_of_writer (hb p hp)) (splitStreams_storeOf _ fun p hp => split_of_writer (hb' p hp))
    (merge_alike h 0 (by decide)) (merge_alike h 1 (by decide)) (merge_alike h 2 (by decide))

theorem decoder_pages (fuel : Nat) {pages pages' : List Page} (hb : ∀ p ∈ pages, 0 < p.body.length ∧ p.body.length ≤ 262144)
    (hb' : ∀ p ∈ pages', 0 < p.body.length ∧ p.body.length ≤ 262144)
    (h : ∀ i, i < 3 → pages.filter (fun p => p.tag = profTags i) = pages'.filter (fun p => p.tag = profTags i)) :
    EventDecoder.new diag fuel (fileHeader magicTopLevel ++ storeOf pages) = EventDecoder.new diag fuel (fileHeader magicTopLevel ++ storeOf pages') :=
  decoder_store fuel (splitStreams_storeOf _ fun p hp => split_of_writer (hb p hp)) (splitStreams_storeOf _ fun p hp => split_of_writer (hb' p hp))
    (merge_alike h 0 (by decide)) (merge_alike h 1 (by decide)) (merge_alike h 2 (by decide))

/-- Calls of all threads in one order: what the file reads like, and what the threads are answered. -/
theorem serialize {n : Nat} {p : Program n} (hn : OwnNames p) {σ : Conc (n + 1)} (h : Executes p σ) :
    ∃ L, Orders p L ∧ RealTime p σ L ∧ ReadsLike (fileOf σ) (savedFile p.metadata (L.map Prod.snd)) ∧
      ∀ t, answersOf p σ t = ofThread t ((L.map Prod.fst).zip (profOutcomes p.metadata (L.map Prod.snd))) := by
  obtain ⟨L, l1, l2, ⟨pages, pages', e, e', b, b', hf⟩, l4⟩ := serialize_pages hn h
  refine ⟨L, l1, l2, ?_, l4⟩
  rw [e, e']
  exact readsLike_pages b b' hf

end Verif.Conc
