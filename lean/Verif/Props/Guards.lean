import Verif.Props.Decoder
import Verif.Spec.Guards

/-! # Property C31: scoped timing -/

namespace Verif.Props
open Verif Verif.Mm Verif.Spec Verif.Decode

/-- What a held timing will record. -/
def pendingOf (l : Ledger) : Held → Option Pending
  | .guard g => l.guards g
  | .detached g => l.detached g

/-- The invariant of a scoped program. -/
structure ScopeInv (s : Scopes) (l : Ledger) : Prop where
  held : ∀ t x, x ∈ s.open_ t → ∃ p, pendingOf l x = some p ∧ p.thread = t ∧ p.start ≤ s.clock t ∧
    ∀ a ∈ intervalsOf t l.events, p.start ≤ a.1 ∨ a.2 ≤ p.start
  once : ∀ t, (s.open_ t).Nodup
  apart : ∀ t u x, x ∈ s.open_ t → x ∈ s.open_ u → t = u
  stack : ∀ t, (s.open_ t).Pairwise (fun x y => ∀ p q, pendingOf l x = some p → pendingOf l y = some q → q.start ≤ p.start)
  past : ∀ t, ∀ a ∈ intervalsOf t l.events, a.1 ≤ a.2 ∧ a.2 ≤ s.clock t
  nested : ∀ t, (intervalsOf t l.events).Pairwise Nested

theorem intervalsOf_append (t : UInt32) (a b : List Recorded) : intervalsOf t (a ++ b) = intervalsOf t a ++ intervalsOf t b := by
  simp [intervalsOf]

theorem ScopeInv.enter {s : Scopes} {l l' : Ledger} (i : ScopeInv s l) (t : UInt32) (x : Held) (now : Nat) (p : Pending)
    (hp : p.thread = t ∧ p.start = now) (hx : ∀ u, x ∉ s.open_ u) (hc : s.clock t ≤ now) (he : l'.events = l.events)
    (h1 : pendingOf l' x = some p) (h2 : ∀ y, y ≠ x → pendingOf l' y = pendingOf l y) : ScopeInv (s.enter t x now) l' where
  held := by
    intro u y hy
    rw [he]
    simp only [Scopes.enter] at hy ⊢
    by_cases hut : u = t
    · subst hut
      simp only [if_true, List.mem_cons] at hy ⊢
      rcases hy with rfl | hy
      · refine ⟨p, h1, hp.1, by omega, fun a ha => ?_⟩
        have := i.past _ a ha
        right; omega
      · obtain ⟨q, q1, q2, q3, q4⟩ := i.held u y hy
        exact ⟨q, by rw [h2 y (by rintro rfl; exact hx _ hy)]; exact q1, q2, by omega, q4⟩
    · simp only [if_neg hut] at hy ⊢
      obtain ⟨q, q1, q2, q3, q4⟩ := i.held u y hy
      exact ⟨q, by rw [h2 y (by rintro rfl; exact hx _ hy)]; exact q1, q2, q3, q4⟩
  once := by
    intro u
    simp only [Scopes.enter]
    split
    · exact List.nodup_cons.mpr ⟨hx t, i.once t⟩
    · exact i.once u
  apart := by
    intro u v y hu hv
    simp only [Scopes.enter] at hu hv
    by_cases e1 : u = t <;> by_cases e2 : v = t
    · rw [e1, e2]
    · simp only [if_pos e1, if_neg e2, List.mem_cons] at hu hv
      rcases hu with rfl | hu
      · exact (hx _ hv).elim
      · rw [e1]; exact i.apart _ _ y hu hv
    · simp only [if_neg e1, if_pos e2, List.mem_cons] at hu hv
      rcases hv with rfl | hv
      · exact (hx _ hu).elim
      · rw [e2]; exact i.apart _ _ y hu hv
    · simp only [if_neg e1, if_neg e2] at hu hv
      exact i.apart _ _ y hu hv
  stack := by
    intro u
    have old : ∀ u, (s.open_ u).Pairwise (fun x y => ∀ p q, pendingOf l' x = some p → pendingOf l' y = some q → q.start ≤ p.start) := by
      intro u
      refine (i.stack u).imp_of_mem (fun {a b} ha hb h p q hp hq => h p q ?_ ?_)
      · rw [← h2 a (by rintro rfl; exact hx _ ha)]; exact hp
      · rw [← h2 b (by rintro rfl; exact hx _ hb)]; exact hq
    simp only [Scopes.enter]
    split
    · refine List.pairwise_cons.mpr ⟨?_, old t⟩
      intro y hy p' q hp' hq
      rw [h1] at hp'
      injection hp' with hp'
      subst hp'
      rw [h2 y (by rintro rfl; exact hx _ hy)] at hq
      obtain ⟨q', q1, q2, q3, _⟩ := i.held t y hy
      rw [q1] at hq
      injection hq with hq
      subst hq
      omega
    · exact old u
  past := by
    intro u a ha
    rw [he] at ha
    have := i.past u a ha
    simp only [Scopes.enter]
    split
    · rename_i h; subst h; omega
    · exact this
  nested := by intro u; rw [he]; exact i.nested u

theorem intervalsOf_finished (u : UInt32) (p : Pending) (id : EventId) (now : UInt64) :
    intervalsOf u (finished p id now) =
      if p.thread = u ∧ p.start ≤ now.toNat ∧ now.toNat ≤ 281474976710653 then [(p.start, now.toNat)] else [] := by
  unfold finished
  by_cases h : p.start ≤ now.toNat ∧ now.toNat ≤ 281474976710653
  · rw [if_pos h]
    by_cases hu : p.thread = u
    · rw [if_pos ⟨hu, h⟩]; simp [intervalsOf, hu]
    · rw [if_neg (fun hh => hu hh.1)]; simp [intervalsOf, hu]
  · rw [if_neg h, if_neg (fun hh => h hh.2)]; rfl

theorem ScopeInv.leave {s : Scopes} {l l' : Ledger} (i : ScopeInv s l) (t : UInt32) (x : Held) (now : UInt64) (p : Pending) (id : EventId)
    (hx : (s.open_ t).head? = some x) (hc : s.clock t ≤ now.toNat) (h1 : pendingOf l x = some p)
    (he : l'.events = l.events ++ finished p id now)
    (h2 : ∀ y, y ≠ x → pendingOf l' y = pendingOf l y) : ScopeInv (s.leave t now.toNat) l' := by
  obtain ⟨rest, hrest⟩ : ∃ rest, s.open_ t = x :: rest := by
    cases h : s.open_ t with
    | nil => rw [h] at hx; simp at hx
    | cons y ys => rw [h] at hx; simp at hx; subst hx; exact ⟨ys, rfl⟩
  have hxm : x ∈ s.open_ t := by rw [hrest]; simp
  obtain ⟨p', hp1, hp2, hp3, hp4⟩ := i.held t x hxm
  rw [h1] at hp1
  injection hp1 with hp1
  subst hp1
  have hst := i.stack t
  rw [hrest, List.pairwise_cons] at hst
  have hnd := i.once t
  rw [hrest, List.nodup_cons] at hnd
  have sub : ∀ u y, y ∈ (s.leave t now.toNat).open_ u → y ∈ s.open_ u ∧ y ≠ x := by
    intro u y hy
    simp only [Scopes.leave] at hy
    split at hy
    · rename_i h; subst h
      rw [hrest, List.tail_cons] at hy
      exact ⟨by rw [hrest]; simp [hy], by rintro rfl; exact hnd.1 hy⟩
    · rename_i h
      exact ⟨hy, by rintro rfl; exact h (i.apart _ _ _ hy hxm)⟩
  have subl : ∀ u, ((s.leave t now.toNat).open_ u).Sublist (s.open_ u) := by
    intro u
    simp only [Scopes.leave]
    split
    · rename_i h; subst h; exact List.tail_sublist _
    · exact List.Sublist.refl _
  have hev : ∀ u a, a ∈ intervalsOf u l'.events → a ∈ intervalsOf u l.events ∨ (u = t ∧ a = (p.start, now.toNat)) := by
    intro u a ha
    rw [he, intervalsOf_append, List.mem_append, intervalsOf_finished] at ha
    rcases ha with ha | ha
    · exact .inl ha
    · split at ha
      · rename_i hcond
        simp only [List.mem_cons, List.not_mem_nil, or_false] at ha
        exact .inr ⟨by rw [← hcond.1]; exact hp2, ha⟩
      · simp at ha
  refine ⟨?_, fun u => (i.once u).sublist (subl u), fun u v y hu hv => i.apart u v y (sub u y hu).1 (sub v y hv).1, ?_, ?_, ?_⟩
  · intro u y hy
    obtain ⟨hy1, hy2⟩ := sub u y hy
    obtain ⟨q, q1, q2, q3, q4⟩ := i.held u y hy1
    refine ⟨q, by rw [h2 y hy2]; exact q1, q2, ?_, ?_⟩
    · simp only [Scopes.leave]
      split
      · rename_i h; subst h; omega
      · exact q3
    · intro a ha
      rcases hev u a ha with ha | ⟨rfl, rfl⟩
      · exact q4 a ha
      · left
        have hy' : y ∈ rest := by rw [hrest] at hy1; simpa [hy2] using hy1
        exact hst.1 y hy' p q h1 q1
  · intro u
    refine ((i.stack u).sublist (subl u)).imp_of_mem (fun {a b} ha hb h p q hp hq => h p q ?_ ?_)
    · rw [← h2 a (sub u a ha).2]; exact hp
    · rw [← h2 b (sub u b hb).2]; exact hq
  · intro u a ha
    have hcl : s.clock u ≤ (s.leave t now.toNat).clock u := by
      simp only [Scopes.leave]
      split
      · rename_i h; subst h; exact hc
      · exact Nat.le_refl _
    rcases hev u a ha with ha | ⟨rfl, rfl⟩
    · have := i.past u a ha
      omega
    · simp only [Scopes.leave, if_true]
      omega
  · intro u
    rw [he, intervalsOf_append, intervalsOf_finished]
    refine List.pairwise_append.mpr ⟨i.nested u, ?_, ?_⟩
    · split <;> simp
    · intro a ha b hb
      split at hb
      · rename_i hcond
        simp only [List.mem_cons, List.not_mem_nil, or_false] at hb
        subst hb
        have hut : u = t := by rw [← hcond.1]; exact hp2
        subst hut
        have := i.past u a ha
        exact ⟨by show a.2 ≤ now.toNat; omega, hp4 a ha⟩
      · simp at hb

theorem scoped_step {s : Scopes} {l : Ledger} {c : ProfCall} {cs : List ProfCall} (i : ScopeInv s l) (h : Scoped s (c :: cs)) :
    ∃ s', ScopeInv s' (l.step c) ∧ Scoped s' cs := by
  have skip : (l.step c).guards = l.guards → (l.step c).detached = l.detached → (∀ t, intervalsOf t (l.step c).events = intervalsOf t l.events) → Scoped s cs →
      ∃ s', ScopeInv s' (l.step c) ∧ Scoped s' cs := by
    intro e1 e2 e3 hs
    refine ⟨s, ?_, hs⟩
    have hp : pendingOf (l.step c) = pendingOf l := by
      funext x; cases x <;> simp [pendingOf, e1, e2]
    refine ⟨?_, i.once, i.apart, ?_, ?_, ?_⟩
    · intro t x hx; rw [hp, e3]; exact i.held t x hx
    · intro t; rw [hp]; exact i.stack t
    · intro t; rw [e3]; exact i.past t
    · intro t; rw [e3]; exact i.nested t
  cases c with
  | allocString t => exact skip rfl rfl (fun _ => rfl) h
  | allocForeign b => exact skip rfl rfl (fun _ => rfl) h
  | mapVirtual v c => exact skip rfl rfl (fun _ => rfl) h
  | bulkMapVirtual v c => exact skip rfl rfl (fun _ => rfl) h
  | instant k id t now =>
    refine skip rfl rfl (fun u => ?_) h
    simp only [Ledger.step, intervalsOf_append, single]
    split <;> simp [intervalsOf]
  | integer k id t now =>
    refine skip rfl rfl (fun u => ?_) h
    simp only [Ledger.step, intervalsOf_append, single]
    split <;> simp [intervalsOf]
  | start g k id t now =>
    obtain ⟨h1, h2, h3⟩ := h
    refine ⟨_, i.enter t (.guard g) now.toNat ⟨k, id, t, now.toNat⟩ ⟨rfl, rfl⟩ h1 h2 rfl ?_ ?_, h3⟩
    · simp [pendingOf, Ledger.step, put]
    · intro y hy
      cases y with
      | guard g' =>
        have : g' ≠ g := by rintro rfl; exact hy rfl
        simp [pendingOf, Ledger.step, put, this]
      | detached g' => rfl
  | startDetached g k id t now =>
    obtain ⟨h1, h2, h3⟩ := h
    refine ⟨_, i.enter t (.detached g) now.toNat ⟨k, id, t, now.toNat⟩ ⟨rfl, rfl⟩ h1 h2 rfl ?_ ?_, h3⟩
    · simp [pendingOf, Ledger.step, put]
    · intro y hy
      cases y with
      | detached g' =>
        have : g' ≠ g := by rintro rfl; exact hy rfl
        simp [pendingOf, Ledger.step, put, this]
      | guard g' => rfl
  | finish g now =>
    obtain ⟨t, h1, h2, h3⟩ := h
    obtain ⟨p, hp, _⟩ := i.held t (.guard g) (List.mem_of_head? h1)
    have hg : l.guards g = some p := hp
    refine ⟨_, i.leave t (.guard g) now p p.id h1 h2 hp ?_ ?_, h3⟩
    · simp [Ledger.step, hg]
    · intro y hy
      cases y with
      | guard g' =>
        have : g' ≠ g := by rintro rfl; exact hy rfl
        simp [pendingOf, Ledger.step, hg, put, this]
      | detached g' => simp [pendingOf, Ledger.step, hg]
  | finishOverride g id now =>
    obtain ⟨t, h1, h2, h3⟩ := h
    obtain ⟨p, hp, _⟩ := i.held t (.guard g) (List.mem_of_head? h1)
    have hg : l.guards g = some p := hp
    refine ⟨_, i.leave t (.guard g) now p id h1 h2 hp ?_ ?_, h3⟩
    · simp [Ledger.step, hg]
    · intro y hy
      cases y with
      | guard g' =>
        have : g' ≠ g := by rintro rfl; exact hy rfl
        simp [pendingOf, Ledger.step, hg, put, this]
      | detached g' => simp [pendingOf, Ledger.step, hg]
  | finishDetached g now =>
    obtain ⟨t, h1, h2, h3⟩ := h
    obtain ⟨p, hp, _⟩ := i.held t (.detached g) (List.mem_of_head? h1)
    have hg : l.detached g = some p := hp
    refine ⟨_, i.leave t (.detached g) now p p.id h1 h2 hp ?_ ?_, h3⟩
    · simp [Ledger.step, hg]
    · intro y hy
      cases y with
      | detached g' =>
        have : g' ≠ g := by rintro rfl; exact hy rfl
        simp [pendingOf, Ledger.step, hg, put, this]
      | guard g' => simp [pendingOf, Ledger.step, hg]

theorem scoped_inv (calls rest : List ProfCall) : ∀ (s : Scopes) (l : Ledger), ScopeInv s l → Scoped s (calls ++ rest) →
    ∃ s', ScopeInv s' (calls.foldl Ledger.step l) ∧ Scoped s' rest := by
  induction calls with
  | nil => intro s l i h; exact ⟨s, i, h⟩
  | cons c cs ih =>
    intro s l i h
    obtain ⟨s1, i1, h1⟩ := scoped_step i h
    exact ih s1 _ i1 h1

theorem scopeInv_empty : ScopeInv .empty .empty := by
  refine ⟨?_, ?_, ?_, ?_, ?_, ?_⟩ <;> intros <;> simp_all [Scopes.empty, Ledger.empty, intervalsOf]

/-- The intervals of a thread, as the decoder reports them (absolute times). -/
def decodedIntervals (d : EventDecoder) (n : Nat) (t : UInt32) : List (Nat × Nat) :=
  (List.range n).filterMap (fun i => match d.decodeLightweight i with
    | .ok ⟨_, u, .timestamp (.interval s e)⟩ => if u = t then some (s, e) else none
    | _ => none)

theorem filterMap_range_get {α β : Type} (l : List α) (f : Nat → Option β) (g : α → Option β)
    (h : ∀ i x, l[i]? = some x → f i = g x) : (List.range l.length).filterMap f = l.filterMap g := by
  induction l using List.reverseRecOn with
  | nil => simp
  | append_singleton l x ih =>
    rw [List.length_append, List.length_singleton, List.range_succ, List.filterMap_append, List.filterMap_append,
      ih (fun i y hy => h i y (by rw [List.getElem?_append_left (List.getElem?_eq_some_iff.mp hy).1]; exact hy))]
    have hx := h l.length x (by simp)
    congr 1
    show List.filterMap f [l.length] = List.filterMap g [x]
    rw [List.filterMap_cons, List.filterMap_cons, hx]
    rfl

/-- **C31.** Scoped programs record, on every thread, intervals that are pairwise nested or disjoint, in the order of their
ends — in the profile as the decoder reads it. -/
theorem C31_scoped_intervals_nest (start pid : Nat) (hs : start < 2 ^ 64) (hp : pid < 2 ^ 32) (args : List String) (plain : PlainArgs args)
    (counter : CounterKind) (calls : List ProfCall) (hsc : Scoped .empty calls) :
    ∃ d n, (∃ m, ∀ (diag : Option String) (fuel : Nat), m ≤ fuel → EventDecoder.new diag fuel (profileFile start pid args counter calls) = .ok d) ∧ d.numEvents = .ok n ∧
      ∀ t, (decodedIntervals d n t).Pairwise (fun a b => a.2 ≤ b.2 ∧ (b.1 ≤ a.1 ∨ a.2 ≤ b.1)) ∧ ∀ a ∈ decodedIntervals d n t, a.1 ≤ a.2 := by
  obtain ⟨d, h1, h2, h3, h4⟩ := C29_profile_round_trip start pid hs hp args plain counter calls
  refine ⟨d, _, h1, h3, fun t => ?_⟩
  obtain ⟨s', inv, _⟩ := scoped_inv calls [] .empty .empty scopeInv_empty (by rwa [List.append_nil])
  have e : decodedIntervals d (recorded calls).length t = (intervalsOf t (recorded calls)).map (fun a => (start + a.1, start + a.2)) := by
    unfold decodedIntervals
    rw [filterMap_range_get (recorded calls) _ (fun r => match r.what with
      | .interval s e => if r.thread = t then some (start + s, start + e) else none
      | _ => none)]
    · rw [intervalsOf, List.map_filterMap]
      congr 1
      funext r
      cases hw : r.what <;> simp
    · intro i r hr
      rw [(h4 i r hr).1]
      cases hw : r.what <;> simp [seen]
  rw [e]
  constructor
  · rw [List.pairwise_map]
    refine (inv.nested t).imp ?_
    intro a b h
    have h' : a.2 ≤ b.2 ∧ (b.1 ≤ a.1 ∨ a.2 ≤ b.1) := h
    simp only
    omega
  · intro a ha
    obtain ⟨b, hb, rfl⟩ := List.mem_map.mp ha
    have := (inv.past t b hb).1
    simp only
    omega

/-- **C31.** In a scoped program the next finish in stack order, at a counter value that has not gone backwards and is at most
2⁴⁸ − 3, does not panic and records exactly one event: the interval from the counter value at the start to the one at
the end, on the thread and with the kind of the start. -/
theorem C31_finish_records (md : String) (calls : List ProfCall) (g : Nat) (now : UInt64) (hr : now.toNat ≤ 281474976710653)
    (hsc : Scoped .empty (calls ++ [.finish g now])) :
    ∃ p, (ledger calls).guards g = some p ∧ ((ProfCall.finish g now).run (runProf calls (profInit md)).2).1 = .ok none ∧
      recorded (calls ++ [.finish g now]) = recorded calls ++ [⟨p.kind, p.id, p.thread, .interval p.start now.toNat⟩] := by
  obtain ⟨s, inv, t, h1, h2, _⟩ := scoped_inv calls _ .empty .empty scopeInv_empty hsc
  obtain ⟨p, hp, _, hst, _⟩ := inv.held t (.guard g) (List.mem_of_head? h1)
  have hg : (ledger calls).guards g = some p := hp
  have hrange : p.start ≤ now.toNat ∧ now.toNat ≤ 281474976710653 := ⟨by omega, hr⟩
  refine ⟨p, hg, ((C29_recorded_iff_ok md calls (.finish g now)).2.2.1 g p now rfl hg).mp hrange, ?_⟩
  simp only [recorded, ledger, List.foldl_append, List.foldl_cons, List.foldl_nil]
  change ((ledger calls).step _).events = _
  simp only [Ledger.step, hg, finished, if_pos hrange]
  rfl

/-- **C31.** In a scoped program no finish, of a guard or of a detached timing, ever panics while the counter is at most
2⁴⁸ − 3. -/
theorem C31_finish_never_panics (md : String) (calls : List ProfCall) (c : ProfCall) (now : UInt64) (hc : finishTime c = some now)
    (hr : now.toNat ≤ 281474976710653) (hsc : Scoped .empty (calls ++ [c])) :
    (c.run (runProf calls (profInit md)).2).1 = .ok none ∧ (recorded (calls ++ [c])).length = (recorded calls).length + 1 := by
  have hst := ((prof_inv md calls).step c).2
  have conc : (asTable (c, (c.run (runProf calls (profInit md)).2).1)) = none → ((ledger calls).step c).events.length = (ledger calls).events.length + 1 →
      (c.run (runProf calls (profInit md)).2).1 = .ok none ∧ (recorded (calls ++ [c])).length = (recorded calls).length + 1 := by
    intro h1 h2
    refine ⟨(hst h1).1 (.inr (.inr (by omega))), ?_⟩
    simp only [recorded, ledger, List.foldl_append, List.foldl_cons, List.foldl_nil]
    exact h2
  obtain ⟨s, inv, hs⟩ := scoped_inv calls _ .empty .empty scopeInv_empty hsc
  change ScopeInv s (ledger calls) at inv
  cases c <;> simp only [finishTime, reduceCtorEq, Option.some.injEq] at hc
  all_goals
    subst hc
    obtain ⟨t, h1, h2, _⟩ := hs
    obtain ⟨p, hp, _, hst, _⟩ := inv.held t _ (List.mem_of_head? h1)
    simp only [pendingOf] at hp
    refine conc rfl ?_
    simp only [Ledger.step, hp, finished]
    rw [if_pos ⟨by omega, hr⟩]
    simp

/-- A scoped program: nested guards on two threads, one detached timing, interleaved. -/
def exScoped : List ProfCall :=
  [.start 0 1 2 7 10, .start 1 1 2 8 12, .startDetached 0 1 2 7 20, .finish 1 25, .finishDetached 0 30, .start 2 1 2 7 40, .finish 2 45, .finish 0 50]

theorem exScoped_scoped : Scoped .empty exScoped := by
  refine ⟨by simp [Scopes.empty], by decide, ?_, by decide, ?_, by decide,
    8, by decide, by decide, 7, by decide, by decide, ?_, by decide, 7, by decide, by decide, 7, by decide, by decide, trivial⟩
  all_goals
    intro u
    simp only [Scopes.empty, Scopes.enter, Scopes.leave]
    repeat' split
    all_goals simp

example : ∃ d n, (∃ m, ∀ (diag : Option String) (fuel : Nat), m ≤ fuel → EventDecoder.new diag fuel (profileFile 0 1 ["rustc"] .wallTime exScoped) = .ok d) ∧ d.numEvents = .ok n ∧
      ∀ t, (decodedIntervals d n t).Pairwise (fun a b => a.2 ≤ b.2 ∧ (b.1 ≤ a.1 ∨ a.2 ≤ b.1)) ∧ ∀ a ∈ decodedIntervals d n t, a.1 ≤ a.2 :=
  C31_scoped_intervals_nest 0 1 (by decide) (by decide) ["rustc"] (by decide) .wallTime exScoped exScoped_scoped

example : intervalsOf 7 (recorded exScoped) = [(20, 30), (40, 45), (10, 50)] := by decide

end Verif.Props
