import Verif.Proofs.ConcProfiler
import Verif.Spec.Guards

/-! # What the order of a profiler's calls preserves: scopes, what is recorded, what ids denote -/

namespace Verif.Conc

open Verif Verif.Mm Verif.Spec Verif.Decode Verif.Props

/-! ## Scopes -/

/-- The name of what is held. -/
def heldName : Held → Nat
  | .guard g => g
  | .detached g => g

theorem scoped_merge {m : Nat} (tid : Fin m → UInt32) (hinj : ∀ t t', tid t = tid t' → t = t') : ∀ (L : List (Fin m × ProfCall)) (S : Scopes) (Ss : Fin m → Scopes),
    (∀ t, ∀ c ∈ ofThread t L, ∀ u, recordsAs c = some u → u = tid t) →
    (∀ t t', t ≠ t' → ∀ c ∈ ofThread t L, ∀ c' ∈ ofThread t' L, ∀ g, nameOf c = some g → nameOf c' ≠ some g) →
    (∀ t u x, x ∈ (Ss t).open_ u → ∀ t', t' ≠ t → ∀ c ∈ ofThread t' L, nameOf c ≠ some (heldName x)) →
    (∀ t, S.open_ (tid t) = (Ss t).open_ (tid t) ∧ S.clock (tid t) = (Ss t).clock (tid t)) →
    (∀ u, (∀ t, u ≠ tid t) → S.open_ u = []) →
    (∀ t u, u ≠ tid t → (Ss t).open_ u = []) →
    (∀ t, Scoped (Ss t) (ofThread t L)) → Scoped S (L.map Prod.snd) := by
  intro L
  induction L with
  | nil => intros; trivial
  | cons e L ih =>
    obtain ⟨t, c⟩ := e
    intro S Ss hid hn hh hag hne hne' hs
    have hsub : ∀ t', ∀ x ∈ ofThread t' L, x ∈ ofThread t' ((t, c) :: L) := by
      intro t' x hx
      rw [ofThread_cons]
      split
      · exact List.mem_cons_of_mem _ hx
      · exact hx
    have hct : c ∈ ofThread t ((t, c) :: L) := by rw [ofThread_cons, if_pos rfl]; exact List.mem_cons_self
    have hst := hs t
    rw [ofThread_cons, if_pos rfl] at hst
    have hso : ∀ t', t' ≠ t → Scoped (Ss t') (ofThread t' L) := by
      intro t' ht
      have := hs t'
      rwa [ofThread_cons, if_neg (fun e => ht e.symm)] at this
    have hid' : ∀ t, ∀ c ∈ ofThread t L, ∀ u, recordsAs c = some u → u = tid t := fun t c hc => hid t c (hsub t c hc)
    have hn' : ∀ t t', t ≠ t' → ∀ c ∈ ofThread t L, ∀ c' ∈ ofThread t' L, ∀ g, nameOf c = some g → nameOf c' ≠ some g :=
      fun t t' h c hc c' hc' => hn t t' h c (hsub t c hc) c' (hsub t' c' hc')
    -- nothing happens to the scopes
    have skip : Scoped (Ss t) (ofThread t L) → Scoped S (L.map Prod.snd) := by
      intro h
      refine ih S Ss hid' hn' (fun t u x hx t' ht c hc => hh t u x hx t' ht c (hsub t' c hc)) hag hne hne' (fun t' => ?_)
      by_cases ht : t' = t
      · subst ht; exact h
      · exact hso t' ht
    -- something starts
    have enter : ∀ (x : Held) (now : Nat), nameOf c = some (heldName x) →
        Scoped ((Ss t).enter (tid t) x now) (ofThread t L) → Scoped (S.enter (tid t) x now) (L.map Prod.snd) := by
      intro x now hx h
      refine ih _ (fun t' => if t' = t then (Ss t).enter (tid t) x now else Ss t') hid' hn' ?_ ?_ ?_ ?_ ?_
      · intro t' u y hy t'' ht c' hc'
        by_cases h1 : t' = t
        · subst h1
          simp only [if_pos, Scopes.enter] at hy
          split at hy
          · rcases List.mem_cons.mp hy with rfl | hy
            · exact hn t' t'' (fun e => ht e.symm) c hct c' (hsub _ _ hc') _ hx
            · exact hh t' _ y hy t'' ht c' (hsub _ _ hc')
          · exact hh t' _ y hy t'' ht c' (hsub _ _ hc')
        · simp only [h1, if_false] at hy
          exact hh t' u y hy t'' ht c' (hsub _ _ hc')
      · intro t'
        by_cases h1 : t' = t
        · subst h1; simp [Scopes.enter, hag]
        · have : tid t' ≠ tid t := fun e => h1 (hinj _ _ e)
          simp [h1, Scopes.enter, this, hag]
      · intro u hu
        simp only [Scopes.enter, hu t, if_false]
        exact hne u hu
      · intro t' u hu
        by_cases h1 : t' = t
        · subst h1; simp only [if_pos, Scopes.enter, hu, if_false]; exact hne' t' u hu
        · simp only [h1, if_false]; exact hne' t' u hu
      · intro t'
        by_cases h1 : t' = t
        · subst h1; simpa using h
        · simp only [h1, if_false]; exact hso t' h1
    -- something ends
    have leave : ∀ (now : Nat), Scoped ((Ss t).leave (tid t) now) (ofThread t L) → Scoped (S.leave (tid t) now) (L.map Prod.snd) := by
      intro now h
      refine ih _ (fun t' => if t' = t then (Ss t).leave (tid t) now else Ss t') hid' hn' ?_ ?_ ?_ ?_ ?_
      · intro t' u y hy t'' ht c' hc'
        by_cases h1 : t' = t
        · subst h1
          simp only [if_pos, Scopes.leave] at hy
          split at hy
          · exact hh t' _ y (List.mem_of_mem_tail hy) t'' ht c' (hsub _ _ hc')
          · exact hh t' _ y hy t'' ht c' (hsub _ _ hc')
        · simp only [h1, if_false] at hy
          exact hh t' u y hy t'' ht c' (hsub _ _ hc')
      · intro t'
        by_cases h1 : t' = t
        · subst h1; simp [Scopes.leave, hag]
        · have : tid t' ≠ tid t := fun e => h1 (hinj _ _ e)
          simp [h1, Scopes.leave, this, hag]
      · intro u hu
        simp only [Scopes.leave, hu t, if_false]
        exact hne u hu
      · intro t' u hu
        by_cases h1 : t' = t
        · subst h1; simp only [if_pos, Scopes.leave, hu, if_false]; exact hne' t' u hu
        · simp only [h1, if_false]; exact hne' t' u hu
      · intro t'
        by_cases h1 : t' = t
        · subst h1; simpa using h
        · simp only [h1, if_false]; exact hso t' h1
    -- a name in use by this thread is held by no other
    have absent : ∀ x, nameOf c = some (heldName x) → (∀ u, x ∉ (Ss t).open_ u) → ∀ u, x ∉ S.open_ u := by
      intro x hx hno u hmem
      by_cases hu : ∃ t', u = tid t'
      · obtain ⟨t', rfl⟩ := hu
        rw [(hag t').1] at hmem
        by_cases h1 : t' = t
        · subst h1; exact hno _ hmem
        · exact hh t' _ x hmem t (fun e => h1 e.symm) c hct hx
      · rw [hne u (fun t' e => hu ⟨t', e⟩)] at hmem
        simp at hmem
    have mine : ∀ u x, ((Ss t).open_ u).head? = some x → u = tid t := by
      intro u x hx
      by_contra hu
      rw [hne' t u hu] at hx
      simp at hx
    cases c with
    | start g k id u now =>
      have hu : u = tid t := hid t _ hct u rfl
      subst hu
      obtain ⟨h1, h2, h3⟩ := hst
      refine ⟨absent (.guard g) rfl h1, ?_, enter _ _ rfl h3⟩
      rw [(hag t).2]; exact h2
    | startDetached g k id u now =>
      have hu : u = tid t := hid t _ hct u rfl
      subst hu
      obtain ⟨h1, h2, h3⟩ := hst
      refine ⟨absent (.detached g) rfl h1, ?_, enter _ _ rfl h3⟩
      rw [(hag t).2]; exact h2
    | finish g now =>
      obtain ⟨u, h1, h2, h3⟩ := hst
      have hu := mine u _ h1
      subst hu
      exact ⟨tid t, by rw [(hag t).1]; exact h1, by rw [(hag t).2]; exact h2, leave _ h3⟩
    | finishOverride g id now =>
      obtain ⟨u, h1, h2, h3⟩ := hst
      have hu := mine u _ h1
      subst hu
      exact ⟨tid t, by rw [(hag t).1]; exact h1, by rw [(hag t).2]; exact h2, leave _ h3⟩
    | finishDetached g now =>
      obtain ⟨u, h1, h2, h3⟩ := hst
      have hu := mine u _ h1
      subst hu
      exact ⟨tid t, by rw [(hag t).1]; exact h1, by rw [(hag t).2]; exact h2, leave _ h3⟩
    | allocString x => exact skip hst
    | allocForeign x => exact skip hst
    | mapVirtual v c => exact skip hst
    | bulkMapVirtual vs c => exact skip hst
    | instant k id t now => exact skip hst
    | integer k id t v => exact skip hst

/-! ## What is recorded -/

theorem recorded_merge {m : Nat} (tid : Fin m → UInt32) (hinj : ∀ t t', tid t = tid t' → t = t') : ∀ (L : List (Fin m × ProfCall)) (G : Ledger) (Gs : Fin m → Ledger),
    (∀ t, ∀ c ∈ ofThread t L, ∀ u, recordsAs c = some u → u = tid t) →
    (∀ t t', t ≠ t' → ∀ c ∈ ofThread t L, ∀ c' ∈ ofThread t' L, ∀ g, nameOf c = some g → nameOf c' ≠ some g) →
    (∀ t, ∀ c ∈ ofThread t L, ∀ g, nameOf c = some g → G.guards g = (Gs t).guards g ∧ G.detached g = (Gs t).detached g) →
    (∀ t g q, (Gs t).guards g = some q ∨ (Gs t).detached g = some q → q.thread = tid t) →
    (∀ t, G.events.filter (fun r => r.thread = tid t) = (Gs t).events) →
    ∀ t, ((L.map Prod.snd).foldl Ledger.step G).events.filter (fun r => r.thread = tid t) = ((ofThread t L).foldl Ledger.step (Gs t)).events := by
  intro L
  induction L with
  | nil => intro G Gs _ _ _ _ h t; exact h t
  | cons e L ih =>
    obtain ⟨t, c⟩ := e
    intro G Gs hid hn hag hq hev t1
    have hsub : ∀ t', ∀ x ∈ ofThread t' L, x ∈ ofThread t' ((t, c) :: L) := by
      intro t' x hx
      rw [ofThread_cons]
      split
      · exact List.mem_cons_of_mem _ hx
      · exact hx
    have hct : c ∈ ofThread t ((t, c) :: L) := by rw [ofThread_cons, if_pos rfl]; exact List.mem_cons_self
    have hagc := hag t c hct
    have step := ih (G.step c) (fun t' => if t' = t then (Gs t).step c else Gs t') (fun t c hc => hid t c (hsub t c hc))
      (fun t t' h c hc c' hc' => hn t t' h c (hsub t c hc) c' (hsub t' c' hc'))
    have final : (∀ t', ∀ c' ∈ ofThread t' L, ∀ g, nameOf c' = some g →
        (G.step c).guards g = (if t' = t then (Gs t).step c else Gs t').guards g ∧ (G.step c).detached g = (if t' = t then (Gs t).step c else Gs t').detached g) →
        (∀ t' g q, (if t' = t then (Gs t).step c else Gs t').guards g = some q ∨ (if t' = t then (Gs t).step c else Gs t').detached g = some q → q.thread = tid t') →
        (∀ t', (G.step c).events.filter (fun r => r.thread = tid t') = (if t' = t then (Gs t).step c else Gs t').events) →
        ((((t, c) :: L).map Prod.snd).foldl Ledger.step G).events.filter (fun r => r.thread = tid t1) = ((ofThread t1 ((t, c) :: L)).foldl Ledger.step (Gs t1)).events := by
      intro a b d
      have := step a b d t1
      rw [List.map_cons, List.foldl_cons, this, ofThread_cons]
      by_cases h1 : t1 = t
      · subst h1; simp
      · rw [if_neg h1, if_neg (fun e => h1 e.symm)]
    -- what a call adds to the events
    have adds : ∀ (new : List Recorded), (∀ r ∈ new, r.thread = tid t) → (G.step c).events = G.events ++ new →
        ((Gs t).step c).events = (Gs t).events ++ new →
        ∀ t', (G.step c).events.filter (fun r => r.thread = tid t') = (if t' = t then (Gs t).step c else Gs t').events := by
      intro new h1 h2 h3 t'
      rw [h2, List.filter_append, hev t']
      by_cases h4 : t' = t
      · subst h4
        rw [if_pos rfl, h3, List.filter_eq_self.mpr (fun r hr => by simpa using h1 r hr)]
      · rw [if_neg h4, List.filter_eq_nil_iff.mpr (fun r hr => ?_), List.append_nil]
        rw [h1 r hr]
        simp only [decide_eq_true_eq]
        exact fun e => h4 (hinj _ _ e.symm)
    -- how a call changes what is held: as a function of the name it uses
    have holds : (∀ g, nameOf c ≠ some g → (G.step c).guards g = G.guards g ∧ (G.step c).detached g = G.detached g) →
        (∀ g, nameOf c ≠ some g → ((Gs t).step c).guards g = (Gs t).guards g ∧ ((Gs t).step c).detached g = (Gs t).detached g) →
        (∀ g, nameOf c = some g → (G.step c).guards g = ((Gs t).step c).guards g ∧ (G.step c).detached g = ((Gs t).step c).detached g) →
        ∀ t', ∀ c' ∈ ofThread t' L, ∀ g, nameOf c' = some g →
          (G.step c).guards g = (if t' = t then (Gs t).step c else Gs t').guards g ∧ (G.step c).detached g = (if t' = t then (Gs t).step c else Gs t').detached g := by
      intro h1 h2 h3 t' c' hc' g hg
      have hold := hag t' c' (hsub _ _ hc') g hg
      by_cases h4 : t' = t
      · subst h4
        rw [if_pos rfl]
        by_cases h5 : nameOf c = some g
        · exact h3 g h5
        · obtain ⟨a1, a2⟩ := h1 g h5
          obtain ⟨b1, b2⟩ := h2 g h5
          exact ⟨a1.trans (hold.1.trans b1.symm), a2.trans (hold.2.trans b2.symm)⟩
      · rw [if_neg h4]
        have h5 : nameOf c ≠ some g := fun e => hn t t' (fun e => h4 e.symm) c hct c' (hsub _ _ hc') g e hg
        obtain ⟨a1, a2⟩ := h1 g h5
        exact ⟨a1.trans hold.1, a2.trans hold.2⟩
    have pend : (∀ g q, ((Gs t).step c).guards g = some q ∨ ((Gs t).step c).detached g = some q → q.thread = tid t) →
        ∀ t' g q, (if t' = t then (Gs t).step c else Gs t').guards g = some q ∨ (if t' = t then (Gs t).step c else Gs t').detached g = some q → q.thread = tid t' := by
      intro h t' g q h'
      by_cases h4 : t' = t
      · subst h4; rw [if_pos rfl] at h'; exact h g q h'
      · rw [if_neg h4] at h'; exact hq t' g q h'
    cases c with
    | allocString x =>
      exact final (holds (fun _ _ => ⟨rfl, rfl⟩) (fun _ _ => ⟨rfl, rfl⟩) (fun g hg => by simp [nameOf] at hg)) (pend (hq t)) (adds [] (by simp) (by simp [Ledger.step]) (by simp [Ledger.step]))
    | allocForeign x =>
      exact final (holds (fun _ _ => ⟨rfl, rfl⟩) (fun _ _ => ⟨rfl, rfl⟩) (fun g hg => by simp [nameOf] at hg)) (pend (hq t)) (adds [] (by simp) (by simp [Ledger.step]) (by simp [Ledger.step]))
    | mapVirtual v x =>
      exact final (holds (fun _ _ => ⟨rfl, rfl⟩) (fun _ _ => ⟨rfl, rfl⟩) (fun g hg => by simp [nameOf] at hg)) (pend (hq t)) (adds [] (by simp) (by simp [Ledger.step]) (by simp [Ledger.step]))
    | bulkMapVirtual vs x =>
      exact final (holds (fun _ _ => ⟨rfl, rfl⟩) (fun _ _ => ⟨rfl, rfl⟩) (fun g hg => by simp [nameOf] at hg)) (pend (hq t)) (adds [] (by simp) (by simp [Ledger.step]) (by simp [Ledger.step]))
    | instant k id u now =>
      have hu : u = tid t := hid t _ hct u rfl
      exact final (holds (fun _ _ => ⟨rfl, rfl⟩) (fun _ _ => ⟨rfl, rfl⟩) (fun g hg => by simp [nameOf] at hg)) (pend (hq t))
        (adds (single k id u now .instant) (by intro r hr; unfold single at hr; split at hr <;> simp at hr; rw [hr]; exact hu) rfl rfl)
    | integer k id u v =>
      have hu : u = tid t := hid t _ hct u rfl
      exact final (holds (fun _ _ => ⟨rfl, rfl⟩) (fun _ _ => ⟨rfl, rfl⟩) (fun g hg => by simp [nameOf] at hg)) (pend (hq t))
        (adds (single k id u v .integer) (by intro r hr; unfold single at hr; split at hr <;> simp at hr; rw [hr]; exact hu) rfl rfl)
    | start g k id u now =>
      have hu : u = tid t := hid t _ hct u rfl
      obtain ⟨a1, a2⟩ := hagc g rfl
      have other : ∀ (G : Ledger), ∀ g', nameOf (.start g k id u now) ≠ some g' → (G.step (.start g k id u now)).guards g' = G.guards g' ∧ (G.step (.start g k id u now)).detached g' = G.detached g' := by
        intro G g' h
        have : ¬ g' = g := fun e => h (by rw [e]; rfl)
        simp [Ledger.step, put, this]
      refine final (holds (other G) (other (Gs t)) (fun g' hg => ?_)) (pend (fun g' q h => ?_)) (adds [] (by simp) (by simp [Ledger.step]) (by simp [Ledger.step]))
      · simp only [nameOf, Option.some.injEq] at hg
        subst hg
        exact ⟨by simp [Ledger.step, put], a2⟩
      · simp only [Ledger.step, put] at h
        rcases h with h | h
        · split at h
          · injection h with h; rw [← h]; exact hu
          · exact hq t g' q (.inl h)
        · exact hq t g' q (.inr h)
    | startDetached g k id u now =>
      have hu : u = tid t := hid t _ hct u rfl
      obtain ⟨a1, a2⟩ := hagc g rfl
      have other : ∀ (G : Ledger), ∀ g', nameOf (.startDetached g k id u now) ≠ some g' → (G.step (.startDetached g k id u now)).guards g' = G.guards g' ∧ (G.step (.startDetached g k id u now)).detached g' = G.detached g' := by
        intro G g' h
        have : ¬ g' = g := fun e => h (by rw [e]; rfl)
        simp [Ledger.step, put, this]
      refine final (holds (other G) (other (Gs t)) (fun g' hg => ?_)) (pend (fun g' q h => ?_)) (adds [] (by simp) (by simp [Ledger.step]) (by simp [Ledger.step]))
      · simp only [nameOf, Option.some.injEq] at hg
        subst hg
        exact ⟨a1, by simp [Ledger.step, put]⟩
      · simp only [Ledger.step, put] at h
        rcases h with h | h
        · exact hq t g' q (.inl h)
        · split at h
          · injection h with h; rw [← h]; exact hu
          · exact hq t g' q (.inr h)
    | finish g now =>
      obtain ⟨a1, a2⟩ := hagc g rfl
      cases hg : (Gs t).guards g with
      | none =>
        rw [hg] at a1
        have e1 : G.step (.finish g now) = G := by simp only [Ledger.step, a1]
        have e2 : (Gs t).step (.finish g now) = Gs t := by simp only [Ledger.step, hg]
        simp only [e1, e2] at holds pend adds final
        refine final (holds (fun _ _ => by simp) (fun _ _ => by simp) (fun g' hg' => ?_)) (pend (hq t)) (adds [] (by simp) (by simp) (by simp))
        exact hagc g' hg'
      | some q =>
        rw [hg] at a1
        have e1 : G.step (.finish g now) = { G with guards := put G.guards g none, events := G.events ++ finished q q.id now } := by simp only [Ledger.step, a1]
        have e2 : (Gs t).step (.finish g now) = { (Gs t) with guards := put (Gs t).guards g none, events := (Gs t).events ++ finished q q.id now } := by simp only [Ledger.step, hg]
        simp only [e1, e2] at holds pend adds final
        have hth := hq t g q (.inl hg)
        refine final (holds (fun g' h => ?_) (fun g' h => ?_) (fun g' hg' => ?_)) (pend (fun g' q' h => ?_)) (adds (finished q q.id now) ?_ rfl rfl)
        · have : ¬ g' = g := fun e => h (by rw [e]; rfl)
          simp [put, this]
        · have : ¬ g' = g := fun e => h (by rw [e]; rfl)
          simp [put, this]
        · simp only [nameOf, Option.some.injEq] at hg'
          subst hg'
          exact ⟨by simp [put], a2⟩
        · rcases h with h | h
          · simp only [put] at h
            split at h
            · cases h
            · exact hq t g' q' (.inl h)
          · exact hq t g' q' (.inr h)
        · intro r hr
          unfold finished at hr
          split at hr <;> simp at hr
          rw [hr]; exact hth
    | finishOverride g id now =>
      obtain ⟨a1, a2⟩ := hagc g rfl
      cases hg : (Gs t).guards g with
      | none =>
        rw [hg] at a1
        have e1 : G.step (.finishOverride g id now) = G := by simp only [Ledger.step, a1]
        have e2 : (Gs t).step (.finishOverride g id now) = Gs t := by simp only [Ledger.step, hg]
        simp only [e1, e2] at holds pend adds final
        refine final (holds (fun _ _ => by simp) (fun _ _ => by simp) (fun g' hg' => ?_)) (pend (hq t)) (adds [] (by simp) (by simp) (by simp))
        exact hagc g' hg'
      | some q =>
        rw [hg] at a1
        have e1 : G.step (.finishOverride g id now) = { G with guards := put G.guards g none, events := G.events ++ finished q id now } := by simp only [Ledger.step, a1]
        have e2 : (Gs t).step (.finishOverride g id now) = { (Gs t) with guards := put (Gs t).guards g none, events := (Gs t).events ++ finished q id now } := by simp only [Ledger.step, hg]
        simp only [e1, e2] at holds pend adds final
        have hth := hq t g q (.inl hg)
        refine final (holds (fun g' h => ?_) (fun g' h => ?_) (fun g' hg' => ?_)) (pend (fun g' q' h => ?_)) (adds (finished q id now) ?_ rfl rfl)
        · have : ¬ g' = g := fun e => h (by rw [e]; rfl)
          simp [put, this]
        · have : ¬ g' = g := fun e => h (by rw [e]; rfl)
          simp [put, this]
        · simp only [nameOf, Option.some.injEq] at hg'
          subst hg'
          exact ⟨by simp [put], a2⟩
        · rcases h with h | h
          · simp only [put] at h
            split at h
            · cases h
            · exact hq t g' q' (.inl h)
          · exact hq t g' q' (.inr h)
        · intro r hr
          unfold finished at hr
          split at hr <;> simp at hr
          rw [hr]; exact hth
    | finishDetached g now =>
      obtain ⟨a1, a2⟩ := hagc g rfl
      cases hg : (Gs t).detached g with
      | none =>
        rw [hg] at a2
        have e1 : G.step (.finishDetached g now) = G := by simp only [Ledger.step, a2]
        have e2 : (Gs t).step (.finishDetached g now) = Gs t := by simp only [Ledger.step, hg]
        simp only [e1, e2] at holds pend adds final
        refine final (holds (fun _ _ => by simp) (fun _ _ => by simp) (fun g' hg' => ?_)) (pend (hq t)) (adds [] (by simp) (by simp) (by simp))
        exact hagc g' hg'
      | some q =>
        rw [hg] at a2
        have e1 : G.step (.finishDetached g now) = { G with detached := put G.detached g none, events := G.events ++ finished q q.id now } := by simp only [Ledger.step, a2]
        have e2 : (Gs t).step (.finishDetached g now) = { (Gs t) with detached := put (Gs t).detached g none, events := (Gs t).events ++ finished q q.id now } := by simp only [Ledger.step, hg]
        simp only [e1, e2] at holds pend adds final
        have hth := hq t g q (.inr hg)
        refine final (holds (fun g' h => ?_) (fun g' h => ?_) (fun g' hg' => ?_)) (pend (fun g' q' h => ?_)) (adds (finished q q.id now) ?_ rfl rfl)
        · have : ¬ g' = g := fun e => h (by rw [e]; rfl)
          simp [put, this]
        · have : ¬ g' = g := fun e => h (by rw [e]; rfl)
          simp [put, this]
        · simp only [nameOf, Option.some.injEq] at hg'
          subst hg'
          exact ⟨a1, by simp [put]⟩
        · rcases h with h | h
          · exact hq t g' q' (.inl h)
          · simp only [put] at h
            split at h
            · cases h
            · exact hq t g' q' (.inr h)
        · intro r hr
          unfold finished at hr
          split at hr <;> simp at hr
          rw [hr]; exact hth

end Verif.Conc
