import Verif.Proofs.ConcFaults

/-!
# I/O errors under concurrency: the invariant
-/

namespace Verif.Conc

open Verif Verif.Mm Verif.Spec

/-- How many I/O errors a list of write outcomes contains. -/
def errorsIn (fs : List (Option Nat)) : Nat := fs.countP Option.isSome

theorem errorsIn_append (a b : List (Option Nat)) : errorsIn (a ++ b) = errorsIn a + errorsIn b := List.countP_append

/-- Where a thread is in its current call; `fs` are the outcomes of the writes it has made in it. -/
inductive FStage {n : Nat} (tagOf : Nat → PageTag) (σ : Conc n) (H : List (LinEntry n)) (t : Fin n) (fs : List (Option Nat)) : Prop where
  | idle : fs = [] → (σ.threads t).cur = none → (∀ i, σ.dataLock i ≠ some t) → σ.storeLock ≠ some t →
      entriesOf t H = returned t σ.log → started t σ.log = (returned t σ.log).map Prod.fst → FStage tagOf σ H t fs
  | ready (c : Call) : fs = [] → (σ.threads t).cur = some (c, code (tagOf c.1) c.2) → (∀ i, σ.dataLock i ≠ some t) → σ.storeLock ≠ some t →
      entriesOf t H = returned t σ.log → started t σ.log = (returned t σ.log).map Prod.fst ++ [c] → FStage tagOf σ H t fs
  | inside (c : Call) (p : Prog) (held : Bool) : (σ.threads t).cur = some (c, p) → Sh held p → σ.dataLock c.1 = some t →
      (∀ i, i ≠ c.1 → σ.dataLock i ≠ some t) → (σ.storeLock = some t ↔ held = true) →
      (∀ st rest, ∃ st', (code (tagOf c.1) c.2).aloneF ⟨σ.data c.1, ⟨st, fs ++ rest⟩⟩ = p.aloneF ⟨σ.data c.1, ⟨st', rest⟩⟩) →
      entriesOf t H = returned t σ.log → started t σ.log = (returned t σ.log).map Prod.fst ++ [c] → FStage tagOf σ H t fs
  | leaving (c : Call) (r) : fs = [] → (σ.threads t).cur = some (c, .ret r) → (∀ i, σ.dataLock i ≠ some t) → σ.storeLock ≠ some t →
      entriesOf t H = returned t σ.log ++ [(c, r)] → started t σ.log = (returned t σ.log).map Prod.fst ++ [c] → FStage tagOf σ H t fs

/-- The invariant of all states reachable with I/O errors, with ghosts: the sequential order `H` so far, the outcomes `faults` of the writes
of its calls, and the outcomes `fs` of the writes of the calls in progress. -/
structure FInv {n : Nat} (tagOf : Nat → PageTag) (progs : Fin n → List Call) (σ : Conc n) (f : Nat) (H : List (LinEntry n))
    (faults : List (Option Nat)) (fs : Fin n → List (Option Nat)) : Prop where
  exec : ∀ rest, ∃ st, World.exec tagOf (historyOf H) (World.init (faults ++ rest)) = (H.map LinEntry.res, ⟨σ.data, ⟨st, rest⟩⟩)
  stage : ∀ t, FStage tagOf σ H t (fs t)
  prog : ∀ t, progs t = started t σ.log ++ (σ.threads t).todo
  rt : ∀ L, L <+: σ.log → ∃ H', H' <+: H ∧ Between L H'
  count : errorsIn faults + ∑ t, errorsIn (fs t) = f
  loud : f ≠ 0 → (∃ e ∈ H, ∃ why, e.res = .error why) ∨ ∃ t c p, (σ.threads t).cur = some (c, p) ∧ Dead p

theorem FStage.frame {n : Nat} {tagOf : Nat → PageTag} {σ σ' : Conc n} {H H' : List (LinEntry n)} {t : Fin n} {fs : List (Option Nat)}
    (h : FStage tagOf σ H t fs) (hcur : (σ'.threads t).cur = (σ.threads t).cur)
    (hent : entriesOf t H' = entriesOf t H) (hret : returned t σ'.log = returned t σ.log) (hst : started t σ'.log = started t σ.log)
    (hdl : ∀ i, σ'.dataLock i = some t ↔ σ.dataLock i = some t) (hsl : σ'.storeLock = some t ↔ σ.storeLock = some t)
    (hd : ∀ i, σ.dataLock i = some t → σ'.data i = σ.data i) : FStage tagOf σ' H' t fs := by
  cases h with
  | idle h0 h1 h2 h3 h4 h5 =>
    exact .idle h0 (hcur.trans h1) (fun i h => h2 i ((hdl i).1 h)) (fun h => h3 (hsl.1 h)) (by rw [hent, hret, h4]) (by rw [hst, hret, h5])
  | ready c h0 h1 h2 h3 h4 h5 =>
    exact .ready c h0 (hcur.trans h1) (fun i h => h2 i ((hdl i).1 h)) (fun h => h3 (hsl.1 h)) (by rw [hent, hret, h4]) (by rw [hst, hret, h5])
  | inside c p held h1 h2 h3 h4 h5 h6 h7 h8 =>
    exact .inside c p held (hcur.trans h1) h2 ((hdl _).2 h3) (fun i hi h => h4 i hi ((hdl i).1 h)) (hsl.trans h5)
      (by rw [hd _ h3]; exact h6) (by rw [hent, hret, h7]) (by rw [hst, hret, h8])
  | leaving c r h0 h1 h2 h3 h4 h5 =>
    exact .leaving c r h0 (hcur.trans h1) (fun i h => h2 i ((hdl i).1 h)) (fun h => h3 (hsl.1 h)) (by rw [hent, hret, h4]) (by rw [hst, hret, h5])

theorem FStage.between {n : Nat} {tagOf : Nat → PageTag} {σ : Conc n} {H : List (LinEntry n)} {t : Fin n} {fs : List (Option Nat)}
    (h : FStage tagOf σ H t fs) : returned t σ.log <+: entriesOf t H ∧ (entriesOf t H).map Prod.fst <+: started t σ.log := by
  cases h with
  | idle _ _ _ _ h4 h5 => rw [h4, h5]; exact ⟨List.prefix_rfl, List.prefix_rfl⟩
  | ready c _ _ _ _ h4 h5 => rw [h4, h5]; exact ⟨List.prefix_rfl, List.prefix_append _ _⟩
  | inside c p held _ _ _ _ _ _ h7 h8 => rw [h7, h8]; exact ⟨List.prefix_rfl, List.prefix_append _ _⟩
  | leaving c r _ _ _ _ h4 h5 => rw [h4, h5]; exact ⟨List.prefix_append _ _, by simp⟩

theorem FInv.init {n : Nat} (tagOf : Nat → PageTag) (progs : Fin n → List Call) :
    FInv tagOf progs (Conc.init progs) 0 [] [] (fun _ => []) where
  exec := fun rest => ⟨[], rfl⟩
  stage := fun t => .idle rfl rfl (by simp [Conc.init]) (by simp [Conc.init]) rfl rfl
  prog := fun t => rfl
  rt := by
    intro L hL
    have hnil : L = [] := List.prefix_nil.mp hL
    subst hnil
    exact ⟨[], List.prefix_rfl, fun t => ⟨List.prefix_rfl, List.prefix_rfl⟩⟩
  count := by simp [errorsIn]
  loud := fun h => absurd rfl h

theorem sum_upd {n : Nat} (g : List (Option Nat) → Nat) (fs : Fin n → List (Option Nat)) (t : Fin n) (a : List (Option Nat)) :
    ∑ x, g (upd fs t a x) + g (fs t) = ∑ x, g (fs x) + g a := by
  rw [← Finset.add_sum_erase _ (fun x => g (upd fs t a x)) (Finset.mem_univ t), ← Finset.add_sum_erase _ (fun x => g (fs x)) (Finset.mem_univ t), upd_same]
  have : ∑ x ∈ Finset.univ.erase t, g (upd fs t a x) = ∑ x ∈ Finset.univ.erase t, g (fs x) :=
    Finset.sum_congr rfl fun x hx => by rw [upd_other _ _ (Finset.ne_of_mem_erase hx)]
  rw [this]
  omega

section moves
variable {n : Nat} {tagOf : Nat → PageTag} {progs : Fin n → List Call} {σ σ' : Conc n} {f f' : Nat} {H : List (LinEntry n)}
  {faults : List (Option Nat)} {fs : Fin n → List (Option Nat)} {t : Fin n} {c : Call}

/-- A step inside a call. -/
theorem FInv.move (inv : FInv tagOf progs σ f H faults fs) {p' : Prog} {fs' : List (Option Nat)}
    (hth : σ'.threads = upd σ.threads t ⟨(σ.threads t).todo, some (c, p')⟩) (hlog : σ'.log = σ.log) (hdata : σ'.data = σ.data)
    (hdl : ∀ t', t' ≠ t → ∀ i, σ'.dataLock i = some t' ↔ σ.dataLock i = some t')
    (hsl : ∀ t', t' ≠ t → (σ'.storeLock = some t' ↔ σ.storeLock = some t'))
    (hst : FStage tagOf σ' H t fs') (hf : f' + errorsIn (fs t) = f + errorsIn fs')
    (hl : f' ≠ 0 → f ≠ 0 ∨ Dead p') (hdd : ∀ c0 p0, (σ.threads t).cur = some (c0, p0) → Dead p0 → Dead p') :
    FInv tagOf progs σ' f' H faults (upd fs t fs') where
  exec := by rw [hdata]; exact inv.exec
  stage := by
    intro t'
    by_cases ht' : t' = t
    · subst ht'; rw [upd_same]; exact hst
    · rw [upd_other _ _ ht']
      exact (inv.stage t').frame (by rw [hth, upd_other _ _ ht']) rfl (by rw [hlog]) (by rw [hlog]) (hdl t' ht') (hsl t' ht')
        (fun i _ => by rw [hdata])
  prog := by
    intro t'
    rw [hlog, hth]
    by_cases ht' : t' = t
    · subst ht'; rw [upd_same]; exact inv.prog t'
    · rw [upd_other _ _ ht']; exact inv.prog t'
  rt := by rw [hlog]; exact inv.rt
  count := by
    have := sum_upd errorsIn fs t fs'
    have := inv.count
    omega
  loud := by
    intro h
    have hcur : (σ'.threads t).cur = some (c, p') := by rw [hth, upd_same]
    rcases hl h with h | h
    · rcases inv.loud h with h | ⟨t0, c0, p0, h0, hd⟩
      · exact Or.inl h
      · right
        by_cases ht : t0 = t
        · subst ht; exact ⟨t0, c, p', hcur, hdd c0 p0 h0 hd⟩
        · exact ⟨t0, c0, p0, by rw [hth, upd_other _ _ ht]; exact h0, hd⟩
    · exact Or.inr ⟨t, c, p', hcur, h⟩

/-- The sequential order grows by a call. -/
theorem exec_call (inv : FInv tagOf progs σ f H faults fs) {r : Res} {s' : Inner} {w : List (Option Nat)}
    (hc : ∀ st rest, ∃ st', (code (tagOf c.1) c.2).aloneF ⟨σ.data c.1, ⟨st, w ++ rest⟩⟩ = (r, ⟨s', ⟨st', rest⟩⟩)) :
    ∀ rest, ∃ st, World.exec tagOf (historyOf (H ++ [(⟨t, c, r⟩ : LinEntry n)])) (World.init (faults ++ w ++ rest)) =
      ((H ++ [(⟨t, c, r⟩ : LinEntry n)]).map LinEntry.res, ⟨upd σ.data c.1 s', ⟨st, rest⟩⟩) := by
  intro rest
  obtain ⟨st, h⟩ := inv.exec (w ++ rest)
  obtain ⟨st', hc⟩ := hc st rest
  rw [code_aloneF] at hc
  refine ⟨st', ?_⟩
  have e : historyOf (H ++ [(⟨t, c, r⟩ : LinEntry n)]) = historyOf H ++ [(c.1, c.2)] := by simp [historyOf]
  rw [e, exec_append, List.append_assoc, h]
  have hcall : World.call tagOf c.1 c.2 ⟨σ.data, ⟨st, w ++ rest⟩⟩ = (r, ⟨upd σ.data c.1 s', ⟨st', rest⟩⟩) := by
    unfold World.call
    simp only [hc]
    rfl
  simp only [World.exec, hcall, List.map_append, List.map_cons, List.map_nil]

theorem upd_id {α β : Type} [DecidableEq α] (g : α → β) (a : α) : upd g a (g a) = g := by
  funext x; simp only [upd]; split
  · rename_i h; rw [h]
  · rfl

end moves

theorem FInv.step {n : Nat} {tagOf : Nat → PageTag} {progs : Fin n → List Call} {σ σ' : Conc n} {f : Nat} {H : List (LinEntry n)}
    {faults : List (Option Nat)} {fs : Fin n → List (Option Nat)} (inv : FInv tagOf progs σ f H faults fs) {t : Fin n}
    (hstep : Conc.step tagOf σ t = some σ') : ∃ H' faults' fs', FInv tagOf progs σ' f H' faults' fs' := by
  have hstage := inv.stage t
  unfold Conc.step at hstep
  cases hstage with
  | idle h0 h1 h2 h3 h4 h5 =>
    rw [h1] at hstep
    simp only at hstep
    cases htodo : (σ.threads t).todo with
    | nil => rw [htodo] at hstep; simp at hstep
    | cons c rest =>
      rw [htodo] at hstep
      simp only [Option.some.injEq] at hstep
      have hl : ∀ t', t' ≠ t → started t' (σ.log ++ [Ev.inv t c]) = started t' σ.log ∧
          returned t' (σ.log ++ [Ev.inv t c]) = returned t' σ.log := by
        intro t' ht'
        rw [started_append, returned_append, started_inv_other (Ne.symm ht'), returned_inv]
        simp
      have hlt : started t (σ.log ++ [Ev.inv t c]) = (returned t σ.log).map Prod.fst ++ [c] ∧
          returned t (σ.log ++ [Ev.inv t c]) = returned t σ.log := by
        rw [started_append, returned_append, started_inv_same, returned_inv, h5]
        simp
      have hst : ∀ t', FStage tagOf σ' H t' (fs t') := by
        subst hstep
        intro t'
        by_cases ht' : t' = t
        · subst ht'
          exact .ready c h0 (by simp [upd_same]) h2 h3 (by rw [h4, hlt.2]) (by rw [hlt.1, hlt.2])
        · exact (inv.stage t').frame (by simp [upd_other _ _ ht']) rfl (hl t' ht').2 (hl t' ht').1
            (fun i => Iff.rfl) Iff.rfl (fun i _ => rfl)
      refine ⟨H, faults, fs, ⟨?_, hst, ?_, ?_, inv.count, ?_⟩⟩
      · subst hstep; exact inv.exec
      · subst hstep
        intro t'
        by_cases ht' : t' = t
        · subst ht'
          simp only [upd_same, started_append, started_inv_same]
          rw [inv.prog, htodo]
          simp
        · simp only [upd_other _ _ ht', (hl t' ht').1]
          exact inv.prog t'
      · exact rt_grow inv.rt List.prefix_rfl (by subst hstep; exact Or.inr ⟨_, rfl⟩) (fun t' => (hst t').between)
      · intro h
        rcases inv.loud h with h | ⟨t0, c0, p0, hc0, hd⟩
        · exact Or.inl h
        · have hne : t0 ≠ t := by rintro rfl; rw [h1] at hc0; cases hc0
          exact Or.inr ⟨t0, c0, p0, by subst hstep; simp only [upd_other _ _ hne]; exact hc0, hd⟩
  | leaving c r h0 h1 h2 h3 h4 h5 =>
    rw [h1] at hstep
    simp only [Option.some.injEq] at hstep
    have hl : ∀ t', t' ≠ t → started t' (σ.log ++ [Ev.res t c r]) = started t' σ.log ∧
        returned t' (σ.log ++ [Ev.res t c r]) = returned t' σ.log := by
      intro t' ht'
      rw [started_append, returned_append, started_res, returned_res_other (Ne.symm ht')]
      simp
    have hst : ∀ t', FStage tagOf σ' H t' (fs t') := by
      subst hstep
      intro t'
      by_cases ht' : t' = t
      · subst ht'
        refine .idle h0 (by simp [upd_same]) h2 h3 ?_ ?_
        · rw [h4]; simp only [returned_append, returned_res_same]
        · simp only [started_append, started_res, returned_append, returned_res_same, h5]; simp
      · exact (inv.stage t').frame (by simp [upd_other _ _ ht']) rfl (hl t' ht').2 (hl t' ht').1
          (fun i => Iff.rfl) Iff.rfl (fun i _ => rfl)
    refine ⟨H, faults, fs, ⟨?_, hst, ?_, ?_, inv.count, ?_⟩⟩
    · subst hstep; exact inv.exec
    · subst hstep
      intro t'
      simp only [started_append, started_res, List.append_nil]
      rw [inv.prog t']
      by_cases ht' : t' = t
      · subst ht'; simp [upd_same]
      · simp [upd_other _ _ ht']
    · exact rt_grow inv.rt List.prefix_rfl (by subst hstep; exact Or.inr ⟨_, rfl⟩) (fun t' => (hst t').between)
    · intro h
      rcases inv.loud h with h | ⟨t0, c0, p0, hc0, hd⟩
      · exact Or.inl h
      · by_cases hne : t0 = t
        · subst hne
          rw [h1] at hc0
          cases hc0
          cases hd with
          | ret e =>
            left
            have hm : (c, Except.error e) ∈ entriesOf t0 H := by rw [h4]; simp
            obtain ⟨x, hx, he⟩ := List.mem_map.1 hm
            exact ⟨x, (List.mem_filter.1 hx).1, e, congrArg Prod.snd he⟩
        · exact Or.inr ⟨t0, c0, p0, by subst hstep; simp only [upd_other _ _ hne]; exact hc0, hd⟩
  | ready c h0 h1 h2 h3 h4 h5 =>
    rcases code_sh (tagOf c.1) c.2 with ⟨r, hr⟩ | ⟨k, hk, hs⟩
    · -- the call returns at once
      rw [h1, hr] at hstep
      simp only [Option.some.injEq] at hstep
      have hl : ∀ t', t' ≠ t → started t' (σ.log ++ [Ev.res t c r]) = started t' σ.log ∧
          returned t' (σ.log ++ [Ev.res t c r]) = returned t' σ.log := by
        intro t' ht'
        rw [started_append, returned_append, started_res, returned_res_other (Ne.symm ht')]
        simp
      have hst : ∀ t', FStage tagOf σ' (H ++ [⟨t, c, r⟩]) t' (fs t') := by
        subst hstep
        intro t'
        by_cases ht' : t' = t
        · subst ht'
          refine .idle h0 (by simp [upd_same]) h2 h3 ?_ ?_
          · rw [entriesOf_append, entriesOf_same, h4]; simp only [returned_append, returned_res_same]
          · simp only [started_append, started_res, returned_append, returned_res_same, h5]; simp
        · exact (inv.stage t').frame (by simp [upd_other _ _ ht'])
            (by rw [entriesOf_append, entriesOf_other (Ne.symm ht')]; simp) (hl t' ht').2 (hl t' ht').1
            (fun i => Iff.rfl) Iff.rfl (fun i _ => rfl)
      have hx := exec_call (t := t) inv (c := c) (r := r) (s' := σ.data c.1) (w := []) (fun st rest => ⟨st, by rw [hr]; rfl⟩)
      rw [upd_id] at hx
      refine ⟨H ++ [⟨t, c, r⟩], faults, fs, ⟨?_, hst, ?_, ?_, inv.count, ?_⟩⟩
      · subst hstep; simpa using hx
      · subst hstep
        intro t'
        simp only [started_append, started_res, List.append_nil]
        rw [inv.prog t']
        by_cases ht' : t' = t
        · subst ht'; simp [upd_same]
        · simp [upd_other _ _ ht']
      · exact rt_grow inv.rt (List.prefix_append _ _) (by subst hstep; exact Or.inr ⟨_, rfl⟩) (fun t' => (hst t').between)
      · intro h
        rcases inv.loud h with ⟨e, he, h⟩ | ⟨t0, c0, p0, hc0, hd⟩
        · exact Or.inl ⟨e, List.mem_append_left _ he, h⟩
        · by_cases hne : t0 = t
          · subst hne
            rw [h1, hr] at hc0
            cases hc0
            cases hd with
            | ret e => exact Or.inl ⟨⟨t0, c, .error e⟩, by simp, e, rfl⟩
          · exact Or.inr ⟨t0, c0, p0, by subst hstep; simp only [upd_other _ _ hne]; exact hc0, hd⟩
    · rw [h1, hk] at hstep
      simp only at hstep
      cases hlock : σ.dataLock c.1 with
      | some _ => rw [hlock] at hstep; simp at hstep
      | none =>
        rw [hlock] at hstep
        simp only [Option.some.injEq] at hstep
        refine ⟨H, faults, upd fs t [], inv.move (c := c) (p' := k (σ.data c.1)) (t := t) ?_ ?_ ?_ ?_ ?_ ?_ ?_ ?_ ?_⟩
        · subst hstep; rfl
        · subst hstep; rfl
        · subst hstep; rfl
        · subst hstep
          intro t' ht' i
          simp only [upd, Conc.goto]
          split
          · rename_i hi
            subst hi
            constructor
            · intro h; injection h with h; exact absurd h.symm ht'
            · intro h; rw [hlock] at h; cases h
          · rfl
        · subst hstep; exact fun t' ht' => Iff.rfl
        · subst hstep
          refine .inside c (k (σ.data c.1)) false (by simp [Conc.goto, upd_same]) (hs _) (by simp [upd_same])
            (fun i hi => by simp only [upd_other _ _ hi]; exact h2 i) ?_ ?_ h4 h5
          · constructor
            · exact fun h => absurd h h3
            · exact fun h => by cases h
          · intro st rest
            exact ⟨st, by rw [hk]; rfl⟩
        · rw [h0]
        · exact Or.inl
        · intro c0 p0 hc0 hd
          rw [h1, hk] at hc0
          cases hc0
          cases hd
  | inside c p held h1 h2 h3 h4 h5 h6 h7 h8 =>
    rw [h1] at hstep
    cases h2 with
    | fin s r =>
      simp only [Option.some.injEq] at hstep
      have hst : ∀ t', FStage tagOf σ' (H ++ [⟨t, c, r⟩]) t' (upd fs t [] t') := by
        subst hstep
        intro t'
        by_cases ht' : t' = t
        · subst ht'
          rw [upd_same]
          refine .leaving c r rfl (by simp [Conc.goto, upd_same]) ?_ ?_ ?_ h8
          · intro i
            simp only [upd, Conc.goto]
            split
            · simp
            · rename_i hi; exact h4 i hi
          · intro h; have := h5.1 h; cases this
          · rw [entriesOf_append, entriesOf_same, h7]; rfl
        · rw [upd_other _ _ ht']
          have hne : σ.dataLock c.1 ≠ some t' := by rw [h3]; intro h; injection h with h; exact ht' h.symm
          refine (inv.stage t').frame (by simp [Conc.goto, upd_other _ _ ht'])
            (by rw [entriesOf_append, entriesOf_other (Ne.symm ht')]; simp) rfl rfl ?_ Iff.rfl ?_
          · intro i
            simp only [upd, Conc.goto]
            split
            · rename_i hi; subst hi
              constructor
              · intro h; cases h
              · intro h; exact absurd h hne
            · rfl
          · intro i hi
            have : i ≠ c.1 := by rintro rfl; exact hne hi
            simp only [upd_other _ _ this]
      have hx := exec_call (t := t) inv (c := c) (r := r) (s' := s) (w := fs t)
        (fun st rest => by obtain ⟨st', h⟩ := h6 st rest; exact ⟨st', by rw [h]; rfl⟩)
      refine ⟨H ++ [⟨t, c, r⟩], faults ++ fs t, upd fs t [], ⟨?_, hst, ?_, ?_, ?_, ?_⟩⟩
      · subst hstep; exact hx
      · subst hstep
        intro t'
        by_cases ht' : t' = t
        · subst ht'; simp only [Conc.goto, upd_same]; exact inv.prog t'
        · simp only [Conc.goto, upd_other _ _ ht']; exact inv.prog t'
      · exact rt_grow inv.rt (List.prefix_append _ _) (by subst hstep; exact Or.inl rfl) (fun t' => (hst t').between)
      · have a := sum_upd errorsIn fs t []
        have b := inv.count
        rw [errorsIn_append]
        have e : errorsIn [] = 0 := rfl
        omega
      · intro h
        rcases inv.loud h with ⟨e, he, h⟩ | ⟨t0, c0, p0, hc0, hd⟩
        · exact Or.inl ⟨e, List.mem_append_left _ he, h⟩
        · by_cases hne : t0 = t
          · subst hne
            rw [h1] at hc0
            cases hc0
            cases hd with
            | unlockData _ hd =>
              cases hd with
              | ret e => exact Or.inl ⟨⟨t0, c, .error e⟩, by simp, e, rfl⟩
          · exact Or.inr ⟨t0, c0, p0, by subst hstep; simp only [Conc.goto, upd_other _ _ hne]; exact hc0, hd⟩
    | lock hk =>
      simp only at hstep
      cases hlock : σ.storeLock with
      | some _ => rw [hlock] at hstep; simp at hstep
      | none =>
        rw [hlock] at hstep
        simp only [Option.some.injEq] at hstep
        rename_i k
        refine ⟨H, faults, upd fs t (fs t), inv.move (c := c) (p' := k) (t := t) ?_ ?_ ?_ ?_ ?_ ?_ rfl Or.inl ?_⟩
        · subst hstep; rfl
        · subst hstep; rfl
        · subst hstep; rfl
        · subst hstep; exact fun t' ht' i => Iff.rfl
        · subst hstep
          intro t' ht'
          constructor
          · intro h; injection h with h; exact absurd h.symm ht'
          · intro h; rw [hlock] at h; cases h
        · subst hstep
          exact .inside c _ true (by simp [Conc.goto, upd_same]) hk h3 h4 (by simp) h6 h7 h8
        · intro c0 p0 hc0 hd
          rw [h1] at hc0
          cases hc0
          cases hd
    | unlock hk =>
      simp only [Option.some.injEq] at hstep
      rename_i k
      refine ⟨H, faults, upd fs t (fs t), inv.move (c := c) (p' := k) (t := t) ?_ ?_ ?_ ?_ ?_ ?_ rfl Or.inl ?_⟩
      · subst hstep; rfl
      · subst hstep; rfl
      · subst hstep; rfl
      · subst hstep; exact fun t' ht' i => Iff.rfl
      · subst hstep
        intro t' ht'
        constructor
        · intro h; cases h
        · intro h; rw [h5.2 rfl] at h; injection h with h; exact absurd h.symm ht'
      · subst hstep
        exact .inside c _ false (by simp [Conc.goto, upd_same]) hk h3 h4 (by simp) h6 h7 h8
      · intro c0 p0 hc0 hd
        rw [h1] at hc0
        cases hc0
        cases hd with
        | unlockStore hd => exact hd
    | write b hd ho hk =>
      simp only [Option.some.injEq] at hstep
      rename_i o k
      refine ⟨H, faults, upd fs t (fs t ++ [none]), inv.move (c := c) (p' := k) (t := t) ?_ ?_ ?_ ?_ ?_ ?_ ?_ Or.inl ?_⟩
      · subst hstep; rfl
      · subst hstep; rfl
      · subst hstep; rfl
      · subst hstep; exact fun t' ht' i => Iff.rfl
      · subst hstep; exact fun t' ht' => Iff.rfl
      · subst hstep
        refine .inside c _ true (by simp [Conc.goto, upd_same]) hk h3 h4 h5 ?_ h7 h8
        intro st rest
        obtain ⟨st', h⟩ := h6 st (none :: rest)
        refine ⟨st' ++ b, ?_⟩
        rw [List.append_assoc]
        exact h
      · rw [errorsIn_append]; rfl
      · intro c0 p0 hc0 hd
        rw [h1] at hc0
        cases hc0
        cases hd

theorem FInv.fails {n : Nat} {tagOf : Nat → PageTag} {progs : Fin n → List Call} {σ σ' : Conc n} {f : Nat} {H : List (LinEntry n)}
    {faults : List (Option Nat)} {fs : Fin n → List (Option Nat)} (inv : FInv tagOf progs σ f H faults fs) {t : Fin n} {b : Nat}
    (hstep : σ.fails t b = some σ') : ∃ fs', FInv tagOf progs σ' (f + 1) H faults fs' := by
  unfold Conc.fails at hstep
  split at hstep
  · rename_i c d o k hcur
    simp only [Option.some.injEq] at hstep
    cases inv.stage t with
    | idle _ h1 => rw [h1] at hcur; cases hcur
    | ready c' _ h1 =>
      rw [h1] at hcur
      rcases code_sh (tagOf c'.1) c'.2 with ⟨r, hr⟩ | ⟨k', hk, _⟩
      · rw [hr] at hcur; cases hcur
      · rw [hk] at hcur; cases hcur
    | leaving _ _ _ h1 => rw [h1] at hcur; cases hcur
    | inside c' p held h1 h2 h3 h4 h5 h6 h7 h8 =>
      rw [h1] at hcur
      cases hcur
      cases h2 with
      | write _ hd ho hk =>
        refine ⟨upd fs t (fs t ++ [some b]), inv.move (c := c) (p' := o) (t := t) ?_ ?_ ?_ ?_ ?_ ?_ ?_ (fun _ => Or.inr hd) (fun _ _ _ _ => hd)⟩
        · subst hstep; rfl
        · subst hstep; rfl
        · subst hstep; rfl
        · subst hstep; exact fun t' ht' i => Iff.rfl
        · subst hstep; exact fun t' ht' => Iff.rfl
        · subst hstep
          refine .inside c _ true (by simp [Conc.goto, upd_same]) ho h3 h4 h5 ?_ h7 h8
          intro st rest
          obtain ⟨st', h⟩ := h6 st (some b :: rest)
          refine ⟨st' ++ d.take b, ?_⟩
          rw [List.append_assoc]
          exact h
        · rw [errorsIn_append]; show f + 1 + errorsIn (fs t) = f + (errorsIn (fs t) + 1); omega
  · cases hstep

theorem FInv.run {n : Nat} {tagOf : Nat → PageTag} {progs : Fin n → List Call} {σ : Conc n} {k f : Nat}
    (h : Conc.FRun tagOf (Conc.init progs) k f σ) : ∃ H faults fs, FInv tagOf progs σ f H faults fs := by
  generalize hi : Conc.init progs = σ0 at h
  induction h with
  | refl => subst hi; exact ⟨_, _, _, FInv.init tagOf progs⟩
  | step _ hs ih => obtain ⟨H, fa, fs, inv⟩ := ih; exact inv.step hs
  | fails _ hs ih => obtain ⟨H, fa, fs, inv⟩ := ih; obtain ⟨fs', inv'⟩ := inv.fails hs; exact ⟨H, fa, fs', inv'⟩

end Verif.Conc
