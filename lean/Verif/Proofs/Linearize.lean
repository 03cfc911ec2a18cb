import Verif.Proofs.Concurrent

/-!
# Linearizability of the sinks: the invariant
-/

namespace Verif.Conc

open Verif Verif.Mm Verif.Spec

/-- Bodies of the pages of sink `i`, in order. -/
def bodiesOf (i : Nat) (P : List (Nat × Bytes)) : List Bytes := (P.filter (fun x => x.1 = i)).map Prod.snd

/-- Pages written by numbered sinks as pages with tags. -/
def pagesOf (tagOf : Nat → PageTag) (P : List (Nat × Bytes)) : List Page := P.map fun x => ⟨tagOf x.1, x.2⟩

theorem bodiesOf_append (i : Nat) (P Q : List (Nat × Bytes)) : bodiesOf i (P ++ Q) = bodiesOf i P ++ bodiesOf i Q := by
  simp [bodiesOf]

theorem bodiesOf_map_same (i : Nat) (bl : List Bytes) : bodiesOf i (bl.map (Prod.mk i)) = bl := by
  simp only [bodiesOf]
  rw [List.filter_eq_self.2 (by simp)]
  simp [Function.comp_def]

theorem bodiesOf_map_other {i j : Nat} (h : j ≠ i) (bl : List Bytes) : bodiesOf i (bl.map (Prod.mk j)) = [] := by
  simp only [bodiesOf]
  rw [List.filter_eq_nil_iff.2 (by simp [h])]
  rfl

theorem pagesOf_append (tagOf : Nat → PageTag) (P Q : List (Nat × Bytes)) :
    pagesOf tagOf (P ++ Q) = pagesOf tagOf P ++ pagesOf tagOf Q := by simp [pagesOf]

theorem pagesOf_map (tagOf : Nat → PageTag) (i : Nat) (bl : List Bytes) :
    pagesOf tagOf (bl.map (Prod.mk i)) = bl.map (Page.mk (tagOf i)) := by simp [pagesOf, Function.comp_def]

theorem entriesOf_append {n : Nat} (t : Fin n) (H H' : List (LinEntry n)) :
    entriesOf t (H ++ H') = entriesOf t H ++ entriesOf t H' := by simp [entriesOf]

theorem entriesOf_same {n : Nat} (t : Fin n) (c : Call) (r : Res) : entriesOf t [⟨t, c, r⟩] = [(c, r)] := by
  simp [entriesOf]

theorem entriesOf_other {n : Nat} {t t' : Fin n} (h : t' ≠ t) (c : Call) (r : Res) : entriesOf t [⟨t', c, r⟩] = [] := by
  simp [entriesOf, h]

theorem started_append {n : Nat} (t : Fin n) (a b : List (Ev n)) : started t (a ++ b) = started t a ++ started t b := by
  simp [started]

theorem returned_append {n : Nat} (t : Fin n) (a b : List (Ev n)) : returned t (a ++ b) = returned t a ++ returned t b := by
  simp [returned]

/-- The effect of a call in the sequential model, from the shape of its program. -/
theorem call_of_shape {tagOf : Nat → PageTag} {c : Call} {w : World} {st : Bytes} (hw : w.store = ⟨st, []⟩)
    {r : Res} {s : Inner} {bl : List Bytes}
    (h : (code (tagOf c.1) c.2).alone (w.sinks c.1) st = (r, s, st ++ storeOf (bl.map (Page.mk (tagOf c.1))))) :
    World.call tagOf c.1 c.2 w =
      (r, { sinks := upd w.sinks c.1 s, store := ⟨st ++ storeOf (bl.map (Page.mk (tagOf c.1))), []⟩ }) := by
  obtain ⟨h1, h2⟩ := code_alone (tagOf c.1) c.2 (w.sinks c.1) st
  rw [h1] at h
  unfold World.call
  rw [hw]
  generalize hx : SinkCall.run (tagOf c.1) c.2 ⟨w.sinks c.1, ⟨st, []⟩⟩ = x at h h2
  obtain ⟨xr, xi, xd, xf⟩ := x
  simp only at h2
  subst h2
  have hr : xr = r := by
    have := congrArg Prod.fst h
    cases xr <;> exact this
  have hs : xi = s := congrArg (fun y => y.2.1) h
  have hst : xd = _ := congrArg (fun y => y.2.2) h
  subst hr hs hst
  rfl

theorem exec_snoc {tagOf : Nat → PageTag} {n : Nat} {H : List (LinEntry n)} {w w' : World} {t : Fin n} {c : Call} {r : Res}
    (h : World.exec tagOf (historyOf H) World.init = (H.map LinEntry.res, w)) (hc : World.call tagOf c.1 c.2 w = (r, w')) :
    World.exec tagOf (historyOf (H ++ [⟨t, c, r⟩])) World.init = ((H ++ [(⟨t, c, r⟩ : LinEntry n)]).map LinEntry.res, w') := by
  have e : historyOf (H ++ [(⟨t, c, r⟩ : LinEntry n)]) = historyOf H ++ [(c.1, c.2)] := by simp [historyOf]
  rw [e, exec_append, h]
  simp [World.exec, hc]

/-- Where a thread is in its current call. -/
inductive Stage {n : Nat} (tagOf : Nat → PageTag) (σ : Conc n) (H : List (LinEntry n)) (P Q : List (Nat × Bytes)) (w : World)
    (t : Fin n) : Prop where
  | idle : (σ.threads t).cur = none → (∀ i, σ.dataLock i ≠ some t) → σ.storeLock ≠ some t →
      entriesOf t H = returned t σ.log → started t σ.log = (returned t σ.log).map Prod.fst → Stage tagOf σ H P Q w t
  | ready (c : Call) (k) : (σ.threads t).cur = some (c, .lockData k) → code (tagOf c.1) c.2 = .lockData k →
      (∀ i, σ.dataLock i ≠ some t) → σ.storeLock ≠ some t →
      entriesOf t H = returned t σ.log → started t σ.log = (returned t σ.log).map Prod.fst ++ [c] → Stage tagOf σ H P Q w t
  | inData (c : Call) (p bl r) : (σ.threads t).cur = some (c, p) → InData (tagOf c.1) p (w.sinks c.1) bl r →
      bodiesOf c.1 Q = bodiesOf c.1 P ++ bl →
      σ.dataLock c.1 = some t → (∀ i, i ≠ c.1 → σ.dataLock i ≠ some t) → σ.storeLock ≠ some t →
      entriesOf t H = returned t σ.log ++ [(c, r)] → started t σ.log = (returned t σ.log).map Prod.fst ++ [c] →
      Stage tagOf σ H P Q w t
  | inStore (c : Call) (p part bl r) : (σ.threads t).cur = some (c, p) → InStore (tagOf c.1) p part (w.sinks c.1) bl r →
      bodiesOf c.1 Q = bodiesOf c.1 P ++ bl → σ.store = storeOf (pagesOf tagOf P) ++ part →
      σ.dataLock c.1 = some t → (∀ i, i ≠ c.1 → σ.dataLock i ≠ some t) → σ.storeLock = some t →
      entriesOf t H = returned t σ.log ++ [(c, r)] → started t σ.log = (returned t σ.log).map Prod.fst ++ [c] →
      Stage tagOf σ H P Q w t
  | leaving (c : Call) (r) : (σ.threads t).cur = some (c, .ret r) → (∀ i, σ.dataLock i ≠ some t) → σ.storeLock ≠ some t →
      entriesOf t H = returned t σ.log ++ [(c, r)] → started t σ.log = (returned t σ.log).map Prod.fst ++ [c] →
      Stage tagOf σ H P Q w t

/-- The invariant of all reachable states, with ghosts: the sequential order `H` so far, the pages `P` completely written,
the pages `Q` of the sequential execution of `H`, and its final world `w`. -/
structure Inv {n : Nat} (tagOf : Nat → PageTag) (progs : Fin n → List Call) (σ : Conc n) (H : List (LinEntry n))
    (P Q : List (Nat × Bytes)) (w : World) : Prop where
  exec : World.exec tagOf (historyOf H) World.init = (H.map LinEntry.res, w)
  wstore : w.store = ⟨storeOf (pagesOf tagOf Q), []⟩
  bounds : ∀ q ∈ Q, (0 < q.2.length ∧ q.2.length ≤ 262144) ∧ ∃ x ∈ historyOf H, x.1 = q.1
  stage : ∀ t, Stage tagOf σ H P Q w t
  free : ∀ i, σ.dataLock i = none → σ.data i = w.sinks i ∧ bodiesOf i Q = bodiesOf i P
  sfree : σ.storeLock = none → σ.store = storeOf (pagesOf tagOf P)
  prog : ∀ t, progs t = started t σ.log ++ (σ.threads t).todo
  rt : ∀ L, L <+: σ.log → ∃ H', H' <+: H ∧ Between L H'

theorem upd_same {α β : Type} [DecidableEq α] (f : α → β) (a : α) (b : β) : upd f a b a = b := by simp [upd]
theorem upd_other {α β : Type} [DecidableEq α] (f : α → β) {a x : α} (b : β) (h : x ≠ a) : upd f a b x = f x := by
  simp [upd, h]

/-- What other threads rely on does not change. -/
theorem Stage.frame {n : Nat} {tagOf : Nat → PageTag} {σ σ' : Conc n} {H H' : List (LinEntry n)}
    {P P' Q Q' : List (Nat × Bytes)} {w w' : World} {t : Fin n} (h : Stage tagOf σ H P Q w t)
    (hcur : (σ'.threads t).cur = (σ.threads t).cur)
    (hent : entriesOf t H' = entriesOf t H) (hret : returned t σ'.log = returned t σ.log)
    (hst : started t σ'.log = started t σ.log)
    (hdl : ∀ i, σ'.dataLock i = some t ↔ σ.dataLock i = some t)
    (hsl : σ'.storeLock = some t ↔ σ.storeLock = some t)
    (hd : ∀ i, σ.dataLock i = some t → w'.sinks i = w.sinks i ∧ bodiesOf i Q' = bodiesOf i Q ∧ bodiesOf i P' = bodiesOf i P)
    (hs : σ.storeLock = some t → σ'.store = σ.store ∧ P' = P) : Stage tagOf σ' H' P' Q' w' t := by
  cases h with
  | idle h1 h2 h3 h4 h5 =>
    exact .idle (hcur.trans h1) (fun i => fun h => h2 i ((hdl i).1 h)) (fun h => h3 (hsl.1 h)) (by rw [hent, hret, h4])
      (by rw [hst, hret, h5])
  | ready c k h1 h2 h3 h4 h5 h6 =>
    exact .ready c k (hcur.trans h1) h2 (fun i => fun h => h3 i ((hdl i).1 h)) (fun h => h4 (hsl.1 h)) (by rw [hent, hret, h5])
      (by rw [hst, hret, h6])
  | inData c p bl r h1 h2 h3 h4 h5 h6 h7 h8 =>
    obtain ⟨d1, d2, d3⟩ := hd _ h4
    exact .inData c p bl r (hcur.trans h1) (by rw [d1]; exact h2) (by rw [d2, d3, h3]) ((hdl _).2 h4)
      (fun i hi => fun h => h5 i hi ((hdl i).1 h)) (fun h => h6 (hsl.1 h)) (by rw [hent, hret, h7]) (by rw [hst, hret, h8])
  | inStore c p part bl r h1 h2 h3 h3' h4 h5 h6 h7 h8 =>
    obtain ⟨d1, d2, d3⟩ := hd _ h4
    obtain ⟨s1, s2⟩ := hs h6
    exact .inStore c p part bl r (hcur.trans h1) (by rw [d1]; exact h2) (by rw [d2, d3, h3]) (by rw [s1, s2, h3']) ((hdl _).2 h4)
      (fun i hi => fun h => h5 i hi ((hdl i).1 h)) (hsl.2 h6) (by rw [hent, hret, h7]) (by rw [hst, hret, h8])
  | leaving c r h1 h2 h3 h4 h5 =>
    exact .leaving c r (hcur.trans h1) (fun i => fun h => h2 i ((hdl i).1 h)) (fun h => h3 (hsl.1 h)) (by rw [hent, hret, h4])
      (by rw [hst, hret, h5])

theorem Stage.between {n : Nat} {tagOf : Nat → PageTag} {σ : Conc n} {H : List (LinEntry n)}
    {P Q : List (Nat × Bytes)} {w : World} {t : Fin n} (h : Stage tagOf σ H P Q w t) :
    returned t σ.log <+: entriesOf t H ∧ (entriesOf t H).map Prod.fst <+: started t σ.log := by
  cases h with
  | idle _ _ _ h4 h5 => rw [h4, h5]; exact ⟨List.prefix_rfl, List.prefix_rfl⟩
  | ready c k _ _ _ _ h5 h6 => rw [h5, h6]; exact ⟨List.prefix_rfl, List.prefix_append _ _⟩
  | inData c p bl r _ _ _ _ _ _ h7 h8 => rw [h7, h8]; exact ⟨List.prefix_append _ _, by simp⟩
  | inStore c p part bl r _ _ _ _ _ _ _ h7 h8 => rw [h7, h8]; exact ⟨List.prefix_append _ _, by simp⟩
  | leaving c r _ _ _ h4 h5 => rw [h4, h5]; exact ⟨List.prefix_append _ _, by simp⟩

/-- The real-time clause is preserved when the log or the order grows. -/
theorem rt_grow {n : Nat} {log log' : List (Ev n)} {H H' : List (LinEntry n)}
    (h : ∀ L, L <+: log → ∃ G, G <+: H ∧ Between L G) (hH : H <+: H')
    (hlog : log' = log ∨ ∃ e, log' = log ++ [e]) (hb : Between log' H') :
    ∀ L, L <+: log' → ∃ G, G <+: H' ∧ Between L G := by
  intro L hL
  by_cases heq : L = log'
  · exact ⟨H', List.prefix_rfl, heq ▸ hb⟩
  · have : L <+: log := by
      rcases hlog with rfl | ⟨e, rfl⟩
      · exact hL
      · rcases List.prefix_concat_iff.1 hL with h | h
        · exact absurd h heq
        · exact h
    obtain ⟨G, hG, hb⟩ := h L this
    exact ⟨G, hG.trans hH, hb⟩

theorem bounds_grow {n : Nat} {Q : List (Nat × Bytes)} {H H' : List (LinEntry n)}
    (h : ∀ q ∈ Q, (0 < q.2.length ∧ q.2.length ≤ 262144) ∧ ∃ x ∈ historyOf H, x.1 = q.1) (hH : H <+: H') :
    ∀ q ∈ Q, (0 < q.2.length ∧ q.2.length ≤ 262144) ∧ ∃ x ∈ historyOf H', x.1 = q.1 := by
  intro q hq
  obtain ⟨h1, x, hx, h2⟩ := h q hq
  obtain ⟨e, he, rfl⟩ := List.mem_map.1 hx
  exact ⟨h1, _, List.mem_map.2 ⟨e, hH.subset he, rfl⟩, h2⟩

theorem Inv.init {n : Nat} (tagOf : Nat → PageTag) (progs : Fin n → List Call) :
    Inv tagOf progs (Conc.init progs) [] [] [] World.init where
  exec := rfl
  wstore := rfl
  bounds := by simp
  stage := fun t => .idle rfl (by simp [Conc.init]) (by simp [Conc.init]) rfl rfl
  free := fun i _ => ⟨rfl, rfl⟩
  sfree := fun _ => rfl
  prog := fun t => rfl
  rt := by
    intro L hL
    have hnil : L = [] := List.prefix_nil.mp hL
    subst hnil
    exact ⟨[], List.prefix_rfl, fun t => ⟨List.prefix_rfl, List.prefix_rfl⟩⟩

theorem started_inv_same {n : Nat} (t : Fin n) (c : Call) : started t [Ev.inv t c] = [c] := by simp [started]
theorem started_inv_other {n : Nat} {t t' : Fin n} (h : t' ≠ t) (c : Call) : started t [Ev.inv t' c] = [] := by
  simp [started, h]
theorem started_res {n : Nat} (t t' : Fin n) (c : Call) (r : Res) : started t [Ev.res t' c r] = [] := by simp [started]
theorem returned_res_same {n : Nat} (t : Fin n) (c : Call) (r : Res) : returned t [Ev.res t c r] = [(c, r)] := by
  simp [returned]
theorem returned_res_other {n : Nat} {t t' : Fin n} (h : t' ≠ t) (c : Call) (r : Res) :
    returned t [Ev.res t' c r] = [] := by simp [returned, h]
theorem returned_inv {n : Nat} (t t' : Fin n) (c : Call) : returned t [Ev.inv t' c] = [] := by simp [returned]

/-- Every step preserves the invariant; the sequential order only grows at its end, and so do the pages. -/
theorem Inv.step {n : Nat} {tagOf : Nat → PageTag} {progs : Fin n → List Call} {σ σ' : Conc n} {H : List (LinEntry n)}
    {P Q : List (Nat × Bytes)} {w : World} (inv : Inv tagOf progs σ H P Q w) {t : Fin n}
    (hstep : Conc.step tagOf σ t = some σ') :
    ∃ H' P' Q' w', Inv tagOf progs σ' H' P' Q' w' ∧ H <+: H' ∧ P <+: P' := by
  have hstage := inv.stage t
  unfold Conc.step at hstep
  cases hstage with
  | idle h1 h2 h3 h4 h5 =>
    rw [h1] at hstep
    simp only at hstep
    cases htodo : (σ.threads t).todo with
    | nil => rw [htodo] at hstep; simp at hstep
    | cons c rest =>
      rw [htodo] at hstep
      simp only [Option.some.injEq] at hstep
      have hl : ∀ t', t' ≠ t → started t' (σ.log ++ [Ev.inv t c]) = started t' σ.log ∧
          returned t' (σ.log ++ [Ev.inv t c]) = returned t' σ.log := by
        intro t' ht'
        rw [started_append, returned_append, started_inv_other (Ne.symm ht'), returned_inv]
        simp
      have hlt : started t (σ.log ++ [Ev.inv t c]) = (returned t σ.log).map Prod.fst ++ [c] ∧
          returned t (σ.log ++ [Ev.inv t c]) = returned t σ.log := by
        rw [started_append, returned_append, started_inv_same, returned_inv, h5]
        simp
      have hprog : ∀ t', progs t' = started t' (σ.log ++ [Ev.inv t c]) ++
          (upd σ.threads t ⟨rest, some (c, code (tagOf c.1) c.2)⟩ t').todo := by
        intro t'
        by_cases ht' : t' = t
        · subst ht'
          rw [upd_same, started_append, started_inv_same, inv.prog, htodo]
          simp
        · rw [upd_other _ _ ht', (hl t' ht').1, inv.prog]
      rcases code_shape (tagOf c.1) c.2 with ⟨r, hr⟩ | ⟨k, hk, _⟩
      · -- the call returns at once: it takes effect now
        have hcall : World.call tagOf c.1 c.2 w = (r, w) := by
          have := @call_of_shape tagOf c w _ inv.wstore r (w.sinks c.1) [] (by rw [hr]; simp [Prog.alone, storeOf])
          rw [this]
          congr 1
          obtain ⟨ws, wst⟩ := w
          have h := inv.wstore
          simp only at h
          subst h
          congr 1
          · funext x; simp only [upd]; split
            · rename_i hx; rw [hx]
            · rfl
          · simp [storeOf]
        have hst : ∀ t', Stage tagOf σ' (H ++ [⟨t, c, r⟩]) P Q w t' := by
          subst hstep
          intro t'
          by_cases ht' : t' = t
          · subst ht'
            exact .leaving c r (by simp [upd_same, hr]) h2 h3
              (by rw [entriesOf_append, entriesOf_same, h4, hlt.2]) (by rw [hlt.1, hlt.2])
          · exact (inv.stage t').frame (by simp [upd_other _ _ ht'])
              (by rw [entriesOf_append, entriesOf_other (Ne.symm ht')]; simp) (hl t' ht').2 (hl t' ht').1
              (fun i => Iff.rfl) Iff.rfl (fun i _ => ⟨rfl, rfl, rfl⟩) (fun _ => ⟨rfl, rfl⟩)
        refine ⟨H ++ [⟨t, c, r⟩], P, Q, w, ⟨exec_snoc inv.exec hcall, inv.wstore, bounds_grow inv.bounds (List.prefix_append _ _), hst, ?_, ?_, ?_, ?_⟩,
          List.prefix_append _ _, List.prefix_rfl⟩
        · subst hstep; exact inv.free
        · subst hstep; exact inv.sfree
        · subst hstep; exact hprog
        · exact rt_grow inv.rt (List.prefix_append _ _) (by subst hstep; exact Or.inr ⟨_, rfl⟩) (fun t' => (hst t').between)
      · have hst : ∀ t', Stage tagOf σ' H P Q w t' := by
          subst hstep
          intro t'
          by_cases ht' : t' = t
          · subst ht'
            exact .ready c k (by simp [upd_same, hk]) hk h2 h3 (by rw [h4, hlt.2]) (by rw [hlt.1, hlt.2])
          · exact (inv.stage t').frame (by simp [upd_other _ _ ht']) rfl (hl t' ht').2 (hl t' ht').1
              (fun i => Iff.rfl) Iff.rfl (fun i _ => ⟨rfl, rfl, rfl⟩) (fun _ => ⟨rfl, rfl⟩)
        refine ⟨H, P, Q, w, ⟨inv.exec, inv.wstore, inv.bounds, hst, ?_, ?_, ?_, ?_⟩, List.prefix_rfl, List.prefix_rfl⟩
        · subst hstep; exact inv.free
        · subst hstep; exact inv.sfree
        · subst hstep; exact hprog
        · exact rt_grow inv.rt List.prefix_rfl (by subst hstep; exact Or.inr ⟨_, rfl⟩) (fun t' => (hst t').between)
  | leaving c r h1 h2 h3 h4 h5 =>
    rw [h1] at hstep
    simp only [Option.some.injEq] at hstep
    have hl : ∀ t', t' ≠ t → started t' (σ.log ++ [Ev.res t c r]) = started t' σ.log ∧
        returned t' (σ.log ++ [Ev.res t c r]) = returned t' σ.log := by
      intro t' ht'
      rw [started_append, returned_append, started_res, returned_res_other (Ne.symm ht')]
      simp
    have hst : ∀ t', Stage tagOf σ' H P Q w t' := by
      subst hstep
      intro t'
      by_cases ht' : t' = t
      · subst ht'
        refine .idle (by simp [upd_same]) h2 h3 ?_ ?_
        · rw [h4]; simp only [returned_append, returned_res_same]
        · simp only [started_append, started_res, returned_append, returned_res_same, h5]; simp
      · exact (inv.stage t').frame (by simp [upd_other _ _ ht']) rfl (hl t' ht').2 (hl t' ht').1
          (fun i => Iff.rfl) Iff.rfl (fun i _ => ⟨rfl, rfl, rfl⟩) (fun _ => ⟨rfl, rfl⟩)
    refine ⟨H, P, Q, w, ⟨inv.exec, inv.wstore, inv.bounds, hst, ?_, ?_, ?_, ?_⟩, List.prefix_rfl, List.prefix_rfl⟩
    · subst hstep; exact inv.free
    · subst hstep; exact inv.sfree
    · subst hstep
      intro t'
      simp only [started_append, started_res, List.append_nil]
      rw [inv.prog t']
      by_cases ht' : t' = t
      · subst ht'; simp [upd_same]
      · simp [upd_other _ _ ht']
    · exact rt_grow inv.rt List.prefix_rfl (by subst hstep; exact Or.inr ⟨_, rfl⟩) (fun t' => (hst t').between)
  | ready c k h1 hk h2 h3 h4 h5 =>
    rw [h1] at hstep
    simp only at hstep
    cases hlock : σ.dataLock c.1 with
    | some _ => rw [hlock] at hstep; simp at hstep
    | none =>
      rw [hlock] at hstep
      simp only [Option.some.injEq] at hstep
      obtain ⟨hdata, hQP⟩ := inv.free c.1 hlock
      obtain ⟨s, bl, r, hshape⟩ : HasShape (tagOf c.1) (k (σ.data c.1)) := by
        rcases code_shape (tagOf c.1) c.2 with ⟨r, hr⟩ | ⟨k', hk', hs⟩
        · rw [hk] at hr; cases hr
        · rw [hk] at hk'; cases hk'; exact hs _
      have hcall := @call_of_shape tagOf c w _ inv.wstore r s bl (by
        rw [hk]
        simp only [Prog.alone]
        rw [← hdata]
        exact hshape.alone _ _)
      have hst : ∀ t', Stage tagOf σ' (H ++ [⟨t, c, r⟩]) P (Q ++ bl.map (Prod.mk c.1))
          { sinks := upd w.sinks c.1 s, store := ⟨storeOf (pagesOf tagOf Q) ++ storeOf (bl.map (Page.mk (tagOf c.1))), []⟩ } t' := by
        subst hstep
        intro t'
        by_cases ht' : t' = t
        · subst ht'
          refine .inData c _ bl r (by simp [Conc.goto, upd_same]; rfl) ?_ ?_ (by simp [upd_same]) ?_ h3 ?_ ?_
          · simpa [upd_same] using hshape
          · rw [bodiesOf_append, hQP, bodiesOf_map_same]
          · intro i hi; simp only [upd_other _ _ hi]; exact h2 i
          · rw [entriesOf_append, entriesOf_same, h4]; rfl
          · exact h5
        · refine (inv.stage t').frame (by simp [Conc.goto, upd_other _ _ ht'])
            (by rw [entriesOf_append, entriesOf_other (Ne.symm ht')]; simp) rfl rfl ?_ Iff.rfl ?_ (fun _ => ⟨rfl, rfl⟩)
          · intro i
            by_cases hi : i = c.1
            · subst hi; simp [upd_same, hlock, Ne.symm ht']
            · simp [upd_other _ _ hi]
          · intro i hi
            have hic : i ≠ c.1 := by rintro rfl; rw [hlock] at hi; cases hi
            refine ⟨by simp [upd_other _ _ hic], ?_, rfl⟩
            rw [bodiesOf_append, bodiesOf_map_other (Ne.symm hic), List.append_nil]
      refine ⟨_, P, _, _, ⟨exec_snoc inv.exec hcall, ?_, ?_, hst, ?_, ?_, ?_, ?_⟩, List.prefix_append _ _, List.prefix_rfl⟩
      · simp only [pagesOf_append, pagesOf_map, storeOf_append]
      · intro q hq
        rcases List.mem_append.1 hq with hq | hq
        · exact bounds_grow inv.bounds (List.prefix_append _ _) q hq
        · obtain ⟨b, hb, rfl⟩ := List.mem_map.1 hq
          exact ⟨hshape.bodies b hb, c, by simp [historyOf], rfl⟩
      · subst hstep
        intro i hi
        by_cases hic : i = c.1
        · subst hic; simp [upd_same] at hi
        · simp only [upd_other _ _ hic] at hi
          obtain ⟨e1, e2⟩ := inv.free i hi
          refine ⟨by simpa [Conc.goto, upd_other _ _ hic] using e1, ?_⟩
          rw [bodiesOf_append, bodiesOf_map_other (Ne.symm hic), List.append_nil, e2]
      · subst hstep; exact inv.sfree
      · subst hstep
        intro t'
        rw [inv.prog t']
        by_cases ht' : t' = t
        · subst ht'; simp [Conc.goto, upd_same]
        · simp [Conc.goto, upd_other _ _ ht']
      · exact rt_grow inv.rt (List.prefix_append _ _) (by subst hstep; exact Or.inl rfl) (fun t' => (hst t').between)
  | inData c p bl r h1 h2 h3 h4 h5 h6 h7 h8 =>
    -- common: the log, the order and Q do not change
    cases h2 with
    | fin =>
      rw [h1] at hstep
      simp only [Option.some.injEq] at hstep
      have hst : ∀ t', Stage tagOf σ' H P Q w t' := by
        subst hstep
        intro t'
        by_cases ht' : t' = t
        · subst ht'
          refine .leaving c r (by simp [Conc.goto, upd_same]) ?_ h6 h7 h8
          intro i
          by_cases hi : i = c.1
          · subst hi; simp [upd_same]
          · simp only [upd_other _ _ hi]; exact h5 i hi
        · refine (inv.stage t').frame (by simp [Conc.goto, upd_other _ _ ht']) rfl rfl rfl ?_ Iff.rfl
            (fun i _ => ⟨rfl, rfl, rfl⟩) (fun _ => ⟨rfl, rfl⟩)
          intro i
          by_cases hi : i = c.1
          · subst hi; simp [upd_same, h4, Ne.symm ht']
          · simp [upd_other _ _ hi]
      refine ⟨H, P, Q, w, ⟨inv.exec, inv.wstore, inv.bounds, hst, ?_, ?_, ?_, ?_⟩, List.prefix_rfl, List.prefix_rfl⟩
      · subst hstep
        intro i hi
        by_cases hic : i = c.1
        · subst hic
          exact ⟨by simp [upd_same], by simpa using h3⟩
        · simp only [upd_other _ _ hic] at hi ⊢
          exact inv.free i hi
      · subst hstep; exact inv.sfree
      · subst hstep
        intro t'
        rw [inv.prog t']
        by_cases ht' : t' = t
        · subst ht'; simp [Conc.goto, upd_same]
        · simp [Conc.goto, upd_other _ _ ht']
      · exact rt_grow inv.rt List.prefix_rfl (by subst hstep; exact Or.inl rfl) (fun t' => (hst t').between)
    | touch hk =>
      rw [h1] at hstep
      simp only at hstep
      cases hlock : σ.storeLock with
      | some _ => rw [hlock] at hstep; simp at hstep
      | none =>
        rw [hlock] at hstep
        simp only [Option.some.injEq] at hstep
        have hst : ∀ t', Stage tagOf σ' H P Q w t' := by
          subst hstep
          intro t'
          by_cases ht' : t' = t
          · subst ht'
            exact .inStore c _ [] bl r (by simp [Conc.goto, upd_same]) (.touch hk) h3
              (by simpa [Conc.goto] using inv.sfree hlock) h4 h5 rfl h7 h8
          · refine (inv.stage t').frame (by simp [Conc.goto, upd_other _ _ ht']) rfl rfl rfl (fun i => Iff.rfl) ?_
              (fun i _ => ⟨rfl, rfl, rfl⟩) (fun _ => ⟨rfl, rfl⟩)
            simp [hlock, Ne.symm ht']
        refine ⟨H, P, Q, w, ⟨inv.exec, inv.wstore, inv.bounds, hst, ?_, ?_, ?_, ?_⟩, List.prefix_rfl, List.prefix_rfl⟩
        · subst hstep; exact inv.free
        · subst hstep; simp
        · subst hstep
          intro t'
          rw [inv.prog t']
          by_cases ht' : t' = t
          · subst ht'; simp [Conc.goto, upd_same]
          · simp [Conc.goto, upd_other _ _ ht']
        · exact rt_grow inv.rt List.prefix_rfl (by subst hstep; exact Or.inl rfl) (fun t' => (hst t').between)
    | page b o hb1 hb2 hk =>
      rw [h1] at hstep
      simp only at hstep
      cases hlock : σ.storeLock with
      | some _ => rw [hlock] at hstep; simp at hstep
      | none =>
        rw [hlock] at hstep
        simp only [Option.some.injEq] at hstep
        have hst : ∀ t', Stage tagOf σ' H P Q w t' := by
          subst hstep
          intro t'
          by_cases ht' : t' = t
          · subst ht'
            exact .inStore c _ [] _ r (by simp [Conc.goto, upd_same]) (.p0 b o hb1 hb2 hk) h3
              (by simpa [Conc.goto] using inv.sfree hlock) h4 h5 rfl h7 h8
          · refine (inv.stage t').frame (by simp [Conc.goto, upd_other _ _ ht']) rfl rfl rfl (fun i => Iff.rfl) ?_
              (fun i _ => ⟨rfl, rfl, rfl⟩) (fun _ => ⟨rfl, rfl⟩)
            simp [hlock, Ne.symm ht']
        refine ⟨H, P, Q, w, ⟨inv.exec, inv.wstore, inv.bounds, hst, ?_, ?_, ?_, ?_⟩, List.prefix_rfl, List.prefix_rfl⟩
        · subst hstep; exact inv.free
        · subst hstep; simp
        · subst hstep
          intro t'
          rw [inv.prog t']
          by_cases ht' : t' = t
          · subst ht'; simp [Conc.goto, upd_same]
          · simp [Conc.goto, upd_other _ _ ht']
        · exact rt_grow inv.rt List.prefix_rfl (by subst hstep; exact Or.inl rfl) (fun t' => (hst t').between)
  | inStore c p part bl r h1 h2 h3 h3' h4 h5 h6 h7 h8 =>
    -- a write: the same sink, a longer part
    have hwrite : ∀ (b : Bytes) (o k : Prog), p = .write b o k → InStore (tagOf c.1) k (part ++ b) (w.sinks c.1) bl r →
        ∃ H' P' Q' w', Inv tagOf progs σ' H' P' Q' w' ∧ H <+: H' ∧ P <+: P' := by
      rintro b o k rfl hk
      rw [h1] at hstep
      simp only [Option.some.injEq] at hstep
      have hst : ∀ t', Stage tagOf σ' H P Q w t' := by
        subst hstep
        intro t'
        by_cases ht' : t' = t
        · subst ht'
          exact .inStore c k (part ++ b) bl r (by simp [Conc.goto, upd_same]) hk h3
            (by simp [Conc.goto, h3']) h4 h5 h6 h7 h8
        · exact (inv.stage t').frame (by simp [Conc.goto, upd_other _ _ ht']) rfl rfl rfl (fun i => Iff.rfl) Iff.rfl
            (fun i _ => ⟨rfl, rfl, rfl⟩) (fun h => by rw [h6] at h; cases h; exact absurd rfl ht')
      refine ⟨H, P, Q, w, ⟨inv.exec, inv.wstore, inv.bounds, hst, ?_, ?_, ?_, ?_⟩, List.prefix_rfl, List.prefix_rfl⟩
      · subst hstep; exact inv.free
      · subst hstep; simp [Conc.goto, h6]
      · subst hstep
        intro t'
        rw [inv.prog t']
        by_cases ht' : t' = t
        · subst ht'; simp [Conc.goto, upd_same]
        · simp [Conc.goto, upd_other _ _ ht']
      · exact rt_grow inv.rt List.prefix_rfl (by subst hstep; exact Or.inl rfl) (fun t' => (hst t').between)
    -- a release: `new` is the page that is complete now
    have hrelease : ∀ (k : Prog) (new : List Bytes) (rest : List Bytes), p = .unlockStore k → bl = new ++ rest →
        part = storeOf (new.map (Page.mk (tagOf c.1))) → InData (tagOf c.1) k (w.sinks c.1) rest r →
        ∃ H' P' Q' w', Inv tagOf progs σ' H' P' Q' w' ∧ H <+: H' ∧ P <+: P' := by
      rintro k new rest rfl rfl rfl hk
      rw [h1] at hstep
      simp only [Option.some.injEq] at hstep
      have hst : ∀ t', Stage tagOf σ' H (P ++ new.map (Prod.mk c.1)) Q w t' := by
        subst hstep
        intro t'
        by_cases ht' : t' = t
        · subst ht'
          refine .inData c k rest r (by simp [Conc.goto, upd_same]) hk ?_ h4 h5 (by simp) h7 h8
          rw [bodiesOf_append, bodiesOf_map_same, h3]; simp
        · refine (inv.stage t').frame (by simp [Conc.goto, upd_other _ _ ht']) rfl rfl rfl (fun i => Iff.rfl) ?_ ?_ ?_
          · simp [h6, Ne.symm ht']
          · intro i hi
            have hic : i ≠ c.1 := by rintro rfl; rw [h4] at hi; cases hi; exact ht' rfl
            refine ⟨rfl, rfl, ?_⟩
            rw [bodiesOf_append, bodiesOf_map_other (Ne.symm hic), List.append_nil]
          · intro h; rw [h6] at h; cases h; exact absurd rfl ht'
      refine ⟨H, P ++ new.map (Prod.mk c.1), Q, w, ⟨inv.exec, inv.wstore, inv.bounds, hst, ?_, ?_, ?_, ?_⟩, List.prefix_rfl,
        List.prefix_append _ _⟩
      · subst hstep
        intro i hi
        obtain ⟨e1, e2⟩ := inv.free i hi
        have hic : i ≠ c.1 := by
          rintro rfl
          have hi' : σ.dataLock c.1 = none := hi
          rw [h4] at hi'; cases hi'
        refine ⟨e1, ?_⟩
        rw [bodiesOf_append, bodiesOf_map_other (Ne.symm hic), List.append_nil, e2]
      · subst hstep
        intro _
        simp only [Conc.goto]
        rw [h3', pagesOf_append, pagesOf_map, storeOf_append]
      · subst hstep
        intro t'
        rw [inv.prog t']
        by_cases ht' : t' = t
        · subst ht'; simp [Conc.goto, upd_same]
        · simp [Conc.goto, upd_other _ _ ht']
      · exact rt_grow inv.rt List.prefix_rfl (by subst hstep; exact Or.inl rfl) (fun t' => (hst t').between)
    cases h2 with
    | touch hk => exact hrelease _ [] bl rfl rfl rfl hk
    | p0 b o hb1 hb2 hk => exact hwrite _ _ _ rfl (.p1 b o hb1 hb2 hk)
    | p1 b o hb1 hb2 hk => exact hwrite _ _ _ rfl (.p2 b o hb1 hb2 hk)
    | p2 b o hb1 hb2 hk => exact hwrite _ _ _ rfl (.p3 b hb1 hb2 hk)
    | p3 b hb1 hb2 hk =>
      refine hrelease _ [b] _ rfl rfl ?_ hk
      rw [header_eq]
      simp [storeOf]

theorem Inv.run {n : Nat} {tagOf : Nat → PageTag} {progs : Fin n → List Call} {σ σ' : Conc n} {k : Nat} {H : List (LinEntry n)}
    {P Q : List (Nat × Bytes)} {w : World} (inv : Inv tagOf progs σ H P Q w) (h : Conc.Run tagOf σ k σ') :
    ∃ H' P' Q' w', Inv tagOf progs σ' H' P' Q' w' ∧ H <+: H' ∧ P <+: P' := by
  induction h with
  | refl => exact ⟨H, P, Q, w, inv, List.prefix_rfl, List.prefix_rfl⟩
  | step _ hs ih =>
    obtain ⟨H1, P1, Q1, w1, i1, p1, p2⟩ := ih
    obtain ⟨H2, P2, Q2, w2, i2, p3, p4⟩ := i1.step hs
    exact ⟨H2, P2, Q2, w2, i2, p1.trans p3, p2.trans p4⟩

end Verif.Conc
