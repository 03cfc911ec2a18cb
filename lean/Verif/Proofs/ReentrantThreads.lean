import Verif.Proofs.Reentrant
import Verif.Proofs.Linearize

/-!
# Several threads whose callbacks use sinks: the invariant

As `Proofs/Linearize.lean`: a sequential order `H` is built while the threads run.  A call without callback enters it when it locks its sink, a call with a callback
when it unlocks it again, i.e. after the calls its callback has made.
-/

namespace Verif.Reentrant

open Verif Verif.Mm Verif.Conc Verif.Spec

/-! ## What remains of a thread -/

/-- The task writes the pages `bl` and then is `T'`; the store lock is not held. -/
inductive Phase (tag : PageTag) : Task → List Bytes → Task → Prop where
  | fin (T : Task) : Phase tag T [] T
  | touch {T T' : Task} {bl : List Bytes} : Phase tag T bl T' → Phase tag (.lockStore (.unlockStore T)) bl T'
  | page {T T' : Task} {bl : List Bytes} (b : Bytes) : 0 < b.length → b.length ≤ 262144 → Phase tag T bl T' →
      Phase tag (.lockStore (.write [tag.toByte] (.write (leBytes 4 b.length) (.write b (.unlockStore T))))) (b :: bl) T'

/-- The same with the store lock held, `part` having been written since it was taken. -/
inductive PhaseS (tag : PageTag) : Task → Bytes → List Bytes → Task → Prop where
  | touch {T T' : Task} {bl : List Bytes} : Phase tag T bl T' → PhaseS tag (.unlockStore T) [] bl T'
  | p0 {T T' : Task} {bl : List Bytes} (b : Bytes) : 0 < b.length → b.length ≤ 262144 → Phase tag T bl T' →
      PhaseS tag (.write [tag.toByte] (.write (leBytes 4 b.length) (.write b (.unlockStore T)))) [] (b :: bl) T'
  | p1 {T T' : Task} {bl : List Bytes} (b : Bytes) : 0 < b.length → b.length ≤ 262144 → Phase tag T bl T' →
      PhaseS tag (.write (leBytes 4 b.length) (.write b (.unlockStore T))) [tag.toByte] (b :: bl) T'
  | p2 {T T' : Task} {bl : List Bytes} (b : Bytes) : 0 < b.length → b.length ≤ 262144 → Phase tag T bl T' →
      PhaseS tag (.write b (.unlockStore T)) ([tag.toByte] ++ leBytes 4 b.length) (b :: bl) T'
  | p3 {T T' : Task} {bl : List Bytes} (b : Bytes) : 0 < b.length → b.length ≤ 262144 → Phase tag T bl T' →
      PhaseS tag (.unlockStore T) ([tag.toByte] ++ leBytes 4 b.length ++ b) (b :: bl) T'

/-- The task of a thread that has made the calls `E`, holds the sinks in `V`, which are in the given states, and ends with a list of calls satisfying `K`. -/
inductive Plan (tagOf : Nat → PageTag) (K : List (Call × Res) → Prop) : List (Call × Res) → List (Nat × Inner) → Task → Prop where
  | done {E : List (Call × Res)} : K E → Plan tagOf K E [] .done
  | skip {E : List (Call × Res)} {V : List (Nat × Inner)} {T : Task} (i : Nat) (c : SinkCall) (r : Res) : code (tagOf i) c = .ret r →
      Plan tagOf K (E ++ [((i, c), r)]) V T → Plan tagOf K E V T
  | lock {E : List (Call × Res)} {V : List (Nat × Inner)} (i : Nat) (k : Inner → Task) (c : Inner → Option SinkCall) (r : Inner → Res) (s' : Inner → Inner)
      (bl : Inner → List Bytes) (T' : Inner → Task) :
      (∀ s : Inner, s.buffer.length ≤ 262144 → c s = none → Plan tagOf K E ((i, s) :: V) (k s)) →
      (∀ (s : Inner) (x : SinkCall), s.buffer.length ≤ 262144 → c s = some x → Phase (tagOf i) (k s) (bl s) (T' s)) →
      (∀ (s : Inner) (x : SinkCall), s.buffer.length ≤ 262144 → c s = some x → (s' s).buffer.length ≤ 262144 ∧
        ∀ st, (code (tagOf i) x).alone s st = (r s, s' s, st ++ storeOf ((bl s).map (Page.mk (tagOf i))))) →
      (∀ (s : Inner) (x : SinkCall), s.buffer.length ≤ 262144 → c s = some x → Plan tagOf K (E ++ [((i, x), r s)]) ((i, s' s) :: V) (T' s)) →
      Plan tagOf K E V (.lock i k)
  | leave {E : List (Call × Res)} {V : List (Nat × Inner)} {T : Task} (i : Nat) (s : Inner) : Plan tagOf K E V T → Plan tagOf K E ((i, s) :: V) (.unlock i s T)
  | finish {E : List (Call × Res)} {V : List (Nat × Inner)} {T : Task} (i : Nat) (s s' : Inner) (c : SinkCall) (r : Res) :
      s'.buffer.length ≤ 262144 → (∀ st, (code (tagOf i) c).alone s st = (r, s', st)) →
      Plan tagOf K (E ++ [((i, c), r)]) V T → Plan tagOf K E ((i, s) :: V) (.unlock i s' T)

theorem phase_inData {tag : PageTag} {p : Prog} {s : Inner} {bl : List Bytes} {r : Res} (h : InData tag p s bl r) (i : Nat) (k : Res → Task) :
    Phase tag (Task.ofProg i k p) bl (.unlock i s (k r)) := by
  induction h with
  | fin => exact .fin _
  | touch _ ih => exact .touch ih
  | page b o h1 h2 _ ih => exact .page b h1 h2 ih

theorem plan_call {tagOf : Nat → PageTag} {K : List (Call × Res) → Prop} {E : List (Call × Res)} {V : List (Nat × Inner)} {i : Nat} {c : SinkCall}
    (hc : ∀ num f, c = .writeAtomic num f → LengthKept num f) {k : Res → Task}
    (hk : ∀ r, Plan tagOf K (E ++ [((i, c), r)]) V (k r)) : Plan tagOf K E V (Task.ofProg i k (code (tagOf i) c)) := by
  have hsm := fun {s : Inner} (hs : s.buffer.length ≤ 262144) => code_small (tagOf i) c hc hs []
  rcases code_shape (tagOf i) c with ⟨r, hq⟩ | ⟨q, hq, hsh⟩
  · rw [hq]
    exact .skip i c r hq (hk r)
  · choose s' bl r h using hsh
    have ha : ∀ s st, (code (tagOf i) c).alone s st = (r s, s' s, st ++ storeOf ((bl s).map (Page.mk (tagOf i)))) := by
      intro s st
      rw [hq]
      exact (h s).alone s st
    rw [hq]
    refine .lock i _ (fun _ => some c) r s' bl (fun s => .unlock i (s' s) (k (r s))) (fun s _ h => nomatch h) (fun s x _ _ => phase_inData (h s) i k) ?_ ?_
    · rintro s x hs ⟨⟩
      refine ⟨?_, ha s⟩
      have := hsm hs
      rw [ha] at this
      exact this
    · rintro s x hs ⟨⟩
      exact .leave i _ (hk _)

theorem plan_finish {tagOf : Nat → PageTag} {K : List (Call × Res) → Prop} {E : List (Call × Res)} {V : List (Nat × Inner)} {i num : Nat} {s : Inner} {f : Fill}
    (hl : num ≤ 262144) (hs : s.buffer.length + num ≤ 262144) (hf : LengthKept num f) {k : Res → Task}
    (hk : ∀ r, Plan tagOf K (E ++ [((i, .writeAtomic num f), r)]) V (k r)) : Plan tagOf K E ((i, s) :: V) (Task.finish i num s k f) := by
  have hc : ∀ st, (code (tagOf i) (.writeAtomic num f)).alone s st = (fillC num f some s).alone s st := by
    intro st
    show (writeAtomicC (tagOf i) num f some).alone s st = _
    unfold writeAtomicC writeBufferedC
    rw [if_neg (by unfold maxPageSize; omega)]
    simp only [Prog.alone]
    rw [if_neg (by unfold maxPageSize; omega)]
  unfold fillC at hc
  unfold Task.finish
  have hf' := hf
  unfold LengthKept at hf'
  cases hx : f (List.replicate num 0) with
  | error x =>
    obtain ⟨e, part⟩ := x
    simp only [hx] at hc
    refine .finish i s _ _ _ ?_ hc (hk _)
    simp only [List.length_append, (hf part).2 e hx]; exact hs
  | ok out =>
    simp only [hx] at hc
    refine .finish i s _ _ _ ?_ hc (hk _)
    simp only [List.length_append, (hf out).1 hx]; exact hs

theorem phase_flush {tag : PageTag} {s : Inner} (hs : s.buffer.length ≤ 262144) (i : Nat) (k : Res → Task) :
    Phase tag (Task.ofProg i k (flushC tag s fun _ => .ret (.ok none))) (if s.buffer.length > 0 then [s.buffer] else []) (k (.ok none)) := by
  unfold flushC writePageC
  rw [if_pos (show s.buffer.length ≤ maxPageSize from hs)]
  split
  · rename_i h; exact .page _ h hs (.fin _)
  · exact .fin _

theorem flush_alone_pages {tag : PageTag} {s : Inner} (hs : s.buffer.length ≤ 262144) (st : Bytes) :
    (code tag .stdFlush).alone s st = (.ok none, ⟨[], s.addr⟩, st ++ storeOf ((if s.buffer.length > 0 then [s.buffer] else []).map (Page.mk tag))) := by
  have h : InData tag (flushC tag s fun s' => .lockStore (.unlockStore (.unlockData s' (.ret (.ok none))))) ⟨[], s.addr⟩
      (if s.buffer.length > 0 then [s.buffer] else []) (.ok none) := by
    unfold flushC writePageC
    rw [if_pos (show s.buffer.length ≤ maxPageSize from hs)]
    split
    · rename_i h; exact .page _ _ h hs (.touch (.fin _ _))
    · exact .touch (.fin _ _)
  exact h.alone s st

theorem plan_compile {tagOf : Nat → PageTag} {K : List (Call × Res) → Prop} (c : Script) : ∀ {E : List (Call × Res)} {V : List (Nat × Inner)} {k : Fill → Task}
    {P : Fill → Prop}, KeepsLengths P c → (∀ L f, Makes c L f → P f → Plan tagOf K (E ++ L) V (k f)) → Plan tagOf K E V (c.compile tagOf k) := by
  induction c with
  | fill f =>
    intro E V k P hp hk
    have := hk [] f (.fill f) hp
    rwa [List.append_nil] at this
  | call i c next ih =>
    intro E V k P hp hk
    refine plan_call hp.1 fun r => ih r (hp.2 r) fun L f m pf => ?_
    have := hk _ f (.call (r := r) (c := c) (i := i) m) pf
    rwa [List.append_assoc]
  | atomic i num cb next ihc ihn =>
    intro E V k P hp hk
    unfold Script.compile
    split
    · rename_i hl
      refine ihc hp.1 fun L₁ f₁ m₁ p₁ => ?_
      have hcode : (match f₁ (List.replicate num 0) with
        | .error (e, _) => (next (.error e)).compile tagOf k
        | .ok bytes => Task.ofProg i (fun r => (next r).compile tagOf k) (writeBytesC (tagOf i) bytes some)) =
          Task.ofProg i (fun r => (next r).compile tagOf k) (code (tagOf i) (.writeAtomic num f₁)) := by
        show _ = Task.ofProg i _ (writeAtomicC (tagOf i) num f₁ some)
        unfold writeAtomicC
        rw [if_pos hl]
        cases f₁ (List.replicate num 0) with
        | error x => obtain ⟨e, part⟩ := x; rfl
        | ok out => rfl
      refine Eq.mpr (congrArg (Plan tagOf K (E ++ L₁) V) hcode) ?_
      refine plan_call (by rintro _ _ ⟨⟩; exact p₁) fun r => ihn r (hp.2 r) fun L₂ f m pf => ?_
      have := hk _ f (.atomic m₁ m) pf
      simpa using this
    · rename_i hl
      have hl : num ≤ 262144 := by unfold maxPageSize at hl; omega
      refine .lock i _ (fun s => if s.buffer.length + num > maxPageSize then some .stdFlush else none) (fun _ => .ok none) (fun s => ⟨[], s.addr⟩)
        (fun s => if s.buffer.length > 0 then [s.buffer] else [])
        (fun s => cb.compile tagOf (Task.finish i num ⟨[], s.addr⟩ fun r => (next r).compile tagOf k)) ?_ ?_ ?_ ?_
      · intro s hs hn
        try dsimp only at hn ⊢
        split at hn
        · cases hn
        · rename_i hroom
          rw [if_neg hroom]
          refine ihc hp.1 fun L₁ f₁ m₁ p₁ => ?_
          refine plan_finish hl (by unfold maxPageSize at hroom; omega) p₁ fun r => ihn r (hp.2 r) fun L₂ f m pf => ?_
          have := hk _ f (.atomic m₁ m) pf
          simpa using this
      · intro s x hs hx
        try dsimp only at hx ⊢
        split at hx
        · rename_i hroom
          rw [if_pos hroom]
          exact phase_flush hs i _
        · cases hx
      · intro s x hs hx
        try dsimp only at hx ⊢
        split at hx
        · cases hx
          exact ⟨Nat.zero_le _, flush_alone_pages hs⟩
        · cases hx
      · intro s x hs hx
        try dsimp only at hx ⊢
        split at hx
        · cases hx
          refine ihc hp.1 fun L₁ f₁ m₁ p₁ => ?_
          refine plan_finish hl (by simpa using hl) p₁ fun r => ihn r (hp.2 r) fun L₂ f m pf => ?_
          have := hk _ f (.madeRoom m₁ m) pf
          simpa using this
        · cases hx

/-! ## The invariant -/

/-- The sinks a thread holds. -/
abbrev keys (V : List (Nat × Inner)) : List Nat := V.map Prod.fst

/-- The sinks in `V`, and no others, are locked by `t`; they are in the states of the sequential run, and, but for `bl` on sink `i₀`, their pages are written. -/
structure Holds {n : Nat} (σ : State n) (P Q : List (Nat × Bytes)) (w : World) (t : Fin n) (V : List (Nat × Inner)) (i₀ : Nat) (bl : List Bytes) : Prop where
  locks : ∀ i, σ.dataLock i = some t ↔ i ∈ keys V
  nodup : (keys V).Nodup
  vals : ∀ x ∈ V, w.sinks x.1 = x.2
  pages : ∀ i ∈ keys V, bodiesOf i Q = bodiesOf i P ++ if i = i₀ then bl else []
  mine : bl ≠ [] → i₀ ∈ keys V

/-- Where a thread is. -/
inductive At {n : Nat} (tagOf : Nat → PageTag) (K : List (Call × Res) → Prop) (σ : State n) (E : List (Call × Res)) (P Q : List (Nat × Bytes)) (w : World)
    (t : Fin n) : Prop where
  | inData (V : List (Nat × Inner)) (i₀ : Nat) (bl : List Bytes) (T' : Task) : Phase (tagOf i₀) (σ.threads t) bl T' → Plan tagOf K E V T' →
      Holds σ P Q w t V i₀ bl → σ.storeLock ≠ some t → At tagOf K σ E P Q w t
  | inStore (V : List (Nat × Inner)) (i₀ : Nat) (part : Bytes) (bl : List Bytes) (T' : Task) : PhaseS (tagOf i₀) (σ.threads t) part bl T' → Plan tagOf K E V T' →
      Holds σ P Q w t V i₀ bl → σ.storeLock = some t → σ.store = storeOf (pagesOf tagOf P) ++ part → At tagOf K σ E P Q w t

/-- The invariant of all reachable states: `H` is the sequential order so far, `P` the pages completely written, `Q` those of the sequential run of `H`, `w` its result. -/
structure NInv {n : Nat} (tagOf : Nat → PageTag) (K : Fin n → List (Call × Res) → Prop) (σ : State n) (H : List (LinEntry n))
    (P Q : List (Nat × Bytes)) (w : World) : Prop where
  exec : World.exec tagOf (historyOf H) World.init = (H.map LinEntry.res, w)
  wstore : w.store = ⟨storeOf (pagesOf tagOf Q), []⟩
  bounds : ∀ q ∈ Q, (0 < q.2.length ∧ q.2.length ≤ 262144) ∧ ∃ x ∈ historyOf H, x.1 = q.1
  small : ∀ i, (w.sinks i).buffer.length ≤ 262144
  stage : ∀ t, At tagOf (K t) σ (entriesOf t H) P Q w t
  free : ∀ i, σ.dataLock i = none → σ.data i = w.sinks i ∧ bodiesOf i Q = bodiesOf i P
  sfree : σ.storeLock = none → σ.store = storeOf (pagesOf tagOf P)

/-- What other threads rely on does not change. -/
theorem At.frame {n : Nat} {tagOf : Nat → PageTag} {K : List (Call × Res) → Prop} {σ σ' : State n} {E E' : List (Call × Res)}
    {P P' Q Q' : List (Nat × Bytes)} {w w' : World} {t : Fin n} (h : At tagOf K σ E P Q w t)
    (hT : σ'.threads t = σ.threads t) (hE : E' = E)
    (hdl : ∀ i, σ'.dataLock i = some t ↔ σ.dataLock i = some t)
    (hsl : σ'.storeLock = some t ↔ σ.storeLock = some t)
    (hd : ∀ i, σ.dataLock i = some t → w'.sinks i = w.sinks i ∧ bodiesOf i Q' = bodiesOf i Q ∧ bodiesOf i P' = bodiesOf i P)
    (hs : σ.storeLock = some t → σ'.store = σ.store ∧ P' = P) : At tagOf K σ' E' P' Q' w' t := by
  subst hE
  have hh : ∀ {V : List (Nat × Inner)} {i₀ : Nat} {bl : List Bytes}, Holds σ P Q w t V i₀ bl → Holds σ' P' Q' w' t V i₀ bl := by
    intro V i₀ bl h
    refine ⟨fun i => (hdl i).trans (h.locks i), h.nodup, ?_, ?_, h.mine⟩
    · intro x hx
      rw [(hd x.1 ((h.locks x.1).mpr (List.mem_map_of_mem hx))).1]
      exact h.vals x hx
    · intro i hi
      obtain ⟨_, d2, d3⟩ := hd i ((h.locks i).mpr hi)
      rw [d2, d3]
      exact h.pages i hi
  cases h with
  | inData V i₀ bl T' h1 h2 h3 h4 => exact .inData V i₀ bl T' (hT ▸ h1) h2 (hh h3) (fun h => h4 (hsl.mp h))
  | inStore V i₀ part bl T' h1 h2 h3 h4 h5 =>
    obtain ⟨s1, s2⟩ := hs h4
    exact .inStore V i₀ part bl T' (hT ▸ h1) h2 (hh h3) (hsl.mpr h4) (by rw [s1, s2, h5])

/-- The calls that use no sink (a callback of more than a page that panicked) are made. -/
inductive Next (tagOf : Nat → PageTag) (K : List (Call × Res) → Prop) : List (Call × Res) → List (Nat × Inner) → Task → Prop where
  | done {E : List (Call × Res)} : K E → Next tagOf K E [] .done
  | lock {E : List (Call × Res)} {V : List (Nat × Inner)} (i : Nat) (k : Inner → Task) (c : Inner → Option SinkCall) (r : Inner → Res) (s' : Inner → Inner)
      (bl : Inner → List Bytes) (T' : Inner → Task) :
      (∀ s : Inner, s.buffer.length ≤ 262144 → c s = none → Plan tagOf K E ((i, s) :: V) (k s)) →
      (∀ (s : Inner) (x : SinkCall), s.buffer.length ≤ 262144 → c s = some x → Phase (tagOf i) (k s) (bl s) (T' s)) →
      (∀ (s : Inner) (x : SinkCall), s.buffer.length ≤ 262144 → c s = some x → (s' s).buffer.length ≤ 262144 ∧
        ∀ st, (code (tagOf i) x).alone s st = (r s, s' s, st ++ storeOf ((bl s).map (Page.mk (tagOf i))))) →
      (∀ (s : Inner) (x : SinkCall), s.buffer.length ≤ 262144 → c s = some x → Plan tagOf K (E ++ [((i, x), r s)]) ((i, s' s) :: V) (T' s)) →
      Next tagOf K E V (.lock i k)
  | leave {E : List (Call × Res)} {V : List (Nat × Inner)} {T : Task} (i : Nat) (s : Inner) : Plan tagOf K E V T → Next tagOf K E ((i, s) :: V) (.unlock i s T)
  | finish {E : List (Call × Res)} {V : List (Nat × Inner)} {T : Task} (i : Nat) (s s' : Inner) (c : SinkCall) (r : Res) :
      s'.buffer.length ≤ 262144 → (∀ st, (code (tagOf i) c).alone s st = (r, s', st)) →
      Plan tagOf K (E ++ [((i, c), r)]) V T → Next tagOf K E ((i, s) :: V) (.unlock i s' T)

theorem Next.plan {tagOf : Nat → PageTag} {K : List (Call × Res) → Prop} {E : List (Call × Res)} {V : List (Nat × Inner)} {T : Task} (h : Next tagOf K E V T) :
    Plan tagOf K E V T := by
  cases h with
  | done h => exact .done h
  | lock i k c r s' bl T' h1 h2 h3 h4 => exact .lock i k c r s' bl T' h1 h2 h3 h4
  | leave i s h => exact .leave i s h
  | finish i s s' c r h1 h2 h3 => exact .finish i s s' c r h1 h2 h3

/-- The order goes on with a call of thread `t`. -/
theorem grow_other {n : Nat} {t t' : Fin n} (h : t' ≠ t) (H : List (LinEntry n)) (c : Call) (r : Res) : entriesOf t' (H ++ [⟨t, c, r⟩]) = entriesOf t' H := by
  rw [entriesOf_append, entriesOf_other (fun e => h e.symm), List.append_nil]

theorem grow_same {n : Nat} (t : Fin n) (H : List (LinEntry n)) (c : Call) (r : Res) : entriesOf t (H ++ [⟨t, c, r⟩]) = entriesOf t H ++ [(c, r)] := by
  rw [entriesOf_append, entriesOf_same]

theorem bounds_more {n : Nat} {Q : List (Nat × Bytes)} {H : List (LinEntry n)} (h : ∀ q ∈ Q, (0 < q.2.length ∧ q.2.length ≤ 262144) ∧ ∃ x ∈ historyOf H, x.1 = q.1)
    (e : LinEntry n) : ∀ q ∈ Q, (0 < q.2.length ∧ q.2.length ≤ 262144) ∧ ∃ x ∈ historyOf (H ++ [e]), x.1 = q.1 := by
  intro q hq
  obtain ⟨h1, x, h2, h3⟩ := h q hq
  exact ⟨h1, x, by unfold historyOf at h2 ⊢; rw [List.map_append]; exact List.mem_append_left _ h2, h3⟩

/-- The order has only got more calls of one thread, at its end. -/
def Grows {n : Nat} (t : Fin n) (H H' : List (LinEntry n)) : Prop := ∃ D, H' = H ++ D ∧ ∀ e ∈ D, e.thread = t

theorem Grows.refl {n : Nat} (t : Fin n) (H : List (LinEntry n)) : Grows t H H := ⟨[], by simp, fun _ h => nomatch h⟩

theorem Grows.more {n : Nat} {t : Fin n} {H H' : List (LinEntry n)} (h : Grows t H H') (c : Call) (r : Res) : Grows t H (H' ++ [⟨t, c, r⟩]) := by
  obtain ⟨D, rfl, hD⟩ := h
  refine ⟨D ++ [⟨t, c, r⟩], by simp, fun e he => ?_⟩
  rcases List.mem_append.mp he with he | he
  · exact hD e he
  · rw [List.mem_singleton.mp he]

theorem Grows.other {n : Nat} {t t' : Fin n} {H H' : List (LinEntry n)} (h : Grows t H H') (ne : t' ≠ t) : entriesOf t' H' = entriesOf t' H := by
  obtain ⟨D, rfl, hD⟩ := h
  unfold entriesOf
  rw [List.filter_append, List.map_append]
  have : D.filter (fun e => e.thread = t') = [] := List.filter_eq_nil_iff.mpr fun e he => by simp [hD e he, Ne.symm ne]
  rw [this]
  simp

/-- The calls that use no sink enter the order. -/
theorem NInv.normal {n : Nat} {tagOf : Nat → PageTag} {K : Fin n → List (Call × Res) → Prop} {σ : State n} {t : Fin n} {P Q : List (Nat × Bytes)} {w : World}
    {V : List (Nat × Inner)} {i₀ : Nat} {bl : List Bytes} {T' : Task} (h1 : Phase (tagOf i₀) (σ.threads t) bl T')
    (h3 : Holds σ P Q w t V i₀ bl) (h4 : σ.storeLock ≠ some t) {E : List (Call × Res)} (h2 : Plan tagOf (K t) E V T') :
    ∀ {H : List (LinEntry n)}, NInv tagOf K σ H P Q w → entriesOf t H = E →
    ∃ H', NInv tagOf K σ H' P Q w ∧ Next tagOf (K t) (entriesOf t H') V T' ∧ Grows t H H' := by
  induction h2 with
  | done hK => intro H inv e; subst e; exact ⟨H, inv, .done hK, .refl _ _⟩
  | lock i k c r s' bl' T' a b c' d => intro H inv e; subst e; exact ⟨H, inv, .lock i k c r s' bl' T' a b c' d, .refl _ _⟩
  | leave i s p => intro H inv e; subst e; exact ⟨H, inv, .leave i s p, .refl _ _⟩
  | finish i s s' c r a b p => intro H inv e; subst e; exact ⟨H, inv, .finish i s s' c r a b p, .refl _ _⟩
  | skip i c r hc p ih =>
    intro H inv e
    subst e
    have hcall : World.call tagOf i c w = (r, w) := by
      have := call_of_shape (tagOf := tagOf) (c := (i, c)) inv.wstore (r := r) (s := w.sinks i) (bl := []) (by rw [hc]; simp [Prog.alone, storeOf])
      have e0 : storeOf [] = [] := rfl
      simp only [upd_self, List.map_nil, e0, List.append_nil] at this
      rw [this, ← inv.wstore]
    have inv' : NInv tagOf K σ (H ++ [⟨t, (i, c), r⟩]) P Q w := by
      refine ⟨exec_snoc inv.exec hcall, inv.wstore, bounds_more inv.bounds _, inv.small, fun t' => ?_, inv.free, inv.sfree⟩
      by_cases et : t' = t
      · subst et
        rw [grow_same]
        exact .inData _ i₀ bl _ h1 p h3 h4
      · rw [grow_other et]; exact inv.stage t'
    obtain ⟨H', i1, i2, i3⟩ := ih h1 h3 inv' (grow_same ..)
    obtain ⟨D, rfl, hD⟩ := i3
    refine ⟨_, i1, i2, ⟨⟨t, (i, c), r⟩ :: D, by simp, fun e he => ?_⟩⟩
    rcases List.mem_cons.mp he with rfl | he
    · rfl
    · exact hD e he

theorem keys_not {n : Nat} {σ : State n} {P Q : List (Nat × Bytes)} {w : World} {t : Fin n} {V : List (Nat × Inner)} {i₀ : Nat} {bl : List Bytes}
    (h : Holds σ P Q w t V i₀ bl) {i : Nat} (hi : σ.dataLock i = none) : i ∉ keys V := fun hm => by
  rw [← h.locks, hi] at hm; cases hm

theorem Phase.bodies {tag : PageTag} {T T' : Task} {bl : List Bytes} (h : Phase tag T bl T') : ∀ b ∈ bl, 0 < b.length ∧ b.length ≤ 262144 := by
  induction h with
  | fin => intro b hb; cases hb
  | touch _ ih => exact ih
  | page b0 l1 l2 _ ih =>
    intro b hb
    rcases List.mem_cons.mp hb with rfl | hb
    · exact ⟨l1, l2⟩
    · exact ih b hb

/-- Taking the store lock. -/
theorem NInv.takes {n : Nat} {tagOf : Nat → PageTag} {K : Fin n → List (Call × Res) → Prop} {σ σ' : State n} {H : List (LinEntry n)} {P Q : List (Nat × Bytes)}
    {w : World} (inv : NInv tagOf K σ H P Q w) {t : Fin n} (hst : σ.step t = some σ') {V : List (Nat × Inner)} {i₀ : Nat} {bl : List Bytes} {T1 T' : Task}
    (hT : σ.threads t = .lockStore T1) (h1 : PhaseS (tagOf i₀) T1 [] bl T') (h2 : Plan tagOf (K t) (entriesOf t H) V T') (h3 : Holds σ P Q w t V i₀ bl) :
    NInv tagOf K σ' H P Q w := by
  unfold State.step at hst
  rw [hT] at hst
  simp only at hst
  split at hst
  · cases hst
  · rename_i hfree
    injection hst with hst
    refine ⟨inv.exec, inv.wstore, inv.bounds, inv.small, fun t' => ?_, ?_, ?_⟩
    · by_cases et : t' = t
      · subst et
        refine .inStore V i₀ [] bl T' ?_ h2 ⟨?_, h3.nodup, h3.vals, h3.pages, h3.mine⟩ ?_ ?_
        · rw [← hst]; simp only [upd_same]; exact h1
        · rw [← hst]; exact h3.locks
        · rw [← hst]
        · rw [← hst, List.append_nil]; exact inv.sfree hfree
      · refine (inv.stage t').frame ?_ rfl ?_ ?_ (fun _ _ => ⟨rfl, rfl, rfl⟩) ?_
        · rw [← hst]; exact upd_other _ _ et
        · rw [← hst]; exact fun _ => Iff.rfl
        · rw [← hst, hfree]; simp only [Option.some.injEq, reduceCtorEq, iff_false]; exact fun e => et e.symm
        · intro hs; rw [hfree] at hs; cases hs
    · rw [← hst]; exact inv.free
    · rw [← hst]; intro h; cases h

/-- Writing to the store. -/
theorem NInv.writes {n : Nat} {tagOf : Nat → PageTag} {K : Fin n → List (Call × Res) → Prop} {σ σ' : State n} {H : List (LinEntry n)} {P Q : List (Nat × Bytes)}
    {w : World} (inv : NInv tagOf K σ H P Q w) {t : Fin n} (hst : σ.step t = some σ') {V : List (Nat × Inner)} {i₀ : Nat} {bl : List Bytes} {T1 T' : Task}
    {b part : Bytes} (hT : σ.threads t = .write b T1) (h1 : PhaseS (tagOf i₀) T1 (part ++ b) bl T') (h2 : Plan tagOf (K t) (entriesOf t H) V T')
    (h3 : Holds σ P Q w t V i₀ bl) (h4 : σ.storeLock = some t) (h5 : σ.store = storeOf (pagesOf tagOf P) ++ part) :
    NInv tagOf K σ' H P Q w := by
  unfold State.step at hst
  rw [hT] at hst
  injection hst with hst
  refine ⟨inv.exec, inv.wstore, inv.bounds, inv.small, fun t' => ?_, ?_, ?_⟩
  · by_cases et : t' = t
    · subst et
      refine .inStore V i₀ (part ++ b) bl T' ?_ h2 ⟨?_, h3.nodup, h3.vals, h3.pages, h3.mine⟩ ?_ ?_
      · rw [← hst]; simp only [upd_same]; exact h1
      · rw [← hst]; exact h3.locks
      · rw [← hst]; exact h4
      · rw [← hst, ← List.append_assoc, ← h5]
    · have hns : σ.storeLock ≠ some t' := by rw [h4]; simp only [ne_eq, Option.some.injEq]; exact fun e => et e.symm
      refine (inv.stage t').frame ?_ rfl ?_ ?_ (fun _ _ => ⟨rfl, rfl, rfl⟩) (fun hs => (hns hs).elim)
      · rw [← hst]; exact upd_other _ _ et
      · rw [← hst]; exact fun _ => Iff.rfl
      · rw [← hst]
  · rw [← hst]; exact inv.free
  · rw [← hst]; intro h; dsimp only at h; rw [h4] at h; cases h

/-- Dropping the store lock; `done` is the page that has been written, if any. -/
theorem NInv.drops {n : Nat} {tagOf : Nat → PageTag} {K : Fin n → List (Call × Res) → Prop} {σ σ' : State n} {H : List (LinEntry n)} {P Q : List (Nat × Bytes)}
    {w : World} (inv : NInv tagOf K σ H P Q w) {t : Fin n} (hst : σ.step t = some σ') {V : List (Nat × Inner)} {i₀ : Nat} {done bl : List Bytes} {T1 T' : Task}
    {part : Bytes} (hT : σ.threads t = .unlockStore T1) (h1 : Phase (tagOf i₀) T1 bl T') (h2 : Plan tagOf (K t) (entriesOf t H) V T')
    (h3 : Holds σ P Q w t V i₀ (done ++ bl)) (h4 : σ.storeLock = some t) (h5 : σ.store = storeOf (pagesOf tagOf P) ++ part)
    (hp : part = storeOf (done.map (Page.mk (tagOf i₀)))) :
    NInv tagOf K σ' H (P ++ done.map (Prod.mk i₀)) Q w := by
  unfold State.step at hst
  rw [hT] at hst
  injection hst with hst
  have hother : ∀ {j : Nat}, j ≠ i₀ → bodiesOf j (P ++ done.map (Prod.mk i₀)) = bodiesOf j P := fun ej => by
    rw [bodiesOf_append, bodiesOf_map_other (fun e => ej e.symm), List.append_nil]
  have hmine : ∀ {j : Nat}, (j ∈ keys V → j = i₀ → False) → bodiesOf j (P ++ done.map (Prod.mk i₀)) = bodiesOf j P := fun {j} hj => by
    by_cases ej : j = i₀
    · subst ej
      have : done = [] := by
        by_contra hd
        exact hj (h3.mine (by simp [hd])) rfl
      subst this
      simp
    · exact hother ej
  refine ⟨inv.exec, inv.wstore, inv.bounds, inv.small, fun t' => ?_, fun j hj => ?_, fun _ => ?_⟩
  · by_cases et : t' = t
    · subst et
      refine .inData V i₀ bl T' ?_ h2 ⟨?_, h3.nodup, h3.vals, fun j hj => ?_, fun hb => h3.mine (by simp [hb])⟩ ?_
      · rw [← hst]; simp only [upd_same]; exact h1
      · rw [← hst]; exact h3.locks
      · rw [h3.pages j hj]
        by_cases ej : j = i₀
        · subst ej
          rw [bodiesOf_append, bodiesOf_map_same]
          simp
        · rw [hother ej, if_neg ej, if_neg ej]
      · rw [← hst]; intro h; cases h
    · have hns : σ.storeLock ≠ some t' := by rw [h4]; simp only [ne_eq, Option.some.injEq]; exact fun e => et e.symm
      refine (inv.stage t').frame ?_ rfl ?_ ?_ (fun j hj => ⟨rfl, rfl, hmine fun hk _ => ?_⟩) (fun hs => (hns hs).elim)
      · rw [← hst]; exact upd_other _ _ et
      · rw [← hst]; exact fun _ => Iff.rfl
      · rw [← hst, h4]; simp only [reduceCtorEq, Option.some.injEq, false_iff]; exact fun e => et e.symm
      · rw [← h3.locks, hj] at hk
        injection hk with hk
        exact et hk
  · rw [← hst] at hj ⊢
    obtain ⟨g1, g2⟩ := inv.free j hj
    refine ⟨g1, ?_⟩
    rw [g2]
    refine (hmine fun hk _ => ?_).symm
    exact keys_not h3 hj hk
  · rw [← hst, pagesOf_append, pagesOf_map, storeOf_append, ← hp, ← h5]

/-- Releasing the sink locked last. -/
theorem Holds.release {n : Nat} {σ σ' : State n} {P Q : List (Nat × Bytes)} {w w' : World} {t : Fin n} {V : List (Nat × Inner)} {i i₀ : Nat} {s : Inner}
    (h : Holds σ P Q w t ((i, s) :: V) i₀ []) (hdl : σ'.dataLock = upd σ.dataLock i none) (hw : ∀ j, j ≠ i → w'.sinks j = w.sinks j) :
    Holds σ' P Q w' t V i₀ [] := by
  obtain ⟨hni, hnd⟩ := List.nodup_cons.mp h.nodup
  refine ⟨fun j => ?_, hnd, fun x hx => ?_, fun j hj => h.pages j (List.mem_cons_of_mem _ hj), fun hn => (hn rfl).elim⟩
  · rw [hdl]
    by_cases ej : j = i
    · subst ej; rw [upd_same]; simp [hni]
    · rw [upd_other _ _ ej, h.locks]; simp [ej]
  · have : x.1 ≠ i := fun e => hni (List.mem_map.mpr ⟨x, hx, e⟩)
    rw [hw _ this]
    exact h.vals x (List.mem_cons_of_mem _ hx)

theorem NInv.step {n : Nat} {tagOf : Nat → PageTag} {K : Fin n → List (Call × Res) → Prop} {σ σ' : State n} {H : List (LinEntry n)} {P Q : List (Nat × Bytes)}
    {w : World} (inv : NInv tagOf K σ H P Q w) {t : Fin n} (hst : σ.step t = some σ') :
    ∃ H' P' Q' w', Grows t H H' ∧ NInv tagOf K σ' H' P' Q' w' := by
  have hold := inv.stage t
  cases hold with
  | inData V i₀ bl T' h1 h2 h3 h4 =>
    generalize hT : σ.threads t = T at h1
    cases h1 with
    | fin =>
      have h1 : Phase (tagOf i₀) (σ.threads t) [] T' := by rw [hT]; exact .fin _
      obtain ⟨H, inv, hn, hg⟩ := NInv.normal h1 h3 h4 h2 inv rfl
      have hno : ∀ {j : Nat}, σ.dataLock j = some t → j ∈ keys V := fun h => (h3.locks _).mp h
      cases hn with
      | done => unfold State.step at hst; rw [hT] at hst; cases hst
      | lock i k c r s' bl' T'' a b c' d =>
        unfold State.step at hst
        rw [hT] at hst
        simp only at hst
        split at hst
        · cases hst
        · rename_i hfree
          injection hst with hst
          obtain ⟨f1, f2⟩ := inv.free i hfree
          have hs : (σ.data i).buffer.length ≤ 262144 := by rw [f1]; exact inv.small i
          have hiV := keys_not h3 hfree
          have hne : ∀ {j : Nat} {t' : Fin n}, σ.dataLock j = some t' → j ≠ i := by
            rintro j t' hj rfl; rw [hfree] at hj; cases hj
          have hlk : ∀ t' j, upd σ.dataLock i (some t) j = some t' ↔ (j = i ∧ t' = t) ∨ σ.dataLock j = some t' := by
            intro t' j
            by_cases ej : j = i
            · subst ej; rw [upd_same, hfree]; simp [eq_comm]
            · rw [upd_other _ _ ej]; simp [ej]
          have hother : ∀ t', t' ≠ t → ∀ j, upd σ.dataLock i (some t) j = some t' ↔ σ.dataLock j = some t' := by
            intro t' et j; rw [hlk]; simp [et]
          cases hc : c (σ.data i) with
          | none =>
            refine ⟨H, P, Q, w, hg, ⟨inv.exec, inv.wstore, inv.bounds, inv.small, fun t' => ?_, fun j hj => ?_, ?_⟩⟩
            · by_cases et : t' = t
              · subst et
                refine .inData ((i, σ.data i) :: V) i₀ [] (k (σ.data i)) ?_ (a _ hs hc) ⟨?_, ?_, ?_, ?_, fun h => (h rfl).elim⟩ ?_
                · rw [← hst]; simp only [upd_same]; exact .fin _
                · intro j
                  rw [← hst]
                  simp only [hlk, and_true, List.map_cons, List.mem_cons]
                  exact or_congr Iff.rfl (h3.locks j)
                · exact List.nodup_cons.mpr ⟨hiV, h3.nodup⟩
                · intro x hx
                  rcases List.mem_cons.mp hx with rfl | hx
                  · exact f1.symm
                  · exact h3.vals x hx
                · intro j hj
                  rcases List.mem_cons.mp hj with rfl | hj
                  · rw [f2]; simp
                  · exact h3.pages j hj
                · rw [← hst]; exact h4
              · refine (inv.stage t').frame ?_ rfl ?_ ?_ (fun _ _ => ⟨rfl, rfl, rfl⟩) ?_
                · rw [← hst]; exact upd_other _ _ et
                · rw [← hst]; exact hother t' et
                · rw [← hst]
                · rw [← hst]; exact fun _ => ⟨rfl, rfl⟩
            · rw [← hst] at hj ⊢
              have ej : j ≠ i := by rintro rfl; simp only [upd_same] at hj; cases hj
              simp only [upd_other _ _ ej] at hj
              exact inv.free j hj
            · rw [← hst]; exact inv.sfree
          | some x =>
            obtain ⟨c1, c2⟩ := c' _ x hs hc
            have hcall := call_of_shape (tagOf := tagOf) (c := (i, x)) (w := w) inv.wstore (by rw [← f1]; exact c2 _)
            refine ⟨H ++ [⟨t, (i, x), r (σ.data i)⟩], P, Q ++ (bl' (σ.data i)).map (Prod.mk i), _, hg.more _ _,
              ⟨exec_snoc inv.exec hcall, ?_, ?_, fun j => ?_, fun t' => ?_, fun j hj => ?_, ?_⟩⟩
            · rw [pagesOf_append, pagesOf_map, storeOf_append]
            · intro q hq
              rcases List.mem_append.mp hq with hq | hq
              · exact bounds_more inv.bounds _ q hq
              · obtain ⟨b', hb', rfl⟩ := List.mem_map.mp hq
                refine ⟨?_, (i, x), by simp [historyOf], rfl⟩
                exact (b _ x hs hc).bodies b' hb'
            · dsimp only
              by_cases ej : j = i
              · subst ej; rw [upd_same]; exact c1
              · rw [upd_other _ _ ej]; exact inv.small j
            · by_cases et : t' = t
              · subst et
                rw [grow_same]
                refine .inData ((i, s' (σ.data i)) :: V) i (bl' (σ.data i)) (T'' (σ.data i)) ?_ (d _ x hs hc) ⟨?_, ?_, ?_, ?_, fun _ => List.mem_cons_self ..⟩ ?_
                · rw [← hst]; simp only [upd_same]; exact b _ x hs hc
                · intro j
                  rw [← hst]
                  simp only [hlk, and_true, List.map_cons, List.mem_cons]
                  exact or_congr Iff.rfl (h3.locks j)
                · exact List.nodup_cons.mpr ⟨hiV, h3.nodup⟩
                · intro y hy
                  rcases List.mem_cons.mp hy with rfl | hy
                  · exact upd_same _ _ _
                  · have : y.1 ≠ i := fun e => hiV (List.mem_map.mpr ⟨y, hy, e⟩)
                    dsimp only
                    rw [upd_other _ _ this]
                    exact h3.vals y hy
                · intro j hj
                  rw [bodiesOf_append]
                  rcases List.mem_cons.mp hj with rfl | hj
                  · rw [f2, bodiesOf_map_same]; simp
                  · have ej : j ≠ i := fun e => hiV (e ▸ hj)
                    rw [bodiesOf_map_other (fun e => ej e.symm), if_neg ej, List.append_nil]
                    have := h3.pages j hj
                    simpa using this
                · rw [← hst]; exact h4
              · rw [grow_other et]
                refine (inv.stage t').frame ?_ rfl ?_ ?_ (fun j hj => ⟨?_, ?_, rfl⟩) ?_
                · rw [← hst]; exact upd_other _ _ et
                · rw [← hst]; exact hother t' et
                · rw [← hst]
                · exact upd_other _ _ (hne hj)
                · rw [bodiesOf_append, bodiesOf_map_other (fun e => hne hj e.symm), List.append_nil]
                · rw [← hst]; exact fun _ => ⟨rfl, rfl⟩
            · rw [← hst] at hj ⊢
              have ej : j ≠ i := by rintro rfl; simp only [upd_same] at hj; cases hj
              simp only [upd_other _ _ ej] at hj
              obtain ⟨g1, g2⟩ := inv.free j hj
              refine ⟨by dsimp only; rw [upd_other _ _ ej]; exact g1, ?_⟩
              rw [bodiesOf_append, bodiesOf_map_other (fun e => ej e.symm), List.append_nil, g2]
            · rw [← hst]; exact inv.sfree
      | @leave V' T1 i s p =>
        unfold State.step at hst
        rw [hT] at hst
        injection hst with hst
        refine ⟨H, P, Q, w, hg, ⟨inv.exec, inv.wstore, inv.bounds, inv.small, fun t' => ?_, fun j hj => ?_, ?_⟩⟩
        · by_cases et : t' = t
          · subst et
            refine .inData V' i₀ [] _ ?_ p (h3.release (by rw [← hst]) fun _ _ => rfl) (by rw [← hst]; exact h4)
            rw [← hst]; simp only [upd_same]; exact .fin _
          · refine (inv.stage t').frame ?_ rfl ?_ ?_ (fun _ _ => ⟨rfl, rfl, rfl⟩) ?_
            · rw [← hst]; exact upd_other _ _ et
            · rw [← hst]
              intro j
              have hl : σ.dataLock i = some t := (h3.locks i).mpr (List.mem_cons_self ..)
              by_cases ej : j = i
              · subst ej; simp only [upd_same, hl, Option.some.injEq, reduceCtorEq, false_iff]; exact fun e => et e.symm
              · simp only [upd_other _ _ ej]
            · rw [← hst]
            · rw [← hst]; exact fun _ => ⟨rfl, rfl⟩
        · rw [← hst] at hj ⊢
          by_cases ej : j = i
          · subst ej
            refine ⟨?_, ?_⟩
            · simp only [upd_same]; exact (h3.vals (j, s) (List.mem_cons_self ..)).symm
            · have := h3.pages j (List.mem_cons_self ..)
              simpa using this
          · simp only [upd_other _ _ ej] at hj ⊢
            exact inv.free j hj
        · rw [← hst]; exact inv.sfree
      | @finish V' T1 i s s' c r a b p =>
        unfold State.step at hst
        rw [hT] at hst
        injection hst with hst
        have hl : σ.dataLock i = some t := (h3.locks i).mpr (List.mem_cons_self ..)
        have hv : w.sinks i = s := h3.vals (i, s) (List.mem_cons_self ..)
        have hcall := call_of_shape (tagOf := tagOf) (c := (i, c)) (w := w) (s := s') (r := r) (bl := []) inv.wstore (by
          rw [hv, b]; simp [storeOf])
        have e0 : storeOf [] = [] := rfl
        simp only [List.map_nil, e0, List.append_nil] at hcall
        refine ⟨H ++ [⟨t, (i, c), r⟩], P, Q, _, hg.more _ _, ⟨exec_snoc inv.exec hcall, rfl, bounds_more inv.bounds _, fun j => ?_, fun t' => ?_, fun j hj => ?_, ?_⟩⟩
        · dsimp only
          by_cases ej : j = i
          · subst ej; rw [upd_same]; exact a
          · rw [upd_other _ _ ej]; exact inv.small j
        · by_cases et : t' = t
          · subst et
            rw [grow_same]
            refine .inData V' i₀ [] _ ?_ p (h3.release (by rw [← hst]) fun _ ej => upd_other _ _ ej) (by rw [← hst]; exact h4)
            rw [← hst]; simp only [upd_same]; exact .fin _
          · rw [grow_other et]
            refine (inv.stage t').frame ?_ rfl ?_ ?_ (fun j hj => ⟨?_, rfl, rfl⟩) ?_
            · rw [← hst]; exact upd_other _ _ et
            · rw [← hst]
              intro j
              by_cases ej : j = i
              · subst ej; simp only [upd_same, hl, Option.some.injEq, reduceCtorEq, false_iff]; exact fun e => et e.symm
              · simp only [upd_other _ _ ej]
            · rw [← hst]
            · refine upd_other _ _ ?_
              rintro rfl
              rw [hl] at hj
              injection hj with hj
              exact et hj.symm
            · rw [← hst]; exact fun _ => ⟨rfl, rfl⟩
        · rw [← hst] at hj ⊢
          by_cases ej : j = i
          · subst ej
            refine ⟨by simp only [upd_same], ?_⟩
            have := h3.pages j (List.mem_cons_self ..)
            simpa using this
          · simp only [upd_other _ _ ej] at hj ⊢
            exact inv.free j hj
        · rw [← hst]; exact inv.sfree
    | touch h1 => exact ⟨H, P, Q, w, .refl _ _, inv.takes hst hT (.touch h1) h2 h3⟩
    | page b l1 l2 h1 => exact ⟨H, P, Q, w, .refl _ _, inv.takes hst hT (.p0 b l1 l2 h1) h2 h3⟩
  | inStore V i₀ part bl T' h1 h2 h3 h4 h5 =>
    generalize hT : σ.threads t = T at h1
    cases h1 with
    | touch h1 => exact ⟨H, _, Q, w, .refl _ _, inv.drops (done := []) hst hT h1 h2 h3 h4 h5 rfl⟩
    | p0 b l1 l2 h1 => exact ⟨H, P, Q, w, .refl _ _, inv.writes hst hT (.p1 b l1 l2 h1) h2 h3 h4 h5⟩
    | p1 b l1 l2 h1 => exact ⟨H, P, Q, w, .refl _ _, inv.writes hst hT (.p2 b l1 l2 h1) h2 h3 h4 h5⟩
    | p2 b l1 l2 h1 => exact ⟨H, P, Q, w, .refl _ _, inv.writes hst hT (.p3 b l1 l2 h1) h2 h3 h4 h5⟩
    | @p3 T1 _ bl' b l1 l2 h1 =>
      refine ⟨H, _, Q, w, .refl _ _, inv.drops (done := [b]) hst hT h1 h2 h3 h4 h5 ?_⟩
      rw [header_eq]
      simp [storeOf]

theorem NInv.init {n : Nat} (tagOf : Nat → PageTag) (progs : Fin n → Script) (hk : ∀ t, KeepsLengths (fun _ => True) (progs t)) :
    NInv tagOf (fun t L => ∃ f, Makes (progs t) L f) (State.init tagOf progs) [] [] [] World.init where
  exec := rfl
  wstore := rfl
  bounds := fun _ h => nomatch h
  small := fun _ => Nat.zero_le _
  stage := fun t => .inData [] 0 [] _ (.fin _) (plan_compile (progs t) (hk t) fun L f m _ => .done ⟨f, m⟩)
    ⟨(fun i => by simp [State.init]), .nil, (fun _ h => nomatch h), (fun _ h => nomatch h), (fun h => (h rfl).elim)⟩ (fun h => nomatch h)
  free := fun _ _ => ⟨rfl, rfl⟩
  sfree := fun _ => rfl

/-- One step takes a task to one of its parts. -/
inductive Child : Task → Task → Prop where
  | lock (i : Nat) (k : Inner → Task) (s : Inner) : Child (k s) (.lock i k)
  | unlock (i : Nat) (s : Inner) (T : Task) : Child T (.unlock i s T)
  | lockStore (T : Task) : Child T (.lockStore T)
  | write (b : Bytes) (T : Task) : Child T (.write b T)
  | unlockStore (T : Task) : Child T (.unlockStore T)

theorem child_wf : WellFounded Child := by
  refine ⟨fun T => ?_⟩
  induction T with
  | done => exact ⟨_, fun _ h => nomatch h⟩
  | lock i k ih => exact ⟨_, fun _ h => by cases h; exact ih _⟩
  | unlock i s k ih => exact ⟨_, fun _ h => by cases h; exact ih⟩
  | lockStore k ih => exact ⟨_, fun _ h => by cases h; exact ih⟩
  | write b k ih => exact ⟨_, fun _ h => by cases h; exact ih⟩
  | unlockStore k ih => exact ⟨_, fun _ h => by cases h; exact ih⟩

theorem child_irrefl (T : Task) : ¬ Relation.TransGen Child T T := fun h => (child_wf.transGen).irrefl.irrefl T h

theorem step_child {n : Nat} {σ σ' : State n} {t : Fin n} (h : σ.step t = some σ') :
    Child (σ'.threads t) (σ.threads t) ∧ ∀ t', t' ≠ t → σ'.threads t' = σ.threads t' := by
  unfold State.step at h
  split at h
  · cases h
  · rename_i i k hT
    split at h
    · cases h
    · injection h with h
      rw [← h, hT]
      exact ⟨by simp only [upd_same]; exact .lock _ _ _, fun t' e => upd_other _ _ e⟩
  · rename_i i s k hT
    injection h with h
    rw [← h, hT]
    exact ⟨by simp only [upd_same]; exact .unlock _ _ _, fun t' e => upd_other _ _ e⟩
  · rename_i k hT
    split at h
    · cases h
    · injection h with h
      rw [← h, hT]
      exact ⟨by simp only [upd_same]; exact .lockStore _, fun t' e => upd_other _ _ e⟩
  · rename_i b k hT
    injection h with h
    rw [← h, hT]
    exact ⟨by simp only [upd_same]; exact .write _ _, fun t' e => upd_other _ _ e⟩
  · rename_i k hT
    injection h with h
    rw [← h, hT]
    exact ⟨by simp only [upd_same]; exact .unlockStore _, fun t' e => upd_other _ _ e⟩

theorem State.Run.children {n : Nat} {σ σ' : State n} (h : State.Run σ σ') (t : Fin n) : Relation.ReflTransGen Child (σ'.threads t) (σ.threads t) := by
  induction h with
  | refl => exact .refl
  | @step _ _ u _ hst ih =>
    obtain ⟨h1, h2⟩ := step_child hst
    by_cases e : t = u
    · subst e; exact .head h1 ih
    · rw [h2 t e]; exact ih

theorem NInv.run {n : Nat} {tagOf : Nat → PageTag} {K : Fin n → List (Call × Res) → Prop} {σ σ' : State n} {H : List (LinEntry n)} {P Q : List (Nat × Bytes)}
    {w : World} (inv : NInv tagOf K σ H P Q w) (hr : State.Run σ σ') : ∃ H' P' Q' w', NInv tagOf K σ' H' P' Q' w' ∧
      ∃ D, H' = H ++ D ∧ ∀ e ∈ D, Relation.TransGen Child (σ'.threads e.thread) (σ.threads e.thread) := by
  induction hr with
  | refl => exact ⟨_, _, _, _, inv, [], by simp, fun _ h => nomatch h⟩
  | @step σ₁ σ₂ u hr hst ih =>
    obtain ⟨H', P', Q', w', inv', D, rfl, hD⟩ := ih
    obtain ⟨H'', P'', Q'', w'', ⟨D', rfl, hD'⟩, inv''⟩ := inv'.step hst
    refine ⟨_, P'', Q'', w'', inv'', D ++ D', by simp, fun e he => ?_⟩
    rcases List.mem_append.mp he with he | he
    · have h1 := hD e he
      obtain ⟨c1, c2⟩ := step_child hst
      by_cases eu : e.thread = u
      · rw [eu] at h1 ⊢; exact .head c1 h1
      · rw [c2 _ eu]; exact h1
    · rw [hD' e he]
      exact Relation.TransGen.head' (step_child hst).1 (hr.children u)

theorem not_below_done {T : Task} (h : Relation.TransGen Child T .done) : False := by
  obtain ⟨_, _, h⟩ := Relation.TransGen.tail'_iff.mp h
  cases h

/-- The threads (of those in `S`) that have come to their end have all their calls in the order. -/
theorem NInv.endedOf {n : Nat} {tagOf : Nat → PageTag} {K : Fin n → List (Call × Res) → Prop} {σ : State n} {H : List (LinEntry n)} {P Q : List (Nat × Bytes)}
    {w : World} (inv : NInv tagOf K σ H P Q w) (S : Fin n → Prop) :
    ∃ H', NInv tagOf K σ H' P Q w ∧ (∀ t, S t → σ.threads t = .done → K t (entriesOf t H')) ∧
      (∃ D, H' = H ++ D ∧ ∀ e ∈ D, S e.thread) ∧
      (∀ t, σ.threads t = .done → ∀ i, σ.dataLock i ≠ some t) ∧ ∀ t, σ.threads t = .done → σ.storeLock ≠ some t := by
  have one : ∀ {H : List (LinEntry n)}, NInv tagOf K σ H P Q w → ∀ t, σ.threads t = .done → ∃ H', NInv tagOf K σ H' P Q w ∧ K t (entriesOf t H') ∧
      Grows t H H' ∧ (∀ i, σ.dataLock i ≠ some t) ∧ σ.storeLock ≠ some t := by
    intro H inv t hd
    cases inv.stage t with
    | inData V i₀ bl T' h1 h2 h3 h4 =>
      obtain ⟨H', i1, i2, i3⟩ := NInv.normal h1 h3 h4 h2 inv rfl
      rw [hd] at h1
      cases h1 with
      | fin =>
        cases i2 with
        | done hK => exact ⟨H', i1, hK, i3, fun i hi => (List.not_mem_nil ((h3.locks i).mp hi)).elim, h4⟩
    | inStore V i₀ part bl T' h1 h2 h3 h4 h5 =>
      rw [hd] at h1
      cases h1
  have all : ∀ ts : List (Fin n), ts.Nodup → ∃ H', NInv tagOf K σ H' P Q w ∧ (∀ t ∈ ts, S t → σ.threads t = .done → K t (entriesOf t H')) ∧
      ∃ D, H' = H ++ D ∧ ∀ e ∈ D, S e.thread := by
    intro ts
    induction ts with
    | nil => exact fun _ => ⟨H, inv, (fun _ h => nomatch h), [], by simp, fun _ h => nomatch h⟩
    | cons t ts ih =>
      intro hnd
      obtain ⟨hn, hnd⟩ := List.nodup_cons.mp hnd
      obtain ⟨H₁, inv₁, h₁, D, hD, hD'⟩ := ih hnd
      by_cases hd : S t ∧ σ.threads t = .done
      · obtain ⟨H₂, inv₂, k₂, o₂, _⟩ := one inv₁ t hd.2
        refine ⟨H₂, inv₂, fun t' ht' hs' hd' => ?_, ?_⟩
        · rcases List.mem_cons.mp ht' with rfl | ht'
          · exact k₂
          · rw [o₂.other (fun e => hn (e ▸ ht'))]
            exact h₁ t' ht' hs' hd'
        · obtain ⟨D₂, rfl, hD₂⟩ := o₂
          refine ⟨D ++ D₂, by simp [hD], fun e he => ?_⟩
          rcases List.mem_append.mp he with he | he
          · exact hD' e he
          · rw [hD₂ e he]; exact hd.1
      · refine ⟨H₁, inv₁, fun t' ht' hs' hd' => ?_, D, hD, hD'⟩
        rcases List.mem_cons.mp ht' with rfl | ht'
        · exact (hd ⟨hs', hd'⟩).elim
        · exact h₁ t' ht' hs' hd'
  obtain ⟨H', inv', h', hD⟩ := all (List.finRange n) (List.nodup_finRange n)
  refine ⟨H', inv', fun t => h' t (List.mem_finRange t), hD, fun t hd i h => ?_, fun t hd h => ?_⟩
  · obtain ⟨_, _, _, _, g, _⟩ := one inv t hd; exact g i h
  · obtain ⟨_, _, _, _, _, g⟩ := one inv t hd; exact g h

theorem NInv.ended {n : Nat} {tagOf : Nat → PageTag} {K : Fin n → List (Call × Res) → Prop} {σ : State n} {H : List (LinEntry n)} {P Q : List (Nat × Bytes)}
    {w : World} (inv : NInv tagOf K σ H P Q w) (hf : σ.Finished) :
    ∃ H', NInv tagOf K σ H' P Q w ∧ (∀ t, K t (entriesOf t H')) ∧ (∀ i, σ.dataLock i = none) ∧ σ.storeLock = none := by
  obtain ⟨H', inv', h', -, hl, hs⟩ := inv.endedOf fun _ => True
  refine ⟨H', inv', fun t => h' t trivial (hf t), fun i => ?_, ?_⟩
  · cases h : σ.dataLock i with
    | none => rfl
    | some t => exact (hl t (hf t) i h).elim
  · cases h : σ.storeLock with
    | none => rfl
    | some t => exact (hs t (hf t) h).elim

/-- Pages are only written by sinks that are used. -/
theorem NInv.pages {n : Nat} {tagOf : Nat → PageTag} {K : Fin n → List (Call × Res) → Prop} {σ : State n} {H : List (LinEntry n)} {P Q : List (Nat × Bytes)}
    {w : World} (inv : NInv tagOf K σ H P Q w) : ∀ i, bodiesOf i P <+: bodiesOf i Q := by
  intro i
  cases hl : σ.dataLock i with
  | none => rw [(inv.free i hl).2]
  | some t =>
    cases inv.stage t with
    | inData V i₀ bl T' h1 h2 h3 h4 => rw [h3.pages i ((h3.locks i).mp hl)]; exact List.prefix_append _ _
    | inStore V i₀ part bl T' h1 h2 h3 h4 h5 => rw [h3.pages i ((h3.locks i).mp hl)]; exact List.prefix_append _ _

theorem NInv.wrote {n : Nat} {tagOf : Nat → PageTag} {K : Fin n → List (Call × Res) → Prop} {σ : State n} {H : List (LinEntry n)} {P Q : List (Nat × Bytes)}
    {w : World} (inv : NInv tagOf K σ H P Q w) : ∀ x ∈ P, (0 < x.2.length ∧ x.2.length ≤ 262144) ∧ ∃ y ∈ historyOf H, y.1 = x.1 := by
  intro x hx
  have h1 : x.2 ∈ bodiesOf x.1 P := by
    unfold bodiesOf
    exact List.mem_map.mpr ⟨x, List.mem_filter.mpr ⟨hx, by simp⟩, rfl⟩
  have h2 := (inv.pages x.1).subset h1
  unfold bodiesOf at h2
  obtain ⟨q, hq, e⟩ := List.mem_map.mp h2
  obtain ⟨hq, e'⟩ := List.mem_filter.mp hq
  have e' : q.1 = x.1 := by simpa using e'
  have := inv.bounds q hq
  rw [e, e'] at this
  exact this

/-- At any moment the store is complete pages and the beginning of one. -/
theorem NInv.form {n : Nat} {tagOf : Nat → PageTag} {K : Fin n → List (Call × Res) → Prop} {σ : State n} {H : List (LinEntry n)} {P Q : List (Nat × Bytes)}
    {w : World} (inv : NInv tagOf K σ H P Q w) : ∃ part, σ.store = storeOf (pagesOf tagOf P) ++ part ∧
      (part = [] ∨ σ.storeLock ≠ none ∧ ∃ p : Page, p.body.length ≤ 262144 ∧ part <+: p.bytes) := by
  cases hl : σ.storeLock with
  | none => exact ⟨[], by rw [List.append_nil]; exact inv.sfree hl, .inl rfl⟩
  | some t =>
    cases inv.stage t with
    | inData V i₀ bl T' h1 h2 h3 h4 => exact (h4 hl).elim
    | inStore V i₀ part bl T' h1 h2 h3 h4 h5 =>
      refine ⟨part, h5, ?_⟩
      generalize hT : σ.threads t = T at h1
      cases h1 with
      | touch h1 => exact .inl rfl
      | p0 b l1 l2 h1 => exact .inl rfl
      | p1 b l1 l2 h1 =>
        refine .inr ⟨by simp, ⟨tagOf i₀, b⟩, l2, ?_⟩
        rw [← header_eq, List.append_assoc]; exact List.prefix_append _ _
      | p2 b l1 l2 h1 =>
        refine .inr ⟨by simp, ⟨tagOf i₀, b⟩, l2, ?_⟩
        rw [← header_eq]; exact List.prefix_append _ _
      | p3 b l1 l2 h1 =>
        refine .inr ⟨by simp, ⟨tagOf i₀, b⟩, l2, ?_⟩
        rw [← header_eq]

theorem makes_keeps {c : Script} {L : List (Call × Res)} {f : Fill} (m : Makes c L f) : ∀ {P : Fill → Prop}, KeepsLengths P c → P f ∧ KeptIn L := by
  induction m with
  | fill f => intro P h; exact ⟨h, fun _ h => nomatch h⟩
  | call _ ih =>
    intro P h
    obtain ⟨a, b⟩ := ih (h.2 _)
    refine ⟨a, fun x hx => ?_⟩
    rcases List.mem_cons.mp hx with rfl | hx
    · exact h.1
    · exact b x hx
  | atomic _ _ ih₁ ih₂ =>
    intro P h
    obtain ⟨a₁, b₁⟩ := ih₁ h.1
    obtain ⟨a₂, b₂⟩ := ih₂ (h.2 _)
    refine ⟨a₂, fun x hx => ?_⟩
    rcases List.mem_append.mp hx with hx | hx
    · exact b₁ x hx
    · rcases List.mem_cons.mp hx with rfl | hx
      · rintro _ _ ⟨⟩; exact a₁
      · exact b₂ x hx
  | madeRoom _ _ ih₁ ih₂ =>
    intro P h
    obtain ⟨a₁, b₁⟩ := ih₁ h.1
    obtain ⟨a₂, b₂⟩ := ih₂ (h.2 _)
    refine ⟨a₂, fun x hx => ?_⟩
    rcases List.mem_cons.mp hx with rfl | hx
    · intro _ _ h; cases h
    rcases List.mem_append.mp hx with hx | hx
    · exact b₁ x hx
    · rcases List.mem_cons.mp hx with rfl | hx
      · rintro _ _ ⟨⟩; exact a₁
      · exact b₂ x hx

theorem Plan.extends {tagOf : Nat → PageTag} {K : List (Call × Res) → Prop} {E : List (Call × Res)} {V : List (Nat × Inner)} {T : Task} (h : Plan tagOf K E V T) :
    ∃ L, E <+: L ∧ K L := by
  induction h with
  | done h => exact ⟨_, List.prefix_refl _, h⟩
  | skip i c r _ _ ih => obtain ⟨L, h1, h2⟩ := ih; exact ⟨L, (List.prefix_append _ _).trans h1, h2⟩
  | lock i k c r s' bl T' _ _ _ _ ih1 ih2 =>
    cases hc : c ⟨[], 0⟩ with
    | none => exact ih1 _ (Nat.zero_le _) hc
    | some x => obtain ⟨L, h1, h2⟩ := ih2 _ x (Nat.zero_le _) hc; exact ⟨L, (List.prefix_append _ _).trans h1, h2⟩
  | leave _ _ _ ih => exact ih
  | finish i s s' c r _ _ _ ih => obtain ⟨L, h1, h2⟩ := ih; exact ⟨L, (List.prefix_append _ _).trans h1, h2⟩

theorem NInv.extends {n : Nat} {tagOf : Nat → PageTag} {K : Fin n → List (Call × Res) → Prop} {σ : State n} {H : List (LinEntry n)} {P Q : List (Nat × Bytes)}
    {w : World} (inv : NInv tagOf K σ H P Q w) (t : Fin n) : ∃ L, entriesOf t H <+: L ∧ K t L := by
  cases inv.stage t with
  | inData V i₀ bl T' h1 h2 h3 h4 => exact h2.extends
  | inStore V i₀ part bl T' h1 h2 h3 h4 h5 => exact h2.extends

end Verif.Reentrant
