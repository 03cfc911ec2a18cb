import Verif.Spec.Rerun
import Verif.Proofs.EndToEnd
import Verif.Props.Aggregate

/-! # Lemmas about runs of the same program -/

namespace Verif.Props
open Verif Verif.Mm Verif.Spec Verif.Decode Verif.Analyze Verif.Aggregate

theorem contains_iff (p e : Event) (he : isInteger e.payload = false) : contains p.payload e.payload = true ↔ Spans p e := by
  unfold Spans times span contains
  cases hp : p.payload with
  | integer v => simp
  | timestamp t =>
    cases t with
    | instant t => simp
    | interval s t =>
      cases hq : e.payload with
      | integer v => rw [hq] at he; simp [isInteger] at he
      | timestamp u =>
        cases u with
        | instant u => simp
        | interval a b => simp

/-- What is compared of a point. -/
def pointDesc (p : SamplePoint (WithParent Event)) : SamplePoint (WithParent EventDescription) := p.mapEvent WithParent.describe

theorem shapes_of_descs (tr : List (SamplePoint (WithParent Event))) : ∀ tr', tr'.map pointDesc = tr.map pointDesc →
    (successive tr').map shape = (successive tr).map shape := by
  induction tr with
  | nil => intro tr' h; simp only [List.map_nil, List.map_eq_nil_iff] at h; subst h; rfl
  | cons p ps ih =>
    intro tr' h
    cases tr' with
    | nil => simp at h
    | cons p' ps' =>
      simp only [List.map_cons, List.cons.injEq] at h
      have ih := ih ps' h.2
      cases ps with
      | nil =>
        have : ps' = [] := by simpa using h.2
        subst this; rfl
      | cons q qs =>
        cases ps' with
        | nil => simp at h
        | cons q' qs' =>
          simp only [successive, List.map_cons] at ih ⊢
          rw [ih]
          have h2 := h.2
          simp only [List.map_cons, List.cons.injEq] at h2
          congr 1
          simp only [shape, SampleInterval.mapEvent]
          have a := h.1
          have b := h2.1
          unfold pointDesc at a b
          rw [a, b]

/-- The two iterators are in step: what is left (`Z`) and what is open (`S`), in pairs. -/
structure InStep (Z S : List (Event × Event)) (st st' : SamplePoints) : Prop where
  rev : st.revEvents = Z.map (·.1)
  rev' : st'.revEvents = Z.map (·.2)
  stack : st.stack = S.map (·.1)
  stack' : st'.stack = S.map (·.2)
  alikeZ : ∀ z ∈ Z, Alike z.1 z.2
  alikeS : ∀ z ∈ S, Alike z.1 z.2
  ints : ∀ z ∈ Z, isInteger z.1.payload = false ∧ isInteger z.2.payload = false
  within : Z.Pairwise fun p e => (Spans p.1 e.1 ↔ Spans p.2 e.2)
  across : ∀ s ∈ S, ∀ z ∈ Z, (Spans s.1 z.1 ↔ Spans s.2 z.2)
  thread : ∀ z ∈ Z, z.2.threadId = st'.expectedThreadId

theorem alike_describe {e e' : Event} (h : Alike e e') : EventDescription.ofEvent e = EventDescription.ofEvent e' := by
  unfold EventDescription.ofEvent
  rw [h.1, h.2.1, h.2.2.1]

theorem alike_interval {e e' : Event} (h : Alike e e') {s t : Nat} (hp : e.payload = .timestamp (.interval s t)) :
    ∃ s' t', e'.payload = .timestamp (.interval s' t') := by
  have := h.2.2.2.1
  unfold times at this
  rw [hp] at this
  cases hq : e'.payload with
  | integer v => rw [hq] at this; simp at this
  | timestamp u =>
    cases u with
    | instant u => rw [hq] at this; simp at this
    | interval a b => exact ⟨a, b, rfl⟩

theorem alike_instant {e e' : Event} (h : Alike e e') {t : Nat} (hp : e.payload = .timestamp (.instant t)) :
    ∃ t', e'.payload = .timestamp (.instant t') := by
  have h1 := h.2.2.2.1
  have h2 := h.2.2.2.2
  unfold times at h1
  unfold span at h2
  rw [hp] at h1 h2
  cases hq : e'.payload with
  | integer v => rw [hq] at h2; simp at h2
  | timestamp u =>
    cases u with
    | instant u => exact ⟨u, rfl⟩
    | interval a b => rw [hq] at h1; simp at h1

/-- Points that look the same. -/
def SamePoint : SamplePoint Event → SamplePoint Event → Prop
  | .start e, .start e' => Alike e e'
  | .stop e, .stop e' => Alike e e'
  | .instant e, .instant e' => Alike e e'
  | _, _ => False

theorem consume_step {Z S : List (Event × Event)} {st st' st1 : SamplePoints} {z : Event × Event} {q : SamplePoint Event}
    (i : InStep (z :: Z) S st st') (h : st.consume z.1 (Z.map (·.1)) = .ok (some (q, st1))) :
    ∃ S1 q' st1', st'.consume z.2 (Z.map (·.2)) = .ok (some (q', st1')) ∧ SamePoint q q' ∧ InStep Z S1 st1 st1' := by
  obtain ⟨e, e'⟩ := z
  have ha : Alike e e' := i.alikeZ (e, e') List.mem_cons_self
  have rest : ∀ S1 : List (Event × Event), (∀ s ∈ S1, s ∈ S ∨ s = (e, e')) →
      InStep Z S1 { st with revEvents := Z.map (·.1), stack := S1.map (·.1) } { st' with revEvents := Z.map (·.2), stack := S1.map (·.2) } := by
    intro S1 hS1
    have hw := List.pairwise_cons.mp i.within
    refine ⟨rfl, rfl, rfl, rfl, fun z hz => i.alikeZ z (List.mem_cons_of_mem _ hz), ?_, fun z hz => i.ints z (List.mem_cons_of_mem _ hz), hw.2, ?_,
      fun z hz => i.thread z (List.mem_cons_of_mem _ hz)⟩
    · intro s hs
      rcases hS1 s hs with h | rfl
      · exact i.alikeS s h
      · exact ha
    · intro s hs z hz
      rcases hS1 s hs with h | rfl
      · exact i.across s h z (List.mem_cons_of_mem _ hz)
      · exact hw.1 z hz
  unfold SamplePoints.consume at h ⊢
  cases hp : e.payload with
  | integer v =>
    have := (i.ints (e, e') List.mem_cons_self).1
    simp only at this
    rw [hp] at this
    simp [isInteger] at this
  | timestamp u =>
    cases u with
    | interval a b =>
      obtain ⟨a', b', hp'⟩ := alike_interval ha hp
      simp only [hp, Except.ok.injEq, Option.some.injEq, Prod.mk.injEq] at h
      obtain ⟨rfl, rfl⟩ := h
      refine ⟨(e, e') :: S, .stop e', { st' with revEvents := Z.map (·.2), stack := e' :: st'.stack }, by simp only [hp'], ha, ?_⟩
      have := rest ((e, e') :: S) (by simp only [List.mem_cons]; rintro s (h | h); exacts [.inr h, .inl h])
      simp only [List.map_cons, ← i.stack, ← i.stack'] at this
      exact this
    | instant a =>
      obtain ⟨a', hp'⟩ := alike_instant ha hp
      simp only [hp, Except.ok.injEq, Option.some.injEq, Prod.mk.injEq] at h
      obtain ⟨rfl, rfl⟩ := h
      refine ⟨S, .instant e', { st' with revEvents := Z.map (·.2) }, by simp only [hp'], ha, ?_⟩
      have := rest S (fun s h => .inl h)
      rw [← i.stack, ← i.stack'] at this
      exact this

theorem point_step {Z S : List (Event × Event)} {st st' st1 : SamplePoints} {q : SamplePoint Event}
    (i : InStep Z S st st') (h : st.point = .ok (some (q, st1))) :
    ∃ Z1 S1 q' st1', st'.point = .ok (some (q', st1')) ∧ SamePoint q q' ∧ InStep Z1 S1 st1 st1' := by
  have pop : ∀ (s : Event × Event) (S1 : List (Event × Event)), S = s :: S1 →
      InStep Z S1 ⟨st.expectedThreadId, Z.map (·.1), S1.map (·.1)⟩ ⟨st'.expectedThreadId, Z.map (·.2), S1.map (·.2)⟩ ∧ Alike s.1 s.2 := by
    rintro s S1 rfl
    exact ⟨⟨rfl, rfl, rfl, rfl, i.alikeZ, fun x hx => i.alikeS x (List.mem_cons_of_mem _ hx), i.ints, i.within,
      fun x hx => i.across x (List.mem_cons_of_mem _ hx), i.thread⟩, i.alikeS s List.mem_cons_self⟩
  unfold SamplePoints.point at h ⊢
  rw [i.rev, i.stack] at h
  rw [i.rev', i.stack']
  cases Z with
  | nil =>
    simp only [List.map_nil] at h ⊢
    cases S with
    | nil => simp at h
    | cons s S1 =>
      obtain ⟨p1, p2⟩ := pop s S1 rfl
      simp only [List.map_cons, Except.ok.injEq, Option.some.injEq, Prod.mk.injEq] at h ⊢
      obtain ⟨rfl, rfl⟩ := h
      exact ⟨[], S1, _, _, ⟨rfl, rfl⟩, p2, p1⟩
  | cons z Z =>
    have hz := i.ints z List.mem_cons_self
    have ht := i.thread z List.mem_cons_self
    simp only [List.map_cons] at h ⊢
    rw [hz.1] at h
    rw [hz.2]
    simp only [Bool.false_eq_true, if_false] at h ⊢
    by_cases hx : z.1.threadId ≠ st.expectedThreadId
    · rw [if_pos hx] at h; simp at h
    · rw [if_neg hx] at h
      rw [if_neg (not_not.mpr ht)]
      cases S with
      | nil =>
        simp only [List.map_nil] at h ⊢
        obtain ⟨S1, q', st1', h1, h2, h3⟩ := consume_step i h
        exact ⟨Z, S1, q', st1', h1, h2, h3⟩
      | cons s S1 =>
        simp only [List.map_cons] at h ⊢
        have hiff := i.across s List.mem_cons_self z List.mem_cons_self
        rw [← contains_iff _ _ hz.1, ← contains_iff _ _ hz.2] at hiff
        cases hc : contains s.1.payload z.1.payload with
        | true =>
          have hc' := hiff.mp hc
          simp only [hc, hc', Bool.not_true, Bool.false_eq_true, if_false] at h ⊢
          obtain ⟨S1, q', st1', h1, h2, h3⟩ := consume_step i h
          exact ⟨Z, S1, q', st1', h1, h2, h3⟩
        | false =>
          have hc' : contains s.2.payload z.2.payload = false := by
            cases hh : contains s.2.payload z.2.payload with
            | false => rfl
            | true => rw [hiff.mpr hh] at hc; simp at hc
          obtain ⟨p1, p2⟩ := pop s S1 rfl
          simp only [hc, hc', Bool.not_false, if_true, Except.ok.injEq, Option.some.injEq, Prod.mk.injEq] at h ⊢
          obtain ⟨rfl, rfl⟩ := h
          exact ⟨z :: Z, S1, _, _, ⟨rfl, rfl⟩, p2, p1⟩

theorem point_none {Z S : List (Event × Event)} {st st' : SamplePoints} (i : InStep Z S st st') (h : st.point = .ok none) :
    st'.point = .ok none := by
  unfold SamplePoints.point at h ⊢
  rw [i.rev, i.stack] at h
  rw [i.rev', i.stack']
  cases Z with
  | nil =>
    cases S with
    | nil => rfl
    | cons s S1 => simp at h
  | cons z Z =>
    exfalso
    have hc : ∀ r, st.consume z.1 r ≠ .ok none := by
      intro r
      unfold SamplePoints.consume
      split <;> simp
    simp only [List.map_cons] at h
    repeat' split at h
    all_goals first | exact hc _ h | simp at h

theorem nextBack_step {Z S : List (Event × Event)} {st st' st1 : SamplePoints} {p : SamplePoint (WithParent Event)}
    (i : InStep Z S st st') (h : st.nextBack = .ok (some (p, st1))) :
    ∃ Z1 S1 p' st1', st'.nextBack = .ok (some (p', st1')) ∧ pointDesc p' = pointDesc p ∧ InStep Z1 S1 st1 st1' := by
  unfold SamplePoints.nextBack at h ⊢
  cases hq : st.point with
  | error f => rw [hq] at h; simp [bind, Except.bind] at h
  | ok o =>
    cases o with
    | none => rw [hq] at h; simp [bind, Except.bind] at h
    | some x =>
      obtain ⟨q, st2⟩ := x
      obtain ⟨Z1, S1, q', st2', h1, h2, h3⟩ := point_step i hq
      rw [hq] at h
      rw [h1]
      simp only [bind, Except.bind, Except.ok.injEq, Option.some.injEq, Prod.mk.injEq] at h ⊢
      obtain ⟨hp, rfl⟩ := h
      refine ⟨Z1, S1, _, _, ⟨rfl, rfl⟩, ?_, h3⟩
      subst hp
      have hd : ∀ k : Nat, (st2'.stack[k]?).map EventDescription.ofEvent = (st2.stack[k]?).map EventDescription.ofEvent := by
        intro k
        rw [h3.stack, h3.stack', List.getElem?_map, List.getElem?_map]
        cases hk : S1[k]? with
        | none => rfl
        | some x => simp only [Option.map_some]; rw [alike_describe (h3.alikeS x (List.mem_of_getElem? hk))]
      have hl : st2'.stack.length = st2.stack.length := by rw [h3.stack, h3.stack']; simp
      have hd0 := hd 0
      rw [← List.head?_eq_getElem?, ← List.head?_eq_getElem?] at hd0
      cases q <;> cases q' <;> simp only [SamePoint] at h2
      all_goals
        simp only [pointDesc, SamplePoint.mapEvent, WithParent.describe]
        rw [alike_describe h2]
      · rw [hd0]
      · rw [hl]
        by_cases h : st2.stack.length ≥ 2
        · rw [if_pos h, if_pos h, hd 1]
        · rw [if_neg h, if_neg h]
      · rw [hd0]

theorem emits_step {st : SamplePoints} {tr : List (SamplePoint (WithParent Event))} (he : Emits st tr) :
    ∀ (Z S : List (Event × Event)) (st' : SamplePoints), InStep Z S st st' → ∃ tr', Emits st' tr' ∧ tr'.map pointDesc = tr.map pointDesc := by
  induction he with
  | @done st h =>
    intro Z S st' i
    refine ⟨[], .done ?_, rfl⟩
    unfold SamplePoints.nextBack at h ⊢
    cases hq : st.point with
    | error f => rw [hq] at h; simp [bind, Except.bind] at h
    | ok o =>
      cases o with
      | none => rw [point_none i hq]; rfl
      | some x => rw [hq] at h; simp [bind, Except.bind] at h
  | @more st st1 p ps h _ ih =>
    intro Z S st' i
    obtain ⟨Z1, S1, p', st1', h1, h2, h3⟩ := nextBack_step i h
    obtain ⟨tr', h4, h5⟩ := ih Z1 S1 st1' h3
    exact ⟨p' :: tr', .more h1 h4, by rw [List.map_cons, List.map_cons, h2, h5]⟩

theorem isInteger_span (e : Event) : isInteger e.payload = !(span e).isSome := by
  unfold isInteger span
  cases e.payload with
  | integer v => rfl
  | timestamp t => cases t <;> rfl

theorem instep_new {es es' : List Event} (h : SameStructure es es') (h1 : OneThread es') :
    InStep ((es.zip es').reverse.filter fun z => !isInteger z.1.payload) [] (SamplePoints.new es) (SamplePoints.new es') := by
  have hlen := h.1.length_eq
  have halike : ∀ z ∈ es.zip es', Alike z.1 z.2 := by
    intro z hz
    exact (List.forall₂_iff_zip.mp h.1).2 (by simpa using hz)
  have hint : ∀ z ∈ es.zip es', isInteger z.2.payload = isInteger z.1.payload := by
    intro z hz
    rw [isInteger_span, isInteger_span, (halike z hz).2.2.2.2]
  have e1 : es = (es.zip es').map (·.1) := (List.map_fst_zip (by omega)).symm
  have e2 : es' = (es.zip es').map (·.2) := (List.map_snd_zip (by omega)).symm
  have rev' : (SamplePoints.new es').revEvents = (((es.zip es').reverse.filter fun z => !isInteger z.1.payload)).map (·.2) := by
    show es'.reverse.filter (fun e => !isInteger e.payload) = _
    conv_lhs => rw [e2, ← List.map_reverse, List.filter_map]
    congr 1
    refine List.filter_congr ?_
    intro z hz
    simp only [Function.comp]
    rw [hint z (List.mem_reverse.mp hz)]
  refine ⟨?_, rev', rfl, rfl, ?_, ?_, ?_, ?_, ?_, ?_⟩
  · show es.reverse.filter (fun e => !isInteger e.payload) = _
    conv_lhs => rw [e1, ← List.map_reverse, List.filter_map]
    rfl
  · intro z hz
    exact halike z (List.mem_reverse.mp (List.mem_of_mem_filter hz))
  · simp
  · intro z hz
    have hz' := List.mem_reverse.mp (List.mem_of_mem_filter hz)
    have := (List.mem_filter.mp hz).2
    rw [hint z hz']
    simpa using this
  · refine List.Pairwise.filter _ ?_
    rw [List.pairwise_reverse, List.pairwise_iff_getElem]
    intro i j hi hj hij
    rw [List.length_zip] at hi hj
    refine h.2 i j _ _ _ _ hij ?_ ?_ ?_ ?_
    all_goals
      simp only [List.getElem_zip]
      exact List.getElem?_eq_getElem _
  · simp
  · intro z hz
    have hz' := List.mem_reverse.mp (List.mem_of_mem_filter hz)
    have hm : z.2 ∈ (SamplePoints.new es').revEvents := by rw [rev']; exact List.mem_map_of_mem hz
    have hmem : ∀ e ∈ (SamplePoints.new es').revEvents, e ∈ es' ∧ (span e).isSome := by
      intro e he
      have he : e ∈ es'.reverse.filter (fun e => !isInteger e.payload) := he
      rw [List.mem_filter, isInteger_span, Bool.not_not] at he
      exact ⟨List.mem_reverse.mp he.1, he.2⟩
    have hx : (SamplePoints.new es').expectedThreadId = (((SamplePoints.new es').revEvents.head?).map (·.threadId)).getD 0 := rfl
    rw [hx]
    cases hr : (SamplePoints.new es').revEvents with
    | nil => rw [hr] at hm; simp at hm
    | cons a l =>
      simp only [List.head?_cons, Option.map_some, Option.getD_some]
      have ha := hmem a (by rw [hr]; simp)
      have hb := hmem z.2 hm
      exact h1 _ hb.1 _ ha.1 hb.2 ha.2

/-- Streams with the same structure give points that look the same. -/
theorem same_shapes {es es' : List Event} (h : SameStructure es es') (h1 : OneThread es') {tr : List (SamplePoint (WithParent Event))}
    (he : Emits (SamplePoints.new es) tr) :
    ∃ tr', Emits (SamplePoints.new es') tr' ∧ (successive tr').map shape = (successive tr).map shape := by
  obtain ⟨tr', h2, h3⟩ := emits_step he _ _ _ (instep_new h h1)
  exact ⟨tr', h2, shapes_of_descs tr tr' h3⟩

/-! ## Ledgers of two runs -/

/-- Values that correspond. -/
def SameWhat (T : Nat → Nat → Prop) : What → What → Prop
  | .interval x y, .interval x' y' => T x x' ∧ T y y'
  | .instant x, .instant x' => T x x'
  | .integer _, .integer _ => True
  | _, _ => False

/-- Pending intervals that correspond. -/
def SamePending (T : Nat → Nat → Prop) : Option Pending → Option Pending → Prop
  | none, none => True
  | some p, some p' => T p.start p'.start
  | _, _ => False

/-- Ledgers that correspond. -/
structure SameLedger (T : Nat → Nat → Prop) (l l' : Ledger) : Prop where
  guards : ∀ g, SamePending T (l.guards g) (l'.guards g)
  detached : ∀ g, SamePending T (l.detached g) (l'.detached g)
  events : List.Forall₂ (fun r r' => SameWhat T r.what r'.what) l.events l'.events

theorem samePending_put {T : Nat → Nat → Prop} {f f' : Nat → Option Pending} (h : ∀ g, SamePending T (f g) (f' g)) (g : Nat) {v v' : Option Pending}
    (hv : SamePending T v v') : ∀ i, SamePending T (put f g v i) (put f' g v' i) := by
  intro i
  unfold put
  split
  · exact hv
  · exact h i

theorem same_finished {T : Nat → Nat → Prop} (iso : ∀ x x' y y', T x x' → T y y' → (x ≤ y ↔ x' ≤ y')) {p p' : Pending}
    (hp : T p.start p'.start) (id id' : EventId) (now now' : UInt64) (hn : T now.toNat now'.toNat) (f1 : now.toNat ≤ 281474976710653)
    (f2 : now'.toNat ≤ 281474976710653) :
    List.Forall₂ (fun r r' => SameWhat T r.what r'.what) (finished p id now) (finished p' id' now') := by
  unfold finished
  have h := iso _ _ _ _ hp hn
  by_cases hle : p.start ≤ now.toNat
  · rw [if_pos ⟨hle, f1⟩, if_pos ⟨h.mp hle, f2⟩]
    exact .cons ⟨hp, hn⟩ .nil
  · rw [if_neg (fun hh => hle hh.1), if_neg (fun hh => hle (h.mpr hh.1))]
    exact .nil

theorem sameLedger_step {T : Nat → Nat → Prop} (iso : ∀ x x' y y', T x x' → T y y' → (x ≤ y ↔ x' ≤ y')) {l l' : Ledger} (h : SameLedger T l l')
    {c c' : ProfCall} (hc : SameCall c c') (hT : ∀ x x', counterRead c = some x → counterRead c' = some x' → T x x')
    (f1 : ∀ x, counterRead c = some x → x ≤ 281474976710653) (f2 : ∀ x, counterRead c' = some x → x ≤ 281474976710653)
    (i1 : ∀ k id t v, c = .integer k id t v → v.toNat ≤ 281474976710655) (i2 : ∀ k id t v, c' = .integer k id t v → v.toNat ≤ 281474976710655) :
    SameLedger T (l.step c) (l'.step c') := by
  have fin : ∀ (gs gs' : Nat → Option Pending) (g : Nat), SamePending T (gs g) (gs' g) →
      (gs g = none ∧ gs' g = none) ∨ ∃ p p', gs g = some p ∧ gs' g = some p' ∧ T p.start p'.start := by
    intro gs gs' g hg
    cases h1 : gs g <;> cases h2 : gs' g <;> rw [h1, h2] at hg <;> simp only [SamePending] at hg
    · exact .inl ⟨rfl, rfl⟩
    · exact .inr ⟨_, _, rfl, rfl, hg⟩
  cases c <;> cases c' <;> simp only [SameCall] at hc
  case allocString.allocString => exact h
  case allocForeign.allocForeign => exact h
  case mapVirtual.mapVirtual => exact h
  case bulkMapVirtual.bulkMapVirtual => exact h
  case instant.instant k id t now k' id' t' now' =>
    have := f1 _ rfl
    have := f2 _ rfl
    refine ⟨h.guards, h.detached, ?_⟩
    simp only [Ledger.step, single]
    rw [if_pos (by omega), if_pos (by omega)]
    exact List.rel_append h.events (.cons (hT _ _ rfl rfl) .nil)
  case integer.integer k id t v k' id' t' v' =>
    refine ⟨h.guards, h.detached, ?_⟩
    simp only [Ledger.step, single]
    rw [if_pos (i1 _ _ _ _ rfl), if_pos (i2 _ _ _ _ rfl)]
    exact List.rel_append h.events (.cons trivial .nil)
  case start.start g k id t now g' k' id' t' now' =>
    subst hc
    exact ⟨samePending_put h.guards g (hT _ _ rfl rfl), h.detached, h.events⟩
  case startDetached.startDetached g k id t now g' k' id' t' now' =>
    subst hc
    exact ⟨h.guards, samePending_put h.detached g (hT _ _ rfl rfl), h.events⟩
  case finish.finish g now g' now' =>
    subst hc
    rcases fin _ _ g (h.guards g) with ⟨e1, e2⟩ | ⟨p, p', e1, e2, hp⟩
    · simp only [Ledger.step, e1, e2]; exact h
    · simp only [Ledger.step, e1, e2]
      exact ⟨samePending_put h.guards g trivial, h.detached,
        List.rel_append h.events (same_finished iso hp _ _ _ _ (hT _ _ rfl rfl) (f1 _ rfl) (f2 _ rfl))⟩
  case finishOverride.finishOverride g id now g' id' now' =>
    subst hc
    rcases fin _ _ g (h.guards g) with ⟨e1, e2⟩ | ⟨p, p', e1, e2, hp⟩
    · simp only [Ledger.step, e1, e2]; exact h
    · simp only [Ledger.step, e1, e2]
      exact ⟨samePending_put h.guards g trivial, h.detached,
        List.rel_append h.events (same_finished iso hp _ _ _ _ (hT _ _ rfl rfl) (f1 _ rfl) (f2 _ rfl))⟩
  case finishDetached.finishDetached g now g' now' =>
    subst hc
    rcases fin _ _ g (h.detached g) with ⟨e1, e2⟩ | ⟨p, p', e1, e2, hp⟩
    · simp only [Ledger.step, e1, e2]; exact h
    · simp only [Ledger.step, e1, e2]
      exact ⟨h.guards, samePending_put h.detached g trivial,
        List.rel_append h.events (same_finished iso hp _ _ _ _ (hT _ _ rfl rfl) (f1 _ rfl) (f2 _ rfl))⟩

theorem sameCall_read {c c' : ProfCall} (h : SameCall c c') : (counterRead c).isSome = (counterRead c').isSome := by
  cases c <;> cases c' <;> first | rfl | exact h.elim

theorem sameLedger_fold {T : Nat → Nat → Prop} (iso : ∀ x x' y y', T x x' → T y y' → (x ≤ y ↔ x' ≤ y')) {cs cs' : List ProfCall}
    (hc : List.Forall₂ SameCall cs cs') : ∀ {l l' : Ledger}, SameLedger T l l' →
    (∀ z ∈ (cs.filterMap counterRead).zip (cs'.filterMap counterRead), T z.1 z.2) →
    (∀ x ∈ cs.filterMap counterRead, x ≤ 281474976710653) → (∀ x ∈ cs'.filterMap counterRead, x ≤ 281474976710653) →
    (∀ k id t v, .integer k id t v ∈ cs → v.toNat ≤ 281474976710655) → (∀ k id t v, .integer k id t v ∈ cs' → v.toNat ≤ 281474976710655) →
    SameLedger T (cs.foldl Ledger.step l) (cs'.foldl Ledger.step l') := by
  induction hc with
  | nil => intro l l' h _ _ _ _ _; exact h
  | @cons c c' cs cs' hcc _ ih =>
    intro l l' h hT f1 f2 i1 i2
    have hr := sameCall_read hcc
    refine ih (sameLedger_step iso h hcc ?_ ?_ ?_ ?_ ?_) ?_ ?_ ?_ ?_ ?_
    · intro x x' hx hx'
      refine hT (x, x') ?_
      rw [List.filterMap_cons_some hx, List.filterMap_cons_some hx']
      exact List.mem_cons_self
    · intro x hx; exact f1 x (by rw [List.filterMap_cons_some hx]; exact List.mem_cons_self)
    · intro x hx; exact f2 x (by rw [List.filterMap_cons_some hx]; exact List.mem_cons_self)
    · rintro k id t v rfl; exact i1 k id t v List.mem_cons_self
    · rintro k id t v rfl; exact i2 k id t v List.mem_cons_self
    · intro z hz
      refine hT z ?_
      cases h1 : counterRead c with
      | none =>
        rw [h1] at hr
        have h2 : counterRead c' = none := by simpa using hr.symm
        rw [List.filterMap_cons_none h1, List.filterMap_cons_none h2]; exact hz
      | some x =>
        rw [h1] at hr
        obtain ⟨x', h2⟩ := Option.isSome_iff_exists.mp hr.symm
        rw [List.filterMap_cons_some h1, List.filterMap_cons_some h2]
        exact List.mem_cons_of_mem _ hz
    · intro x hx
      refine f1 x ?_
      rw [List.mem_filterMap] at hx ⊢
      exact hx.imp fun _ h => ⟨List.mem_cons_of_mem _ h.1, h.2⟩
    · intro x hx
      refine f2 x ?_
      rw [List.mem_filterMap] at hx ⊢
      exact hx.imp fun _ h => ⟨List.mem_cons_of_mem _ h.1, h.2⟩
    · intro k id t v hm; exact i1 k id t v (List.mem_cons_of_mem _ hm)
    · intro k id t v hm; exact i2 k id t v (List.mem_cons_of_mem _ hm)

theorem zip_iso {a b : List Nat} (ha : a.Pairwise (· < ·)) (hb : b.Pairwise (· < ·)) (x x' y y' : Nat) (h1 : (x, x') ∈ a.zip b)
    (h2 : (y, y') ∈ a.zip b) : x ≤ y ↔ x' ≤ y' := by
  obtain ⟨i, hi, e1⟩ := List.getElem_of_mem h1
  obtain ⟨j, hj, e2⟩ := List.getElem_of_mem h2
  rw [List.getElem_zip, Prod.mk.injEq] at e1 e2
  rw [List.length_zip] at hi hj
  rw [List.pairwise_iff_getElem] at ha hb
  obtain ⟨rfl, rfl⟩ := e1
  obtain ⟨rfl, rfl⟩ := e2
  rcases Nat.lt_trichotomy i j with h | h | h
  · have := ha i j (by omega) (by omega) h
    have := hb i j (by omega) (by omega) h
    omega
  · subst h; simp
  · have := ha j i (by omega) (by omega) h
    have := hb j i (by omega) (by omega) h
    omega

/-- Two runs of one program record events that correspond. -/
theorem runs_correspond (cs cs' : List ProfCall) (h : List.Forall₂ SameCall cs cs') (t : Ticking cs) (t' : Ticking cs') :
    ∃ T : Nat → Nat → Prop, (∀ x x' y y', T x x' → T y y' → (x ≤ y ↔ x' ≤ y')) ∧
      List.Forall₂ (fun r r' => SameWhat T r.what r'.what) (recorded cs) (recorded cs') := by
  refine ⟨fun x x' => (x, x') ∈ (cs.filterMap counterRead).zip (cs'.filterMap counterRead), zip_iso t.forward t'.forward, ?_⟩
  have h0 : SameLedger (fun x x' => (x, x') ∈ (cs.filterMap counterRead).zip (cs'.filterMap counterRead)) .empty .empty :=
    ⟨fun _ => trivial, fun _ => trivial, .nil⟩
  exact (sameLedger_fold (zip_iso t.forward t'.forward) h h0 (fun z hz => hz) t.fits t'.fits t.integers t'.integers).events

/-! ## Texts -/

theorem shown_unique (s : Session) (id : StringId) (a b : String) (ha : Shown s.log id a) (hb : Shown s.log id b) : a = b := by
  obtain ⟨t, ev, o⟩ := open_profile (metadataText s.start s.pid s.args s.counter) s.calls
  obtain ⟨n1, h1⟩ := shown_toStr o.rel ha
  obtain ⟨n2, h2⟩ := shown_toStr o.rel hb
  have h3 := h1 (max n1 n2) (by omega)
  have h4 := h2 (max n1 n2) (by omega)
  rw [h3, Except.ok.injEq] at h4
  exact utf8_inj h4

theorem decoded_unique {l l' : String} {as as' : List String} (h : joined l as = joined l' as') (h1 : SepFree l) (h2 : ∀ a ∈ as, SepFree a)
    (h3 : SepFree l') (h4 : ∀ a ∈ as', SepFree a) :
    utf8 (decodedId l as).1 = utf8 (decodedId l' as').1 ∧ (decodedId l as).2.map utf8 = (decodedId l' as').2.map utf8 := by
  have key : ∀ l as, SepFree l → (∀ a ∈ as, SepFree a) →
      parseEventId (utf8 (joined l as)) = .ok (utf8 (decodedId l as).1, (decodedId l as).2.map utf8) := by
    intro l as h1 h2
    rw [parseEventId_joined l as h1 h2]
    unfold decodedId
    by_cases ht : TextOk l
    · simp only [if_pos ht]
    · simp only [if_neg ht, List.map_nil]
  have k1 := key l as h1 h2
  have k2 := key l' as' h3 h4
  rw [h, k2] at k1
  simp only [Except.ok.injEq, Prod.mk.injEq] at k1
  exact ⟨k1.1.symm, k1.2.symm⟩

theorem texts_alike {a b : Session} {r r' : Recorded} {e e' : Event} (h : a.SeenAs r e) (h' : b.SeenAs r' e')
    (hk : ∀ text, Shown a.log r.kind text ↔ Shown b.log r'.kind text) (hi : ∀ text, Shown a.log r.id text ↔ Shown b.log r'.id text) :
    e.eventKind = e'.eventKind ∧ e.label = e'.label ∧ e.additionalData = e'.additionalData := by
  obtain ⟨_, _, k, l, as, s1, s2, o1, o2, e1, e2, e3⟩ := h
  obtain ⟨_, _, k', l', as', s1', s2', o1', o2', e1', e2', e3'⟩ := h'
  have hkk := shown_unique b r'.kind k k' ((hk k).mp s1) s1'
  have hll := shown_unique b r'.id _ _ ((hi _).mp s2) s2'
  obtain ⟨d1, d2⟩ := decoded_unique hll o1 o2 o1' o2'
  refine ⟨?_, ?_, ?_⟩
  · rw [e1, e1', hkk]
  · rw [e2, e2', d1]
  · rw [e3, e3', d2]

theorem what_alike {T : Nat → Nat → Prop} {a b : Session} {r r' : Recorded} {e e' : Event} (h : a.SeenAs r e) (h' : b.SeenAs r' e')
    (hw : SameWhat T r.what r'.what) : (times e).isSome = (times e').isSome ∧ (span e).isSome = (span e').isSome := by
  unfold times span
  rw [h.2.1, h'.2.1]
  cases h1 : r.what <;> cases h2 : r'.what <;> rw [h1, h2] at hw <;> simp only [SameWhat] at hw
  all_goals exact ⟨rfl, rfl⟩

theorem spans_same {T : Nat → Nat → Prop} (iso : ∀ x x' y y', T x x' → T y y' → (x ≤ y ↔ x' ≤ y')) {a b : Session} {r q r' q' : Recorded}
    {e p e' p' : Event} (hr : a.SeenAs r e) (hq : a.SeenAs q p) (hr' : b.SeenAs r' e') (hq' : b.SeenAs q' p')
    (hw : SameWhat T r.what r'.what) (hv : SameWhat T q.what q'.what) : Spans p e ↔ Spans p' e' := by
  have key : ∀ (s : Session) (r q : Recorded) (e p : Event), s.SeenAs r e → s.SeenAs q p → (Spans p e ↔
      ∃ x y, q.what = .interval x y ∧ ∃ u v, (r.what = .interval u v ∨ (u = v ∧ r.what = .instant u)) ∧ x ≤ u ∧ v ≤ y) := by
    intro s r q e p hr hq
    unfold Spans times span
    rw [hr.2.1, hq.2.1]
    cases h1 : q.what <;> cases h2 : r.what <;> simp [seen]
  rw [key a r q e p hr hq, key b r' q' e' p' hr' hq']
  cases h1 : q.what <;> cases h2 : q'.what <;> rw [h1, h2] at hv <;> simp only [SameWhat] at hv <;>
    cases h3 : r.what <;> cases h4 : r'.what <;> rw [h3, h4] at hw <;> simp only [SameWhat] at hw <;> simp only [What.interval.injEq, What.instant.injEq, reduceCtorEq, false_and, exists_false, and_false, or_false, false_or]
  · rename_i x y x' y' u v u' v'
    have i1 := iso _ _ _ _ hv.1 hw.1
    have i2 := iso _ _ _ _ hw.2 hv.2
    constructor
    · rintro ⟨_, _, ⟨rfl, rfl⟩, _, _, ⟨rfl, rfl⟩, h5, h6⟩
      exact ⟨_, _, ⟨rfl, rfl⟩, _, _, ⟨rfl, rfl⟩, i1.mp h5, i2.mp h6⟩
    · rintro ⟨_, _, ⟨rfl, rfl⟩, _, _, ⟨rfl, rfl⟩, h5, h6⟩
      exact ⟨_, _, ⟨rfl, rfl⟩, _, _, ⟨rfl, rfl⟩, i1.mpr h5, i2.mpr h6⟩
  · rename_i x y x' y' t t'
    have i1 := iso _ _ _ _ hv.1 hw
    have i2 := iso _ _ _ _ hw hv.2
    constructor
    · rintro ⟨_, _, ⟨rfl, rfl⟩, _, _, ⟨rfl, rfl⟩, h5, h6⟩
      exact ⟨_, _, ⟨rfl, rfl⟩, _, _, ⟨rfl, rfl⟩, i1.mp h5, i2.mp h6⟩
    · rintro ⟨_, _, ⟨rfl, rfl⟩, _, _, ⟨rfl, rfl⟩, h5, h6⟩
      exact ⟨_, _, ⟨rfl, rfl⟩, _, _, ⟨rfl, rfl⟩, i1.mpr h5, i2.mpr h6⟩

/-- Two sessions of one program leave streams with the same structure. -/
theorem sessions_same_structure {a b : Session} (h : SameProgram a b) (ta : Ticking a.calls) (tb : Ticking b.calls) {ea eb : List Event}
    (ha : a.Seen ea) (hb : b.Seen eb) : SameStructure ea eb := by
  obtain ⟨T, iso, hev⟩ := runs_correspond a.calls b.calls h.calls ta tb
  have la := ha.length_eq
  have lb := hb.length_eq
  have lr := hev.length_eq
  have at_ : ∀ (i : Nat) (e e' : Event), ea[i]? = some e → eb[i]? = some e' → ∃ r r', a.SeenAs r e ∧ b.SeenAs r' e' ∧ SameWhat T r.what r'.what ∧
      (∀ text, Shown a.log r.kind text ↔ Shown b.log r'.kind text) ∧ (∀ text, Shown a.log r.id text ↔ Shown b.log r'.id text) := by
    intro i e e' h1 h2
    obtain ⟨i1, rfl⟩ := List.getElem?_eq_some_iff.mp h1
    obtain ⟨i2, rfl⟩ := List.getElem?_eq_some_iff.mp h2
    have j1 : i < (recorded a.calls).length := by omega
    have j2 : i < (recorded b.calls).length := by omega
    exact ⟨_, _, forall2_getElem ha i j1 i1, forall2_getElem hb i j2 i2, forall2_getElem hev i j1 j2,
      h.kinds i _ _ (List.getElem?_eq_getElem j1) (List.getElem?_eq_getElem j2), h.ids i _ _ (List.getElem?_eq_getElem j1) (List.getElem?_eq_getElem j2)⟩
  constructor
  · rw [List.forall₂_iff_get]
    refine ⟨by omega, fun i h1 h2 => ?_⟩
    obtain ⟨r, r', s1, s2, s3, s4, s5⟩ := at_ i _ _ (List.getElem?_eq_getElem h1) (List.getElem?_eq_getElem h2)
    obtain ⟨t1, t2, t3⟩ := texts_alike s1 s2 s4 s5
    obtain ⟨t4, t5⟩ := what_alike s1 s2 s3
    exact ⟨t1, t2, t3, t4, t5⟩
  · intro i j e p e' p' _ h1 h2 h3 h4
    obtain ⟨r, r', s1, s2, s3, _⟩ := at_ i _ _ h1 h3
    obtain ⟨q, q', u1, u2, u3, _⟩ := at_ j _ _ h2 h4
    exact spans_same iso s1 u1 s2 u2 s3 u3

end Verif.Props
