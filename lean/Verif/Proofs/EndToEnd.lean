import Verif.Spec.EndToEnd
import Verif.Spec.Aggregate
import Verif.Spec.Collapse
import Verif.Spec.Crox
import Verif.Props.Guards
import Mathlib.Data.List.Forall2

/-! # Lemmas about whole sessions -/

namespace Verif.Props
open Verif Verif.Mm Verif.Spec Verif.Decode

theorem collect_eventually {α β : Type} (R : α → β → Prop) (decode : Nat → Nat → Except Fault β) (rs : List α) :
    ∀ i, (∀ j r, rs[j]? = some r → ∃ e, R r e ∧ ∃ n, ∀ fuel, n ≤ fuel → decode fuel (i + j) = .ok e) →
    ∃ es, List.Forall₂ R rs es ∧ ∃ n, ∀ fuel, n ≤ fuel → collectFrom (decode fuel) i rs.length = .ok es := by
  induction rs with
  | nil => intro i _; exact ⟨[], .nil, 0, fun _ _ => rfl⟩
  | cons r rs ih =>
    intro i h
    obtain ⟨e, he, n, hn⟩ := h 0 r rfl
    obtain ⟨es, hes, m, hm⟩ := ih (i + 1) (fun j x hx => by
      have := h (j + 1) x (by simpa using hx)
      rwa [show i + (j + 1) = i + 1 + j by omega] at this)
    refine ⟨e :: es, .cons he hes, max n m, fun fuel hf => ?_⟩
    have h1 := hn fuel (by omega)
    rw [Nat.add_zero] at h1
    simp only [List.length_cons, collectFrom, bind, Except.bind, h1, hm fuel (by omega)]

/-- What is read of a session, lightweight. -/
def lightOf (s : Session) : List LightweightEvent :=
  (recorded s.calls).zipIdx.map fun x => ⟨x.2, x.1.thread, seen s.start x.1.what⟩

theorem collect_exact {β : Type} (decode : Nat → Except Fault β) (es : List β) :
    ∀ i, (∀ j e, es[j]? = some e → decode (i + j) = .ok e) → collectFrom decode i es.length = .ok es := by
  induction es with
  | nil => intro i _; rfl
  | cons e es ih =>
    intro i h
    have h0 := h 0 e rfl
    rw [Nat.add_zero] at h0
    have h1 := ih (i + 1) (fun j x hx => by
      have := h (j + 1) x (by simpa using hx)
      rwa [show i + (j + 1) = i + 1 + j by omega] at this)
    simp only [List.length_cons, collectFrom, bind, Except.bind, h0, h1]

theorem session_reads (s : Session) (h : s.Readable) :
    ∃ es d n, s.Seen es ∧ d.metadata = ⟨s.start, s.pid, utf8 (commandLine s.args)⟩ ∧
      ∀ (diag : Option String) (fuel : Nat), n ≤ fuel → EventDecoder.new diag fuel s.file = .ok d ∧ (v9Data fuel d).fullEvents = .ok es ∧
        (v9Data fuel d).lightEvents = .ok (lightOf s) := by
  obtain ⟨d, ⟨n1, hn1⟩, hmd, hnum, hev⟩ := C29_profile_round_trip s.start s.pid h.start h.pid s.args h.args s.counter s.calls
  obtain ⟨es, hes, n2, hn2⟩ := collect_eventually s.SeenAs (fun fuel i => d.decodeFull fuel i) (recorded s.calls) 0 (by
    intro j r hr
    have hm := List.mem_of_getElem? hr
    obtain ⟨_, hf⟩ := hev j r hr
    obtain ⟨mk, hk⟩ := h.kinds r hm
    obtain ⟨mi, hi⟩ := h.ids r hm
    obtain ⟨kind, hk⟩ := C29_every_meaning_is_shown _ _ _ _ hk
    obtain ⟨id, hi⟩ := C29_every_meaning_is_shown _ _ _ _ hi
    obtain ⟨label, as, okl, oka, rfl⟩ := C29_every_text_has_fields id
    obtain ⟨n, hn⟩ := hf kind label as hk hi okl oka
    refine ⟨⟨utf8 kind, utf8 (decodedId label as).1, (decodedId label as).2.map utf8, seen s.start r.what, r.thread⟩,
      ⟨rfl, rfl, kind, label, as, hk, hi, okl, oka, rfl, rfl, rfl⟩, n, fun fuel hf => ?_⟩
    rw [Nat.zero_add]
    exact hn fuel hf)
  refine ⟨es, d, max n1 n2, hes, hmd, fun diag fuel hf => ⟨hn1 diag fuel (by omega), ?_, ?_⟩⟩
  · simp only [v9_fullEvents, hnum, bind, Except.bind]
    exact hn2 fuel (by omega)
  · simp only [ProfilingData.lightEvents, v9Data, hnum, bind, Except.bind]
    have := collect_exact d.decodeLightweight (lightOf s) 0 (by
      intro j e he
      simp only [lightOf, List.getElem?_map, List.getElem?_zipIdx, Option.map_map, Option.map_eq_some_iff] at he
      obtain ⟨r, hr, rfl⟩ := he
      simpa using (hev j r hr).1)
    simpa [lightOf] using this

/-! ## Nesting -/

theorem seen_times {start : Nat} {r : Recorded} {e : Event} {a b : Nat} (h : e.payload = seen start r.what) (ht : times e = some (a, b)) :
    ∃ x y, r.what = .interval x y ∧ a = start + x ∧ b = start + y := by
  unfold times at ht
  rw [h] at ht
  cases hw : r.what with
  | interval x y => rw [hw] at ht; simp [seen] at ht; exact ⟨x, y, rfl, ht.1.symm, ht.2.symm⟩
  | instant t => rw [hw] at ht; simp [seen] at ht
  | integer v => rw [hw] at ht; simp [seen] at ht

theorem forall2_getElem {α β : Type} {R : α → β → Prop} {l : List α} {l' : List β} (h : List.Forall₂ R l l') (i : Nat) (h1 : i < l.length)
    (h2 : i < l'.length) : R l[i] l'[i] := by
  obtain ⟨_, h⟩ := List.forall₂_iff_get.mp h
  exact h i h1 h2

theorem pairwise_forall2 {α β : Type} {R : α → β → Prop} {P : α → α → Prop} {Q : β → β → Prop} {l : List α} {l' : List β}
    (h : List.Forall₂ R l l') (hp : l.Pairwise P) (imp : ∀ a a' b b', R a b → R a' b' → P a a' → Q b b') : l'.Pairwise Q := by
  induction h with
  | nil => exact .nil
  | @cons a b l l' hab hll ih =>
    rw [List.pairwise_cons] at hp
    refine List.pairwise_cons.mpr ⟨fun b' hb' => ?_, ih hp.2⟩
    obtain ⟨i, hi, rfl⟩ := List.getElem_of_mem hb'
    have hi' : i < l.length := by rw [hll.length_eq]; exact hi
    exact imp _ _ _ _ hab (forall2_getElem hll i hi' hi) (hp.1 _ (List.getElem_mem hi'))

theorem forall_forall2 {α β : Type} {R : α → β → Prop} {P : α → Prop} {Q : β → Prop} {l : List α} {l' : List β}
    (h : List.Forall₂ R l l') (hp : ∀ a ∈ l, P a) (imp : ∀ a b, R a b → P a → Q b) : ∀ b ∈ l', Q b := by
  intro b hb
  obtain ⟨i, hi, rfl⟩ := List.getElem_of_mem hb
  have hi' : i < l.length := by rw [h.length_eq]; exact hi
  exact imp _ _ (forall2_getElem h i hi' hi) (hp _ (List.getElem_mem hi'))

/-- Recorded intervals of scoped programs: forward, and nested or disjoint in the order of their ends. -/
theorem scoped_recorded (calls : List ProfCall) (h : Scoped .empty calls) :
    (∀ r ∈ recorded calls, ∀ x y, r.what = .interval x y → x ≤ y) ∧
    (recorded calls).Pairwise fun a b => ∀ x y x' y', a.what = .interval x y → b.what = .interval x' y' → a.thread = b.thread →
      Nested (x, y) (x', y') := by
  obtain ⟨s', inv, _⟩ := scoped_inv calls [] .empty .empty scopeInv_empty (by rwa [List.append_nil])
  constructor
  · intro r hr x y hw
    have := (inv.past r.thread (x, y) (by
      unfold intervalsOf
      rw [List.mem_filterMap]
      exact ⟨r, hr, by rw [hw]; simp⟩)).1
    exact this
  · rw [List.pairwise_iff_getElem]
    intro i j hi hj hij x y x' y' hx hy hth
    have := inv.nested (recorded calls)[i].thread
    change (intervalsOf _ (recorded calls)).Pairwise Nested at this
    unfold intervalsOf at this
    rw [List.pairwise_filterMap, List.pairwise_iff_getElem] at this
    refine this i j hi hj hij _ ?_ _ ?_
    · rw [hx]; simp
    · rw [hy, hth]; simp

theorem seen_nested (s : Session) (es : List Event) (h : s.Seen es) (hs : Scoped .empty s.calls) : ProperlyNested es := by
  obtain ⟨h1, h2⟩ := scoped_recorded s.calls hs
  constructor
  · refine forall_forall2 (Q := Forward) h h1 ?_
    intro r e hre hr a b ht
    obtain ⟨x, y, hw, rfl, rfl⟩ := seen_times hre.2.1 ht
    have := hr x y hw
    omega
  · refine pairwise_forall2 (Q := InOrder) h h2 ?_
    intro a a' b b' hab ha' hp s1 t1 s2 t2 ht1 ht2 hth
    obtain ⟨x, y, hw, rfl, rfl⟩ := seen_times hab.2.1 ht1
    obtain ⟨x', y', hw', rfl, rfl⟩ := seen_times ha'.2.1 ht2
    have := hp x y x' y' hw hw' (by rw [← hab.1, ← ha'.1, hth])
    unfold Nested at this
    simp only at this
    omega

/-! ## Values -/

theorem recorded_bounds (calls : List ProfCall) : ∀ r ∈ recorded calls,
    match r.what with
    | .interval x y => x ≤ y ∧ y ≤ 281474976710653
    | .instant t => t ≤ 281474976710655
    | .integer v => v ≤ 281474976710655 := by
  unfold recorded ledger
  generalize hl : Ledger.empty = l
  have h0 : ∀ r ∈ l.events, match r.what with
    | .interval x y => x ≤ y ∧ y ≤ 281474976710653
    | .instant t => t ≤ 281474976710655
    | .integer v => v ≤ 281474976710655 := by subst hl; simp [Ledger.empty]
  clear hl
  induction calls generalizing l with
  | nil => exact h0
  | cons c cs ih =>
    refine ih (l.step c) ?_
    have single_ok : ∀ k id t v (w : Nat → What), (∀ n, n ≤ 281474976710655 → match w n with
        | .interval x y => x ≤ y ∧ y ≤ 281474976710653
        | .instant t => t ≤ 281474976710655
        | .integer v => v ≤ 281474976710655) →
        ∀ r ∈ single k id t v w, match r.what with
        | .interval x y => x ≤ y ∧ y ≤ 281474976710653
        | .instant t => t ≤ 281474976710655
        | .integer v => v ≤ 281474976710655 := by
      intro k id t v w hw r hr
      unfold single at hr
      split at hr
      · simp only [List.mem_singleton] at hr; subst hr; exact hw _ (by assumption)
      · simp at hr
    have fin_ok : ∀ p id now, ∀ r ∈ finished p id now, match r.what with
        | .interval x y => x ≤ y ∧ y ≤ 281474976710653
        | .instant t => t ≤ 281474976710655
        | .integer v => v ≤ 281474976710655 := by
      intro p id now r hr
      unfold finished at hr
      split at hr
      · simp only [List.mem_singleton] at hr; subst hr; assumption
      · simp at hr
    cases c
    case instant k id t now =>
      intro r hr
      simp only [Ledger.step, List.mem_append] at hr
      exact hr.elim (h0 r) (single_ok k id t now .instant (fun n hn => hn) r)
    case integer k id t now =>
      intro r hr
      simp only [Ledger.step, List.mem_append] at hr
      exact hr.elim (h0 r) (single_ok k id t now .integer (fun n hn => hn) r)
    case finish g now =>
      simp only [Ledger.step]
      split
      · exact h0
      · intro r hr
        simp only [List.mem_append] at hr
        exact hr.elim (h0 r) (fin_ok _ _ _ r)
    case finishOverride g id now =>
      simp only [Ledger.step]
      split
      · exact h0
      · intro r hr
        simp only [List.mem_append] at hr
        exact hr.elim (h0 r) (fin_ok _ _ _ r)
    case finishDetached g now =>
      simp only [Ledger.step]
      split
      · exact h0
      · intro r hr
        simp only [List.mem_append] at hr
        exact hr.elim (h0 r) (fin_ok _ _ _ r)
    all_goals exact h0

theorem seen_int {s : Session} {r : Recorded} {e : Event} (h : s.SeenAs r e) (l : Bytes) (ha : isArtifact l e = true) :
    ∃ v, r.what = .integer v ∧ intOf e = v := by
  have hp := h.2.1
  cases hw : r.what with
  | interval x y => rw [hw] at hp; simp [isArtifact, hp, seen] at ha
  | instant t => rw [hw] at hp; simp [isArtifact, hp, seen] at ha
  | integer v => rw [hw] at hp; exact ⟨v, rfl, by simp [intOf, hp, seen]⟩

theorem artifact_bound (s : Session) (es : List Event) (h : s.Seen es) (l : Bytes) :
    artifactTotal l es ≤ integerCount (recorded s.calls) * 281474976710655 := by
  have hb := recorded_bounds s.calls
  unfold Session.Seen at h
  unfold artifactTotal integerCount
  generalize recorded s.calls = rs at h hb
  induction h with
  | nil => simp
  | @cons r e rs es hre _ ih =>
    have ih := ih (fun r hr => hb r (List.mem_cons_of_mem _ hr))
    have h2 := hb r List.mem_cons_self
    rw [List.filter_cons, List.filter_cons]
    by_cases ha : isArtifact l e = true
    · obtain ⟨v, hw, hv⟩ := seen_int hre l ha
      rw [hw] at h2
      simp only at h2
      rw [if_pos ha, hw]
      simp only [List.map_cons, List.sum_cons, if_true, List.length_cons, Nat.succ_mul]
      rw [hv]
      generalize (List.map intOf (List.filter (isArtifact l) es)).sum = x at *
      omega
    · rw [if_neg ha]
      split
      · rw [if_pos rfl, List.length_cons, Nat.succ_mul]; exact Nat.le_trans ih (Nat.le_add_right _ _)
      · exact ih

theorem span_bound (s : Session) (es : List Event) (h : s.Seen es) (t : UInt32) : spanLength t es ≤ 281474976710653 := by
  have hb := recorded_bounds s.calls
  have key : ∀ e ∈ es, ∀ a b, times e = some (a, b) → s.start ≤ a ∧ b ≤ s.start + 281474976710653 := by
    refine forall_forall2 h hb ?_
    intro r e hre hr a b ht
    obtain ⟨x, y, hw, rfl, rfl⟩ := seen_times hre.2.1 ht
    rw [hw] at hr
    simp only at hr
    omega
  unfold spanLength
  have h1 : (endsOf t es).max?.getD 0 ≤ s.start + 281474976710653 := by
    cases hm : (endsOf t es).max? with
    | none => simp
    | some m =>
      have := List.max?_mem hm
      simp only [endsOf, List.mem_filterMap] at this
      obtain ⟨e, he, hx⟩ := this
      split at hx
      · rw [Option.map_eq_some_iff] at hx
        obtain ⟨⟨a, b⟩, hab, rfl⟩ := hx
        exact (key e he a b hab).2
      · simp at hx
  cases hm : (startsOf t es).min? with
  | none =>
    have : endsOf t es = [] := by
      rw [List.min?_eq_none_iff] at hm
      simp only [startsOf, endsOf, List.filterMap_eq_nil_iff] at hm ⊢
      intro e he
      have := hm e he
      split at this
      · rename_i hte; rw [if_pos hte]; simpa using this
      · rename_i hte; rw [if_neg hte]
    simp [this]
  | some m =>
    have := List.min?_mem hm
    simp only [startsOf, List.mem_filterMap] at this
    obtain ⟨e, he, hx⟩ := this
    split at hx
    · rw [Option.map_eq_some_iff] at hx
      obtain ⟨⟨a, b⟩, hab, rfl⟩ := hx
      have := (key e he a b hab).1
      simp only [Option.getD_some]
      omega
    · simp at hx

theorem threads_bound (s : Session) (es : List Event) (h : s.Seen es) : (threadsOf es).card ≤ threadCount (recorded s.calls) := by
  unfold threadCount
  rw [← List.card_toFinset]
  refine Finset.card_le_card ?_
  intro t ht
  simp only [threadsOf, List.mem_toFinset, List.mem_map, List.mem_filter] at ht ⊢
  obtain ⟨e, ⟨he, _⟩, rfl⟩ := ht
  obtain ⟨i, hi, rfl⟩ := List.getElem_of_mem he
  have hi' : i < (recorded s.calls).length := by rw [h.length_eq]; exact hi
  exact ⟨_, List.getElem_mem hi', (forall2_getElem h i hi' hi).1.symm⟩

theorem allTime_bound (s : Session) (es : List Event) (h : s.Seen es) (ht : threadCount (recorded s.calls) ≤ 65536) :
    allTime es < 2 ^ 64 := by
  have h1 : allTime es ≤ (threadsOf es).card * 281474976710653 := by
    unfold allTime
    exact Finset.sum_le_card_nsmul _ _ _ (fun t _ => span_bound s es h t)
  have h2 := threads_bound s es h
  have : (threadsOf es).card * 281474976710653 ≤ 65536 * 281474976710653 := Nat.mul_le_mul_right _ (by omega)
  omega

/-! ## One thread -/

/-- The last moment of a recorded event. -/
def lastMoment (r : Recorded) : Option Nat := match r.what with
  | .interval _ y => some y
  | .instant t => some t
  | .integer _ => none

theorem moments_sublist (calls : List ProfCall) : ∀ l : Ledger, ∃ sub, sub.Sublist (calls.filterMap counterRead) ∧
    (calls.foldl Ledger.step l).events.filterMap lastMoment = l.events.filterMap lastMoment ++ sub := by
  induction calls with
  | nil => intro l; exact ⟨[], by simp⟩
  | cons c cs ih =>
    intro l
    obtain ⟨sub, h1, h2⟩ := ih (l.step c)
    have key : ∃ pre, (l.step c).events.filterMap lastMoment = l.events.filterMap lastMoment ++ pre ∧
        pre.Sublist ([c].filterMap counterRead) := by
      have fin : ∀ p id (now : UInt64), ((finished p id now).filterMap lastMoment).Sublist [now.toNat] := by
        intro p id now
        unfold finished
        split <;> simp [lastMoment]
      cases c
      case instant k id t now =>
        refine ⟨(single k id t now .instant).filterMap lastMoment, by simp [Ledger.step], ?_⟩
        unfold single; split <;> simp [lastMoment, counterRead]
      case integer k id t now =>
        refine ⟨(single k id t now .integer).filterMap lastMoment, by simp [Ledger.step], ?_⟩
        unfold single; split
        · exact List.Sublist.refl []
        · exact List.Sublist.refl []
      case finish g now =>
        simp only [Ledger.step]
        split
        · exact ⟨[], by simp, by simp⟩
        · exact ⟨_, List.filterMap_append, fin _ _ now⟩
      case finishOverride g id now =>
        simp only [Ledger.step]
        split
        · exact ⟨[], by simp, by simp⟩
        · exact ⟨_, List.filterMap_append, fin _ _ now⟩
      case finishDetached g now =>
        simp only [Ledger.step]
        split
        · exact ⟨[], by simp, by simp⟩
        · exact ⟨_, List.filterMap_append, fin _ _ now⟩
      all_goals exact ⟨[], by simp [Ledger.step], by simp⟩
    obtain ⟨pre, hp1, hp2⟩ := key
    refine ⟨pre ++ sub, ?_, by rw [List.foldl_cons, h2, hp1, List.append_assoc]⟩
    have : (c :: cs).filterMap counterRead = [c].filterMap counterRead ++ cs.filterMap counterRead := by
      rw [← List.filterMap_append]; rfl
    rw [this]
    exact hp2.append h1

theorem steady_moments (calls : List ProfCall) (h : Steady calls) :
    (recorded calls).Pairwise fun a b => ∀ x y, lastMoment a = some x → lastMoment b = some y → x ≤ y := by
  obtain ⟨sub, h1, h2⟩ := moments_sublist calls .empty
  have : ((recorded calls).filterMap lastMoment).Pairwise (· ≤ ·) := by
    change ((calls.foldl Ledger.step .empty).events.filterMap lastMoment).Pairwise (· ≤ ·)
    rw [h2]
    simpa [Ledger.empty] using h.sublist h1
  rw [List.pairwise_filterMap] at this
  exact this.imp (fun {a b} hab x y hx hy => hab x hx y hy)

theorem seen_span {start : Nat} {r : Recorded} {e : Event} {a b : Nat} (h : e.payload = seen start r.what) (ht : span e = some (a, b)) :
    (∃ x y, r.what = .interval x y ∧ a = start + x ∧ b = start + y) ∨ (∃ t, r.what = .instant t ∧ a = start + t ∧ b = start + t) := by
  unfold span at ht
  rw [h] at ht
  cases hw : r.what with
  | interval x y => rw [hw] at ht; simp [seen] at ht; exact .inl ⟨x, y, rfl, ht.1.symm, ht.2.symm⟩
  | instant t => rw [hw] at ht; simp [seen] at ht; exact .inr ⟨t, rfl, ht.1.symm, ht.2.symm⟩
  | integer v => rw [hw] at ht; simp [seen] at ht

theorem pairwise_inter {α : Type} {P Q : α → α → Prop} {l : List α} (h1 : l.Pairwise P) (h2 : l.Pairwise Q) :
    l.Pairwise fun a b => P a b ∧ Q a b := by
  rw [List.pairwise_iff_getElem] at *
  exact fun i j hi hj hij => ⟨h1 i j hi hj hij, h2 i j hi hj hij⟩

theorem seen_oneThread (s : Session) (es : List Event) (h : s.Seen es) (h1 : SingleThreaded (recorded s.calls)) : OneThread es := by
  intro a ha b hb hsa hsb
  obtain ⟨i, hi, rfl⟩ := List.getElem_of_mem ha
  obtain ⟨j, hj, rfl⟩ := List.getElem_of_mem hb
  have hi' : i < (recorded s.calls).length := by rw [h.length_eq]; exact hi
  have hj' : j < (recorded s.calls).length := by rw [h.length_eq]; exact hj
  have ri := forall2_getElem h i hi' hi
  have rj := forall2_getElem h j hj' hj
  have no : ∀ (r : Recorded) (e : Event), s.SeenAs r e → (span e).isSome → ∀ v, r.what ≠ .integer v := by
    intro r e hre hse v hv
    unfold span at hse
    rw [hre.2.1, hv] at hse
    simp [seen] at hse
  rw [ri.1, rj.1]
  exact h1 _ (List.getElem_mem hi') _ (List.getElem_mem hj') (no _ _ ri hsa) (no _ _ rj hsb)

theorem seen_postOrdered (s : Session) (es : List Event) (h : s.Seen es) (hs : Scoped .empty s.calls) (hc : Steady s.calls)
    (h1 : SingleThreaded (recorded s.calls)) : PostOrdered es := by
  refine ⟨(seen_nested s es h hs).1, ?_⟩
  have hp : (recorded s.calls).Pairwise fun a b => a.thread = b.thread ∨ (∃ v, a.what = .integer v) ∨ ∃ v, b.what = .integer v := by
    rw [List.pairwise_iff_getElem]
    intro i j hi hj _
    by_cases ha : ∃ v, (recorded s.calls)[i].what = .integer v
    · exact .inr (.inl ha)
    · by_cases hb : ∃ v, (recorded s.calls)[j].what = .integer v
      · exact .inr (.inr hb)
      · exact .inl (h1 _ (List.getElem_mem hi) _ (List.getElem_mem hj) (fun v hv => ha ⟨v, hv⟩) (fun v hv => hb ⟨v, hv⟩))
  refine pairwise_forall2 h (pairwise_inter hp (pairwise_inter (scoped_recorded s.calls hs).2 (steady_moments s.calls hc))) ?_
  rintro a a' b b' hab ha' ⟨hth, hn, hm⟩ s1 t1 s2 t2 ht1 ht2
  rcases seen_span hab.2.1 ht1 with ⟨x, y, hw, rfl, rfl⟩ | ⟨t, hw, rfl, rfl⟩ <;>
    rcases seen_span ha'.2.1 ht2 with ⟨x', y', hw', rfl, rfl⟩ | ⟨t', hw', rfl, rfl⟩
  · have ht : a.thread = a'.thread := by
      rcases hth with h | ⟨v, h⟩ | ⟨v, h⟩
      · exact h
      · rw [hw] at h; simp at h
      · rw [hw'] at h; simp at h
    have := hn x y x' y' hw hw' ht
    unfold Nested at this
    simp only at this
    omega
  · have := hm y t' (by simp [lastMoment, hw]) (by simp [lastMoment, hw'])
    omega
  · have := hm t y' (by simp [lastMoment, hw]) (by simp [lastMoment, hw'])
    omega
  · have := hm t t' (by simp [lastMoment, hw]) (by simp [lastMoment, hw'])
    omega

end Verif.Props
