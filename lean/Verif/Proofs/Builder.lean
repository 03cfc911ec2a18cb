import Verif.Proofs.Decoder
import Verif.Spec.Builder

namespace Verif.Mm

open Verif Verif.Spec Verif.Decode Verif.Props Verif.Json

theorem RecInv.addr {tl recs w} (i : RecInv tl recs w) : ∃ h, AllGood h ∧ w = (run profTags h).2 ∧ (w.sinks 1).addr = (written 1 h).length := by
  obtain ⟨L, h, raws, si, _⟩ := i
  obtain ⟨pages, inv, _⟩ := run_inv profTags h si.good
  exact ⟨h, si.good, si.world, by rw [si.world]; exact inv.addr 1⟩

theorem RecInv.alloc {tl recs w} (i : RecInv tl recs w) (t : Text) (ha : (w.sinks 1).addr + 100000003 < 2 ^ 64) :
    ∃ id w', alloc t w = (.ok id, w') ∧ RecInv (tl ++ [(.table (.alloc t), .ok (some id))]) recs w' ∧
      (w'.sinks 1).addr = (w.sinks 1).addr + (encText (components t)).length := by
  obtain ⟨h, hg, rfl, he⟩ := i.addr
  have hr := alloc_run h hg t
  rw [he] at ha
  obtain ⟨id, hid⟩ : ∃ id, fromAddr (written 1 h).length = .ok id := ⟨_, if_pos ha⟩
  rw [hid] at hr
  have i' := i.tab (.alloc t)
  have e : SessionOp.run (.table (.alloc t)) (run profTags h).2 =
      (.ok (some id), (run profTags (h ++ [(1, .writeAtomic t.serializedSize t.serialize)])).2) := by
    simp only [SessionOp.run, TableOp.run]
    rw [Act.bind_apply, hr]
    rfl
  rw [e] at i'
  refine ⟨id, _, hr, i', ?_⟩
  obtain ⟨pages, inv, _⟩ := run_inv profTags (h ++ [(1, .writeAtomic t.serializedSize t.serialize)]) (allGood_snoc hg (alloc_good t))
  rw [he, inv.addr 1, written_snoc_same, alloc_payload, List.length_append]

theorem noId_eq (a : Act World Unit) (w : World) : noId a w = match a w with
    | (.ok _, w') => (.ok none, w')
    | (.error e, w') => (.error e, w') := by
  simp only [noId]
  rw [Act.bind_apply]
  cases h : a w with
  | mk r w' => cases r <;> rfl

theorem recordOf_addr (x : Except Fault RawEvent) (w : World) : ((recordOf x w).2.sinks 1) = w.sinks 1 := by
  cases x with
  | error e => rfl
  | ok e =>
    rw [recordOf_ok]
    simp only [SessionOp.run]
    rw [Act.bind_apply]
    have h : ((World.call profTags 0 (.writeAtomic 32 (rawEventFill e)) w).2.sinks 1) = w.sinks 1 := by
      simp [World.call]
    cases hc : World.call profTags 0 (.writeAtomic 32 (rawEventFill e)) w with
    | mk r w' =>
      rw [hc] at h
      cases r <;> exact h

/-- A recording step of the builder. -/
theorem RecInv.write {tl recs w x rs} (i : RecInv tl recs w) (hm : Made x rs) :
    (rs ≠ [] → ∃ w', (do let r ← liftE x; writeRawEvent r : Act World Unit) w = (.ok (), w') ∧ RecInv tl (recs ++ rs) w' ∧ w'.sinks 1 = w.sinks 1) ∧
    (rs = [] → ∃ why w', (do let r ← liftE x; writeRawEvent r : Act World Unit) w = (.error (.panic why), w')) := by
  obtain ⟨hw, ho⟩ := i.record hm
  have ha := recordOf_addr x w
  have e := noId_eq (do let r ← liftE x; recordRawEvent r) w
  change recordOf x w = _ at e
  rw [e] at hw ho ha
  change ((rs ≠ [] → ∃ w', (do let r ← liftE x; recordRawEvent r : Act World Unit) w = (.ok (), w') ∧ _) ∧ (rs = [] → ∃ why w', (do let r ← liftE x; recordRawEvent r : Act World Unit) w = _))
  cases hc : (do let r ← liftE x; recordRawEvent r : Act World Unit) w with
  | mk r w' =>
    rw [hc] at hw ho ha
    cases r with
    | ok u =>
      refine ⟨fun _ => ⟨w', rfl, hw, ha⟩, fun h => ?_⟩
      rcases ho with ⟨h1, _⟩ | ⟨_, why, h2⟩
      · exact (h1 h).elim
      · simp at h2
    | error f =>
      refine ⟨fun h => ?_, fun h => ?_⟩
      · rcases ho with ⟨_, h2⟩ | ⟨h1, _⟩
        · simp at h2
        · exact (h h1).elim
      · rcases ho with ⟨h1, _⟩ | ⟨_, why, h2⟩
        · exact (h1 h).elim
        · simp at h2; subst h2; exact ⟨why, w', rfl⟩

/-- What was recorded is what was asked for. -/
def Desc (tl : TableLog) (r : Recorded) (a : Asked) : Prop :=
  Allocated tl r.kind [.value a.kind] ∧ Allocated tl r.id [.value a.label] ∧ r.thread = a.thread ∧ r.what = a.what

theorem allocated_mono {tl : TableLog} {id cs} (h : Allocated tl id cs) {tl' : TableLog} (hs : ∀ x ∈ tl, x ∈ tl') : Allocated tl' id cs := by
  obtain ⟨t, ht, hm⟩ := h
  exact ⟨t, ht, hs _ hm⟩

theorem Desc.mono {tl tl' : TableLog} {r a} (h : Desc tl r a) (hs : ∀ x ∈ tl, x ∈ tl') : Desc tl' r a :=
  ⟨allocated_mono h.1 hs, allocated_mono h.2.1 hs, h.2.2⟩

/-- The outcome of running builder calls. -/
def BuildOutcome (as : List Asked) (tl : TableLog) (recs : List Recorded) (w : World) (res : Except Fault Unit × World) : Prop :=
  ((∀ a ∈ as, InRange a.what) → res.1 = .ok () ∧ ∃ tl' recs', RecInv (tl ++ tl') (recs ++ recs') res.2 ∧
    List.Forall₂ (Desc (tl ++ tl')) recs' as ∧ (∀ x ∈ tl', ∀ v, binds v x = none) ∧ (res.2.sinks 1).addr = (w.sinks 1).addr + textBytes as) ∧
  ((∃ a ∈ as, ¬ InRange a.what) → ∃ why, res.1 = .error (.panic why))

theorem textBytes_append (a b : List Asked) : textBytes (a ++ b) = textBytes a + textBytes b := by
  simp [textBytes]

theorem encText_value_len (s : String) : (encText (components (.str s))).length = (utf8 s).length + 1 := encText_value_length s

/-- Two allocations, some calls, then one event. -/
theorem build_event {kind eid : String} {as : List Asked} {a : Asked} (ha : a.kind = kind ∧ a.label = eid) {inner : Act World Unit}
    {mk : StringId → StringId → Except Fault RawEvent} {rs : StringId → StringId → List Recorded}
    (hm : ∀ k i, Made (mk k i) (rs k i))
    (hin : ∀ k i, InRange a.what → rs k i = [⟨k, i, a.thread, a.what⟩]) (hout : ∀ k i, ¬ InRange a.what → rs k i = [])
    (hinner : ∀ tl recs w, RecInv tl recs w → (w.sinks 1).addr + textBytes as + 100000003 < 2 ^ 64 → BuildOutcome as tl recs w (inner w))
    {tl recs w} (i : RecInv tl recs w) (hb : (w.sinks 1).addr + textBytes (as ++ [a]) + 100000003 < 2 ^ 64) :
    BuildOutcome (as ++ [a]) tl recs w
      ((do let k ← alloc (.str kind); let i ← alloc (.str eid); inner; let raw ← liftE (mk k i); writeRawEvent raw : Act World Unit) w) := by
  have hsz : textBytes (as ++ [a]) = textBytes as + ((utf8 kind).length + (utf8 eid).length + 2) := by
    rw [textBytes_append, ← ha.1, ← ha.2]; simp [textBytes]
  rw [hsz] at hb
  obtain ⟨k, w1, e1, i1, a1⟩ := i.alloc (.str kind) (by omega)
  rw [encText_value_len] at a1
  obtain ⟨d, w2, e2, i2, a2⟩ := i1.alloc (.str eid) (by omega)
  rw [encText_value_len] at a2
  have hi := hinner _ _ _ i2 (by omega)
  rw [Act.bind_ok e1, Act.bind_ok e2, Act.bind_apply]
  obtain ⟨o1, o2⟩ := hi
  constructor
  · intro hall
    obtain ⟨r1, tl', recs', i3, f3, b3, a3⟩ := o1 (fun x hx => hall x (by simp [hx]))
    have hax := hall a (by simp)
    cases hc : inner w2 with
    | mk r w3 =>
      rw [hc] at r1 i3 a3
      simp only at r1 i3 a3
      subst r1
      simp only
      obtain ⟨w4, e4, i4, a4⟩ := (i3.write (hm k d)).1 (by rw [hin k d hax]; simp)
      rw [e4]
      refine ⟨rfl, [(.table (.alloc (.str kind)), .ok (some k)), (.table (.alloc (.str eid)), .ok (some d))] ++ tl', recs' ++ [⟨k, d, a.thread, a.what⟩], ?_, ?_, ?_, ?_⟩
      · rw [hin k d hax] at i4
        simpa [List.append_assoc] using i4
      · refine List.rel_append ?_ (List.Forall₂.cons ?_ .nil)
        · simpa [List.append_assoc] using f3
        · rw [← ha.1, ← ha.2]
          refine ⟨⟨.table (.alloc (.str a.kind)), rfl, by simp⟩, ⟨.table (.alloc (.str a.label)), rfl, by simp⟩, rfl, rfl⟩
      · intro x hx v
        simp only [List.cons_append, List.nil_append, List.mem_cons] at hx
        rcases hx with rfl | rfl | hx
        · simp [binds]
        · simp [binds]
        · exact b3 x hx v
      · simp only [a4, a3, a2, a1, hsz]
        omega
  · intro hex
    cases hc : inner w2 with
    | mk r w3 =>
      rw [hc] at o1 o2
      by_cases hin' : ∃ x ∈ as, ¬ InRange x.what
      · obtain ⟨why, hw⟩ := o2 hin'
        simp only at hw
        subst hw
        exact ⟨why, rfl⟩
      · have hall : ∀ x ∈ as, InRange x.what := by
          intro x hx; by_contra hn; exact hin' ⟨x, hx, hn⟩
        obtain ⟨r1, tl', recs', i3, f3, b3, a3⟩ := o1 hall
        simp only at r1 i3
        subst r1
        simp only
        obtain ⟨x, hx, hnx⟩ := hex
        rw [List.mem_append, List.mem_singleton] at hx
        rcases hx with hx | rfl
        · exact (hnx (hall x hx)).elim
        · obtain ⟨why, w', e4⟩ := (i3.write (hm k d)).2 (hout k d hnx)
          rw [e4]
          exact ⟨why, rfl⟩

theorem BuildOutcome.nil {tl recs w} (i : RecInv tl recs w) : BuildOutcome [] tl recs w ((pure () : Act World Unit) w) := by
  refine ⟨fun _ => ⟨rfl, [], [], by simpa using i, by simp, by simp, by simp [textBytes]⟩, by simp⟩

mutual
theorem run_outcome (b : Build) : ∀ {tl recs w}, RecInv tl recs w → (w.sinks 1).addr + textBytes (asked b) + 100000003 < 2 ^ 64 →
    BuildOutcome (asked b) tl recs w (Build.run b w) := by
  intro tl recs w i hb
  match b with
  | .interval kind eid tid start stop inner =>
    rw [asked] at hb ⊢
    rw [Build.run]
    refine build_event (a := ⟨kind, eid, tid, .interval start.toNat stop.toNat⟩) ⟨rfl, rfl⟩
      (mk := fun k d => RawEvent.newInterval k (fromLabel d) tid start stop) (rs := fun k d => finished ⟨k, d, tid, start.toNat⟩ d stop)
      (fun k d => made_interval k d tid start stop _ rfl d) ?_ ?_ (fun tl recs w i hb => runAll_outcome inner i hb) i hb
    · intro k d h
      exact if_pos h
    · intro k d h
      exact if_neg h
  | .instant kind eid tid t =>
    rw [asked] at hb ⊢
    rw [Build.run]
    exact build_event (as := []) (a := ⟨kind, eid, tid, .instant t.toNat⟩) ⟨rfl, rfl⟩ (inner := pure ())
      (mk := fun k d => RawEvent.newInstant k (fromLabel d) tid t) (rs := fun k d => single k d tid t .instant)
      (fun k d => made_instant k d tid t) (fun k d h => if_pos h) (fun k d h => if_neg h) (fun tl recs w i _ => .nil i) i hb
  | .integer kind eid tid t =>
    rw [asked] at hb ⊢
    rw [Build.run]
    exact build_event (as := []) (a := ⟨kind, eid, tid, .integer t.toNat⟩) ⟨rfl, rfl⟩ (inner := pure ())
      (mk := fun k d => RawEvent.newInteger k (fromLabel d) tid t) (rs := fun k d => single k d tid t .integer)
      (fun k d => made_integer k d tid t) (fun k d h => if_pos h) (fun k d h => if_neg h) (fun tl recs w i _ => .nil i) i hb

theorem runAll_outcome (bs : List Build) : ∀ {tl recs w}, RecInv tl recs w → (w.sinks 1).addr + textBytes (askedAll bs) + 100000003 < 2 ^ 64 →
    BuildOutcome (askedAll bs) tl recs w (Build.runAll bs w) := by
  intro tl recs w i hb
  match bs with
  | [] =>
    rw [askedAll, Build.runAll]
    exact .nil i
  | b :: bs =>
    rw [askedAll] at hb ⊢
    rw [textBytes_append] at hb
    rw [Build.runAll, Act.bind_apply]
    obtain ⟨o1, o2⟩ := run_outcome b i (by omega)
    cases hc : Build.run b w with
    | mk r w1 =>
      rw [hc] at o1 o2
      by_cases hin : ∃ x ∈ asked b, ¬ InRange x.what
      · obtain ⟨why, hw⟩ := o2 hin
        simp only at hw
        subst hw
        refine ⟨fun hall => ?_, fun _ => ⟨why, rfl⟩⟩
        obtain ⟨x, hx, hn⟩ := hin
        exact (hn (hall x (by simp [hx]))).elim
      · have hall : ∀ x ∈ asked b, InRange x.what := by
          intro x hx; by_contra hn; exact hin ⟨x, hx, hn⟩
        obtain ⟨r1, tl', recs', i1, f1, b1, a1⟩ := o1 hall
        simp only at r1 i1 a1
        subst r1
        simp only
        obtain ⟨p1, p2⟩ := runAll_outcome bs i1 (by omega)
        constructor
        · intro hal
          obtain ⟨q1, tl2, recs2, i2, f2, b2, a2⟩ := p1 (fun x hx => hal x (by simp [hx]))
          refine ⟨q1, tl' ++ tl2, recs' ++ recs2, by simpa [List.append_assoc] using i2, ?_, ?_, by rw [a2, a1, textBytes_append]; omega⟩
          swap
          · intro x hx v
            rw [List.mem_append] at hx
            exact hx.elim (fun h => b1 x h v) (fun h => b2 x h v)
          refine List.rel_append (f1.imp (fun _ _ h => h.mono ?_)) (by simpa [List.append_assoc] using f2)
          intro x hx
          rw [← List.append_assoc]
          exact List.mem_append_left _ hx
        · rintro ⟨x, hx, hn⟩
          rw [List.mem_append] at hx
          rcases hx with hx | hx
          · exact (hn (hall x hx)).elim
          · exact p2 ⟨x, hx, hn⟩
end

/-- `into_bytes` gives what was written to the sink. -/
theorem intoBytes_run (h : History) (hg : AllGood h) (hs : ∀ x ∈ h, x.1 ≤ 2) (i : Nat) (hi : i ≤ 2) :
    World.intoBytes i (run profTags h).2 = (.ok (written i h), (run profTags (h ++ [(i, .drop)])).2) := by
  obtain ⟨r, hr, _⟩ := call_good h hg i .drop trivial
  have hg' : AllGood (h ++ [(i, .drop)]) := allGood_snoc hg trivial
  have hs' := sinks_snoc hs hi SinkCall.drop
  obtain ⟨m, hm, hst⟩ := C01_split_recovers_streams profTags (h ++ [(i, .drop)]) hg'
  have m0 := hst i (tagUnshared_prof hs' hi) (.inr ⟨h, .drop, [], rfl, trivial, by simp⟩)
  rw [written_snoc_same] at m0
  have hp : payload SinkCall.drop = [] := rfl
  rw [hp, List.append_nil] at m0
  have hget : (m (profTags i)).getD [] = written i h := by
    rw [m0]; split
    · rename_i he; rw [he]; rfl
    · rfl
  unfold World.call SinkCall.run at hr
  simp only at hr
  rw [Act.bind_apply] at hr
  unfold World.intoBytes Mm.intoBytes
  simp only
  rw [Act.bind_apply]
  cases hf : flushBuffer (profTags i) ⟨(run profTags h).2.sinks i, (run profTags h).2.store⟩ with
  | mk q s =>
    rw [hf] at hr
    cases q with
    | error e => simp at hr
    | ok u =>
      have hw : (⟨fun j => if j = i then s.inner else (run profTags h).2.sinks j, s.store⟩ : World) = (run profTags (h ++ [(i, .drop)])).2 := by
        have := congrArg Prod.snd hr
        exact this
      have hd : s.store.data = storeAfter profTags (h ++ [(i, .drop)]) := by
        rw [storeAfter, ← hw]
      simp only
      rw [Act.bind_apply]
      simp only [Act.get]
      rw [hd, copyBytesWithPageTag, hm]
      simp only [hget]
      rw [← hw]
      rfl

end Verif.Mm
